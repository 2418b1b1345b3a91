import Verif.Uri.Clean
/-! # Component paths; join and split on located URIs -/
namespace Verif
open Spec

theorem slash_append (a b : List Str) : slash (a ++ b) = slash a ++ slash b := by simp [slash]

theorem slash_cons (c : Str) (cs : List Str) : slash (c :: cs) = '/' :: (c ++ slash cs) := by
  simp [slash]

theorem slash_snoc (cs : List Str) (n : Str) : slash (cs ++ [n]) = slash cs ++ '/' :: n := by
  simp [slash]

theorem pathOf_snoc (cs : List Str) (n : Str) : pathOf (cs ++ [n]) = slash cs ++ '/' :: n := by
  simp [pathOf, slash_snoc]

theorem pathOf_ne {cs : List Str} (h : cs ≠ []) : pathOf cs = slash cs := by simp [pathOf, h]

theorem slash_head (cs : List Str) : ∀ c r, slash cs = c :: r → c = '/' := by
  intro c r h
  cases cs with
  | nil => simp [slash] at h
  | cons d cs => rw [slash_cons] at h; simp at h; exact h.1.symm

theorem pathOf_head (cs : List Str) : ∃ r, pathOf cs = '/' :: r := by
  cases cs with
  | nil => exact ⟨[], rfl⟩
  | cons c cs => exact ⟨_, by rw [pathOf_ne (by simp), slash_cons]⟩

theorem rstrip_slash {cs : List Str} (h : ∀ c ∈ cs, CleanName c) : rstripC '/' (slash cs) = slash cs := by
  rcases List.eq_nil_or_concat cs with rfl | ⟨l, n, rfl⟩
  · rfl
  · have hn := h n (by simp)
    rcases List.eq_nil_or_concat n with rfl | ⟨m, x, rfl⟩
    · exact absurd rfl hn.ne
    · have hx : x ≠ '/' := by
        have := hn.chars x (by simp); simp at this; exact this.1
      have : slash (l.concat (m.concat x)) = (slash l ++ '/' :: m) ++ [x] := by
        simp [slash]
      rw [this, rstripC_append hx]

theorem rstrip_pathOf {cs : List Str} (h : ∀ c ∈ cs, CleanName c) :
    rstripC '/' (pathOf cs) = slash cs := by
  by_cases hc : cs = []
  · subst hc; rfl
  · rw [pathOf_ne hc, rstrip_slash h]

theorem slash_noneOf {bad : Str} {cs : List Str} (hb : '/' ∉ bad) (h : ∀ c ∈ cs, NoneOf bad c) :
    NoneOf bad (slash cs) := by
  intro x hx
  simp only [slash, List.mem_flatMap, List.mem_cons] at hx
  obtain ⟨c, hc, rfl | hx⟩ := hx
  · exact hb
  · exact h c hc x hx

theorem slash_noInner {cs : List Str} (h : ∀ c ∈ cs, CleanName c) : hasSub cl!"((" (slash cs) = false := by
  induction cs with
  | nil => rfl
  | cons c cs ih =>
    have ih' := ih (fun x hx => h x (by simp [hx]))
    rw [slash_cons, hasDbl_cons (by decide)]
    cases hs : slash cs with
    | nil => simpa using (h c (by simp)).noInner
    | cons y r =>
      have hy := slash_head cs y r hs
      subst hy
      rw [hs, hasDbl_cons (by decide)] at ih'
      rw [hasDbl_append (by decide), (h c (by simp)).noInner, ih']; rfl

theorem slash_noDbl {cs : List Str} (h : ∀ c ∈ cs, CleanName c) : hasSub cl!"//" (slash cs) = false := by
  induction cs with
  | nil => rfl
  | cons c cs ih =>
    have ih' := ih (fun x hx => h x (by simp [hx]))
    have hc := h c (by simp)
    rw [slash_cons]
    cases c with
    | nil => exact absurd rfl hc.ne
    | cons x c =>
      have hx : x ≠ '/' := by
        have := hc.chars x (by simp); simp at this; exact this.1
      have hm : '/' ∉ c := by
        intro hm
        have := hc.chars '/' (by simp [hm]); simp at this
      have := hasDbl_append (d := '/') (x := x) (a := ['/']) (b := c ++ slash cs) hx
      rw [show '/' :: (x :: c ++ slash cs) = ['/'] ++ x :: (c ++ slash cs) by simp, this,
        hasDbl_append_of_not_mem hm, ih']
      rfl

theorem pathOf_facts {cs : List Str} (h : ∀ c ∈ cs, CleanName c) :
    NoneOf cl!"?#\\" (pathOf cs) ∧ hasSub cl!"((" (pathOf cs) = false ∧
      hasSub cl!"//" (pathOf cs) = false := by
  by_cases hc : cs = []
  · subst hc; decide
  · rw [pathOf_ne hc]
    refine ⟨slash_noneOf (by decide) ?_, slash_noInner h, slash_noDbl h⟩
    intro c hc x hx
    have := (h c hc).chars x hx
    simp at this ⊢; tauto

/-- For the `file` scheme the first component must not start with ':' (it would look like a drive). -/
def Spec.FileOk (b : Base) (cs : List Str) : Prop :=
  b.scheme = cl!"file" → ∀ c r, cs.head? = some (c :: r) → c ≠ ':'

theorem fits_pathOf {b : Base} {cs : List Str} {q : Option Str} (h : ∀ c ∈ cs, CleanName c)
    (hf : FileOk b cs) (hq : ∀ x, q = some x → NoneOf cl!"#\\" x ∧ hasSub cl!"((" x = false)
    (hs : '/' ∉ qs q) : Fits b (pathOf cs) q := by
  obtain ⟨h1, h2, h3⟩ := pathOf_facts h
  refine ⟨h1, ?_, h2, hq, ?_⟩
  · intro c r hc
    obtain ⟨r', hr⟩ := pathOf_head cs
    rw [hr] at hc; simp at hc; exact hc.1.symm
  · intro hfile
    refine ⟨?_, ?_⟩
    · obtain ⟨r, hr⟩ := pathOf_head cs
      refine ⟨r, hr, ?_⟩
      rintro t rfl
      cases cs with
      | nil => simp [pathOf] at hr
      | cons c cs =>
        rw [pathOf_ne (by simp), slash_cons] at hr
        cases c with
        | nil => exact absurd rfl (h [] (by simp)).ne
        | cons x c => simp at hr; exact hf hfile x c (by simp) hr.1
    · rw [hasSub_false_iff]
      intro hi
      have h4 : cl!"//" <:+: pathOf cs ++ qs q :=
        List.IsInfix.trans ⟨[':'], [], rfl⟩ hi
      rw [← hasSub_iff] at h4
      cases hq' : qs q with
      | nil => rw [hq'] at h4; simp at h4; rw [h3] at h4; simp at h4
      | cons y r =>
        have hy : y ≠ '/' := by rintro rfl; exact hs (by simp [hq'])
        rw [hq', hasDbl_append hy, h3, hasDbl_of_not_mem (fun hm => hs (by simp [hq', hm]))] at h4
        simp at h4

theorem fits_encQ {b : Base} {cs : List Str} {Q : Dict} (h : ∀ c ∈ cs, CleanName c)
    (hf : FileOk b cs) : Fits b (pathOf cs) (encQ Q) :=
  fits_pathOf h hf encQ_ok slash_not_mem_encQ

theorem uriFromParts_eq {b : Base} {P : Str} {Q : Dict} :
    uriFromParts (some b.scheme) b.netloc.str P Q = b.str ++ P ++ qs (encQ Q) := by
  simp only [uriFromParts, Base.str, Option.getD_some, encQ]
  by_cases h : Q = [] <;> simp [h, qs]

theorem Dict.get?_none_iff {d : Dict} {k : Str} : d.get? k = none ↔ k ∉ d.map Prod.fst := by
  induction d with
  | nil => simp [Dict.get?]
  | cons kv d ih =>
    obtain ⟨k', v⟩ := kv
    simp only [Dict.get?] at ih ⊢
    simp only [List.lookup_cons, List.map_cons, List.mem_cons, not_or]
    by_cases h : k = k'
    · subst h; simp
    · have : (k == k') = false := by simp [h]
      simp [this, ih, h]

theorem Dict.get?_set {d : Dict} {k k' v : Str} :
    (d.set k v).get? k' = if k' = k then some v else d.get? k' := by
  induction d with
  | nil =>
    simp only [Dict.set, Dict.get?, List.lookup_cons]
    by_cases h : k' = k
    · subst h; simp
    · have : (k' == k) = false := by simp [h]
      simp [this, h]
  | cons kv d ih =>
    obtain ⟨k2, v2⟩ := kv
    simp only [Dict.set]
    split
    · rename_i h
      subst h
      simp only [Dict.get?, List.lookup_cons]
      by_cases h : k' = k
      · subst h; simp
      · have : (k' == k) = false := by simp [h]
        simp [this, h]
    · rename_i h
      simp only [Dict.get?, List.lookup_cons] at ih ⊢
      by_cases h' : k' = k2
      · subst h'
        have : ¬ (k' = k) := fun e => h e.symm
        simp [this]
      · have : (k' == k2) = false := by simp [h']
        simp [this, ih]

theorem Dict.get?_update_of_not_mem {d e : Dict} {k : Str} (h : k ∉ e.map Prod.fst) :
    (d.update e).get? k = d.get? k := by
  induction e generalizing d with
  | nil => simp [Dict.update]
  | cons kv e ih =>
    simp at h
    have e1 : d.update (kv :: e) = (d.set kv.1 kv.2).update e := by simp [Dict.update]
    rw [e1, ih (by simpa using h.2), Dict.get?_set, if_neg h.1]

theorem quotePlus_inj {a b : Str} (h : quotePlus a = quotePlus b) : a = b := by
  rw [← unquotePlus_quotePlus a, h, unquotePlus_quotePlus]

/-- a key absent from the query is absent from the re-parsed query -/
theorem reparsed_get?_none {Q Q' : Dict} (h : queryField (encQ Q) = .ok Q') {k : Str}
    (hk : ∀ c ∈ k, unreserved c = true) (hn : Q.get? k = none) : Q'.get? k = none := by
  unfold encQ at h
  split at h
  · simp [queryField] at h; subst h; rfl
  · rename_i hQ
    have h1 := urlencode_ne_nil hQ
    have h2 := parseQueryString_urlencode hQ
    have h3 : queryField (some (urlencode Q)) = parseQueryString (urlencode Q) := by
      cases hu : urlencode Q with
      | nil => exact absurd hu h1
      | cons c r => rfl
    rw [h3, h2] at h
    simp at h
    subst h
    rw [Dict.get?_update_of_not_mem]
    · rfl
    · intro hm
      simp only [List.map_map, List.mem_map, Function.comp] at hm
      obtain ⟨kv, hkv, he⟩ := hm
      have : kv.1 = k := quotePlus_inj (by rw [he, quotePlus_unreserved hk])
      rw [Dict.get?_none_iff] at hn
      exact hn (by rw [← this]; exact List.mem_map_of_mem hkv)

theorem takeCred_none {name : Str} {p : Option Str} {Q E : Dict}
    (h : p = none → E.get? name = none ∧ Q.get? name = none) : takeCred name p Q E = (none, E) := by
  cases p with
  | some v => rfl
  | none => simp [takeCred, h rfl]

/-- `join` on a located URI. -/
theorem join_at {u : Uri} {b : Base} {P P' : Str} {Q : Dict} {args : List Str} (hb : b.Ok)
    (hu : At u b P Q) (hj : u.joinPath args = .ok P') (hf : Fits b P' (encQ Q)) :
    ∃ v, u.join args = .ok v ∧ At v b P' Q ∧ v.uri = b.str ++ P' ++ qs (encQ Q) ∧
      v.cls = u.cls ∧ v.sep = u.sep ∧ v.parse.fragment = none ∧ v.parse.uri = v.uri ∧
      (NoCreds u → v.usernameAttr = none ∧ v.passwordAttr = none ∧ v.extras = u.allExtras) := by
  obtain ⟨Q', hQ'⟩ := queryField_encQ Q
  obtain ⟨w, h1, h2, h3, h4, h5, ⟨E1, h6, h7⟩, h8, h9⟩ :=
    mk_at hb hf hQ' u.cls u.sep u.allExtras
  refine ⟨{ w with parse := { w.parse with query := Q } }, ?_, ?_, h3, h4, h5, h8,
    by simpa [h3] using h9, ?_⟩
  · simp only [Uri.join, hj, hu.scheme, hu.listNetloc hb, hu.query, uriFromParts_eq, h1]
  · exact ⟨h2.scheme, h2.path, rfl, h2.conn, h2.auth, h2.fields, h2.netloc⟩
  · intro ⟨n1, n2, n3, n4⟩
    have hfe := hu.fields.symm.trans h2.fields
    simp at hfe
    rw [hu.query] at n3 n4
    rw [takeCred_none (fun h => ⟨(n3 (hfe.1.trans h)).1,
      reparsed_get?_none hQ' (by decide) (n3 (hfe.1.trans h)).2⟩)] at h6
    simp at h6
    rw [h6.2, takeCred_none (fun h => ⟨(n4 (hfe.2.1.trans h)).1,
      reparsed_get?_none hQ' (by decide) (n4 (hfe.2.1.trans h)).2⟩)] at h7
    simp at h7
    exact ⟨h6.1, h7.1, h7.2⟩

theorem joinPath_one {u : Uri} {P n : Str} (hs : u.sep = '/') (hp : u.parse.path = P) :
    u.joinPath [n] = .ok (rstripC '/' P ++ '/' :: n) := by
  simp [Uri.joinPath, hs, hp, joinS]

theorem joinS_snoc_map {P : Str} {l : List Str} :
    joinS cl!"/" (P :: l) = P ++ slash l := by
  induction l generalizing P with
  | nil => simp [joinS, slash]
  | cons x l ih => rw [joinS, ih, slash_cons]; simp

theorem joinPath_clean {u : Uri} {cs ns : List Str} (hs : u.sep = '/') (hc : ∀ c ∈ cs, CleanName c)
    (hp : u.parse.path = pathOf cs) (hn : ns ≠ []) (hns : ∀ n ∈ ns, CleanName n) :
    u.joinPath ns = .ok (pathOf (cs ++ ns)) := by
  have hl : ns.getLast? = some (ns.getLast hn) := List.getLast?_eq_some_getLast hn
  have hm : ns.dropLast.map (stripC '/') = ns.dropLast := by
    conv => rhs; rw [← List.map_id ns.dropLast]
    apply List.map_congr_left
    intro n h
    have := (hns n (List.dropLast_subset _ h)).chars.not_mem (c := '/') (by simp)
    simp [stripC_of_not_mem this]
  have : u.joinPath ns = .ok (joinS cl!"/" (rstripC '/' u.parse.path :: ns)) := by
    simp only [Uri.joinPath, hs, ne_eq, not_true, if_false, hl, hm]
    congr 2
    conv => rhs; rw [← List.dropLast_concat_getLast hn]
    simp
  rw [this, joinS_snoc_map, hp, rstrip_pathOf hc, pathOf_ne (by simp [hn]), slash_append]

/-- `split` on a URI whose string ends in `/n` -/
theorem splitStr_snoc {A n q : Str} (hn : '/' ∉ n) (hq : '/' ∉ q) (hA : endsWith A cl!"//" = false)
    (hA0 : A ≠ []) (hnq : '?' ∉ n) (hq' : q = [] ∨ ∃ r, q = '?' :: r) :
    Uri.splitStr (A ++ '/' :: (n ++ q)) = (A, n) := by
  have h1 : '/' ∉ n ++ q := by simp [hn, hq]
  simp only [Uri.splitStr, rsplit1_append h1]
  rw [hA]
  simp only [Bool.false_eq_true, if_false, if_neg hA0]
  rcases hq' with rfl | ⟨r, rfl⟩
  · simp [partition0_of_not_mem hnq]
  · rw [partition0_append hnq]

theorem splitStr_root {A n q : Str} (hn : '/' ∉ n) (hq : '/' ∉ q) (hA : endsWith A cl!"//" = true)
    (hnq : '?' ∉ n) (hq' : q = [] ∨ ∃ r, q = '?' :: r) :
    Uri.splitStr (A ++ '/' :: (n ++ q)) = (A ++ cl!"/", n) := by
  have h1 : '/' ∉ n ++ q := by simp [hn, hq]
  simp only [Uri.splitStr, rsplit1_append h1]
  rw [hA]
  simp only [if_true]
  rw [if_neg (by simp)]
  rcases hq' with rfl | ⟨r, rfl⟩
  · simp [partition0_of_not_mem hnq]
  · rw [partition0_append hnq]

end Verif
