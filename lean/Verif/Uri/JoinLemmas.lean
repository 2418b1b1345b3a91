import Verif.Uri.Paths
/-! # Lemmas for the join/split properties -/
namespace Verif
open Spec

theorem Dict.set_same {d : Dict} {k v : Str} (h : d.get? k = some v) : d.set k v = d := by
  induction d with
  | nil => simp [Dict.get?] at h
  | cons kv d ih =>
    obtain ⟨k', v'⟩ := kv
    simp only [Dict.get?, List.lookup_cons] at h ih
    simp only [Dict.set]
    by_cases hk : k = k'
    · subst hk; simp at h; simp [h]
    · have : (k == k') = false := by simp [hk]
      simp only [this] at h
      simp [hk, ih h]

theorem Dict.get?_update_mem {d e : Dict} (he : e.WF) {kv : Str × Str} (h : kv ∈ e) :
    (d.update e).get? kv.1 = some kv.2 := by
  induction e generalizing d with
  | nil => simp at h
  | cons x e ih =>
    have e1 : d.update (x :: e) = (d.set x.1 x.2).update e := by simp [Dict.update]
    simp only [Dict.WF, List.map_cons, List.nodup_cons] at he
    rw [e1]
    rcases List.mem_cons.1 h with rfl | h
    · rw [Dict.get?_update_of_not_mem he.1, Dict.get?_set, if_pos rfl]
    · exact ih he.2 h

theorem Dict.update_same {d e : Dict} (h : ∀ kv ∈ e, d.get? kv.1 = some kv.2) : d.update e = d := by
  induction e with
  | nil => simp [Dict.update]
  | cons x e ih =>
    have e1 : d.update (x :: e) = (d.set x.1 x.2).update e := by simp [Dict.update]
    rw [e1, Dict.set_same (h x (by simp)), ih (fun kv hkv => h kv (by simp [hkv]))]

theorem Dict.update_idem {d e : Dict} (he : e.WF) : (d.update e).update e = d.update e :=
  Dict.update_same fun _ h => Dict.get?_update_mem he h

/-- two URIs at the same place, built the same way, are the same object state -/
theorem Spec.At.ext {u v : Uri} {b : Base} {P : Str} {Q : Dict} (hu : At u b P Q) (hv : At v b P Q)
    (h1 : u.cls = v.cls) (h2 : u.uri = v.uri) (h3 : u.sep = v.sep)
    (h4 : u.parse.fragment = v.parse.fragment) (h5 : u.parse.uri = v.parse.uri)
    (h6 : u.extras = v.extras) (h7 : u.usernameAttr = v.usernameAttr)
    (h8 : u.passwordAttr = v.passwordAttr) : u = v := by
  have hf := hu.fields.symm.trans hv.fields
  simp at hf
  have a1 := hu.scheme.trans hv.scheme.symm
  have a2 := hu.path.trans hv.path.symm
  have a3 := hu.query.trans hv.query.symm
  have a4 := hu.conn.trans hv.conn.symm
  have a5 := hu.auth.trans hv.auth.symm
  have a6 : u.parse.netloc = v.parse.netloc := by rw [hu.netloc, hv.netloc, hf.2.2.1, hf.2.2.2]
  obtain ⟨uc, uu, us, up, ue, uua, upa⟩ := u
  obtain ⟨vc, vu, vs, vp, ve, vua, vpa⟩ := v
  obtain ⟨p1, p2, p3, p4, p5, p6, p7, p8, p9, p10, p11, p12⟩ := up
  obtain ⟨q1, q2, q3, q4, q5, q6, q7, q8, q9, q10, q11, q12⟩ := vp
  dsimp only at h1 h2 h3 h4 h5 h6 h7 h8 a1 a2 a3 a4 a5 a6 hf
  subst h1 h2 h3 h4 h5 h6 h7 h8 a1 a2 a3 a4 a5 a6
  obtain ⟨f1, f2, f3, f4⟩ := hf
  subst f1 f2 f3 f4
  rfl

theorem Spec.NoCreds.join {u v : Uri} {b : Base} {P P' : Str} {Q : Dict} (hu : At u b P Q)
    (hv : At v b P' Q) (hn : NoCreds u) (h1 : v.usernameAttr = none) (h2 : v.passwordAttr = none)
    (h3 : v.extras = u.allExtras) : NoCreds v := by
  obtain ⟨-, -, n3, n4⟩ := hn
  have hf := hu.fields.symm.trans hv.fields
  simp at hf
  rw [hu.query, hf.1] at n3
  rw [hu.query, hf.2.1] at n4
  have key : ∀ k, u.allExtras.get? k = none ∧ Q.get? k = none →
      v.allExtras.get? k = none ∧ v.parse.query.get? k = none := by
    intro k ⟨ha, hb⟩
    refine ⟨?_, by rw [hv.query]; exact hb⟩
    unfold Uri.allExtras
    split
    · rw [h3]; exact ha
    · rw [hv.query, Dict.get?_update_of_not_mem (Dict.get?_none_iff.1 hb), h3]; exact ha
  exact ⟨h1, h2, fun h => key _ (n3 h), fun h => key _ (n4 h)⟩

/-- the extras handed to the backend are unchanged by a join -/
theorem allExtras_join {u v : Uri} {b : Base} {P P' : Str} {Q : Dict} (hQ : Q.WF) (hu : At u b P Q)
    (hv : At v b P' Q) (h3 : v.extras = u.allExtras) : v.allExtras = u.allExtras := by
  have e : Uri.scheme v = Uri.scheme u := by simp [Uri.scheme, hu.scheme, hv.scheme]
  unfold Uri.allExtras at h3 ⊢
  rw [e, hv.query, h3, hu.query]
  split
  · rfl
  · exact Dict.update_idem hQ

theorem cutDot_snoc {cs : List Str} {n : Str} (h : ∀ c ∈ cs, CleanName c) (hc : cs ≠ []) :
    Uri.cutDot (slash cs ++ '/' :: n) = Uri.cutDot (slash cs) ++ '/' :: n := by
  cases cs with
  | nil => exact absurd rfl hc
  | cons c cs =>
    have hn := (h c (by simp)).ne
    cases c with
    | nil => exact absurd rfl hn
    | cons x c =>
      rw [slash_cons]
      simp only [List.cons_append, Uri.cutDot, startsWith, List.isPrefixOf]
      split <;> simp_all

theorem rstrip_cutDot {cs : List Str} (h : ∀ c ∈ cs, CleanName c) :
    rstripC '/' (Uri.cutDot (slash cs)) = Uri.cutDot (slash cs) := by
  unfold Uri.cutDot
  split
  · rename_i hd
    rcases List.eq_nil_or_concat cs with rfl | ⟨l, n, rfl⟩
    · rfl
    · have hn := h n (by simp)
      rcases List.eq_nil_or_concat n with rfl | ⟨m, x, rfl⟩
      · exact absurd rfl hn.ne
      · have hx : x ≠ '/' := by
          have := hn.chars x (by simp); simp at this; exact this.1
        have e : slash (l.concat (m.concat x)) = (slash l ++ '/' :: m) ++ [x] := by simp [slash]
        have e2 : ((slash l ++ '/' :: m) ++ [x]).drop 1 = (slash l ++ '/' :: m).drop 1 ++ [x] := by
          rw [List.drop_append_of_le_length (by simp; omega)]
        rw [e, e2, rstripC_append hx]
  · exact rstrip_slash h

theorem cutDot_pathOf {cs : List Str} (h : ∀ r, cs.head? ≠ some ('.' :: r)) :
    Uri.cutDot (pathOf cs) = pathOf cs := by
  unfold Uri.cutDot
  split
  · rename_i hs
    exfalso
    obtain ⟨r, hr⟩ := startsWith_iff.1 hs
    cases cs with
    | nil => simp [pathOf] at hr
    | cons c cs =>
      rw [pathOf_ne (by simp), slash_cons] at hr
      cases c with
      | nil =>
        cases cs with
        | nil => simp [slash] at hr
        | cons d cs => rw [slash_cons] at hr; simp at hr
      | cons x c => simp at hr; exact h c (by simp [hr.1])
  · rfl

theorem splitC_append_sep {c : Char} {a b : Str} :
    splitC c (a ++ c :: b) = splitC c a ++ splitC c b := by
  induction a with
  | nil => simp [splitC]
  | cons x a ih =>
    simp only [List.cons_append, splitC]
    split
    · simp [ih]
    · rw [ih]
      cases h : splitC c a with
      | nil => exact absurd h splitC_ne_nil
      | cons p q => simp

theorem endsWith_slash_false {A : Str} {cs : List Str} (h : ∀ c ∈ cs, CleanName c) (hc : cs ≠ []) :
    endsWith (A ++ slash cs) cl!"//" = false := by
  cases he : endsWith (A ++ slash cs) cl!"//" with
  | false => rfl
  | true =>
    exfalso
    obtain ⟨r, hr⟩ := endsWith_iff.1 he
    rcases List.eq_nil_or_concat cs with rfl | ⟨l, n, rfl⟩
    · exact hc rfl
    · have hn := h n (by simp)
      rcases List.eq_nil_or_concat n with rfl | ⟨m, x, rfl⟩
      · exact hn.ne rfl
      · have hx : x ≠ '/' := by
          have := hn.chars x (by simp); simp at this; exact this.1
        have e : A ++ slash (l.concat (m.concat x)) = (A ++ (slash l ++ '/' :: m)) ++ [x] := by
          simp [slash]
        rw [e, show r ++ cl!"//" = (r ++ cl!"/") ++ cl!"/" by simp] at hr
        have := List.append_inj_right' hr rfl
        simp at this
        exact hx this

theorem fileOk_of_prefix {b : Base} {cs ns : List Str} (h : FileOk b (cs ++ ns)) : FileOk b cs := by
  intro hf c r hc
  apply h hf c r
  cases cs with
  | nil => simp at hc
  | cons d cs => simpa using hc

/-- `split` of a URI whose string is `b/cs/n?q`, when `cs` is non-empty or there is no authority. -/
theorem split_at {v : Uri} {b : Base} {cs : List Str} {n : Str} {q : Option Str} (hb : b.Ok)
    (hc : ∀ c ∈ cs, CleanName c) (hn : CleanName n) (hf : FileOk b (cs ++ [n]))
    (hr : cs ≠ [] ∨ b.netloc.str = [])
    (hv : v.uri = b.str ++ pathOf (cs ++ [n]) ++ qs q) (hq : '/' ∉ qs q) :
    ∃ w, v.split = .ok (w, n) ∧ At w b (pathOf cs) [] ∧ w.uri = b.str ++ pathOf cs ∧
      w.cls = v.cls ∧ w.sep = v.sep ∧
      (∃ E1, (w.usernameAttr, E1) = takeCred cl!"username" w.parse.username [] v.allExtras ∧
        (w.passwordAttr, w.extras) = takeCred cl!"password" w.parse.password [] E1) ∧
      w.parse.fragment = none ∧ w.parse.uri = w.uri := by
  have hns : '/' ∉ n := hn.chars.not_mem (by simp)
  have hnq : '?' ∉ n := hn.chars.not_mem (by simp)
  have hq' : qs q = [] ∨ ∃ r, qs q = '?' :: r := by cases q <;> simp [qs]
  have hfit : Fits b (pathOf cs) none := fits_pathOf hc (fileOk_of_prefix hf) (by simp) (by simp [qs])
  obtain ⟨w, h1, h2, h3, h4, h5, h6, h7, h8⟩ := mk_at hb hfit rfl v.cls v.sep v.allExtras
  have hs : Uri.splitStr v.uri = (b.str ++ pathOf cs, n) := by
    rw [hv, pathOf_snoc]
    by_cases hcs : cs = []
    · subst hcs
      have hnl : b.netloc.str = [] := by simpa using hr
      have he : endsWith b.str cl!"//" = true := endsWith_iff.2 ⟨b.scheme ++ cl!":", by
        simp [Base.str, hnl]⟩
      have := splitStr_root (A := b.str) hns hq he hnq hq'
      simpa [slash, pathOf] using this
    · rw [pathOf_ne hcs]
      have := splitStr_snoc (A := b.str ++ slash cs) hns hq (endsWith_slash_false hc hcs)
        (by simp [Base.str]) hnq hq'
      simpa using this
  simp only [qs, List.append_nil] at h1 h3 h8
  refine ⟨w, ?_, h2, h3, h4, h5, h6, h7, by rw [h8, h3]⟩
  unfold Uri.split
  rw [hs]
  dsimp only
  rw [h1]

/-- `split` at the root of a location without authority is a fixed point -/
theorem split_root {v : Uri} {b : Base} {q : Option Str} (hb : b.Ok)
    (hr : b.netloc.str = []) (hv : v.uri = b.str ++ pathOf [] ++ qs q) (hq : '/' ∉ qs q) :
    ∃ w, v.split = .ok (w, []) ∧ At w b (pathOf []) [] ∧ w.uri = b.str ++ pathOf [] ∧
      w.cls = v.cls ∧ w.sep = v.sep := by
  have hfit : Fits b (pathOf []) none := fits_pathOf (by simp) (by intro _ c r h; simp at h)
    (by simp) (by simp [qs])
  obtain ⟨w, h1, h2, h3, h4, h5, -⟩ := mk_at hb hfit rfl v.cls v.sep v.allExtras
  have hq' : qs q = [] ∨ ∃ r, qs q = '?' :: r := by cases q <;> simp [qs]
  have hs : Uri.splitStr v.uri = (b.str ++ pathOf [], []) := by
    rw [hv]
    have he : endsWith b.str cl!"//" = true := endsWith_iff.2 ⟨b.scheme ++ cl!":", by
        simp [Base.str, hr]⟩
    have := splitStr_root (A := b.str) (n := []) (by simp) hq he (by simp) hq'
    simpa [pathOf] using this
  simp only [qs, List.append_nil] at h1 h3
  refine ⟨w, ?_, h2, h3, h4, h5⟩
  unfold Uri.split
  rw [hs]
  dsimp only
  rw [h1]

theorem basename_of_split {u w : Uri} {n : Str} (h : u.split = .ok (w, n)) : u.basename = .ok n := by
  unfold Uri.basename; rw [h]

theorem dirLoop_of_split {u w : Uri} {n : Str} (h : u.split = .ok (w, n)) (k : Nat) :
    u.dirLoop (k + 1) = w.dirLoop k := by
  rw [show u.dirLoop (k + 1) = (match u.split with
    | .error e => .error e
    | .ok (v, _) => v.dirLoop k) from rfl, h]

theorem directory_of_split {u w : Uri} {n : Str} (h : u.split = .ok (w, n)) : u.directory = .ok w := by
  unfold Uri.directory
  rw [if_pos (by decide), dirLoop_of_split h]
  rfl

theorem last_snoc {u : Uri} {A n : Str} (hu : u.uri = A ++ '/' :: n) (hn : '/' ∉ n) (hne : n ≠ []) :
    u.last = n := by
  unfold Uri.last
  simp only [hu, splitC_append_sep, splitC_of_not_mem hn, List.reverse_append, List.reverse_cons,
    List.reverse_nil, List.nil_append, List.cons_append]
  cases h : (splitC '/' A).reverse with
  | nil => rfl
  | cons p r => cases n with
    | nil => exact absurd rfl hne
    | cons x n => rfl

end Verif
