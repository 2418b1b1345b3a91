import Verif.Uri.SchemeLemmas
import Verif.Py.DictLemmas
import Verif.Props.UriSplit
/-!
# Properties C07, C14, C16, C17, C18, C20, C67
-/
namespace Verif.Props
open Spec

/-! ## C07 -/

theorem parseItems_WF {d : Dict} (hd : d.WF) (l : List Str) {e : Dict} (h : parseItems d l = .ok e) : e.WF := by
  induction l generalizing d with
  | nil => simp [parseItems] at h; rw [← h]; exact hd
  | cons i l ih =>
    simp only [parseItems] at h
    split at h
    · exact ih (Dict.set_WF hd _ _) h
    · simp at h

/-- Every URI object made by the constructor has a query that is a proper mapping. -/
theorem mk_query_WF {cls : UriClass} {s : Str} {sep : Char} {E : Dict} {u : Uri}
    (h : Uri.mk' cls s sep E = .ok u) : u.parse.query.WF := by
  unfold Uri.mk' Uri.finish at h
  cases hp : UriParse.init (normInput s) with
  | error e => rw [hp] at h; simp at h
  | ok p =>
    rw [hp] at h
    simp at h
    rw [← h]
    simp only
    unfold UriParse.init at hp
    cases hu : urisplit (normInput s) with
    | error e => rw [hu] at hp; simp at hp
    | ok q =>
      rw [hu] at hp
      simp only at hp
      unfold UriParse.ofParts at hp
      simp only at hp
      split at hp
      · simp at hp
      · split at hp
        · simp at hp
        · rename_i Q hQ
          simp at hp
          rw [← hp]
          simp only
          unfold queryField at hQ
          split at hQ
          · exact parseItems_WF (d := []) (by simp [Dict.WF]) _ hQ
          · simp at hQ; rw [hQ]; simp [Dict.WF]

/-- What `==` compares, independent of the order of the query items. -/
def SameUri (a b : Uri) : Prop :=
  a.parse.scheme = b.parse.scheme ∧ a.parse.netloc = b.parse.netloc ∧ a.parse.path = b.parse.path ∧
  ∀ k, a.parse.query.get? k = b.parse.query.get? k

theorem C07_eq_iff {a b : Uri} (ha : a.parse.query.WF) (hb : b.parse.query.WF) :
    a.eq b = true ↔ SameUri a b := by
  unfold Uri.eq UriParse.eq SameUri
  simp only [Bool.and_eq_true, decide_eq_true_eq, Dict.eq_iff ha hb]
  tauto

/-- C07: equality of URI objects is an equivalence relation. -/
theorem C07_equivalence :
    (∀ a : Uri, a.parse.query.WF → a.eq a = true) ∧
    (∀ a b : Uri, a.parse.query.WF → b.parse.query.WF → a.eq b = true → b.eq a = true) ∧
    (∀ a b c : Uri, a.parse.query.WF → b.parse.query.WF → c.parse.query.WF →
      a.eq b = true → b.eq c = true → a.eq c = true) := by
  refine ⟨?_, ?_, ?_⟩
  · intro a ha; rw [C07_eq_iff ha ha]; exact ⟨rfl, rfl, rfl, fun _ => rfl⟩
  · intro a b ha hb h
    rw [C07_eq_iff ha hb] at h
    rw [C07_eq_iff hb ha]
    exact ⟨h.1.symm, h.2.1.symm, h.2.2.1.symm, fun k => (h.2.2.2 k).symm⟩
  · intro a b c ha hb hc h1 h2
    rw [C07_eq_iff ha hb] at h1
    rw [C07_eq_iff hb hc] at h2
    rw [C07_eq_iff ha hc]
    exact ⟨h1.1.trans h2.1, h1.2.1.trans h2.2.1, h1.2.2.1.trans h2.2.2.1,
      fun k => (h1.2.2.2 k).trans (h2.2.2.2 k)⟩

/-- C07: a URI does not equal what is no URI, and `!=` says the contrary of `==`. -/
theorem C07_other (a : Uri) : a.eqAny none = false ∧ a.neAny none = true ∧
    ∀ b : Uri, a.eqAny (some b) = a.eq b ∧ (a.neAny (some b) = true ↔ ¬ a.eq b = true) := by
  refine ⟨rfl, rfl, fun b => ⟨rfl, ?_⟩⟩
  simp [Uri.neAny, Uri.eqAny]

/-- C07: the order in which query items are set does not matter. -/
theorem C07_order_independent {u : Uri} (hu : u.parse.query.WF) {k v k' v' : Str} (hk : k ≠ k') :
    let set (u : Uri) (k v : Str) : Uri := { u with parse := { u.parse with query := u.parse.query.set k v } }
    (set (set u k v) k' v').eq (set (set u k' v') k v) = true := by
  intro set
  rw [C07_eq_iff (Dict.set_WF (Dict.set_WF hu _ _) _ _) (Dict.set_WF (Dict.set_WF hu _ _) _ _)]
  refine ⟨rfl, rfl, rfl, ?_⟩
  intro x
  simp only [set, Dict.get?_set]
  by_cases h1 : x = k'
  · subst h1
    have : ¬ x = k := fun h => hk h.symm
    simp [this]
  · simp [h1]

example : ∃ u v, URI cl!"http://h/p?a=1&b=2" = .ok u ∧ URI cl!"http://h/p?b=2&a=1" = .ok v ∧
    u.parse.query.WF ∧ v.parse.query.WF ∧ u.eq v = true ∧ u ≠ v := by
  have h : (do let u ← URI cl!"http://h/p?a=1&b=2"; let v ← URI cl!"http://h/p?b=2&a=1"
               return decide (u.eq v = true ∧ u ≠ v) : Except PyErr Bool) = .ok true := by decide
  cases hu : URI cl!"http://h/p?a=1&b=2" with
  | error e => rw [hu] at h; simp [bind, Except.bind] at h
  | ok u =>
    cases hv : URI cl!"http://h/p?b=2&a=1" with
    | error e => rw [hu, hv] at h; simp [bind, Except.bind] at h
    | ok v =>
      rw [hu, hv] at h
      simp [bind, Except.bind, pure, Except.pure] at h
      exact ⟨u, v, rfl, rfl, mk_query_WF hu, mk_query_WF hv, h.1, h.2⟩

/-! ## C16 -/

theorem sniff_prefix {x r : Str} (hx : x ≠ []) (hc : ∀ c ∈ x, schemeChar c = true) :
    sniffScheme (x ++ cl!"://" ++ r) = x := by
  have t1 : (x ++ (cl!"://" ++ r)).takeWhile schemeChar = x :=
    takeWhile_stop hc (by intro c r h; simp at h; rw [← h.1]; decide)
  have t2 : (x ++ (cl!"://" ++ r)).dropWhile schemeChar = cl!"://" ++ r :=
    dropWhile_stop hc (by intro c r h; simp at h; rw [← h.1]; decide)
  have e : x ++ cl!"://" ++ r = x ++ (cl!"://" ++ r) := by simp
  rw [e]
  simp only [sniffScheme, t1, t2]
  rw [if_pos ⟨hx, startsWith_iff.2 ⟨r, rfl⟩⟩]

theorem schemeChar_clean {x : Str} (hc : ∀ c ∈ x, schemeChar c = true) : NoneOf cl!":/?#(\\" x := by
  intro c h
  have := hc c h
  simp only [List.mem_cons, List.not_mem_nil, or_false, not_or]
  refine ⟨?_, ?_, ?_, ?_, ?_, ?_⟩ <;> rintro rfl <;> revert this <;> decide

/-- C16: strings `x://...` get scheme `x` and the class registered for `x` (x of length at least two and
    other than 'file', see below). -/
theorem C16_scheme_dispatch {x r : Str} {sep : Char} {E : Dict} {u : Uri} (hl : 2 ≤ x.length)
    (hc : ∀ c ∈ x, schemeChar c = true) (hf : x ≠ cl!"file")
    (h : URI (x ++ cl!"://" ++ r) sep E = .ok u) : u.scheme = some x ∧ u.cls = classOf x := by
  have hx : x ≠ [] := by rintro rfl; simp at hl
  have hcl := schemeChar_clean hc
  rw [URI, sniff_prefix hx hc, Uri.mk', normInput_scheme hl
    (fun c h => by have := hcl c h; simp at this ⊢; tauto) hf] at h
  exact finish_scheme hx (fun c h => by have := hcl c h; simp at this ⊢; tauto) h

/-- C16: strings without "://" (and without backslash) are file URIs, with or without prefix 'file://'. -/
theorem C16_default_file {s : Str} {sep : Char} {E : Dict} {u : Uri} (hs : hasSub cl!"://" s = false)
    (hb : '\\' ∉ s) (h : URI s sep E = .ok u ∨ URI (cl!"file://" ++ s) sep E = .ok u) :
    u.scheme = some cl!"file" ∧ u.cls = .localfs := by
  obtain ⟨⟨r1, h1⟩, ⟨r2, h2⟩⟩ := normInput_file hs hb
  have s1 : sniffScheme s = cl!"file" := by
    unfold sniffScheme
    simp only
    split
    · rename_i hh
      exfalso
      obtain ⟨t, ht⟩ := startsWith_iff.1 hh.2
      have e := List.takeWhile_append_dropWhile (p := schemeChar) (l := s)
      rw [ht] at e
      have := hasSub_mid (p := cl!"://") (a := s.takeWhile schemeChar) (b := t)
      rw [e, hs] at this
      simp at this
    · rfl
  have s2 : sniffScheme (cl!"file://" ++ s) = cl!"file" := sniff_prefix (x := cl!"file") (by decide) (by decide)
  rcases h with h | h
  · rw [URI, s1, Uri.mk', h1] at h
    exact finish_scheme (by decide) (by decide) h
  · rw [URI, s2, Uri.mk', h2] at h
    exact finish_scheme (by decide) (by decide) h

example : ∃ u, URI cl!"memory:///a" = .ok u ∧ u.scheme = some cl!"memory" ∧ u.cls = .memory := by
  obtain ⟨u, h1, -⟩ := URI_at (cs := [cl!"a"]) (q := none) (Q := []) memB_ok (by decide)
    (by intro h; exact absurd h (by decide)) (by simp) (by decide) []
  have := C16_scheme_dispatch (x := cl!"memory") (r := cl!"/a") (by decide) (by decide) (by decide) h1
  exact ⟨u, h1, this.1, this.2⟩

example : (URI cl!"some/file.txt").map (fun u => (u.scheme, u.cls)) = .ok (some cl!"file", .localfs) := by decide

/-- C16 fails for schemes with digits or capitals: the class for 'file' is chosen, although the parsed
    scheme is kept (fs.py:235). -/
theorem C16_refuted_digits : (URI cl!"s3://bucket/key").map (fun u => (u.scheme, u.cls))
    = .ok (some cl!"s3", .localfs) := by decide

/-- ... for a one-letter scheme, which is taken for a drive letter (fs.py:186-187). -/
theorem C16_refuted_drive : (URI cl!"x://h/a").map (fun u => (u.scheme, u.cls, u.path))
    = .ok (some cl!"file", .base, cl!"/x//h/a") := by decide

/-- ... and for nested prefixes: the class and the scheme disagree. -/
theorem C16_refuted_double : (URI cl!"file://http://h/a").map (fun u => (u.scheme, u.cls))
    = .ok (some cl!"http", .localfs) := by decide

/-! ## C17 -/

theorem urisplit_frag {s A P f : Str} (hs : s ≠ [])
    (hsc : NoneOf cl!":/?#" s) (hA : NoneOf cl!"/?#" A) (hA1 : hasSub INNER A = false) (hA2 : A ≠ cl!".")
    (hP : NoneOf cl!"?#" P)
    (hP' : ∀ c r, P = c :: r → c = '/') (hf : '\n' ∉ f) (hf0 : f ≠ [])
    (hi : hasSub cl!"((" (s ++ cl!"://" ++ A ++ P ++ cl!"#" ++ f) = false) :
    urisplit (s ++ cl!"://" ++ A ++ P ++ cl!"#" ++ f) =
      if isHttp (some s) then .ok ⟨some s, some A, P, none, some f⟩
      else .ok ⟨some s, some A, P ++ cl!"#" ++ f, none, some []⟩ := by
  rw [urisplit_raw hi, reMatch_frag hs hsc hA hP hP' hf]
  unfold urisplitPost
  simp only [replaceS_of_no_sub hA1, if_neg hA2]
  split
  · rfl
  · cases f with
    | nil => exact absurd rfl hf0
    | cons c f => rfl

/-- C17: '#' is part of the path except in http(s) URIs. -/
theorem C17_fragment {s A P f : Str} {sep : Char} {E : Dict} {u : Uri} (hl : 2 ≤ s.length)
    (hfile : s ≠ cl!"file")
    (hsc : NoneOf cl!":/?#\\" s) (hA : NoneOf cl!"/?#\\" A) (hA1 : hasSub INNER A = false) (hA2 : A ≠ cl!".")
    (hP : NoneOf cl!"?#\\" P) (hP' : ∀ c r, P = c :: r → c = '/')
    (hf : NoneOf cl!"\n\\" f) (hf0 : f ≠ [])
    (hi : hasSub cl!"((" (s ++ cl!"://" ++ A ++ P ++ cl!"#" ++ f) = false)
    (h : URI (s ++ cl!"://" ++ A ++ P ++ cl!"#" ++ f) sep E = .ok u) :
    (isHttp (some s) = true → u.parse.path = P ∧ u.parse.fragment = some f) ∧
    (isHttp (some s) = false → u.parse.path = P ++ cl!"#" ++ f ∧ u.parse.fragment = some []) := by
  have hs : s ≠ [] := by rintro rfl; simp at hl
  have sub : ∀ {a b x : Str}, NoneOf a x → (∀ c ∈ b, c ∈ a) → NoneOf b x :=
    fun h hab c hc hb => h c hc (hab c hb)
  have hn : normInput (s ++ cl!"://" ++ A ++ P ++ cl!"#" ++ f) = s ++ cl!"://" ++ A ++ P ++ cl!"#" ++ f := by
    have := normInput_scheme (r := A ++ P ++ cl!"#" ++ f) hl (sub hsc (by decide)) hfile
    rw [replaceC_of_not_mem] at this
    · simpa using this
    · have h1 := hA.not_mem (c := '\\') (by simp)
      have h2 := hP.not_mem (c := '\\') (by simp)
      have h3 := hf.not_mem (c := '\\') (by simp)
      simp [h1, h2, h3]
  have hsp := urisplit_frag hs (sub hsc (by decide)) (sub hA (by decide)) hA1 hA2 (sub hP (by decide)) hP'
    (hf.not_mem (by simp)) hf0 hi
  rw [URI, Uri.mk', hn] at h
  unfold Uri.finish UriParse.init at h
  rw [hsp] at h
  generalize classOf (sniffScheme (s ++ cl!"://" ++ A ++ P ++ cl!"#" ++ f)) = cls at h
  cases hh : isHttp (some s)
  · rw [hh] at h
    simp only [Bool.false_eq_true, if_false] at h
    split at h
    · simp at h
    · rename_i p hp
      simp at h
      unfold UriParse.ofParts at hp
      simp only at hp
      split at hp
      · simp at hp
      · simp [queryField] at hp
        rw [← h, ← hp]; simp
  · rw [hh] at h
    simp only [if_true] at h
    split at h
    · simp at h
    · rename_i p hp
      simp at h
      unfold UriParse.ofParts at hp
      simp only at hp
      split at hp
      · simp at hp
      · simp [queryField] at hp
        rw [← h, ← hp]; simp

example : (URI cl!"memory://h/a/b#c d").map (fun u => u.path) = .ok cl!"/a/b#c d" ∧
    (URI cl!"http://h/a/b#c d").map (fun u => (u.path, u.parse.fragment)) = .ok (cl!"/a/b", some cl!"c d") := by
  decide

/-- C17 for local files: '#' in a file name survives. -/
theorem C17_fragment_file {cs : List Str} {f : Str} {sep : Char} {E : Dict} {u : Uri}
    (hc : ∀ c ∈ cs, CleanName c) (hcol : ∀ r, cs.head? ≠ some (':' :: r))
    (hf : NoneOf cl!"\n\\" f) (hf0 : f ≠ [])
    (hi : hasSub cl!"((" (pathOf cs ++ cl!"#" ++ f) = false)
    (hu : hasSub cl!"://" (pathOf cs ++ cl!"#" ++ f) = false)
    (h : URI (pathOf cs ++ cl!"#" ++ f) sep E = .ok u) :
    u.parse.path = pathOf cs ++ cl!"#" ++ f ∧ u.scheme = some cl!"file" := by
  have hfit : Fits fileB (pathOf cs) none := fits_pathOf hc (by
    rintro - c r hcr rfl; exact hcol r hcr) (by simp) (by simp [qs])
  obtain ⟨r, hr⟩ := pathOf_head cs
  have hbs : '\\' ∉ pathOf cs ++ cl!"#" ++ f := by
    have h1 := hfit.chars.not_mem (c := '\\') (by simp)
    have h2 := hf.not_mem (c := '\\') (by simp)
    simp [h1, h2]
  have hdrive : ∀ t, r ≠ ':' :: t := by
    obtain ⟨⟨r', h1, h2⟩, -⟩ := hfit.file rfl
    rw [hr] at h1; simp at h1; rw [h1]; exact h2
  have hn : normInput (pathOf cs ++ cl!"#" ++ f) = cl!"file" ++ cl!"://" ++ [] ++ pathOf cs ++ cl!"#" ++ f := by
    have e1 : startsWith (pathOf cs ++ cl!"#" ++ f) cl!"file://" = false := by
      rw [hr]; simp [startsWith, List.isPrefixOf]
    have e3 : normalizeUri (pathOf cs ++ cl!"#" ++ f) '\\' = pathOf cs ++ cl!"#" ++ f := by
      simp only [normalizeUri, replaceC_of_not_mem hbs]
      simp only [ne_eq, show ¬ ('\\' = '/') by decide, not_false_iff, if_true]
      split
      · rename_i a t ht
        exfalso
        rw [hr] at ht
        cases r with
        | nil => simp at ht
        | cons c r => simp at ht; exact hdrive r (by rw [ht.2.1])
      · rfl
    have e4 : startsWith (pathOf cs ++ cl!"#" ++ f) cl!"/" = true := by rw [hr]; simp [startsWith]
    unfold normInput
    rw [e1]
    simp only [Bool.false_eq_true, if_false, e3, e4, hu]
    have hu' : hasSub cl!"://" (pathOf cs ++ '#' :: f) = false := by simpa using hu
    simp [hu']
  have hsp := urisplit_frag (s := cl!"file") (A := []) (P := pathOf cs) (f := f) (by decide) (by decide)
    (by decide) (by decide) (by decide)
    (fun c hc hb => hfit.chars c hc (by simp at hb ⊢; tauto)) hfit.abs (hf.not_mem (by simp)) hf0
    (by
      have : hasSub cl!"((" (cl!"file" ++ cl!"://" ++ [] ++ pathOf cs ++ cl!"#" ++ f) =
          hasSub cl!"((" (pathOf cs ++ cl!"#" ++ f) := by
        have := hasDbl_append_of_not_mem (d := '(') (a := cl!"file://") (b := pathOf cs ++ cl!"#" ++ f) (by decide)
        simpa using this
      rw [this]; exact hi)
  rw [URI, Uri.mk', hn] at h
  unfold Uri.finish UriParse.init at h
  rw [hsp] at h
  generalize classOf (sniffScheme (pathOf cs ++ cl!"#" ++ f)) = cls at h
  simp only [show isHttp (some cl!"file") = false by decide, Bool.false_eq_true, if_false] at h
  split at h
  · simp at h
  · rename_i p hp
    simp at h
    unfold UriParse.ofParts at hp
    simp only at hp
    split at hp
    · simp at hp
    · simp [queryField] at hp
      rw [← h, ← hp]; simp [Uri.scheme]

example : (URI cl!"/a/b#1.txt").map Uri.path = .ok cl!"/a/b#1.txt" := by decide

/-! ## C18, C67 -/

/-- the URI of a relative path -/
theorem relative_uri {r : Str} (hr : NoneOf cl!"?#\\" r) (hi : hasSub cl!"((" r = false)
    (h1 : ∀ t, r ≠ '/' :: t) (h2 : ∀ t, r ≠ '.' :: t) (h3 : ∀ a t, r ≠ a :: ':' :: t)
    (h4 : hasSub cl!"://" r = false) :
    ∃ u, URI r = .ok u ∧ u.path = cl!"./" ++ r ∧ u.isAbsolute = false ∧ u.scheme = some cl!"file" ∧
      u.unipath = cl!"./" ++ r ∧ u.allExtras = [] := by
  have hb := hr.not_mem (c := '\\') (by simp)
  have e1 : startsWith r cl!"file://" = false := by
    cases hs : startsWith r cl!"file://" with
    | false => rfl
    | true =>
      obtain ⟨t, rfl⟩ := startsWith_iff.1 hs
      have := hasSub_mid (p := cl!"://") (a := cl!"file") (b := t)
      simp at this h4; rw [this] at h4; simp at h4
  have e2 : normalizeUri r '\\' = r := by
    simp only [normalizeUri, replaceC_of_not_mem hb]
    simp only [ne_eq, show ¬ ('\\' = '/') by decide, not_false_iff, if_true]
  have e3 : startsWith r cl!"/" = false := by
    cases hs : startsWith r cl!"/" with
    | false => rfl
    | true => obtain ⟨t, rfl⟩ := startsWith_iff.1 hs; exact absurd rfl (h1 t)
  have e4 : startsWith r cl!"." = false := by
    cases hs : startsWith r cl!"." with
    | false => rfl
    | true => obtain ⟨t, rfl⟩ := startsWith_iff.1 hs; exact absurd rfl (h2 t)
  have e5 : hasSub cl!"://" (cl!"./" ++ r) = false := by
    simp only [List.cons_append, List.nil_append]
    rw [hasSub_cons_ne (by decide), hasSub_cons_ne (by decide)]; exact h4
  have hn : normInput r = cl!"file" ++ cl!"://" ++ cl!"." ++ ('/' :: r) ++ qs none := by
    unfold normInput
    simp only [e1, e2, e3, e4, h4, Bool.false_eq_true, if_false]
    simp only [List.cons_append, List.nil_append] at e5
    simp [e5, qs]
  have hin : hasSub cl!"((" (cl!"file" ++ cl!"://" ++ cl!"." ++ ('/' :: r) ++ qs none) = false := by
    have := hasDbl_append_of_not_mem (d := '(') (a := cl!"file://./") (b := r) (by decide)
    simp [qs]; simp at this; rw [this]; exact hi
  have hm := reMatch_clean (s := cl!"file") (A := cl!".") (P := '/' :: r) (q := none) (by decide) (by decide)
    (by decide) (NoneOf.cons.2 ⟨by decide, fun c hc hb => hr c hc (by simp at hb ⊢; tauto)⟩)
    (by intro c t h; simp at h; exact h.1.symm) (by simp)
  have hsp : urisplit (normInput r) = .ok ⟨some cl!"file", none, cl!"./" ++ r, none, none⟩ := by
    rw [hn, urisplit_raw hin, hm]
    rfl
  have hdot : startsWith (cl!"./" ++ r) cl!"/." = false := by simp [startsWith, List.isPrefixOf]
  have s1 : sniffScheme r = cl!"file" := by
    unfold sniffScheme
    simp only
    split
    · rename_i hh
      exfalso
      obtain ⟨t, ht⟩ := startsWith_iff.1 hh.2
      have e := List.takeWhile_append_dropWhile (p := schemeChar) (l := r)
      rw [ht] at e
      have := hasSub_mid (p := cl!"://") (a := r.takeWhile schemeChar) (b := t)
      rw [e, h4] at this
      simp at this
    · rfl
  rw [URI, s1, Uri.mk']
  unfold Uri.finish UriParse.init
  rw [hsp]
  refine ⟨_, rfl, ?_, ?_, rfl, ?_, rfl⟩
  · simp only [Uri.path, Uri.cutDot]
    split <;> simp [startsWith, List.isPrefixOf]
  · simp [Uri.isAbsolute, Uri.cutDot, startsWith, List.isPrefixOf]
  · simp [Uri.unipath, startsWith, List.isPrefixOf]

/-- C18: relative paths stay relative. -/
theorem C18_relative {r : Str} (hr : NoneOf cl!"?#\\" r) (hi : hasSub cl!"((" r = false)
    (h1 : ∀ t, r ≠ '/' :: t) (h2 : ∀ t, r ≠ '.' :: t) (h3 : ∀ a t, r ≠ a :: ':' :: t)
    (h4 : hasSub cl!"://" r = false) :
    ∃ u, URI r = .ok u ∧ u.path = cl!"./" ++ r ∧ u.isAbsolute = false ∧ u.scheme = some cl!"file" ∧
      u.unipath = cl!"./" ++ r := by
  obtain ⟨u, a, b, c, d, e, -⟩ := relative_uri hr hi h1 h2 h3 h4
  exact ⟨u, a, b, c, d, e⟩

example : ∃ u, URI cl!"some/where.txt" = .ok u ∧ u.path = cl!"./some/where.txt" ∧ u.isAbsolute = false := by
  obtain ⟨u, h1, h2, h3, -⟩ := C18_relative (r := cl!"some/where.txt") (by decide) (by decide) (by simp)
    (by simp) (by simp) (by decide)
  exact ⟨u, h1, h2, h3⟩

/-- C18: `unipath` always starts with '.' or '/'. -/
theorem C18_unipath (u : Uri) : ∃ r, u.unipath = '.' :: r ∨ u.unipath = '/' :: r := by
  unfold Uri.unipath
  split
  · exact ⟨_, .inl rfl⟩
  · rename_i h
    simp at h
    by_cases h1 : startsWith u.parse.path cl!"." = true
    · obtain ⟨t, ht⟩ := startsWith_iff.1 h1
      exact ⟨t, .inl ht⟩
    · have h2 := h (by simpa using h1)
      obtain ⟨t, ht⟩ := startsWith_iff.1 h2
      exact ⟨t, .inr ht⟩

/-- C67 (refuted): a parent-relative path does not stay relative: `..` becomes a host name and the rest
    an absolute path, so reading `URI('../x')` addresses `/x`. -/
theorem C67_refuted_parent_relative :
    (URI cl!"../etc/x").map (fun u => (u.path, u.isAbsolute, u.parse.hostname))
      = .ok (cl!"/etc/x", true, some cl!"..") := by decide

/-- C67 (refuted): a hidden file in the current directory vanishes into the host name. -/
theorem C67_refuted_hidden : (URI cl!".bashrc").map (fun u => (u.path, u.parse.hostname))
    = .ok ([], some cl!".bashrc") := by decide

/-- C67: './' ++ r is understood as r. -/
theorem C67_dot_slash {r : Str} (hr : NoneOf cl!"?#\\" r) (hi : hasSub cl!"((" r = false)
    (h1 : ∀ t, r ≠ '/' :: t) (h2 : ∀ t, r ≠ '.' :: t) (h3 : ∀ a t, r ≠ a :: ':' :: t)
    (h4 : hasSub cl!"://" r = false) : URI (cl!"./" ++ r) = URI r := by
  have hb := hr.not_mem (c := '\\') (by simp)
  have e1 : startsWith r cl!"file://" = false := by
    cases hs : startsWith r cl!"file://" with
    | false => rfl
    | true =>
      obtain ⟨t, rfl⟩ := startsWith_iff.1 hs
      have := hasSub_mid (p := cl!"://") (a := cl!"file") (b := t)
      simp at this h4; rw [this] at h4; simp at h4
  have e2 : normalizeUri r '\\' = r := by
    simp only [normalizeUri, replaceC_of_not_mem hb]
    simp only [ne_eq, show ¬ ('\\' = '/') by decide, not_false_iff, if_true]
  have e2' : normalizeUri (cl!"./" ++ r) '\\' = cl!"./" ++ r := by
    have : '\\' ∉ cl!"./" ++ r := by simp [hb]
    simp only [normalizeUri, replaceC_of_not_mem this]
    simp
  have e3 : startsWith r cl!"/" = false := by
    cases hs : startsWith r cl!"/" with
    | false => rfl
    | true => obtain ⟨t, rfl⟩ := startsWith_iff.1 hs; exact absurd rfl (h1 t)
  have e4 : startsWith r cl!"." = false := by
    cases hs : startsWith r cl!"." with
    | false => rfl
    | true => obtain ⟨t, rfl⟩ := startsWith_iff.1 hs; exact absurd rfl (h2 t)
  have e5 : hasSub cl!"://" (cl!"./" ++ r) = false := by
    simp only [List.cons_append, List.nil_append]
    rw [hasSub_cons_ne (by decide), hasSub_cons_ne (by decide)]; exact h4
  have n1 : normInput (cl!"./" ++ r) = normInput r := by
    have e6 : startsWith (cl!"./" ++ r) cl!"file://" = false := by simp [startsWith, List.isPrefixOf]
    have e7 : startsWith (cl!"./" ++ r) cl!"." = true := by simp [startsWith]
    unfold normInput
    simp only [e1, e2, e2', e3, e4, e5, e6, e7, h4, Bool.false_eq_true, if_false]
    simp
  have s1 : sniffScheme r = cl!"file" := by
    unfold sniffScheme
    simp only
    split
    · rename_i hh
      exfalso
      obtain ⟨t, ht⟩ := startsWith_iff.1 hh.2
      have e := List.takeWhile_append_dropWhile (p := schemeChar) (l := r)
      rw [ht] at e
      have := hasSub_mid (p := cl!"://") (a := r.takeWhile schemeChar) (b := t)
      rw [e, h4] at this
      simp at this
    · rfl
  have s2 : sniffScheme (cl!"./" ++ r) = cl!"file" := by
    simp [sniffScheme, show schemeChar '.' = false by decide]
  unfold URI Uri.mk'
  rw [s1, s2, n1]

example : URI cl!"./a/b" = URI cl!"a/b" := C67_dot_slash (r := cl!"a/b") (by decide) (by decide) (by simp) (by simp)
  (by simp) (by decide)

/-! ## C14 -/

/-- C14: Windows drive paths. -/
theorem C14_windows_drive {d : Char} {cs : List Str} (hd : ('a' ≤ d ∧ d ≤ 'z') ∨ ('A' ≤ d ∧ d ≤ 'Z'))
    (hc : ∀ c ∈ cs, CleanName c) :
    ∃ u, URI (d :: ':' :: '\\' :: joinS cl!"\\" cs) '\\' = .ok u ∧
      u.path = d :: ':' :: '\\' :: joinS cl!"\\" cs ∧
      u.uri = cl!"file:///" ++ d :: '/' :: joinS cl!"/" cs ∧ u.scheme = some cl!"file" := by
  have hdne : ∀ c ∈ cl!"/\\?#(:.", d ≠ c := by
    rintro c hc' rfl
    simp only [le_toNat] at hd
    revert hd
    revert d
    decide
  have rep : ∀ (a b : Char) (l : List Str), (∀ c ∈ l, a ∉ c) → replaceC a b (joinS [a] l) = joinS [b] l := by
    intro a b l hl
    induction l with
    | nil => rfl
    | cons x l ih =>
      have hx := replaceC_of_not_mem (d := b) (hl x (by simp))
      have ih' := ih (fun c hc => hl c (by simp [hc]))
      cases l with
      | nil => simpa [joinS] using hx
      | cons y l =>
        simp only [joinS, replaceC, List.map_append] at hx ih' ⊢
        rw [hx, ih']; simp
  have hj1 : replaceC '\\' '/' (joinS cl!"\\" cs) = joinS cl!"/" cs :=
    rep _ _ _ (fun c h => (hc c h).chars.not_mem (by simp))
  have hj2 : replaceC '/' '\\' (joinS cl!"/" cs) = joinS cl!"\\" cs :=
    rep _ _ _ (fun c h => (hc c h).chars.not_mem (by simp))
  -- the joined components as a path
  have hP : NoneOf cl!"?#\\" ('/' :: d :: '/' :: joinS cl!"/" cs) := by
    have hjc : ∀ c ∈ joinS cl!"/" cs, c ∉ cl!"?#\\" := by
      apply joinS_chars (p := fun c => c ∉ cl!"?#\\")
      · decide
      · intro s hs c hcs
        have := (hc s hs).chars c hcs
        simp at this ⊢; tauto
    refine NoneOf.cons.2 ⟨by decide, NoneOf.cons.2 ⟨?_, NoneOf.cons.2 ⟨by decide, hjc⟩⟩⟩
    simp; exact ⟨hdne '?' (by simp), hdne '#' (by simp), hdne '\\' (by simp)⟩
  have hslash : '/' :: joinS cl!"/" cs = (if cs = [] then cl!"/" else slash cs) := by
    split
    · rename_i h; subst h; rfl
    · rename_i h
      clear hP hj1 hj2 hdne hd
      induction cs with
      | nil => exact absurd rfl h
      | cons x l ih =>
        cases l with
        | nil => simp [joinS, slash]
        | cons y l =>
          have := ih (fun c h => hc c (by simp [h])) (by simp)
          rw [slash_cons, ← this]; simp [joinS]
  have hin : hasSub cl!"((" ('/' :: d :: '/' :: joinS cl!"/" cs) = false := by
    rw [hasSub_cons_ne (by decide), hasSub_cons_ne (hdne _ (by simp)), hslash]
    split
    · decide
    · exact slash_noInner hc
  have hnd : hasSub cl!"://" ('/' :: d :: '/' :: joinS cl!"/" cs) = false := by
    rw [hasSub_cons_ne (by decide), hasSub_cons_ne (hdne _ (by simp)), hslash]
    split
    · decide
    · have := slash_noDbl hc
      cases hh : hasSub cl!"://" (slash cs) with
      | false => rfl
      | true =>
        exfalso
        obtain ⟨a, b, hab⟩ := hasSub_iff.1 hh
        have : hasSub cl!"//" (slash cs) = true := hasSub_iff.2 ⟨a ++ cl!":", b, by rw [← hab]; simp⟩
        simp_all
  have hn : normInput (d :: ':' :: '\\' :: joinS cl!"\\" cs) =
      cl!"file" ++ cl!"://" ++ [] ++ ('/' :: d :: '/' :: joinS cl!"/" cs) ++ qs none := by
    have e1 : startsWith (d :: ':' :: '\\' :: joinS cl!"\\" cs) cl!"file://" = false := by
      simp [startsWith, List.isPrefixOf]
    have e2 : normalizeUri (d :: ':' :: '\\' :: joinS cl!"\\" cs) '\\' = '/' :: d :: '/' :: joinS cl!"/" cs := by
      have hd' : (if d = '\\' then '/' else d) = d := if_neg (hdne '\\' (by simp))
      have : replaceC '\\' '/' (d :: ':' :: '\\' :: joinS cl!"\\" cs) = d :: ':' :: '/' :: joinS cl!"/" cs := by
        rw [← hj1]; simp [replaceC, hd']
      simp only [normalizeUri, this]
      simp
    have e3 : startsWith ('/' :: d :: '/' :: joinS cl!"/" cs) cl!"/" = true := by simp [startsWith]
    unfold normInput
    rw [e1]
    simp only [Bool.false_eq_true, if_false, e2, e3, hnd]
    simp [hnd, qs]
  have hm := reMatch_clean (s := cl!"file") (A := []) (P := '/' :: d :: '/' :: joinS cl!"/" cs) (q := none)
    (by decide) (by decide) (by decide) (fun c hc hb => hP c hc (by simp at hb ⊢; tauto))
    (by intro c t h; simp at h; exact h.1.symm) (by simp)
  have hi' : hasSub cl!"((" (cl!"file" ++ cl!"://" ++ [] ++ ('/' :: d :: '/' :: joinS cl!"/" cs) ++ qs none) = false := by
    have := hasDbl_append_of_not_mem (d := '(') (a := cl!"file://") (b := '/' :: d :: '/' :: joinS cl!"/" cs) (by decide)
    simp [qs]; simp at this; rw [this]; exact hin
  have hsp : urisplit (normInput (d :: ':' :: '\\' :: joinS cl!"\\" cs)) =
      .ok ⟨some cl!"file", some [], '/' :: d :: '/' :: joinS cl!"/" cs, none, none⟩ := by
    rw [hn, urisplit_raw hi', hm]
    rfl
  have s1 : sniffScheme (d :: ':' :: '\\' :: joinS cl!"\\" cs) = cl!"file" := by
    cases hsd : schemeChar d
    · simp [sniffScheme, List.takeWhile, hsd]
    · simp [sniffScheme, List.takeWhile, List.dropWhile, hsd, show schemeChar ':' = false by decide, startsWith,
        List.isPrefixOf]
  rw [URI, s1, Uri.mk']
  unfold Uri.finish UriParse.init
  rw [hsp]
  refine ⟨_, rfl, ?_, ?_, rfl⟩
  · simp only [Uri.path]
    simp only [show classOf cl!"file" = .localfs by decide]
    simp [denormalizePath, hj2]
  · simp [hn, qs]

example : ∃ u, URI cl!"C:\\Program Files\\x.y" '\\' = .ok u ∧ u.path = cl!"C:\\Program Files\\x.y" := by
  obtain ⟨u, h1, h2, -⟩ := C14_windows_drive (d := 'C') (cs := [cl!"Program Files", cl!"x.y"]) (by decide) (by decide)
  exact ⟨u, h1, h2⟩

/-! ## C20 -/

/-- C20: a URL of another scheme is returned unchanged. -/
theorem C20_other_scheme {x y r t : Str} {b u : Parts} (hx : x ≠ []) (hx1 : NoneOf cl!":/?#(" x)
    (hy : y ≠ []) (hy1 : NoneOf cl!":/?#(" y) (hxy : x ≠ y)
    (hb : urisplit (x ++ cl!"://" ++ r) = .ok b) (hu : urisplit (y ++ cl!"://" ++ t) = .ok u) :
    urljoin (x ++ cl!"://" ++ r) (y ++ cl!"://" ++ t) = .ok (y ++ cl!"://" ++ t) := by
  have h1 := urisplit_scheme hx hx1 hb
  have h2 := urisplit_scheme hy hy1 hu
  unfold urljoin
  rw [hb, hu]
  simp only
  rw [if_pos]
  rw [h1, h2]
  simp [hxy]

example : urljoin cl!"http://a/b" cl!"ftp://c/../d" = .ok cl!"ftp://c/../d" := by decide

/-- C20: authority, path, query and fragment of a URL with authority are kept, the scheme is the base's. -/
theorem C20_authority_wins {base url : Str} {b u : Parts} (hb : urisplit base = .ok b)
    (hu : urisplit url = .ok u) (hs : u.scheme = none ∨ u.scheme = b.scheme) (ha : u.authority ≠ none) :
    urljoin base url = .ok (uriunsplit { u with scheme := b.scheme }) := by
  unfold urljoin
  rw [hb, hu]
  simp only
  rw [if_neg, if_pos ha]
  rcases hs with h | h <;> simp [h]

/-- C20: for http(s) URLs without empty parts this is the identity. -/
theorem C20_same_scheme_http {base url : Str} {b u : Parts} (hi : hasSub cl!"((" url = false)
    (hph : hasSub INNER url = false) (hn : '\n' ∉ url) (hb : urisplit base = .ok b)
    (hu : urisplit url = .ok u) (hs : u.scheme = b.scheme) (hh : isHttp u.scheme = true)
    (ha : u.authority ≠ none) (ha' : u.authority ≠ some []) (hq : u.query ≠ some [])
    (hf : u.fragment ≠ some []) : urljoin base url = .ok url := by
  rw [C20_authority_wins hb hu (.inr hs) ha, ← hs]
  obtain ⟨h1, h2⟩ := C08_split_recomposes_http hi hph hn hu ha hh
  congr 1
  have tr : ∀ o : Option Str, o ≠ some [] → ∀ p : Str,
      (if truthy o then p ++ o.getD [] else []) = o.elim [] (p ++ ·) := by
    intro o ho p
    match o, ho with
    | none, _ => rfl
    | some (c :: x), _ => simp [truthy]
    | some [], h => exact absurd rfl h
  conv => rhs; rw [← h1]
  unfold uriunsplit recompose
  simp only
  rw [tr _ ha', tr _ hq, tr _ hf]
  congr 4
  cases hsc : u.scheme with
  | none => rfl
  | some s =>
    cases s with
    | nil => rw [hsc] at hh; exact absurd hh (by decide)
    | cons c s => simp [truthy]

example : urljoin cl!"http://a/b/c" cl!"http://h:8/x?y=1#z" = .ok cl!"http://h:8/x?y=1#z" := by decide

/-- C20: a URL without '//' is never resolved: an exception is raised. -/
theorem C20_no_authority_rejected {base url : Str} {b : Parts} (hi : hasSub cl!"((" url = false)
    (hb : urisplit base = .ok b) (h : ¬ HasAuthority url) : urljoin base url = .error .attributeError := by
  unfold urljoin
  rw [hb, (C08_split_defined hi).2.1 h]

example : urljoin cl!"http://a/b/c" cl!"../g" = .error .attributeError := by decide

end Verif.Props
