import Verif.Uri.SplitLemmas
import Verif.Uri.Clean
/-! # Scheme, fragment and normalisation lemmas for arbitrary strings -/
namespace Verif
open Spec

theorem reScheme_prefix {x r : Str} (h1 : x ≠ []) (h2 : NoneOf cl!":/?#" x) :
    reScheme (x ++ ':' :: r) = (some x, r) := by
  have t1 : (x ++ ':' :: r).takeWhile
      (fun c => !(c == ':' || c == '/' || c == '?' || c == '#')) = x :=
    takeWhile_stop (fun c hc => by have := h2 c hc; simp at this; simp [this])
      (by intro c r h; simp at h; simp [← h.1])
  have t2 : (x ++ ':' :: r).dropWhile
      (fun c => !(c == ':' || c == '/' || c == '?' || c == '#')) = ':' :: r :=
    dropWhile_stop (fun c hc => by have := h2 c hc; simp at this; simp [this])
      (by intro c r h; simp at h; simp [← h.1])
  simp only [reScheme, t1, t2]
  simp [h1]

theorem urisplitPost_scheme {i : Str} {p q : Parts} (h : urisplitPost i p = .ok q) : q.scheme = p.scheme := by
  unfold urisplitPost at h
  cases ha : p.authority with
  | none => rw [ha] at h; simp at h
  | some a =>
    rw [ha] at h
    simp only at h
    split at h
    · simp at h; rw [← h]
    · split at h <;> simp at h <;> rw [← h]

theorem urisplit_scheme {x r : Str} {p : Parts} (h1 : x ≠ []) (h2 : NoneOf cl!":/?#(" x)
    (h : urisplit (x ++ cl!"://" ++ r) = .ok p) : p.scheme = some x := by
  have h2' : NoneOf cl!":/?#" x := fun c hc => by have := h2 c hc; simp at this ⊢; tauto
  have hp : '(' ∉ x ++ cl!"://" := by have := h2.not_mem (c := '(') (by simp); simp [this]
  unfold urisplit at h
  rw [findInner_skip hp] at h
  cases hf : findInner r with
  | none =>
    rw [hf] at h
    simp only [Option.map_none] at h
    rw [urisplitPost_scheme h]
    have := reScheme_prefix (r := cl!"//" ++ r) h1 h2'
    simp only [List.append_assoc, List.cons_append, List.nil_append] at this ⊢
    simp [reMatch, this]
  | some amb =>
    obtain ⟨a, m, b⟩ := amb
    rw [hf] at h
    simp only [Option.map_some] at h
    rw [urisplitPost_scheme h]
    have := reScheme_prefix (r := cl!"//" ++ (a ++ INNER ++ b)) h1 h2'
    simp only [List.append_assoc, List.cons_append, List.nil_append] at this ⊢
    simp [reMatch, this]

theorem init_scheme {x r : Str} {p : UriParse} (h1 : x ≠ []) (h2 : NoneOf cl!":/?#(" x)
    (h : UriParse.init (x ++ cl!"://" ++ r) = .ok p) : p.scheme = some x := by
  unfold UriParse.init at h
  cases hu : urisplit (x ++ cl!"://" ++ r) with
  | error e => rw [hu] at h; simp at h
  | ok q =>
    rw [hu] at h
    simp only at h
    have := urisplit_scheme h1 h2 hu
    unfold UriParse.ofParts at h
    simp only at h
    split at h
    · simp at h
    · split at h
      · simp at h
      · simp at h; rw [← h]; exact this

theorem finish_scheme {x r : Str} {cls : UriClass} {sep : Char} {E : Dict} {u : Uri} (h1 : x ≠ [])
    (h2 : NoneOf cl!":/?#(" x) (h : Uri.finish cls (x ++ cl!"://" ++ r) sep E = .ok u) :
    u.scheme = some x ∧ u.cls = cls := by
  unfold Uri.finish at h
  cases hu : UriParse.init (x ++ cl!"://" ++ r) with
  | error e => rw [hu] at h; simp at h
  | ok q =>
    rw [hu] at h
    simp at h
    rw [← h]
    exact ⟨init_scheme h1 h2 hu, rfl⟩

theorem normInput_scheme {x r : Str} (hl : 2 ≤ x.length) (hx : NoneOf cl!":/\\" x) (hf : x ≠ cl!"file") :
    normInput (x ++ cl!"://" ++ r) = x ++ cl!"://" ++ replaceC '\\' '/' r := by
  have hc := hx.not_mem (c := ':') (by simp)
  have hb := hx.not_mem (c := '\\') (by simp)
  have e1 : startsWith (x ++ cl!"://" ++ r) cl!"file://" = false := by
    cases h : startsWith (x ++ cl!"://" ++ r) cl!"file://" with
    | false => rfl
    | true =>
      exfalso
      obtain ⟨t, ht⟩ := startsWith_iff.1 h
      have t1 := split1_append (c := ':') (a := x) (b := cl!"//" ++ r) hc
      have t2 := split1_append (c := ':') (a := cl!"file") (b := cl!"//" ++ t) (by decide)
      have e : x ++ ':' :: (cl!"//" ++ r) = cl!"file" ++ ':' :: (cl!"//" ++ t) := by simpa using ht
      rw [e, t2] at t1
      simp at t1
      exact hf t1.1.symm
  have e2 : replaceC '\\' '/' (x ++ cl!"://" ++ r) = x ++ cl!"://" ++ replaceC '\\' '/' r := by
    have := replaceC_of_not_mem (d := '/') hb
    simp only [replaceC] at this ⊢
    simp [this]
  have e3 : normalizeUri (x ++ cl!"://" ++ r) '\\' = x ++ cl!"://" ++ replaceC '\\' '/' r := by
    simp only [normalizeUri, e2]
    simp only [ne_eq, show ¬ ('\\' = '/') by decide, not_false_iff, if_true]
    match x, hl, hc with
    | c :: d :: x', _, hc =>
      split
      · rename_i a t h
        simp at h
        simp at hc
        exact absurd h.2.1.symm hc.2.1
      · rfl
  have e4 : hasSub cl!"://" (x ++ cl!"://" ++ replaceC '\\' '/' r) = true := by
    have := hasSub_mid (p := cl!"://") (a := x) (b := replaceC '\\' '/' r)
    simpa using this
  unfold normInput
  rw [e1]
  simp only [Bool.false_eq_true, if_false, e3]
  generalize x ++ cl!"://" ++ replaceC '\\' '/' r = t at *
  simp [e4]

theorem hasSub_cons_ne {p s : Str} {a c : Char} (h : c ≠ a) : hasSub (a :: p) (c :: s) = hasSub (a :: p) s := by
  have : ¬ a = c := fun h' => h h'.symm
  simp [hasSub, List.isPrefixOf, this]

/-- strings without "://" become `file://` URIs -/
theorem normInput_file {s : Str} (h : hasSub cl!"://" s = false) (hb : '\\' ∉ s) :
    (∃ r, normInput s = cl!"file" ++ cl!"://" ++ r) ∧
    (∃ r, normInput (cl!"file://" ++ s) = cl!"file" ++ cl!"://" ++ r) := by
  have main : ∀ t : Str, hasSub cl!"://" (normalizeUri t '\\') = false →
      let u2 := normalizeUri t '\\'
      let u3 := if !hasSub cl!"://" u2 && !(startsWith u2 cl!"/" || startsWith u2 cl!".")
            then cl!"./" ++ u2 else u2
      ∃ r, (if !hasSub cl!"://" u3 then cl!"file://" ++ u3 else u3) = cl!"file" ++ cl!"://" ++ r := by
    intro t ht
    simp only
    have : hasSub cl!"://" (if !hasSub cl!"://" (normalizeUri t '\\') &&
        !(startsWith (normalizeUri t '\\') cl!"/" || startsWith (normalizeUri t '\\') cl!".")
            then cl!"./" ++ normalizeUri t '\\' else normalizeUri t '\\') = false := by
      split
      · simp only [List.cons_append, List.nil_append]
        rw [hasSub_cons_ne (by decide), hasSub_cons_ne (by decide)]
        exact ht
      · exact ht
    rw [this]; exact ⟨_, rfl⟩
  have hn : hasSub cl!"://" (normalizeUri s '\\') = false := by
    simp only [normalizeUri, replaceC_of_not_mem hb]
    simp only [ne_eq, show ¬ ('\\' = '/') by decide, not_false_iff, if_true]
    split
    · rename_i a r
      rw [hasSub_cons_ne (by decide)]
      by_cases ha : a = ':'
      · subst ha
        simp only [hasSub, Bool.or_eq_false_iff] at h
        simp only [hasSub, Bool.or_eq_false_iff]
        exact ⟨h.2.1, h.2.2⟩
      · rw [hasSub_cons_ne ha] at h ⊢
        simp only [hasSub, Bool.or_eq_false_iff] at h
        exact h.2
    · exact h
  have s1 : startsWith s cl!"file://" = false := by
    cases hs : startsWith s cl!"file://" with
    | false => rfl
    | true =>
      obtain ⟨t, rfl⟩ := startsWith_iff.1 hs
      have := hasSub_mid (p := cl!"://") (a := cl!"file") (b := t)
      simp at this h; rw [this] at h; simp at h
  have s2 : startsWith (cl!"file://" ++ s) cl!"file://" = true := startsWith_iff.2 ⟨s, rfl⟩
  constructor
  · unfold normInput
    simp only [s1, Bool.false_eq_true, if_false]
    exact main s hn
  · unfold normInput
    simp only [s2, if_true, show (cl!"file://" ++ s).drop 7 = s from rfl]
    exact main s hn

theorem reMatch_frag {s A P f : Str} (hs : s ≠ [])
    (hsc : NoneOf cl!":/?#" s) (hA : NoneOf cl!"/?#" A) (hP : NoneOf cl!"?#" P)
    (hP' : ∀ c r, P = c :: r → c = '/') (hf : '\n' ∉ f) :
    reMatch (s ++ cl!"://" ++ A ++ P ++ cl!"#" ++ f) = ⟨some s, some A, P, none, some f⟩ := by
  have e1 : reScheme (s ++ cl!"://" ++ A ++ P ++ cl!"#" ++ f) = (some s, cl!"//" ++ A ++ P ++ cl!"#" ++ f) := by
    have := reScheme_prefix (r := cl!"//" ++ A ++ P ++ cl!"#" ++ f) hs hsc
    simpa using this
  have tail : ∀ c r, P ++ '#' :: f = c :: r → c = '/' ∨ c = '#' := by
    intro c r h
    cases P with
    | nil => simp at h; simp [← h.1]
    | cons d P => simp at h; exact .inl (h.1 ▸ hP' _ _ rfl)
  have e2 : reAuthority (cl!"//" ++ A ++ P ++ cl!"#" ++ f) = (some A, P ++ '#' :: f) := by
    have h1 : ∀ c ∈ A, (!(c == '/' || c == '?' || c == '#')) = true := by
      intro c hc; have := hA c hc; simp at this; simp [this]
    have h2 : ∀ c r, P ++ '#' :: f = c :: r → (!(c == '/' || c == '?' || c == '#')) = false := by
      intro c r h; rcases tail c r h with h | h <;> simp [h]
    have e : cl!"//" ++ A ++ P ++ cl!"#" ++ f = '/' :: '/' :: (A ++ (P ++ '#' :: f)) := by simp
    rw [e]
    simp only [reAuthority, takeWhile_stop h1 h2, dropWhile_stop h1 h2]
  have e3 : rePath (P ++ '#' :: f) = (P, '#' :: f) := by
    have h1 : ∀ c ∈ P, (!(c == '?' || c == '#')) = true := by
      intro c hc; have := hP c hc; simp at this; simp [this]
    have h2 : ∀ c r, '#' :: f = c :: r → (!(c == '?' || c == '#')) = false := by
      intro c r h; simp at h; simp [← h.1]
    simp only [rePath, takeWhile_stop h1 h2, dropWhile_stop h1 h2]
  have e4 : f.takeWhile (fun c => !(c == '\n')) = f := by
    have := takeWhile_stop (p := fun c => !(c == '\n')) (a := f) (b := [])
      (by intro c hc; simp; rintro rfl; exact hf hc) (by simp)
    simpa using this
  have e5 : reQuery ('#' :: f) = (none, '#' :: f) := by simp [reQuery]
  have e6 : reFragment ('#' :: f) = some f := by simp only [reFragment, e4]
  simp only [reMatch, e1, e2, e3, e5, e6]

end Verif
