import Verif.Spec.Rfc3986
import Verif.Uri.Lemmas
/-! # `urisplit` against RFC 3986 -/
namespace Verif
open Spec

theorem mem_takeWhile_imp {p : Char → Bool} {s : Str} {c : Char} (h : c ∈ s.takeWhile p) : p c = true := by
  induction s with
  | nil => simp at h
  | cons x s ih =>
    simp only [List.takeWhile] at h
    split at h
    · rcases List.mem_cons.1 h with rfl | h
      · assumption
      · exact ih h
    · simp at h

theorem dropWhile_head {p : Char → Bool} {s : Str} {c : Char} {r : Str} (h : s.dropWhile p = c :: r) :
    p c = false := by
  induction s with
  | nil => simp at h
  | cons x s ih =>
    simp only [List.dropWhile] at h
    split at h
    · exact ih h
    · rename_i hx; simp at h; rw [← h.1]; simpa using hx

theorem reScheme_spec (s : Str) :
    (reScheme s).1.elim [] (· ++ cl!":") ++ (reScheme s).2 = s ∧
    ∀ a, (reScheme s).1 = some a → a ≠ [] ∧ NoneOf cl!":/?#" a := by
  unfold reScheme
  simp only
  split
  · rename_i r h
    split
    · simp
    · rename_i hne
      refine ⟨?_, ?_⟩
      · conv => rhs; rw [← List.takeWhile_append_dropWhile (p := fun c => !(c == ':' || c == '/' || c == '?' || c == '#')) (l := s)]
        rw [h]; simp
      · intro a ha
        simp at ha
        subst ha
        refine ⟨by simpa using hne, ?_⟩
        intro c hc
        have := mem_takeWhile_imp hc
        simp at this
        simp; tauto
  · simp

theorem reAuthority_spec (s : Str) :
    (reAuthority s).1.elim [] (cl!"//" ++ ·) ++ (reAuthority s).2 = s ∧
    (∀ a, (reAuthority s).1 = some a → NoneOf cl!"/?#" a ∧
      ∀ c r, (reAuthority s).2 = c :: r → c ∈ cl!"/?#") := by
  unfold reAuthority
  split
  · rename_i r
    refine ⟨by simp [List.takeWhile_append_dropWhile], ?_⟩
    intro a ha
    simp at ha
    subst ha
    refine ⟨?_, ?_⟩
    · intro c hc
      have := mem_takeWhile_imp hc
      simp at this; simp; tauto
    · intro c r' h
      have := dropWhile_head h
      simp at this; simp; tauto
  · simp

theorem rePath_spec (s : Str) :
    (rePath s).1 ++ (rePath s).2 = s ∧ NoneOf cl!"?#" (rePath s).1 ∧
      ∀ c r, (rePath s).2 = c :: r → c ∈ cl!"?#" := by
  refine ⟨List.takeWhile_append_dropWhile, ?_, ?_⟩
  · intro c hc
    have := mem_takeWhile_imp hc
    simp at this; simp; tauto
  · intro c r h
    have := dropWhile_head h
    simp at this; simp; tauto

theorem reQuery_spec (s : Str) (hs : ∀ c r, s = c :: r → c ∈ cl!"?#") :
    (reQuery s).1.elim [] (cl!"?" ++ ·) ++ (reQuery s).2 = s ∧
    (∀ a, (reQuery s).1 = some a → NoneOf cl!"#" a) ∧
    ∀ c r, (reQuery s).2 = c :: r → c = '#' := by
  unfold reQuery
  split
  · rename_i r
    refine ⟨by simp [List.takeWhile_append_dropWhile], ?_, ?_⟩
    · intro a ha
      simp at ha
      subst ha
      intro c hc
      have := mem_takeWhile_imp hc
      simp at this; simpa using this
    · intro c r' h
      have := dropWhile_head h
      simpa using this
  · rename_i hn
    refine ⟨by simp, by simp, ?_⟩
    intro c r h
    have := hs c r h
    simp at this
    rcases this with rfl | rfl
    · exact absurd h (hn r)
    · rfl

/-- The regular expression of uriparse.py:75 follows RFC 3986, for newline-free text. -/
theorem reMatch_spec (s : Str) (hn : '\n' ∉ s) : recompose (reMatch s) = s ∧ Grammar (reMatch s) := by
  have a1 := reScheme_spec s
  have a2 := reAuthority_spec (reScheme s).2
  have a3 := rePath_spec (reAuthority (reScheme s).2).2
  have a4 := reQuery_spec (rePath (reAuthority (reScheme s).2).2).2 a3.2.2
  have e : reMatch s = ⟨(reScheme s).1, (reAuthority (reScheme s).2).1,
    (rePath (reAuthority (reScheme s).2).2).1, (reQuery (rePath (reAuthority (reScheme s).2).2).2).1,
    reFragment (reQuery (rePath (reAuthority (reScheme s).2).2).2).2⟩ := rfl
  rw [e]
  generalize reScheme s = x1 at *
  obtain ⟨sch, s1⟩ := x1
  dsimp only at *
  generalize reAuthority s1 = x2 at *
  obtain ⟨au, s2⟩ := x2
  dsimp only at *
  generalize hx3 : rePath s2 = x3 at *
  obtain ⟨pa, s3⟩ := x3
  dsimp only at *
  generalize reQuery s3 = x4 at *
  obtain ⟨qu, s4⟩ := x4
  dsimp only at *
  have hs4 : '\n' ∉ s4 := by
    intro h
    apply hn
    rw [← a1.1, ← a2.1, ← a3.1, ← a4.1]
    simp [h]
  have hf : (reFragment s4).elim [] (cl!"#" ++ ·) = s4 := by
    unfold reFragment
    split
    · rename_i r
      have : r.takeWhile (fun c => !(c == '\n')) = r := by
        have := takeWhile_stop (p := fun c => !(c == '\n')) (a := r) (b := [])
          (by intro c hc; simp; rintro rfl; exact hs4 (by simp [hc])) (by simp)
        simpa using this
      rw [this]; simp
    · rename_i hne
      cases s4 with
      | nil => rfl
      | cons c r => exact absurd (by rw [a4.2.2 c r rfl]) (hne r)
  refine ⟨?_, ⟨a1.2, ?_, a3.2.1, a4.2.1⟩⟩
  · simp only [recompose]
    rw [hf]
    have h4 := a4.1; have h3 := a3.1; have h2 := a2.1; have h1 := a1.1
    rw [← h4] at h3
    rw [← h3] at h2
    rw [← h2] at h1
    rw [← h1]
    simp only [List.append_assoc]
  · intro a ha
    refine ⟨(a2.2 a ha).1, ?_⟩
    intro c r hpa
    dsimp only at hpa
    have := (a2.2 a ha).2 c (r ++ s3) (by rw [← a3.1, hpa]; rfl)
    have hc := a3.2.1 c (by rw [hpa]; simp)
    simp at this hc
    tauto

theorem reMatch_authority (s : Str) : (∃ a, (reMatch s).authority = some a) ↔ HasAuthority s := by
  have key : ∀ s1, (∃ a, (reAuthority s1).1 = some a) ↔ ∃ r, s1 = cl!"//" ++ r := by
    intro s1
    unfold reAuthority
    split
    · simp
    · rename_i h
      simp
      intro r hr
      exact h r hr
  change (∃ a, (reAuthority (reScheme s).2).1 = some a) ↔ _
  rw [key]
  have a1 := reScheme_spec s
  constructor
  · rintro ⟨r, hr⟩
    rw [hr] at a1
    cases h : (reScheme s).1 with
    | none => rw [h] at a1; exact .inl ⟨r, by simpa using a1.1.symm⟩
    | some sch =>
      rw [h] at a1
      refine .inr ⟨sch, r, (a1.2 sch rfl).1, (a1.2 sch rfl).2, by simpa using a1.1.symm⟩
  · rintro (⟨r, rfl⟩ | ⟨sch, r, h1, h2, rfl⟩)
    · exact ⟨r, by simp [reScheme]⟩
    · refine ⟨r, ?_⟩
      have t1 : (sch ++ (cl!"://" ++ r)).takeWhile
          (fun c => !(c == ':' || c == '/' || c == '?' || c == '#')) = sch :=
        takeWhile_stop (fun c hc => by have := h2 c hc; simp at this; simp [this])
          (by intro c r h; simp at h; simp [← h.1])
      have t2 : (sch ++ (cl!"://" ++ r)).dropWhile
          (fun c => !(c == ':' || c == '/' || c == '?' || c == '#')) = cl!"://" ++ r :=
        dropWhile_stop (fun c hc => by have := h2 c hc; simp at this; simp [this])
          (by intro c r h; simp at h; simp [← h.1])
      have e : sch ++ cl!"://" ++ r = sch ++ (cl!"://" ++ r) := by simp
      rw [e]
      simp only [reScheme, t1, t2]
      simp [h1]

end Verif
