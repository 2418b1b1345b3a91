import Verif.Py.Str
import Mathlib.Tactic.Tauto
import Mathlib.Tactic.ByContra
/-! # Facts about the string primitives -/
namespace Verif

/-- no character of `s` is in `bad` -/
def NoneOf (bad s : Str) : Prop := ∀ c ∈ s, c ∉ bad

instance (bad s : Str) : Decidable (NoneOf bad s) := by unfold NoneOf; infer_instance

theorem NoneOf.append {bad a b : Str} : NoneOf bad (a ++ b) ↔ NoneOf bad a ∧ NoneOf bad b := by
  simp only [NoneOf, List.mem_append]
  constructor
  · intro h; exact ⟨fun c hc => h c (.inl hc), fun c hc => h c (.inr hc)⟩
  · rintro ⟨h1, h2⟩ c (hc | hc); exacts [h1 c hc, h2 c hc]

theorem NoneOf.cons {bad : Str} {x : Char} {a : Str} :
    NoneOf bad (x :: a) ↔ x ∉ bad ∧ NoneOf bad a := by
  simp [NoneOf]

theorem NoneOf.nil {bad : Str} : NoneOf bad [] := by simp [NoneOf]

theorem NoneOf.not_mem {bad a : Str} {c : Char} (h : NoneOf bad a) (hc : c ∈ bad) : c ∉ a :=
  fun hm => h c hm hc

theorem takeWhile_stop {p : Char → Bool} {a b : Str} (ha : ∀ c ∈ a, p c = true)
    (hb : ∀ c r, b = c :: r → p c = false) : (a ++ b).takeWhile p = a := by
  induction a with
  | nil =>
    cases b with
    | nil => rfl
    | cons c r => simp [hb c r rfl]
  | cons x a ih =>
    have hx := ha x (by simp)
    simp only [List.cons_append, List.takeWhile, hx]
    rw [ih (fun c hc => ha c (by simp [hc]))]

theorem dropWhile_stop {p : Char → Bool} {a b : Str} (ha : ∀ c ∈ a, p c = true)
    (hb : ∀ c r, b = c :: r → p c = false) : (a ++ b).dropWhile p = b := by
  induction a with
  | nil =>
    cases b with
    | nil => rfl
    | cons c r => simp [hb c r rfl]
  | cons x a ih =>
    have hx := ha x (by simp)
    simp only [List.cons_append, List.dropWhile, hx]
    rw [ih (fun c hc => ha c (by simp [hc]))]

theorem hasSub_iff {p s : Str} : hasSub p s = true ↔ p <:+: s := by
  induction s with
  | nil => simp [hasSub]
  | cons c s ih =>
    simp only [hasSub, Bool.or_eq_true, List.isPrefixOf_iff_prefix, ih]
    exact List.infix_cons_iff.symm

theorem hasSub_false_iff {p s : Str} : hasSub p s = false ↔ ¬ p <:+: s := by
  rw [← hasSub_iff]; simp

theorem hasSub_append_left {p a b : Str} (h : hasSub p a = true) : hasSub p (a ++ b) = true := by
  rw [hasSub_iff] at *
  exact h.trans (List.infix_append' [] a b)

theorem hasSub_append_right {p a b : Str} (h : hasSub p b = true) : hasSub p (a ++ b) = true := by
  rw [hasSub_iff] at *
  exact h.trans (List.suffix_append a b).isInfix

theorem hasSub_mid {p a b : Str} : hasSub p (a ++ (p ++ b)) = true :=
  hasSub_append_right (hasSub_append_left (hasSub_iff.2 (List.infix_refl p)))

/-- a doubled character cannot span a different one -/
theorem hasDbl_append {d x : Char} {a b : Str} (hx : x ≠ d) :
    hasSub [d, d] (a ++ x :: b) = (hasSub [d, d] a || hasSub [d, d] b) := by
  induction a with
  | nil =>
    have : ¬ (d = x) := fun h => hx h.symm
    simp [hasSub, this]
  | cons y a ih =>
    simp only [List.cons_append, hasSub, ih, ← Bool.or_assoc]
    congr 2
    have : ¬ (d = x) := fun h => hx h.symm
    cases a with
    | nil => simp [List.isPrefixOf, this]
    | cons z a => simp [List.isPrefixOf]

theorem hasDbl_cons {d x : Char} {b : Str} (hx : x ≠ d) :
    hasSub [d, d] (x :: b) = hasSub [d, d] b := by
  have := hasDbl_append (a := []) (b := b) hx
  simpa [hasSub] using this

theorem hasDbl_of_not_mem {d : Char} {a : Str} (h : d ∉ a) : hasSub [d, d] a = false := by
  rw [hasSub_false_iff]
  intro hi
  exact h (hi.subset (by simp))

theorem hasDbl_append_of_not_mem {d : Char} {a b : Str} (h : d ∉ a) :
    hasSub [d, d] (a ++ b) = hasSub [d, d] b := by
  induction a with
  | nil => rfl
  | cons x a ih =>
    have hx : x ≠ d := fun h' => h (by simp [h'])
    rw [List.cons_append, hasDbl_cons hx, ih (fun h' => h (by simp [h']))]

theorem splitC_ne_nil {c : Char} {s : Str} : splitC c s ≠ [] := by
  induction s with
  | nil => simp [splitC]
  | cons x s ih =>
    simp only [splitC]
    split
    · simp
    · cases h : splitC c s <;> simp

theorem splitC_of_not_mem {c : Char} {s : Str} (h : c ∉ s) : splitC c s = [s] := by
  induction s with
  | nil => rfl
  | cons x s ih =>
    have hx : x ≠ c := fun h' => h (by simp [h'])
    simp [splitC, hx, ih (fun h' => h (by simp [h']))]

theorem splitC_append {c : Char} {a b : Str} (h : c ∉ a) :
    splitC c (a ++ c :: b) = a :: splitC c b := by
  induction a with
  | nil => simp [splitC]
  | cons x a ih =>
    have hx : x ≠ c := fun h' => h (by simp [h'])
    simp [splitC, hx, ih (fun h' => h (by simp [h']))]

/-- splitting undoes joining -/
theorem splitC_joinS {c : Char} {l : List Str} (hl : l ≠ []) (h : ∀ s ∈ l, c ∉ s) :
    splitC c (joinS [c] l) = l := by
  induction l with
  | nil => exact absurd rfl hl
  | cons x r ih =>
    cases r with
    | nil => simpa [joinS] using splitC_of_not_mem (h x (by simp))
    | cons y r =>
      have := ih (by simp) (fun s hs => h s (by simp [hs]))
      simp only [joinS, List.append_assoc, List.singleton_append]
      rw [splitC_append (h x (by simp)), this]

/-- joining undoes splitting -/
theorem joinS_splitC {c : Char} {s : Str} : joinS [c] (splitC c s) = s := by
  induction s with
  | nil => rfl
  | cons x s ih =>
    simp only [splitC]
    split
    · rename_i h
      subst h
      cases hs : splitC x s with
      | nil => exact absurd hs splitC_ne_nil
      | cons a r => rw [hs] at ih; simp [joinS, ih]
    · cases hs : splitC c s with
      | nil => exact absurd hs splitC_ne_nil
      | cons a r =>
        rw [hs] at ih
        cases r with
        | nil => simp [joinS] at ih ⊢; exact ih
        | cons b r => simp [joinS] at ih ⊢; exact ih

theorem splitC_mem_not_mem {c : Char} {s p : Str} (h : p ∈ splitC c s) : c ∉ p := by
  induction s generalizing p with
  | nil => simp [splitC] at h; simp [h]
  | cons x s ih =>
    simp only [splitC] at h
    split at h
    · rcases List.mem_cons.1 h with h | h
      · simp [h]
      · exact ih h
    · rename_i hx
      cases hs : splitC c s with
      | nil => exact absurd hs splitC_ne_nil
      | cons a r =>
        rw [hs] at h
        rcases List.mem_cons.1 h with h | h
        · subst h
          have := ih (p := a) (by simp [hs])
          simp [this]; exact fun h' => hx h'.symm
        · exact ih (by simp [hs, h])

theorem split1_none {c : Char} {s : Str} (h : c ∉ s) : split1 c s = none := by
  induction s with
  | nil => rfl
  | cons x s ih =>
    have hx : x ≠ c := fun h' => h (by simp [h'])
    simp [split1, hx, ih (fun h' => h (by simp [h']))]

theorem split1_append {c : Char} {a b : Str} (h : c ∉ a) : split1 c (a ++ c :: b) = some (a, b) := by
  induction a with
  | nil => simp [split1]
  | cons x a ih =>
    have hx : x ≠ c := fun h' => h (by simp [h'])
    simp [split1, hx, ih (fun h' => h (by simp [h']))]

theorem split1_some {c : Char} {s a b : Str} (h : split1 c s = some (a, b)) :
    s = a ++ c :: b ∧ c ∉ a := by
  induction s generalizing a b with
  | nil => simp [split1] at h
  | cons x s ih =>
    simp only [split1] at h
    split at h
    · rename_i hx
      simp at h; obtain ⟨rfl, rfl⟩ := h; simp [hx]
    · rename_i hx
      simp only [Option.map_eq_some_iff] at h
      obtain ⟨⟨a', b'⟩, h1, h2⟩ := h
      simp at h2
      obtain ⟨rfl, rfl⟩ := h2
      obtain ⟨h3, h4⟩ := ih h1
      subst h3
      simp [h4]; exact fun h' => hx h'.symm

theorem split1_eq_none {c : Char} {s : Str} (h : split1 c s = none) : c ∉ s := by
  induction s with
  | nil => simp
  | cons x s ih =>
    simp only [split1] at h
    split at h
    · simp at h
    · rename_i hx
      simp at h
      simp [ih h]; exact fun h' => hx h'.symm

theorem rsplit1_none {c : Char} {s : Str} (h : c ∉ s) : rsplit1 c s = none := by
  induction s with
  | nil => rfl
  | cons x s ih =>
    have hx : x ≠ c := fun h' => h (by simp [h'])
    simp [rsplit1, hx, ih (fun h' => h (by simp [h']))]

theorem rsplit1_append {c : Char} {a b : Str} (h : c ∉ b) :
    rsplit1 c (a ++ c :: b) = some (a, b) := by
  induction a with
  | nil => simp [rsplit1, rsplit1_none h]
  | cons x a ih => simp [rsplit1, ih]

theorem rstripC_append {c : Char} {a : Str} {x : Char} (h : x ≠ c) :
    rstripC c (a ++ [x]) = a ++ [x] := by
  induction a with
  | nil => simp [rstripC, h]
  | cons y a ih =>
    simp only [List.cons_append, rstripC, ih]
    cases h' : a ++ [x] with
    | nil => simp at h'
    | cons z r => rfl

theorem rstripC_append_self {c : Char} {a : Str} : rstripC c (a ++ [c]) = rstripC c a := by
  induction a with
  | nil => simp [rstripC]
  | cons y a ih => simp [rstripC, ih]

theorem rstripC_of_not_mem {c : Char} {a : Str} (h : c ∉ a) : rstripC c a = a := by
  induction a with
  | nil => rfl
  | cons y a ih =>
    have hy : y ≠ c := fun h' => h (by simp [h'])
    simp only [rstripC, ih (fun h' => h (by simp [h']))]
    cases a <;> simp [hy]

theorem stripC_of_not_mem {c : Char} {a : Str} (h : c ∉ a) : stripC c a = a := by
  have : lstripC c a = a := by
    cases a with
    | nil => rfl
    | cons y a =>
      have hy : y ≠ c := fun h' => h (by simp [h'])
      simp [lstripC, List.dropWhile, hy]
  rw [stripC, this, rstripC_of_not_mem h]

theorem replaceC_of_not_mem {c d : Char} {a : Str} (h : c ∉ a) : replaceC c d a = a := by
  induction a with
  | nil => rfl
  | cons y a ih =>
    have hy : y ≠ c := fun h' => h (by simp [h'])
    have ih' := ih (fun h' => h (by simp [h']))
    simp only [replaceC] at ih'
    simp [replaceC, hy, ih']

theorem replaceAux_of_no_sub {old new s : Str} {n : Nat} (h : hasSub old s = false) :
    replaceAux old new n s = s := by
  induction n generalizing s with
  | zero => rfl
  | succ n ih =>
    cases s with
    | nil => rfl
    | cons c s =>
      simp only [hasSub, Bool.or_eq_false_iff] at h
      simp [replaceAux, h.1, ih h.2]

theorem replaceS_of_no_sub {old new s : Str} (h : hasSub old s = false) :
    replaceS old new s = s := replaceAux_of_no_sub h

theorem startsWith_iff {s p : Str} : startsWith s p = true ↔ ∃ r, s = p ++ r := by
  simp only [startsWith, List.isPrefixOf_iff_prefix]
  constructor
  · rintro ⟨r, hr⟩; exact ⟨r, hr.symm⟩
  · rintro ⟨r, hr⟩; exact ⟨r, hr.symm⟩

theorem endsWith_iff {s p : Str} : endsWith s p = true ↔ ∃ r, s = r ++ p := by
  simp only [endsWith, List.isSuffixOf_iff_suffix]
  constructor
  · rintro ⟨r, hr⟩; exact ⟨r, hr.symm⟩
  · rintro ⟨r, hr⟩; exact ⟨r, hr.symm⟩

theorem partition0_of_not_mem {c : Char} {s : Str} (h : c ∉ s) : partition0 c s = s := by
  have := takeWhile_stop (p := fun x => decide (x ≠ c)) (a := s) (b := [])
    (fun x hx => by simp; exact fun h' => h (h' ▸ hx)) (by simp)
  simpa [partition0] using this

theorem partition0_append {c : Char} {s r : Str} (h : c ∉ s) : partition0 c (s ++ c :: r) = s := by
  exact takeWhile_stop (p := fun x => decide (x ≠ c)) (a := s) (b := c :: r)
    (fun x hx => by simp; exact fun h' => h (h' ▸ hx)) (by simp)

end Verif
