import Verif.Py.Sort
/-! # `sorted` on strings -/
namespace Verif

/-- Python's `a < b` on strings -/
def strLt (a b : Str) : Prop := strLe a b = true ∧ a ≠ b

theorem strLe_refl (a : Str) : strLe a a = true := by
  induction a with
  | nil => rfl
  | cons c a ih => simp [strLe, ih]

theorem strLe_total (a b : Str) : strLe a b = true ∨ strLe b a = true := by
  induction a generalizing b with
  | nil => simp [strLe]
  | cons c a ih =>
    cases b with
    | nil => simp [strLe]
    | cons d b =>
      simp only [strLe]
      rcases Nat.lt_trichotomy c.toNat d.toNat with h | h | h
      · simp [h]
      · rcases ih b with h' | h' <;> simp [h, h']
      · simp [h]

theorem strLe_trans {a b c : Str} (h1 : strLe a b = true) (h2 : strLe b c = true) : strLe a c = true := by
  induction a generalizing b c with
  | nil => simp [strLe]
  | cons x a ih =>
    cases b with
    | nil => simp [strLe] at h1
    | cons y b =>
      cases c with
      | nil => simp [strLe] at h2
      | cons z c =>
        simp only [strLe] at h1 h2 ⊢
        by_cases hxy : x.toNat < y.toNat
        · by_cases hyz : y.toNat < z.toNat
          · rw [if_pos (by omega)]
          · rw [if_neg hyz] at h2
            by_cases he : y.toNat = z.toNat
            · rw [if_pos (by omega)]
            · rw [if_neg he] at h2; simp at h2
        · rw [if_neg hxy] at h1
          by_cases he : x.toNat = y.toNat
          · rw [if_pos he] at h1
            by_cases hyz : y.toNat < z.toNat
            · rw [if_pos (by omega)]
            · rw [if_neg hyz] at h2
              by_cases he2 : y.toNat = z.toNat
              · rw [if_pos he2] at h2
                rw [if_neg (by omega), if_pos (by omega)]
                exact ih h1 h2
              · rw [if_neg he2] at h2; simp at h2
          · rw [if_neg he] at h1; simp at h1

theorem strLe_antisymm {a b : Str} (h1 : strLe a b = true) (h2 : strLe b a = true) : a = b := by
  induction a generalizing b with
  | nil => cases b with
    | nil => rfl
    | cons y b => simp [strLe] at h2
  | cons x a ih =>
    cases b with
    | nil => simp [strLe] at h1
    | cons y b =>
      simp only [strLe] at h1 h2
      by_cases hxy : x.toNat < y.toNat
      · rw [if_neg (by omega), if_neg (by omega)] at h2; simp at h2
      · rw [if_neg hxy] at h1
        by_cases he : x.toNat = y.toNat
        · rw [if_pos he] at h1
          rw [if_neg (by omega), if_pos he.symm] at h2
          rw [ih h1 h2, Char.toNat_inj.1 he]
        · rw [if_neg he] at h1; simp at h1

theorem mem_insertStr {x y : Str} {l : List Str} : y ∈ insertStr x l ↔ y = x ∨ y ∈ l := by
  induction l with
  | nil => simp [insertStr]
  | cons z l ih =>
    simp only [insertStr]
    split
    · simp
    · simp only [List.mem_cons, ih]; exact or_left_comm

theorem mem_sortStr {y : Str} {l : List Str} : y ∈ sortStr l ↔ y ∈ l := by
  induction l with
  | nil => simp [sortStr]
  | cons x l ih => simp [sortStr, mem_insertStr, ih]

theorem pairwise_insertStr {x : Str} {l : List Str} (hx : x ∉ l) (h : l.Pairwise strLt) :
    (insertStr x l).Pairwise strLt := by
  induction l with
  | nil => simp [insertStr]
  | cons z l ih =>
    rw [List.pairwise_cons] at h
    simp only [insertStr]
    have hxz : x ≠ z := by rintro rfl; simp at hx
    split
    · rename_i hle
      rw [List.pairwise_cons]
      refine ⟨?_, List.pairwise_cons.2 h⟩
      intro y hy
      rcases List.mem_cons.1 hy with rfl | hy'
      · exact ⟨hle, hxz⟩
      · exact ⟨strLe_trans hle (h.1 y hy').1, by rintro rfl; exact hx (List.mem_cons_of_mem _ hy')⟩
    · rename_i hle
      rw [List.pairwise_cons]
      refine ⟨?_, ih (fun h' => hx (List.mem_cons_of_mem _ h')) h.2⟩
      intro y hy
      rcases mem_insertStr.1 hy with rfl | hy'
      · rcases strLe_total y z with h' | h'
        · exact absurd h' hle
        · exact ⟨h', fun e => hxz e.symm⟩
      · exact h.1 y hy'

/-- sorting a duplicate-free list gives a strictly increasing one -/
theorem pairwise_sortStr {l : List Str} (h : l.Nodup) : (sortStr l).Pairwise strLt := by
  induction l with
  | nil => simp [sortStr]
  | cons x l ih =>
    rw [List.nodup_cons] at h
    exact pairwise_insertStr (by rw [mem_sortStr]; exact h.1) (ih h.2)

theorem nodup_of_pairwise {l : List Str} (h : l.Pairwise strLt) : l.Nodup :=
  List.Pairwise.imp (fun h => h.2) h

theorem nodup_sortStr {l : List Str} (h : l.Nodup) : (sortStr l).Nodup :=
  nodup_of_pairwise (pairwise_sortStr h)

/-- a strictly increasing list is its own sorting -/
theorem sortStr_of_pairwise {l : List Str} (h : l.Pairwise strLt) : sortStr l = l := by
  induction l with
  | nil => rfl
  | cons x l ih =>
    rw [List.pairwise_cons] at h
    rw [sortStr, ih h.2]
    cases l with
    | nil => rfl
    | cons y l => simp [insertStr, (h.1 y (by simp)).1]

theorem sortStr_sortStr {l : List Str} (h : l.Nodup) : sortStr (sortStr l) = sortStr l :=
  sortStr_of_pairwise (pairwise_sortStr h)

/-- strictly increasing lists with the same elements are equal -/
theorem pairwise_ext {l m : List Str} (hl : l.Pairwise strLt) (hm : m.Pairwise strLt)
    (h : ∀ x, x ∈ l ↔ x ∈ m) : l = m := by
  induction l generalizing m with
  | nil => cases m with
    | nil => rfl
    | cons y m => exact absurd ((h y).2 (by simp)) (by simp)
  | cons x l ih =>
    cases m with
    | nil => exact absurd ((h x).1 (by simp)) (by simp)
    | cons y m =>
      rw [List.pairwise_cons] at hl hm
      have hxy : x = y := by
        rcases List.mem_cons.1 ((h x).1 (by simp)) with e | hx
        · exact e
        · rcases List.mem_cons.1 ((h y).2 (by simp)) with e | hy
          · exact e.symm
          · exact strLe_antisymm (hl.1 y hy).1 (hm.1 x hx).1
      subst hxy
      rw [ih hl.2 hm.2]
      intro z
      have := h z
      simp only [List.mem_cons] at this
      constructor
      · intro hz
        rcases this.1 (.inr hz) with e | e
        · exact absurd e (fun e => (hl.1 z hz).2 e.symm)
        · exact e
      · intro hz
        rcases this.2 (.inr hz) with e | e
        · exact absurd e (fun e => (hm.1 z hz).2 e.symm)
        · exact e

end Verif
