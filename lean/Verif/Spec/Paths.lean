import Verif.Mem.ApiLemmas
/-! # All locations of a file system, for examples, and how deep it is -/
namespace Verif.Spec
open Verif.Mem

/-- the locations below object `i`, at most `fuel` levels -/
def allPaths (w : World) : Nat → Nat → List (List Str)
  | 0, _ => [[]]
  | fuel + 1, i => [] :: (w.entries i).flatMap fun e => (allPaths w fuel e.2).map (e.1 :: ·)

theorem mem_allPaths {w : World} : ∀ (fuel : Nat) {i c : Nat} {q : List Str}, phys w i q = some c → q.length ≤ fuel →
    q ∈ allPaths w fuel i := by
  intro fuel
  induction fuel with
  | zero => intro i c q _ h; cases q <;> simp_all [allPaths]
  | succ fuel ih =>
    intro i c q hp hl
    cases q with
    | nil => simp [allPaths]
    | cons n q =>
      unfold phys at hp
      cases hd : w.node i with
      | file f => rw [hd] at hp; simp at hp
      | link l => rw [hd] at hp; simp at hp
      | dir d =>
        rw [hd] at hp
        simp only at hp
        cases hk : d.files.lookup n with
        | none => rw [hk] at hp; simp at hp
        | some c' =>
          rw [hk] at hp
          unfold allPaths
          refine List.mem_cons_of_mem _ (List.mem_flatMap.2 ⟨(n, c'), ?_, ?_⟩)
          · rw [entries_dir hd]; exact lookup_mem hk
          · exact List.mem_map.2 ⟨q, ih hp (by simp at hl; omega), rfl⟩

/-- children are younger, so paths are no longer than there are objects -/
theorem phys_length {w : World} (hw : Inv w) : ∀ {q : List Str} {i c : Nat}, phys w i q = some c → i + q.length ≤ c := by
  intro q
  induction q with
  | nil => intro i c h; simp [phys] at h; simp [h]
  | cons n q ih =>
    intro i c h
    unfold phys at h
    cases hd : w.node i with
    | file f => rw [hd] at h; simp at h
    | link l => rw [hd] at h; simp at h
    | dir d =>
      rw [hd] at h
      simp only at h
      cases hk : d.files.lookup n with
      | none => rw [hk] at h; simp at h
      | some c' =>
        rw [hk] at h
        have h1 := ih h
        have h2 := (hw.child i n c' (by rw [entries_dir hd]; exact lookup_mem hk)).1
        simp; omega

theorem view_length {w : World} (hw : Inv w) {r : Nat} (hr : IsRoot w r) {q : List Str} (h : view w r q ≠ none) :
    q.length < w.next := by
  unfold view at h
  cases hp : phys w r q with
  | none => rw [hp] at h; simp at h
  | some c =>
    have h1 := phys_length hw hp
    have h2 := phys_lt hw hr hp
    omega

theorem view_mem_allPaths {w : World} (hw : Inv w) {r : Nat} (hr : IsRoot w r) {q : List Str} (h : view w r q ≠ none) :
    q ∈ allPaths w w.next r := by
  have := view_length hw hr h
  unfold view at h
  cases hp : phys w r q with
  | none => rw [hp] at h; simp at h
  | some c => exact mem_allPaths _ hp (by omega)

end Verif.Spec
