import Verif.Conc.Seq
import Verif.Mem.Reach
/-!
# Storing a new object under a name that may be taken

`create` (memory.py:225-226) replaces what is there; without other threads the callers have looked before (memory.py:427, 460, 619).
-/
namespace Verif.Conc
open Mem Mem.M Spec

theorem mem_setEntry {l : List (Str × Nat)} (hd : (l.map Prod.fst).Nodup) {n m : Str} {i c : Nat} :
    (m, c) ∈ setEntry l n i → (m = n ∧ c = i) ∨ (m ≠ n ∧ (m, c) ∈ l) := by
  induction l with
  | nil => intro h; simp [setEntry] at h; exact .inl h
  | cons x l ih =>
    obtain ⟨k, v⟩ := x
    simp only [List.map_cons, List.nodup_cons] at hd
    intro h
    simp only [setEntry] at h
    split at h
    · rename_i hk
      rcases List.mem_cons.1 h with h1 | h1
      · exact .inl (by simpa using h1)
      · refine .inr ⟨?_, List.mem_cons_of_mem _ h1⟩
        intro e
        exact hd.1 (hk.trans e.symm ▸ List.mem_map.2 ⟨(m, c), h1, rfl⟩)
    · rename_i hk
      rcases List.mem_cons.1 h with h | h
      · obtain ⟨rfl, rfl⟩ := Prod.mk.inj h
        exact .inr ⟨hk, by simp⟩
      · rcases ih hd.2 h with h | ⟨h1, h2⟩
        · exact .inl h
        · exact .inr ⟨h1, List.mem_cons_of_mem _ h2⟩

theorem setEntry_keys {l : List (Str × Nat)} {n : Str} {i : Nat} :
    (setEntry l n i).map Prod.fst = if n ∈ l.map Prod.fst then l.map Prod.fst else l.map Prod.fst ++ [n] := by
  induction l with
  | nil => rfl
  | cons x l ih =>
    obtain ⟨k, v⟩ := x
    simp only [setEntry]
    by_cases hk : k = n
    · simp [hk]
    · rw [if_neg hk, List.map_cons, ih]
      have : ¬ n = k := fun e => hk e.symm
      simp only [List.map_cons, List.mem_cons, this, false_or]
      split <;> simp

theorem lookup_setEntry {l : List (Str × Nat)} {n m : Str} {i : Nat} :
    (setEntry l n i).lookup m = if m = n then some i else l.lookup m := by
  induction l with
  | nil =>
    by_cases h : m = n
    · simp [setEntry, h]
    · have : (m == n) = false := by simpa using h
      simp [setEntry, List.lookup_cons, this, h]
  | cons x l ih =>
    obtain ⟨k, v⟩ := x
    simp only [setEntry]
    by_cases hk : k = n
    · subst hk
      rw [if_pos rfl, List.lookup_cons, List.lookup_cons]
      by_cases h : m = k
      · simp [h]
      · have : (m == k) = false := by simpa using h
        simp [this, h]
    · rw [if_neg hk, List.lookup_cons, List.lookup_cons, ih]
      by_cases h : m = k
      · subst h; simp [hk]
      · have : (m == k) = false := by simpa using h
        simp [this]

theorem entries_put {w : World} (hw : Inv w) {nd : Nat} {d : DirObj} {name : Str} {n : Node}
    (hd : w.node nd = .dir d) (hl : Leaf n) (hnd : nd < w.next) (j : Nat) :
    (w.addChild nd d name n).entries j = if j = nd then setEntry (w.entries nd) name w.next else w.entries j := by
  by_cases h1 : j = nd
  · subst h1
    simp [World.entries, World.addChild, hd, DirObj.create]
  · by_cases h2 : j = w.next
    · subst h2
      have : w.entries w.next = [] := by simp [World.entries, hw.fresh w.next (Nat.le_refl _)]
      rw [if_neg h1, this]
      simp only [World.entries, World.addChild, if_neg h1, if_true]
      cases n with
      | dir e => simpa [Leaf] using hl
      | file f => rfl
      | link f => rfl
    · simp [World.entries, World.addChild, h1, h2]

theorem mem_put {w : World} (hw : Inv w) {nd : Nat} {d : DirObj} {name : Str} {n : Node}
    (hd : w.node nd = .dir d) (hl : Leaf n) (hnd : nd < w.next) {i c : Nat} {m : Str}
    (h : (m, c) ∈ (w.addChild nd d name n).entries i) :
    (i = nd ∧ m = name ∧ c = w.next) ∨ ((m, c) ∈ w.entries i ∧ ¬ (i = nd ∧ m = name)) := by
  rw [entries_put hw hd hl hnd] at h
  split at h
  · rename_i hi
    subst hi
    rcases mem_setEntry (hw.nodup i) h with ⟨h1, h2⟩ | ⟨h1, h2⟩
    · exact .inl ⟨rfl, h1, h2⟩
    · exact .inr ⟨h2, fun h => h1 h.2⟩
  · rename_i hi; exact .inr ⟨h, fun h => hi h.1⟩

theorem put_mem {w : World} {nd : Nat} {d : DirObj} {name : Str} {n : Node} :
    (name, w.next) ∈ (w.addChild nd d name n).entries nd := by
  have : (w.addChild nd d name n).entries nd = setEntry d.files name w.next := by
    simp [World.entries, World.addChild, DirObj.create]
  rw [this]
  exact lookup_mem (by rw [lookup_setEntry, if_pos rfl])

theorem inv_put {w : World} (hw : Inv w) {nd : Nat} {d : DirObj} {name : Str} {n : Node}
    (hd : w.node nd = .dir d) (hl : Leaf n) (hnd : nd < w.next) : Inv (w.addChild nd d name n) := by
  have he := entries_put (name := name) hw hd hl hnd
  have hmem : ∀ i m c, (m, c) ∈ (w.addChild nd d name n).entries i →
      (i = nd ∧ m = name ∧ c = w.next) ∨ (m, c) ∈ w.entries i := by
    intro i m c h
    rcases mem_put hw hd hl hnd h with h | h
    · exact .inl h
    · exact .inr h.1
  have hnew : ∀ i m, (m, w.next) ∉ w.entries i := by
    intro i m h; have := (hw.child i m _ h).2; omega
  refine ⟨?_, ?_, ?_, ?_, ?_, hw.roots⟩
  · intro i hi
    have hi' : w.next + 1 ≤ i := hi
    have h1 : i ≠ nd := by omega
    have h2 : i ≠ w.next := by omega
    simp only [World.addChild, if_neg h1, if_neg h2]
    exact hw.fresh i (by omega)
  · intro i
    rw [he]
    split
    · rw [setEntry_keys]
      split
      · exact hw.nodup nd
      · rename_i hm
        rw [List.nodup_append]
        refine ⟨hw.nodup nd, by simp, ?_⟩
        intro a ha b hb
        simp only [List.mem_singleton] at hb
        subst hb
        rintro rfl
        exact hm ha
    · exact hw.nodup i
  · intro i m c h
    show i < c ∧ c < w.next + 1
    rcases hmem i m c h with ⟨rfl, rfl, rfl⟩ | h
    · omega
    · have := hw.child i m c h; omega
  · intro i m j k c h h'
    rcases hmem i m c h with ⟨e1, e2, e3⟩ | h1
    · rcases hmem j k c h' with ⟨f1, f2, -⟩ | h2
      · exact ⟨e1.trans f1.symm, e2.trans f2.symm⟩
      · rw [e3] at h2; exact absurd h2 (hnew j k)
    · rcases hmem j k c h' with ⟨f1, f2, f3⟩ | h2
      · rw [f3] at h1; exact absurd h1 (hnew i m)
      · exact hw.uniq i m j k c h1 h2
  · intro k r hk
    obtain ⟨h1, h2, h3⟩ := hw.root k r hk
    refine ⟨?_, ?_, ?_⟩
    · show r < w.next + 1; omega
    · obtain ⟨e, he'⟩ := isDir_iff.1 h2
      rw [isDir_iff]
      by_cases hr : r = nd
      · exact ⟨d.create name w.next, by simp [World.addChild, hr]⟩
      · exact ⟨e, by simp [World.addChild, hr, he', Nat.ne_of_lt h1]⟩
    · intro i m hm
      rcases hmem i m r hm with ⟨rfl, rfl, rfl⟩ | h
      · omega
      · exact h3 i m h

theorem ext_put {w : World} (hw : Inv w) {nd : Nat} {d : DirObj} {x : Str} {n : Node} (hd : w.node nd = .dir d)
    (hl : Leaf n) (hnd : nd < w.next) : Ext w (w.addChild nd d x n) := by
  refine ⟨List.prefix_refl _, rfl, Nat.le_succ _, ?_, fun _ _ h => .inl h, Nat.le_refl _, ?_⟩
  · intro j m c h
    rcases mem_put hw hd hl hnd h with ⟨-, -, rfl⟩ | h
    · exact .inr (Nat.le_refl _)
    · exact .inl h.1
  · intro i hi
    simp only [World.addChild]
    split
    · rename_i hj; subst hj; rw [hd]; trivial
    · rw [if_neg (by omega)]; exact .rfl' _ _ _

/-- allocating an object that is not stored anywhere -/
theorem ext_alloc {w : World} (hw : Inv w) {n : Node} (hl : Leaf n) : Ext w (w.alloc n) := by
  have he : ∀ j, (w.alloc n).entries j = w.entries j := by
    intro j
    by_cases h : j = w.next
    · subst h
      rw [entries_dir (hw.fresh _ (Nat.le_refl _))]
      simp only [World.entries, World.alloc, if_true]
      cases n with
      | file f => rfl
      | link f => rfl
      | dir d => exact hl
    · simp [World.entries, World.alloc, h]
  refine ⟨List.prefix_refl _, rfl, Nat.le_succ _, ?_, fun _ _ h => .inl h, Nat.le_refl _, ?_⟩
  · intro j m c h; rw [he] at h; exact .inl h
  · intro i hi
    simp only [World.alloc]
    rw [if_neg (by omega)]; exact .rfl' _ _ _

end Verif.Conc
