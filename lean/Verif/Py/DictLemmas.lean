import Verif.Py.Dict
import Batteries.Data.List.Perm
/-! # Lemmas about dictionaries -/
namespace Verif

theorem Dict.get?_cons (k v : Str) (d : Dict) (x : Str) :
    Dict.get? ((k, v) :: d) x = if x = k then some v else d.get? x := by
  unfold Dict.get?
  rw [List.lookup_cons]
  by_cases h : x = k
  · simp [h]
  · have : (x == k) = false := by simpa using h
    simp [this, h]

theorem Dict.get?_some_mem {d : Dict} {k v : Str} (h : d.get? k = some v) : (k, v) ∈ d := by
  induction d with
  | nil => simp [Dict.get?] at h
  | cons kv d ih =>
    obtain ⟨a, b⟩ := kv
    rw [Dict.get?_cons] at h
    split at h
    · rename_i hk; simp at h; simp [hk, h]
    · exact List.mem_cons_of_mem _ (ih h)

theorem Dict.get?_of_mem {d : Dict} (hw : d.WF) {k v : Str} (h : (k, v) ∈ d) : d.get? k = some v := by
  induction d with
  | nil => simp at h
  | cons kv d ih =>
    obtain ⟨a, b⟩ := kv
    simp only [Dict.WF, List.map_cons, List.nodup_cons] at hw
    rw [Dict.get?_cons]
    rcases List.mem_cons.1 h with h' | h'
    · simp at h'; simp [h'.1, h'.2]
    · have : k ≠ a := by
        rintro rfl
        exact hw.1 (List.mem_map.2 ⟨(k, v), h', rfl⟩)
      rw [if_neg this]
      exact ih hw.2 h'

theorem Dict.get?_isSome_iff {d : Dict} {k : Str} : (∃ v, d.get? k = some v) ↔ k ∈ d.map Prod.fst := by
  induction d with
  | nil => simp [Dict.get?]
  | cons kv d ih =>
    obtain ⟨a, b⟩ := kv
    rw [Dict.get?_cons]
    by_cases h : k = a
    · simp [h]
    · rw [if_neg h, ih]; simp [h]

/-- `d == e` says that the dictionaries are the same finite map. -/
theorem Dict.eq_iff {d e : Dict} (hd : d.WF) (he : e.WF) : d.eq e = true ↔ ∀ k, d.get? k = e.get? k := by
  unfold Dict.eq
  simp only [Bool.and_eq_true, decide_eq_true_eq, List.all_eq_true]
  constructor
  · rintro ⟨hl, ha⟩ k
    cases hk : d.get? k with
    | some v => have := ha (k, v) (Dict.get?_some_mem hk); simpa using this.symm
    | none =>
      cases hk' : e.get? k with
      | none => rfl
      | some v =>
        exfalso
        have hsub : d.map Prod.fst ⊆ e.map Prod.fst := by
          intro x hx
          obtain ⟨kv, hkv, rfl⟩ := List.mem_map.1 hx
          exact Dict.get?_isSome_iff.1 ⟨_, ha kv hkv⟩
        have hperm := (List.subperm_of_subset hd hsub).perm_of_length_le (by simp [hl])
        have : k ∈ d.map Prod.fst := hperm.mem_iff.2 (Dict.get?_isSome_iff.1 ⟨v, hk'⟩)
        obtain ⟨v', hv'⟩ := Dict.get?_isSome_iff.2 this
        rw [hk] at hv'; simp at hv'
  · intro h
    refine ⟨?_, ?_⟩
    · have hperm : (d.map Prod.fst).Perm (e.map Prod.fst) := by
        refine (List.subperm_of_subset hd ?_).antisymm (List.subperm_of_subset he ?_)
        · intro x hx
          obtain ⟨v, hv⟩ := Dict.get?_isSome_iff.2 hx
          exact Dict.get?_isSome_iff.1 ⟨v, (h x).symm.trans hv⟩
        · intro x hx
          obtain ⟨v, hv⟩ := Dict.get?_isSome_iff.2 hx
          exact Dict.get?_isSome_iff.1 ⟨v, (h x).trans hv⟩
      simpa using hperm.length_eq
    · rintro ⟨k, v⟩ hkv
      rw [← h k]; exact Dict.get?_of_mem hd hkv

theorem Dict.set_keys {d : Dict} {k v x : Str} :
    x ∈ (d.set k v).map Prod.fst ↔ x = k ∨ x ∈ d.map Prod.fst := by
  induction d with
  | nil => simp [Dict.set]
  | cons kv d ih =>
    obtain ⟨a, b⟩ := kv
    simp only [Dict.set]
    split
    · rename_i h; subst h; simp
    · simp only [List.map_cons, List.mem_cons, ih]
      constructor
      · rintro (h | h | h) <;> simp [h]
      · rintro (h | h | h) <;> simp [h]

theorem Dict.set_WF {d : Dict} (h : d.WF) (k v : Str) : (d.set k v).WF := by
  induction d with
  | nil => simp [Dict.set, Dict.WF]
  | cons kv d ih =>
    obtain ⟨a, b⟩ := kv
    simp only [Dict.WF, List.map_cons, List.nodup_cons] at h
    simp only [Dict.set]
    split
    · rename_i hk; subst hk; simp only [Dict.WF, List.map_cons, List.nodup_cons]; exact h
    · rename_i hk
      simp only [Dict.WF, List.map_cons, List.nodup_cons]
      refine ⟨?_, ih h.2⟩
      rw [Dict.set_keys]
      rintro (h' | h')
      · exact hk h'.symm
      · exact h.1 h'

theorem Dict.erase_WF {d : Dict} (h : d.WF) (k : Str) : (d.erase k).WF := by
  unfold Dict.WF Dict.erase at *
  exact List.Nodup.sublist (List.Sublist.map _ List.filter_sublist) h

end Verif
