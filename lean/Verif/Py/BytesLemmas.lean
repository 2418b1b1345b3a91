import Verif.Py.BytesIO
import Mathlib.Data.List.Basic
/-! # `io.BytesIO` facts -/
namespace Verif.BytesIO

/-- writing at the end appends -/
theorem write_end (data d : Bytes) : write data data.length d = (data ++ d, data.length + d.length) := by
  unfold write
  split
  · rename_i h; simp [h]
  · simp

theorem write_length (data d : Bytes) (pos : Nat) (h : d ≠ []) :
    (write data pos d).1.length = max data.length (pos + d.length) := by
  simp only [write, if_neg h, List.length_append, List.length_take, List.length_drop, List.length_replicate]
  omega

/-- the byte at every index after a write: before the position the old bytes (or zeros in a gap), then the
    new bytes, then the old ones -/
theorem write_get (data d : Bytes) (pos : Nat) (h : d ≠ []) (k : Nat) :
    (write data pos d).1[k]? =
      if k < pos then (if k < data.length then data[k]? else some 0)
      else if k < pos + d.length then d[k - pos]? else data[k]? := by
  simp only [write, if_neg h]
  have hb : (data ++ List.replicate (pos - data.length) 0).length = max data.length pos := by
    simp; omega
  by_cases h1 : k < pos
  · rw [if_pos h1, List.append_assoc, List.getElem?_append_left (by rw [List.length_take, hb]; omega),
      List.getElem?_take_of_lt h1]
    by_cases h2 : k < data.length
    · rw [if_pos h2, List.getElem?_append_left h2]
    · rw [if_neg h2, List.getElem?_append_right (by omega), List.getElem?_replicate]
      rw [if_pos (by omega)]
  · rw [if_neg h1, List.append_assoc, List.getElem?_append_right (by rw [List.length_take, hb]; omega)]
    have h3 : k - ((data ++ List.replicate (pos - data.length) 0).take pos).length = k - pos := by
      rw [List.length_take, hb]; omega
    rw [h3]
    by_cases h2 : k < pos + d.length
    · rw [if_pos h2, List.getElem?_append_left (by omega)]
    · rw [if_neg h2, List.getElem?_append_right (by omega), List.getElem?_drop]
      have h4 : pos + d.length + (k - pos - d.length) = k := by omega
      rw [h4]
      by_cases h5 : k < data.length
      · rw [List.getElem?_append_left h5]
      · rw [List.getElem?_append_right (by omega), List.getElem?_replicate, if_neg (by omega)]
        rw [List.getElem?_eq_none (by omega)]

theorem read_all (data : Bytes) (pos : Nat) : read data pos (-1) = (data.drop pos, pos + (data.length - pos)) := by
  simp [read]

theorem read_some (data : Bytes) (pos n : Nat) :
    read data pos n = ((data.drop pos).take n, pos + min n (data.length - pos)) := by
  have : ¬ ((n : Int) < 0) := by omega
  simp [read, this, List.length_take]

theorem firstLine_append (l : Bytes) : ∃ r, l = firstLine l ++ r := by
  induction l with
  | nil => exact ⟨[], rfl⟩
  | cons b l ih =>
    simp only [firstLine]
    split
    · exact ⟨l, by simp⟩
    · obtain ⟨r, hr⟩ := ih; exact ⟨r, by simp [← hr]⟩

theorem firstLine_ne_nil {l : Bytes} (h : l ≠ []) : firstLine l ≠ [] := by
  cases l with
  | nil => exact absurd rfl h
  | cons b l => simp only [firstLine]; split <;> simp

/-- a line has no newline except possibly its last byte -/
theorem firstLine_newline {l : Bytes} : ∀ a b, firstLine l = a ++ 10 :: b → b = [] := by
  induction l with
  | nil => intro a b h; simp [firstLine] at h
  | cons x l ih =>
    intro a b h
    simp only [firstLine] at h
    split at h
    · cases a with
      | nil => simp at h; exact h.2
      | cons y a => simp at h
    · rename_i hx
      cases a with
      | nil => simp at h; exact absurd h.1 hx
      | cons y a => simp at h; exact ih a b h.2

/-- a line that does not end in a newline is the whole rest -/
theorem firstLine_eq {l : Bytes} (h : (firstLine l).getLast? ≠ some 10) : firstLine l = l := by
  induction l with
  | nil => rfl
  | cons x l ih =>
    simp only [firstLine] at h ⊢
    split at h
    · rename_i hx; simp [hx] at h
    · rename_i hx
      rw [if_neg hx]
      congr 1
      cases l with
      | nil => rfl
      | cons y l =>
        apply ih
        have hne := firstLine_ne_nil (l := y :: l) (by simp)
        rw [List.getLast?_cons] at h
        intro h'
        rw [h'] at h
        simp at h

end Verif.BytesIO
