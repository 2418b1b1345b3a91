import Verif.Props.MemData
/-!
# Lines of a file opened as text (C39)
-/
namespace Verif.Props
open Mem Spec

theorem encChar_newline {c : Char} (h : (10 : UInt8) ∈ (encChar c).map UInt8.ofNat) : c = '\n' := by
  obtain ⟨x, hx, e⟩ := List.mem_map.1 h
  have hlt := encChar_lt c x hx
  have hx10 : x = 10 := by
    have := congrArg UInt8.toNat e
    simpa [Nat.mod_eq_of_lt hlt] using this
  subst hx10
  have hn : c.toNat = 10 := by
    simp only [encChar] at hx
    split at hx
    · exact (List.mem_singleton.1 hx).symm
    · exfalso
      split at hx
      · simp at hx; omega
      · split at hx <;> · simp at hx; omega
  exact Char.toNat_inj.1 (by rw [hn]; rfl)

theorem firstLine_skip {l r : Bytes} (h : (10 : UInt8) ∉ l) : BytesIO.firstLine (l ++ r) = l ++ BytesIO.firstLine r := by
  induction l with
  | nil => rfl
  | cons b l ih =>
    simp only [List.mem_cons, not_or] at h
    simp only [List.cons_append, BytesIO.firstLine, if_neg (Ne.symm h.1), ih h.2]

/-- the first line of an encoded text is the encoded first line of the text -/
theorem firstLine_encode (s : Str) : ∃ a b, s = a ++ b ∧ BytesIO.firstLine (utf8Encode s) = utf8Encode a ∧ (s ≠ [] → a ≠ []) ∧
    (∀ x y, a = x ++ '\n' :: y → y = []) ∧ (a.getLast? = some '\n' ∨ b = []) := by
  induction s with
  | nil => exact ⟨[], [], rfl, rfl, by simp, by simp, .inr rfl⟩
  | cons c s ih =>
    by_cases hc : c = '\n'
    · subst hc
      refine ⟨['\n'], s, rfl, rfl, by simp, ?_, .inl rfl⟩
      intro x y h
      cases x with
      | nil => simpa using h.symm
      | cons z x => simp at h
    · obtain ⟨a, b, rfl, h1, h2, h3, h4⟩ := ih
      refine ⟨c :: a, b, rfl, ?_, by simp, ?_, ?_⟩
      · rw [utf8Encode_cons, firstLine_skip (fun h => hc (encChar_newline h)), h1, ← utf8Encode_cons]
      · intro x y h
        cases x with
        | nil => simp only [List.nil_append, List.cons.injEq] at h; exact absurd h.1 hc
        | cons z x => simp only [List.cons_append, List.cons.injEq] at h; exact h3 x y h.2
      · rcases h4 with h4 | h4
        · left
          cases a with
          | nil => simp at h4
          | cons z a => simpa using h4
        · exact .inr h4

theorem utf8Encode_nil {s : Str} (h : utf8Encode s = []) : s = [] := by
  cases s with
  | nil => rfl
  | cons c s =>
    rw [utf8Encode_cons] at h
    simp [encChar_ne_nil] at h

/-- **C39** in text mode: if the rest of the file is UTF-8, iterating over the lines yields pieces that concatenate to the
    text, each non-empty, with no newline but at its end, and ending in a newline unless it is the last. -/
theorem C39_lines_text {h : Handle} (hb : h.binary = false) (n : Nat) : ∀ {w : World} {f : FileObj} {s : Str},
    w.node h.id = .file f → f.data.drop f.pos = utf8Encode s → f.data.length - f.pos < n →
    ∃ ls : List Str, (h.lines n w).1 = .ok (ls.map PyData.str) ∧ ls.flatten = s ∧
      (∀ l ∈ ls, l ≠ [] ∧ ∀ a b, l = a ++ '\n' :: b → b = []) ∧ ∀ l ∈ ls.dropLast, l.getLast? = some '\n' := by
  induction n with
  | zero => intro w f s _ _ hn; omega
  | succ n ih =>
    intro w f s hf hs hn
    have e := next_eq (h := h) hf
    obtain ⟨a, b, rfl, h1, h2, h3, h4⟩ := firstLine_encode s
    simp only [BytesIO.readline, hs, h1] at e
    by_cases hne : a ++ b = []
    · obtain ⟨rfl, rfl⟩ := List.append_eq_nil_iff.1 hne
      refine ⟨[], ?_, rfl, by simp, by simp⟩
      unfold Handle.lines
      rw [if_pos (show utf8Encode [] = [] from rfl)] at e
      rw [bind_ok e]
      rfl
    · have ha := h2 hne
      have hae : utf8Encode a ≠ [] := fun h => ha (utf8Encode_nil h)
      rw [if_neg hae] at e
      simp only [Handle.decode, hb, Bool.false_eq_true, if_false, utf8Decode_encode] at e
      have hrest : f.data.drop (f.pos + (utf8Encode a).length) = utf8Encode b := by
        rw [← List.drop_drop, hs, utf8Encode_append]
        simp
      have hlen : 0 < (utf8Encode a).length := List.length_pos_iff.2 hae
      have hpos : f.pos < f.data.length := by
        by_contra hc
        rw [List.drop_eq_nil_of_le (by omega)] at hs
        exact hne (utf8Encode_nil hs.symm)
      obtain ⟨ls, g1, g2, g3, g4⟩ := ih
        (w := w.put h.id { f with pos := f.pos + (utf8Encode a).length } w.tick)
        (f := { f with pos := f.pos + (utf8Encode a).length }) (put_node _ _ _ _) hrest (by simp only; omega)
      refine ⟨a :: ls, ?_, by simp [g2], ?_, ?_⟩
      · unfold Handle.lines
        rw [bind_ok e]
        simp only
        rw [bind_apply]
        revert g1
        cases h.lines n _ with
        | mk x w' => intro h1; simp only at h1; subst h1; rfl
      · intro l hl
        rcases List.mem_cons.1 hl with rfl | hl
        · exact ⟨ha, h3⟩
        · exact g3 l hl
      · intro l hl
        cases ls with
        | nil => simp at hl
        | cons l' ls =>
          simp only [List.dropLast_cons_cons, List.mem_cons] at hl
          rcases hl with rfl | hl
          · rcases h4 with h4 | h4
            · exact h4
            · exfalso
              subst h4
              have := (g3 l' (by simp)).1
              simp at g2
              exact this g2.1
          · exact g4 l hl

/-- **C39**: a line that is not UTF-8 raises UnicodeDecodeError in text mode; it is skipped all the same. -/
theorem C39_line_bad {h : Handle} (hb : h.binary = false) {w : World} {f : FileObj} (hf : w.node h.id = .file f)
    (hne : f.data.drop f.pos ≠ []) (hd : ∀ s, BytesIO.firstLine (f.data.drop f.pos) ≠ utf8Encode s) :
    h.next w = (.error .unicodeDecode,
      w.put h.id { f with pos := f.pos + (BytesIO.firstLine (f.data.drop f.pos)).length } w.tick) := by
  rw [next_eq hf]
  simp only [BytesIO.readline, if_neg (BytesIO.firstLine_ne_nil hne), Handle.decode, hb, Bool.false_eq_true, if_false,
    utf8Decode_none.2 hd]
  rfl

example : ((do
      let h ← uOpen (mu cl!"/a/f") (some cl!"w")
      h.write (.str cl!"ü\nx")
      let g ← uOpen (mu cl!"/a/f") (some cl!"r")
      g.lines 9 : M (List PyData)) sample).1 = .ok [.str cl!"ü\n", .str cl!"x"] := by decide +kernel

example : ((do
      let h ← uOpen (mu cl!"/a/f") (some cl!"w")
      h.write (.bytes [255, 10, 120])
      let g ← uOpen (mu cl!"/a/f") (some cl!"r")
      g.next : M (Option PyData)) sample).1 = .error .unicodeDecode := by decide +kernel

end Verif.Props
