import Verif.Py.Utf8
/-! # UTF-8 round trip -/
namespace Verif

theorem char_range (c : Char) : c.toNat < 0xD800 ∨ (0xDFFF < c.toNat ∧ c.toNat < 0x110000) := by
  have := c.valid
  simp only [UInt32.isValidChar, Nat.isValidChar] at this
  exact this

/-- Decoding the encoding of a character consumes exactly that character. -/
theorem decStep_encChar (c : Char) (r : List Nat) :
    ∃ b t, encChar c = b :: t ∧ decStep b (t ++ r) = .inl (c, t.length) := by
  have hr := char_range c
  have hc : Char.ofNat c.toNat = c := Char.ofNat_toNat c
  unfold encChar
  generalize c.toNat = n at *
  simp only
  split
  · exact ⟨n, [], rfl, by simp [decStep, *]⟩
  split
  · refine ⟨_, _, rfl, ?_⟩
    have h1 : ¬ (0xC0 + n / 64 < 0x80) := by omega
    have h2 : 0xC2 ≤ 0xC0 + n / 64 ∧ 0xC0 + n / 64 < 0xE0 := by omega
    have h3 : 0x80 ≤ 0x80 + n % 64 ∧ 0x80 + n % 64 < 0xC0 := by omega
    have h4 : (0xC0 + n / 64 - 0xC0) * 64 + (0x80 + n % 64 - 0x80) = n := by omega
    simp [decStep, h1, h2, isCont, h3, hc, -Nat.add_sub_cancel_left, h4]
  split
  · refine ⟨_, _, rfl, ?_⟩
    have h1 : ¬ (0xE0 + n / 4096 < 0x80) := by omega
    have h2 : ¬ (0xE0 + n / 4096 < 0xE0) := by omega
    have h2' : 0xE0 ≤ 0xE0 + n / 4096 ∧ 0xE0 + n / 4096 < 0xF0 := by omega
    have h3 : secondOk (0xE0 + n / 4096) (0x80 + n / 64 % 64) = true := by
      simp [secondOk, isCont]; omega
    have h4 : isCont (0x80 + n % 64) = true := by simp [isCont]; omega
    have h5 : (0xE0 + n / 4096 - 0xE0) * 4096 + (0x80 + n / 64 % 64 - 0x80) * 64
        + (0x80 + n % 64 - 0x80) = n := by omega
    simp [decStep, h1, h2, h2', h3, h4, hc, -Nat.add_sub_cancel_left, h5]
  · refine ⟨_, _, rfl, ?_⟩
    have h1 : ¬ (0xF0 + n / 262144 < 0x80) := by omega
    have h2 : ¬ (0xF0 + n / 262144 < 0xE0) := by omega
    have h2' : ¬ (0xF0 + n / 262144 < 0xF0) := by omega
    have h2'' : 0xF0 ≤ 0xF0 + n / 262144 ∧ 0xF0 + n / 262144 < 0xF5 := by omega
    have h3 : secondOk (0xF0 + n / 262144) (0x80 + n / 4096 % 64) = true := by
      simp [secondOk, isCont]; omega
    have h4 : isCont (0x80 + n / 64 % 64) = true := by simp [isCont]; omega
    have h4' : isCont (0x80 + n % 64) = true := by simp [isCont]; omega
    have h5 : (0xF0 + n / 262144 - 0xF0) * 262144 + (0x80 + n / 4096 % 64 - 0x80) * 4096
        + (0x80 + n / 64 % 64 - 0x80) * 64 + (0x80 + n % 64 - 0x80) = n := by omega
    simp [decStep, h1, h2, h2', h2'', h3, h4, h4', hc, -Nat.add_sub_cancel_left, h5]

theorem encChar_lt (c : Char) : ∀ b ∈ encChar c, b < 256 := by
  have hr := char_range c
  unfold encChar
  generalize c.toNat = n at *
  simp only
  intro b
  split
  · simp; omega
  split
  · simp; omega
  split
  · simp; omega
  · simp; omega

theorem map_toNat_ofNat {l : List Nat} (h : ∀ b ∈ l, b < 256) :
    (l.map UInt8.ofNat).map UInt8.toNat = l := by
  induction l with
  | nil => rfl
  | cons x l ih =>
    have hx := h x (by simp)
    have := ih (fun b hb => h b (by simp [hb]))
    simp only [List.map_cons, this]
    simp [Nat.mod_eq_of_lt hx]

theorem utf8Encode_cons (c : Char) (s : Str) :
    utf8Encode (c :: s) = (encChar c).map UInt8.ofNat ++ utf8Encode s := by
  simp [utf8Encode]

theorem utf8Encode_append (s t : Str) : utf8Encode (s ++ t) = utf8Encode s ++ utf8Encode t := by
  simp [utf8Encode]

theorem encChar_ne_nil (c : Char) : encChar c ≠ [] := by
  obtain ⟨b, t, h, -⟩ := decStep_encChar c []
  simp [h]

theorem decStrictAux_encode (s : Str) (n : Nat) (hn : (utf8Encode s).length ≤ n) :
    decStrictAux n ((utf8Encode s).map UInt8.toNat) = some s := by
  induction s generalizing n with
  | nil => simp [utf8Encode, decStrictAux]
  | cons c s ih =>
    obtain ⟨b, t, he, hd⟩ := decStep_encChar c ((utf8Encode s).map UInt8.toNat)
    rw [utf8Encode_cons] at hn ⊢
    rw [List.map_append, map_toNat_ofNat (encChar_lt c)]
    rw [List.length_append, List.length_map] at hn
    rw [he] at hn ⊢
    cases n with
    | zero => simp at hn
    | succ n =>
      rw [List.cons_append, decStrictAux, hd]
      simp only [List.drop_left, ih n (by simp at hn; omega), Option.map]

/-- `s.encode('utf-8').decode('utf-8') == s` -/
theorem utf8Decode_encode (s : Str) : utf8Decode (utf8Encode s) = some s :=
  decStrictAux_encode s _ (Nat.le_refl _)

theorem decReplaceAux_encode (s : Str) (n : Nat) (hn : (utf8Encode s).length ≤ n) :
    decReplaceAux n ((utf8Encode s).map UInt8.toNat) = s := by
  induction s generalizing n with
  | nil => simp [utf8Encode, decReplaceAux]
  | cons c s ih =>
    obtain ⟨b, t, he, hd⟩ := decStep_encChar c ((utf8Encode s).map UInt8.toNat)
    rw [utf8Encode_cons] at hn ⊢
    rw [List.map_append, map_toNat_ofNat (encChar_lt c)]
    rw [List.length_append, List.length_map] at hn
    rw [he] at hn ⊢
    cases n with
    | zero => simp at hn
    | succ n =>
      rw [List.cons_append, decReplaceAux, hd]
      simp only [List.drop_left, ih n (by simp at hn; omega)]

theorem utf8DecodeReplace_encode (s : Str) : utf8DecodeReplace (utf8Encode s) = s := by
  have := decReplaceAux_encode s (utf8Encode s).length (Nat.le_refl _)
  simpa [utf8DecodeReplace] using this

theorem char_ofNat_toNat {n : Nat} (h : n < 0xD800 ∨ (0xDFFF < n ∧ n < 0x110000)) : (Char.ofNat n).toNat = n := by
  have hv : n.isValidChar := h
  rw [Char.ofNat, dif_pos hv]
  rfl

/-- A character that is decoded is the one its bytes encode: no overlong forms, surrogates or values too large. -/
theorem decStep_inv {b0 : Nat} {rest : List Nat} {c : Char} {k : Nat} (h : decStep b0 rest = .inl (c, k)) :
    b0 :: rest.take k = encChar c := by
  unfold decStep at h
  split at h
  · rename_i h0
    obtain ⟨rfl, rfl⟩ := by simpa using h
    rw [encChar, char_ofNat_toNat (by omega)]
    simp [h0]
  split at h
  · rename_i h0 h1
    simp only [Bool.and_eq_true, decide_eq_true_eq] at h1
    split at h
    · rename_i b1 r
      split at h
      · rename_i hc
        simp only [isCont, Bool.and_eq_true, decide_eq_true_eq] at hc
        obtain ⟨rfl, rfl⟩ := by simpa using h
        rw [encChar, char_ofNat_toNat (by omega)]
        simp only [List.take_succ_cons, List.take_zero]
        rw [if_neg (by omega), if_pos (by omega)]
        simp only [List.cons.injEq, and_true]
        omega
      · simp at h
    · simp at h
  split at h
  · rename_i h0 h1 h2
    simp only [Bool.and_eq_true, decide_eq_true_eq] at h2
    split at h
    · rename_i b1 r
      split at h
      · rename_i hs
        split at h
        · rename_i b2 r
          split at h
          · rename_i hc
            simp [isCont, secondOk] at hc hs
            obtain ⟨rfl, rfl⟩ := by simpa using h
            rw [encChar, char_ofNat_toNat (by omega)]
            simp only [List.take_succ_cons, List.take_zero]
            rw [if_neg (by omega), if_neg (by omega), if_pos (by omega)]
            simp only [List.cons.injEq, and_true]
            omega
          · simp at h
        · simp at h
      · simp at h
    · simp at h
  split at h
  · rename_i h0 h1 h2 h3
    simp only [Bool.and_eq_true, decide_eq_true_eq] at h3
    split at h
    · rename_i b1 r
      split at h
      · rename_i hs
        split at h
        · rename_i b2 r
          split at h
          · rename_i hc
            split at h
            · rename_i b3 r
              split at h
              · rename_i hc'
                simp [isCont, secondOk] at hc hc' hs
                obtain ⟨rfl, rfl⟩ := by simpa using h
                rw [encChar, char_ofNat_toNat (by omega)]
                simp only [List.take_succ_cons, List.take_zero]
                rw [if_neg (by omega), if_neg (by omega), if_neg (by omega)]
                simp only [List.cons.injEq, and_true]
                omega
              · simp at h
            · simp at h
          · simp at h
        · simp at h
      · simp at h
    · simp at h
  · simp at h

theorem decStrictAux_inv : ∀ (n : Nat) (l : List Nat) (s : Str), decStrictAux n l = some s → l = s.flatMap encChar
  | _, [], s, h => by
    cases s with
    | nil => rfl
    | cons c s => cases ‹Nat› <;> simp [decStrictAux] at h
  | 0, _ :: _, s, h => by simp [decStrictAux] at h
  | n + 1, b :: r, s, h => by
    unfold decStrictAux at h
    split at h
    · rename_i c k hc
      obtain ⟨t, ht, rfl⟩ := Option.map_eq_some_iff.mp h
      have := decStrictAux_inv n _ t ht
      rw [List.flatMap_cons, ← decStep_inv hc, ← this, List.cons_append, List.take_append_drop]
    · simp at h

/-- What can be decoded is the encoding of what it is decoded to. -/
theorem utf8Decode_inv {b : Bytes} {s : Str} (h : utf8Decode b = some s) : b = utf8Encode s := by
  have := decStrictAux_inv _ _ _ h
  rw [utf8Encode, ← List.map_flatMap, ← this, List.map_map]
  exact (List.map_id _).symm.trans (List.map_congr_left fun x _ => by simp)

/-- Decoding fails of exactly those bytes that encode no text. -/
theorem utf8Decode_none {b : Bytes} : utf8Decode b = none ↔ ∀ s, b ≠ utf8Encode s := by
  constructor
  · rintro h s rfl
    rw [utf8Decode_encode] at h; simp at h
  · intro h
    cases hd : utf8Decode b with
    | none => rfl
    | some s => exact absurd (utf8Decode_inv hd) (h s)

end Verif
