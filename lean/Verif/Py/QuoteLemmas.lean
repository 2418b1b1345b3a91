import Verif.Py.Quote
import Verif.Py.Utf8Lemmas
import Verif.Py.StrLemmas
/-! # Percent encoding and decimal numbers round trip -/
namespace Verif

/-- characters that `quote_plus` can produce -/
def quoteSafe (c : Char) : Bool := unreserved c || c = '+' || c = '%'

theorem toNat_ofNat_byte {n : Nat} (h : n < 256) : (Char.ofNat n).toNat = n := by
  rw [Char.ofNat, dif_pos (show n.isValidChar by simp [Nat.isValidChar]; omega)]
  rfl

theorem hexDigit_safe : ∀ n : Fin 16, unreserved (hexDigit n) = true ∧ hexVal (hexDigit n) = some n.val := by
  decide

theorem hexDigit_safe' {n : Nat} (h : n < 16) :
    unreserved (hexDigit n) = true ∧ hexVal (hexDigit n) = some n := hexDigit_safe ⟨n, h⟩

theorem byte_lt (b : UInt8) : b.toNat < 256 := b.toNat_lt

theorem quoteByte_safe (b : UInt8) : ∀ c ∈ quoteByte b, quoteSafe c = true := by
  intro c hc
  have hb := byte_lt b
  unfold quoteByte at hc
  simp only at hc
  split at hc
  · simp at hc; subst hc; simp [quoteSafe, *]
  · split at hc
    · simp at hc; subst hc; decide
    · simp at hc
      rcases hc with h | h | h
      · subst h; decide
      · subst h; simp [quoteSafe, (hexDigit_safe' (show b.toNat / 16 < 16 by omega)).1]
      · subst h; simp [quoteSafe, (hexDigit_safe' (show b.toNat % 16 < 16 by omega)).1]

theorem quotePlus_safe (s : Str) : ∀ c ∈ quotePlus s, quoteSafe c = true := by
  intro c hc
  simp only [quotePlus, List.mem_flatMap] at hc
  obtain ⟨b, -, h⟩ := hc
  exact quoteByte_safe b c h

theorem quoteSafe_ne {c d : Char} (h : quoteSafe c = true) (hd : quoteSafe d = false) : c ≠ d := by
  rintro rfl; rw [h] at hd; simp at hd

theorem quotePlus_not_mem {s : Str} {d : Char} (hd : quoteSafe d = false) : d ∉ quotePlus s :=
  fun h => quoteSafe_ne (quotePlus_safe s d h) hd rfl

theorem le_toNat {a b : Char} : a ≤ b ↔ a.toNat ≤ b.toNat := by
  rw [Char.le_def, UInt32.le_iff_toNat_le]; rfl

theorem unreserved_lt {c : Char} (h : unreserved c = true) : c.toNat < 128 := by
  simp only [unreserved, Bool.or_eq_true, Bool.and_eq_true, decide_eq_true_eq, le_toNat] at h
  rcases h with ((((((h | h) | h) | h) | h) | h) | h)
  · exact Nat.lt_of_le_of_lt h.2 (by decide)
  · exact Nat.lt_of_le_of_lt h.2 (by decide)
  · exact Nat.lt_of_le_of_lt h.2 (by decide)
  all_goals subst h; decide

theorem quoteSafe_lt {c : Char} (h : quoteSafe c = true) : c.toNat < 128 := by
  simp only [quoteSafe, Bool.or_eq_true, decide_eq_true_eq] at h
  rcases h with (h | h) | h
  · exact unreserved_lt h
  all_goals subst h; decide

theorem unquoteToBytes_cons {c : Char} {r : Str} (h : c ≠ '%') :
    unquoteToBytes (c :: r) = UInt8.ofNat c.toNat :: unquoteToBytes r := by
  rw [unquoteToBytes]
  intro a b r' h1 _
  exact h h1

theorem unquoteToBytes_quoteByte (b : UInt8) (r : Str) :
    unquoteToBytes (replaceC '+' ' ' (quoteByte b) ++ r) = b :: unquoteToBytes r := by
  have hb := byte_lt b
  unfold quoteByte
  simp only
  split
  · rename_i h
    have h1 : Char.ofNat b.toNat ≠ '+' := by intro h'; rw [h'] at h; revert h; decide
    have h2 : Char.ofNat b.toNat ≠ '%' := by intro h'; rw [h'] at h; revert h; decide
    simp only [replaceC, List.map_cons, List.map_nil, if_neg h1, List.cons_append, List.nil_append]
    rw [unquoteToBytes_cons h2, toNat_ofNat_byte hb]
    simp
  · split
    · rename_i h
      have h3 : b.toNat = 32 := by
        have := congrArg Char.toNat h
        rw [toNat_ofNat_byte hb] at this
        simpa using this
      have : b = 32 := UInt8.toNat_inj.1 (by simp [h3])
      subst this
      simp only [replaceC, List.map_cons, List.map_nil, if_true, List.cons_append, List.nil_append]
      rw [unquoteToBytes_cons (by decide)]
      rfl
    · have h1 := hexDigit_safe' (show b.toNat / 16 < 16 by omega)
      have h2 := hexDigit_safe' (show b.toNat % 16 < 16 by omega)
      have n1 : hexDigit (b.toNat / 16) ≠ '+' := by intro h'; rw [h'] at h1; exact absurd h1.1 (by decide)
      have n2 : hexDigit (b.toNat % 16) ≠ '+' := by intro h'; rw [h'] at h2; exact absurd h2.1 (by decide)
      simp only [replaceC, List.map_cons, List.map_nil, if_neg n1, if_neg n2, List.cons_append,
        List.nil_append, if_neg (show ¬ ('%' = '+') by decide)]
      rw [unquoteToBytes, h1.2, h2.2]
      simp only [Nat.div_add_mod]
      simp

theorem unquoteToBytes_quote (l : Bytes) :
    unquoteToBytes (replaceC '+' ' ' (l.flatMap quoteByte)) = l := by
  induction l with
  | nil => rfl
  | cons b l ih =>
    have : replaceC '+' ' ' ((b :: l).flatMap quoteByte)
        = replaceC '+' ' ' (quoteByte b) ++ replaceC '+' ' ' (l.flatMap quoteByte) := by
      simp [replaceC]
    rw [this, unquoteToBytes_quoteByte, ih]

theorem asciiRuns_ascii {s : Str} (hs : s ≠ []) (h : ∀ c ∈ s, c.toNat < 128) :
    asciiRuns s = [(true, s)] := by
  induction s with
  | nil => exact absurd rfl hs
  | cons c s ih =>
    have hc := h c (by simp)
    cases s with
    | nil => simp [asciiRuns, hc]
    | cons d s =>
      have := ih (by simp) (fun x hx => h x (by simp [hx]))
      rw [asciiRuns, this]
      simp [hc]

theorem unquote_ascii {s : Str} (h : ∀ c ∈ s, c.toNat < 128) :
    unquote s = utf8DecodeReplace (unquoteToBytes s) := by
  by_cases hs : s = []
  · subst hs; rfl
  · simp [unquote, asciiRuns_ascii hs h]

/-- `unquote_plus(quote_plus(s)) == s` for every Unicode string -/
theorem unquotePlus_quotePlus (s : Str) : unquotePlus (quotePlus s) = s := by
  have h : ∀ c ∈ replaceC '+' ' ' (quotePlus s), c.toNat < 128 := by
    intro c hc
    simp only [replaceC, List.mem_map] at hc
    obtain ⟨d, hd, rfl⟩ := hc
    split
    · decide
    · exact quoteSafe_lt (quotePlus_safe s d hd)
  rw [unquotePlus, unquote_ascii h, quotePlus, unquoteToBytes_quote, utf8DecodeReplace_encode]

theorem natStr_digits (n : Nat) : ∀ c ∈ natStr n, '0' ≤ c ∧ c ≤ '9' := by
  have dig : ∀ k : Fin 10, '0' ≤ Char.ofNat (48 + k) ∧ Char.ofNat (48 + k) ≤ '9' := by decide
  induction n using Nat.strongRecOn with
  | ind n ih =>
    rw [natStr]
    split
    · rename_i h
      intro c hc; simp at hc; subst hc; exact dig ⟨n, h⟩
    · intro c hc
      simp at hc
      rcases hc with hc | hc
      · exact ih (n / 10) (by omega) c hc
      · subst hc; exact dig ⟨n % 10, by omega⟩

theorem pyDigits_append {n : Nat} {acc : Nat} {prev : Bool} (r : Str) :
    pyDigits prev acc (natStr n ++ r) = pyDigits true (acc * 10 ^ (natStr n).length + n) r := by
  have dig : ∀ k : Fin 10, ('0' ≤ Char.ofNat (48 + k) ∧ Char.ofNat (48 + k) ≤ '9')
      ∧ (Char.ofNat (48 + k)).toNat - 48 = k.val := by decide
  induction n using Nat.strongRecOn generalizing acc prev r with
  | ind n ih =>
    rw [natStr]
    split
    · rename_i h
      have := dig ⟨n, h⟩
      simp only at this
      simp [pyDigits, this]
    · rename_i h
      have := dig ⟨n % 10, by omega⟩
      simp only at this
      rw [List.append_assoc, ih (n / 10) (by omega)]
      simp only [List.cons_append, List.nil_append, pyDigits, this]
      simp only [decide_true, Bool.and_self, if_true, List.length_append, List.length_singleton,
        Nat.pow_succ]
      congr 1
      rw [Nat.add_mul, ← Nat.mul_assoc]
      omega

theorem natStr_ne_nil (n : Nat) : natStr n ≠ [] := by
  rw [natStr]; split <;> simp

theorem not_space_of_digit {c : Char} (h : '0' ≤ c ∧ c ≤ '9') : pyIsSpace c = false := by
  rw [le_toNat, le_toNat] at h
  have h1 : 48 ≤ c.toNat := h.1
  have h2 : c.toNat ≤ 57 := h.2
  simp [pyIsSpace]; omega

theorem stripW_of_no_space {s : Str} (h : ∀ c ∈ s, pyIsSpace c = false) : stripW s = s := by
  have h1 : s.dropWhile pyIsSpace = s := by
    cases s with
    | nil => rfl
    | cons c s => simp [List.dropWhile, h c (by simp)]
  rw [stripW, h1]
  clear h1
  induction s with
  | nil => rfl
  | cons c s ih =>
    rw [rstripW, ih (fun x hx => h x (by simp [hx]))]
    cases s <;> simp [h c (by simp)]

/-- `int(str(i)) == i` -/
theorem pyInt_intStr (i : Int) : pyInt (intStr i) = some i := by
  cases i with
  | ofNat n =>
    have hs : stripW (natStr n) = natStr n :=
      stripW_of_no_space (fun c hc => not_space_of_digit (natStr_digits n c hc))
    have hd := pyDigits_append (n := n) (acc := 0) (prev := false) []
    simp [pyDigits] at hd
    simp only [intStr, pyInt, hs]
    cases hn : natStr n with
    | nil => exact absurd hn (natStr_ne_nil n)
    | cons c r =>
      have hc := natStr_digits n c (by simp [hn])
      rw [hn] at hd
      have h1 : c ≠ '-' := by rintro rfl; revert hc; decide
      have h2 : c ≠ '+' := by rintro rfl; revert hc; decide
      split
      · rename_i h; simp at h; exact absurd h.1 h1
      · rename_i h; simp at h; exact absurd h.1 h2
      · simp [hd]
  | negSucc n =>
    have hs : stripW ('-' :: natStr (n + 1)) = '-' :: natStr (n + 1) := by
      apply stripW_of_no_space
      intro c hc
      rcases List.mem_cons.1 hc with h | h
      · subst h; decide
      · exact not_space_of_digit (natStr_digits _ c h)
    have hd := pyDigits_append (n := n + 1) (acc := 0) (prev := false) []
    simp [pyDigits] at hd
    simp only [intStr, pyInt, hs, hd]
    simp; omega

end Verif
