import Verif.Py.Str
/-!
# UTF-8 (Python's `str.encode('utf-8')`, `bytes.decode('utf-8')`)

Standard library behaviour, written out over natural numbers.
-/
namespace Verif

/-- a Python `bytes` -/
abbrev Bytes := List UInt8

/-- UTF-8 encoding of one scalar value. -/
def encChar (c : Char) : List Nat :=
  let n := c.toNat
  if n < 0x80 then [n]
  else if n < 0x800 then [0xC0 + n / 64, 0x80 + n % 64]
  else if n < 0x10000 then [0xE0 + n / 4096, 0x80 + n / 64 % 64, 0x80 + n % 64]
  else [0xF0 + n / 262144, 0x80 + n / 4096 % 64, 0x80 + n / 64 % 64, 0x80 + n % 64]

/-- `s.encode('utf-8')` -/
def utf8Encode (s : Str) : Bytes := s.flatMap fun c => (encChar c).map UInt8.ofNat

/-- `n` is a continuation byte. -/
def isCont (n : Nat) : Bool := 0x80 ≤ n && n < 0xC0

/-- Range of the second byte after lead byte `b0`
    (excludes overlong forms, surrogates and values above U+10FFFF). -/
def secondOk (b0 b1 : Nat) : Bool :=
  isCont b1 && (b0 ≠ 0xE0 || 0xA0 ≤ b1) && (b0 ≠ 0xED || b1 < 0xA0) &&
  (b0 ≠ 0xF0 || 0x90 ≤ b1) && (b0 ≠ 0xF4 || b1 < 0x90)

/-- One decoding step: `inl (c, k)` – a character of `k+1` bytes; `inr k` – an ill-formed maximal
    subpart of `k+1` bytes (what CPython replaces by one U+FFFD). -/
def decStep (b0 : Nat) (rest : List Nat) : (Char × Nat) ⊕ Nat :=
  if b0 < 0x80 then .inl (Char.ofNat b0, 0)
  else if 0xC2 ≤ b0 && b0 < 0xE0 then
    match rest with
    | b1 :: _ => if isCont b1 then .inl (Char.ofNat ((b0 - 0xC0) * 64 + (b1 - 0x80)), 1) else .inr 0
    | _ => .inr 0
  else if 0xE0 ≤ b0 && b0 < 0xF0 then
    match rest with
    | b1 :: r1 =>
      if secondOk b0 b1 then
        match r1 with
        | b2 :: _ =>
          if isCont b2 then
            .inl (Char.ofNat ((b0 - 0xE0) * 4096 + (b1 - 0x80) * 64 + (b2 - 0x80)), 2)
          else .inr 1
        | _ => .inr 1
      else .inr 0
    | _ => .inr 0
  else if 0xF0 ≤ b0 && b0 < 0xF5 then
    match rest with
    | b1 :: r1 =>
      if secondOk b0 b1 then
        match r1 with
        | b2 :: r2 =>
          if isCont b2 then
            match r2 with
            | b3 :: _ =>
              if isCont b3 then
                .inl (Char.ofNat ((b0 - 0xF0) * 262144 + (b1 - 0x80) * 4096 + (b2 - 0x80) * 64
                  + (b3 - 0x80)), 3)
              else .inr 2
            | _ => .inr 2
          else .inr 1
        | _ => .inr 1
      else .inr 0
    | _ => .inr 0
  else .inr 0

/-- Decoding with `errors='strict'` (`none` = UnicodeDecodeError); first argument bounds the steps. -/
def decStrictAux : Nat → List Nat → Option Str
  | _, [] => some []
  | 0, _ :: _ => none
  | n + 1, b :: r =>
    match decStep b r with
    | .inl (c, k) => (decStrictAux n (r.drop k)).map (c :: ·)
    | .inr _ => none

/-- `b.decode('utf-8')` -/
def utf8Decode (b : Bytes) : Option Str := decStrictAux b.length (b.map UInt8.toNat)

/-- Decoding with `errors='replace'`. -/
def decReplaceAux : Nat → List Nat → Str
  | _, [] => []
  | 0, _ :: _ => []
  | n + 1, b :: r =>
    match decStep b r with
    | .inl (c, k) => c :: decReplaceAux n (r.drop k)
    | .inr k => '�' :: decReplaceAux n (r.drop k)

/-- `b.decode('utf-8', 'replace')` -/
def utf8DecodeReplace (b : Bytes) : Str := decReplaceAux b.length (b.map UInt8.toNat)

end Verif
