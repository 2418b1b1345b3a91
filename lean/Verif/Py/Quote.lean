import Verif.Py.Utf8
import Verif.Py.Dict
/-!
# `urllib.parse.urlencode` / `unquote_plus` and decimal integers (standard library behaviour)
-/
namespace Verif

/-- Characters `urllib.parse.quote` never quotes. -/
def unreserved (c : Char) : Bool :=
  ('a' ≤ c && c ≤ 'z') || ('A' ≤ c && c ≤ 'Z') || ('0' ≤ c && c ≤ '9') ||
  c = '_' || c = '.' || c = '-' || c = '~'

/-- one upper-case hexadecimal digit -/
def hexDigit (n : Nat) : Char := Char.ofNat (if n < 10 then 48 + n else 55 + n)

/-- value of a hexadecimal digit -/
def hexVal (c : Char) : Option Nat :=
  let n := c.toNat
  if 48 ≤ n && n ≤ 57 then some (n - 48)
  else if 65 ≤ n && n ≤ 70 then some (n - 55)
  else if 97 ≤ n && n ≤ 102 then some (n - 87)
  else none

/-- `quote_plus` of one byte -/
def quoteByte (b : UInt8) : Str :=
  let c := Char.ofNat b.toNat
  if unreserved c then [c]
  else if c = ' ' then ['+']
  else ['%', hexDigit (b.toNat / 16), hexDigit (b.toNat % 16)]

/-- `urllib.parse.quote_plus(s)` -/
def quotePlus (s : Str) : Str := (utf8Encode s).flatMap quoteByte

/-- `urllib.parse.urlencode(d)` for a dict of strings -/
def urlencode (d : Dict) : Str :=
  joinS cl!"&" (d.map fun kv => quotePlus kv.1 ++ cl!"=" ++ quotePlus kv.2)

/-- `urllib.parse.unquote_to_bytes` of an ASCII string. -/
def unquoteToBytes : Str → Bytes
  | [] => []
  | '%' :: a :: b :: r =>
    match hexVal a, hexVal b with
    | some x, some y => UInt8.ofNat (16 * x + y) :: unquoteToBytes r
    | _, _ => UInt8.ofNat 37 :: unquoteToBytes (a :: b :: r)
  | c :: r => UInt8.ofNat c.toNat :: unquoteToBytes r

/-- Split into maximal runs of ASCII (`true`) and non-ASCII (`false`) characters. -/
def asciiRuns : Str → List (Bool × Str)
  | [] => []
  | c :: r =>
    let k : Bool := c.toNat < 128
    match asciiRuns r with
    | (k', run) :: t => if k = k' then (k, c :: run) :: t else (k, [c]) :: (k', run) :: t
    | [] => [(k, [c])]

/-- `urllib.parse.unquote(s)`; without a '%' the function below is the identity as well. -/
def unquote (s : Str) : Str :=
  (asciiRuns s).flatMap fun (k, run) => if k then utf8DecodeReplace (unquoteToBytes run) else run

/-- `urllib.parse.unquote_plus(s)` -/
def unquotePlus (s : Str) : Str := unquote (replaceC '+' ' ' s)

/-- decimal digits of a natural number: `str(n)` -/
def natStr (n : Nat) : Str :=
  if n < 10 then [Char.ofNat (48 + n)] else natStr (n / 10) ++ [Char.ofNat (48 + n % 10)]
termination_by n

/-- `str(i)` for an int -/
def intStr : Int → Str
  | .ofNat n => natStr n
  | .negSucc n => '-' :: natStr (n + 1)

/-- Digits of `int(s)`, with single underscores allowed between digits (ASCII digits only: Python also
    accepts other Unicode decimal digits).  `acc` is the value so far, the flag says whether the
    previous character was a digit. -/
def pyDigits : Bool → Nat → Str → Option Nat
  | prev, acc, [] => if prev then some acc else none
  | prev, acc, c :: r =>
    if '0' ≤ c && c ≤ '9' then pyDigits true (acc * 10 + (c.toNat - 48)) r
    else if c = '_' && prev then pyDigits false acc r
    else none

/-- `int(s)`; `none` is ValueError -/
def pyInt (s : Str) : Option Int :=
  match stripW s with
  | '-' :: r => (pyDigits false 0 r).map fun n => -(n : Int)
  | '+' :: r => (pyDigits false 0 r).map fun n => (n : Int)
  | r => (pyDigits false 0 r).map fun n => (n : Int)

end Verif
