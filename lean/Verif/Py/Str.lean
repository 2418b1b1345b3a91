/-!
# Python string primitives

Python `str` is modelled as `List Char` (a sequence of Unicode scalar values; lone surrogates, which
Python allows, are outside the model).  The functions below are the `str` methods the code in /repo
calls; they model CPython's standard library, not files of /repo.
-/

namespace Verif

/-- a Python `str`: its characters -/
abbrev Str := List Char

/-- `cl!"abc"` is the literal list `['a','b','c']`. -/
macro:max "cl!" s:str : term => do
  let cs := (s.getString.toList.map Lean.Syntax.mkCharLit).toArray
  `([ $cs,* ])

/-- `s.startswith(p)` -/
def startsWith (s p : Str) : Bool := p.isPrefixOf s

/-- `s.endswith(p)` -/
def endsWith (s p : Str) : Bool := p.isSuffixOf s

/-- `p in s` (substring test) -/
def hasSub (p : Str) : Str → Bool
  | [] => p.isPrefixOf []
  | c :: s => p.isPrefixOf (c :: s) || hasSub p s

/-- `s.split(c)` for a one-character separator: always at least one piece. -/
def splitC (c : Char) : Str → List Str
  | [] => [[]]
  | x :: xs =>
    if x = c then [] :: splitC c xs
    else match splitC c xs with
      | h :: t => (x :: h) :: t
      | [] => [[x]]

/-- `sep.join(l)` -/
def joinS (sep : Str) : List Str → Str
  | [] => []
  | [x] => x
  | x :: y :: r => x ++ sep ++ joinS sep (y :: r)

/-- `s.split(c, 1)` when it yields two pieces (`none` when `c` does not occur). -/
def split1 (c : Char) : Str → Option (Str × Str)
  | [] => none
  | x :: xs =>
    if x = c then some ([], xs)
    else (split1 c xs).map fun (a, b) => (x :: a, b)

/-- `s.rsplit(c, 1)` when it yields two pieces (`none` when `c` does not occur). -/
def rsplit1 (c : Char) : Str → Option (Str × Str)
  | [] => none
  | x :: xs =>
    match rsplit1 c xs with
    | some (a, b) => some (x :: a, b)
    | none => if x = c then some ([], xs) else none

/-- `s.partition(c)[0]` -/
def partition0 (c : Char) (s : Str) : Str := s.takeWhile (· ≠ c)

/-- `s.lstrip(c)` -/
def lstripC (c : Char) (s : Str) : Str := s.dropWhile (· = c)

/-- `s.rstrip(c)` -/
def rstripC (c : Char) : Str → Str
  | [] => []
  | x :: xs =>
    match rstripC c xs with
    | [] => if x = c then [] else [x]
    | r => x :: r

/-- `s.strip(c)` -/
def stripC (c : Char) (s : Str) : Str := rstripC c (lstripC c s)

/-- `str.isspace` of one character: the code points CPython treats as white space. -/
def pyIsSpace (c : Char) : Bool :=
  let n := c.toNat
  (9 ≤ n && n ≤ 13) || (28 ≤ n && n ≤ 32) || n = 0x85 || n = 0xA0 || n = 0x1680 ||
  (0x2000 ≤ n && n ≤ 0x200A) || n = 0x2028 || n = 0x2029 || n = 0x202F || n = 0x205F || n = 0x3000

/-- right half of `strip` -/
def rstripW : Str → Str
  | [] => []
  | x :: xs =>
    match rstripW xs with
    | [] => if pyIsSpace x then [] else [x]
    | r => x :: r

/-- `s.strip()` -/
def stripW (s : Str) : Str := rstripW (s.dropWhile pyIsSpace)

/-- `s.replace(c, d)` for single characters -/
def replaceC (c d : Char) (s : Str) : Str := s.map fun x => if x = c then d else x

/-- `s.replace(old, new)` for a non-empty `old`: left to right, non-overlapping.
    The first argument is a bound on the number of steps (`s.length` suffices). -/
def replaceAux (old new : Str) : Nat → Str → Str
  | 0, s => s
  | _ + 1, [] => []
  | n + 1, c :: s =>
    if old.isPrefixOf (c :: s) then new ++ replaceAux old new n ((c :: s).drop old.length)
    else c :: replaceAux old new n s

/-- `s.replace(old, new)` for a non-empty `old` -/
def replaceS (old new s : Str) : Str := replaceAux old new s.length s

/-- `s[a:-b]` -/
def sliceTo (a b : Nat) (s : Str) : Str := (s.take (s.length - b)).drop a

end Verif
