import Verif.Py.Str
/-!
# Python's string order and `sorted` on lists of strings
-/
namespace Verif

/-- `a <= b` on Python strings: lexicographic by code point -/
def strLe : Str → Str → Bool
  | [], _ => true
  | _ :: _, [] => false
  | a :: s, b :: t => if a.toNat < b.toNat then true else if a.toNat = b.toNat then strLe s t else false

/-- insertion into a sorted list -/
def insertStr (x : Str) : List Str → List Str
  | [] => [x]
  | y :: l => if strLe x y then x :: y :: l else y :: insertStr x l

/-- `sorted(l)` for a list of strings (which sorting algorithm is used is unobservable) -/
def sortStr : List Str → List Str
  | [] => []
  | x :: l => insertStr x (sortStr l)

end Verif
