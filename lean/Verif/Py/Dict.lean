import Verif.Py.Str
/-!
# Python dictionaries with string keys and values

Insertion ordered association lists; setting an existing key keeps its place.
-/
namespace Verif

/-- a Python `dict` with text keys and values -/
abbrev Dict := List (Str × Str)

/-- `d.get(k)` -/
def Dict.get? (d : Dict) (k : Str) : Option Str := List.lookup k d

/-- `k in d` -/
def Dict.has (d : Dict) (k : Str) : Bool := (d.get? k).isSome

/-- `d[k] = v` -/
def Dict.set : Dict → Str → Str → Dict
  | [], k, v => [(k, v)]
  | (k', v') :: d, k, v => if k = k' then (k, v) :: d else (k', v') :: Dict.set d k v

/-- `d.update(e)` -/
def Dict.update (d e : Dict) : Dict := e.foldl (fun d kv => d.set kv.1 kv.2) d

/-- `d.pop(k)` (the remaining dictionary) -/
def Dict.erase (d : Dict) (k : Str) : Dict := d.filter fun kv => kv.1 ≠ k

/-- The representation invariant of a Python dict: no key twice. -/
def Dict.WF (d : Dict) : Prop := (d.map Prod.fst).Nodup

instance (d : Dict) : Decidable d.WF := inferInstanceAs (Decidable (d.map Prod.fst).Nodup)

/-- `d == e`: same number of items and every item of `d` is in `e`. -/
def Dict.eq (d e : Dict) : Bool :=
  d.length = e.length && d.all fun kv => e.get? kv.1 = some kv.2

end Verif
