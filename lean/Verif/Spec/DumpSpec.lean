import Verif.Spec.Namespace
import Verif.Py.SortLemmas
/-!
# What a dump should be

The locations of the tree in the order of a walk through a sorted tree, and the text shown for one of them.
-/
namespace Verif.Spec
open Verif.Mem

/-- a location before another: name by name, a directory before what is in it -/
def LocLt : List Str → List Str → Prop
  | [], [] => False
  | [], _ :: _ => True
  | _ :: _, [] => False
  | a :: p, b :: q => strLt a b ∨ a = b ∧ LocLt p q

/-- all locations of a file system but its root, in order, each once -/
structure Listed (ns : NS) (l : List (List Str)) : Prop where
  sorted : l.Pairwise LocLt
  mem : ∀ q, q ∈ l ↔ q ≠ [] ∧ ns q ≠ none

/-- how a location is written -/
def locText (q : List Str) : Str := cl!"memory:///" ++ List.intercalate ['/'] q

/-- What is written for an object at location `q`, and the error it ends with.  Of a file, what follows its position
    is shown; `skip` are the names taken for binary ones; a directory below `depth - 1` others is one too many. -/
def piece (skip : Str → Bool) (depth : Nat) (q : List Str) : Node → Str × Option PyErr
  | .dir _ => (cl!"DIR: " ++ locText q ++ cl!"\n", if q.length < depth then none else some .recursionError)
  | .link l =>
    match l.target.str with
    | .ok t => (cl!"LINK: " ++ locText q ++ cl!" -> " ++ t ++ cl!"\n", none)
    | .error e => ([], some e)
  | .file f =>
    if skip (q.getLastD []) then ([], some .typeError)
    else match utf8Decode (f.data.drop f.pos) with
      | some t => (cl!"--- START " ++ locText q ++ cl!" ---\n" ++ t ++ cl!"\n--- END ---\n\n", none)
      | none => (cl!"--- START " ++ locText q ++ cl!" ---\n", some .unicodeDecode)

/-- the position of a file moved to its end (or left, if it is beyond) -/
def toEnd : Node → Node
  | .file f => .file { f with pos := max f.pos f.data.length }
  | n => n

/-- the world with the files at the locations `l` moved to their ends -/
def drawn (w : World) (r : Nat) (l : List (List Str)) : World :=
  { w with node := fun j => if ∃ q ∈ l, phys w r q = some j then toEnd (w.node j) else w.node j }

/-- the text and the error of the object at a location -/
def shown (skip : Str → Bool) (depth : Nat) (w : World) (r : Nat) (q : List Str) : Str × Option PyErr :=
  match phys w r q with
  | some i => piece skip depth q (w.node i)
  | none => ([], none)

end Verif.Spec
