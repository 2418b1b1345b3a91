import Verif.Mem.World
/-!
# The abstract file system

What users think of: a partial map from locations (lists of names, starting at the root) to objects.  The
abstraction `view` reads it off the heap by following directory entries only; links are not followed
and nothing of the model's path lookup is used.  `Goes` says what a path with links denotes.
-/
namespace Verif.Spec
open Verif.Mem

/-- an object as seen by users of the API -/
inductive Obj
  | file (data : Bytes) (mode mtime : Int)
  | dir (mode mtime : Int)
  | link (target : Uri) (mode mtime : Int)
  deriving DecidableEq

/-- a directory -/
def Obj.isDir : Obj → Bool | .dir _ _ => true | _ => false
/-- a file -/
def Obj.isFile : Obj → Bool | .file _ _ _ => true | _ => false
/-- a link -/
def Obj.isLink : Obj → Bool | .link _ _ _ => true | _ => false

/-- a file system: location ↦ object -/
abbrev NS := List Str → Option Obj

/-- at `q` is a directory -/
def NS.isDir (ns : NS) (q : List Str) : Prop := ∃ m t, ns q = some (.dir m t)
/-- at `q` is a file -/
def NS.isFile (ns : NS) (q : List Str) : Prop := ∃ b m t, ns q = some (.file b m t)
/-- at `q` is a link -/
def NS.isLink (ns : NS) (q : List Str) : Prop := ∃ u m t, ns q = some (.link u m t)

/-- one location gets an object -/
def NS.set (ns : NS) (q : List Str) (o : Obj) : NS := fun p => if p = q then some o else ns p

/-- a location and everything below it disappears -/
def NS.del (ns : NS) (q : List Str) : NS := fun p => if q <+: p then none else ns p

/-- the user visible part of a heap object -/
def objOf : Node → Obj
  | .file f => .file f.data f.mode f.mtime
  | .dir d => .dir d.mode d.mtime
  | .link l => .link l.target l.mode l.mtime

/-- the heap object found from `i` by following directory entries -/
def phys (w : World) : Nat → List Str → Option Nat
  | i, [] => some i
  | i, n :: ns =>
    match w.node i with
    | .dir d =>
      match d.files.lookup n with
      | some c => phys w c ns
      | none => none
    | _ => none

/-- the file system with root directory `r` -/
def view (w : World) (r : Nat) : NS := fun q => (phys w r q).map fun i => objOf (w.node i)

/-- the steps a link target (or any URI) stands for; `none` if its path is not absolute -/
def stepsOf (u : Uri) : Option (List Str) :=
  match u.path with
  | '/' :: p => some (if p = [] then [] else splitC '/' p)
  | _ => none

/-- what following a path comes to -/
inductive Out
  | found (q : List Str)
  /-- there is nothing there (or at the end of a final link) -/
  | missing
  /-- a link in the middle leads nowhere -/
  | dangling
  /-- a file in the middle -/
  | notDir
  /-- a link whose target is not absolute -/
  | badLink
  deriving DecidableEq

/-- `Goes ns d q steps out`: from directory `q`, following `steps` and resolving every link, with link
    targets nested at most `d` deep, comes to `out`. -/
inductive Goes (ns : NS) : Nat → List Str → List Str → Out → Prop
  | done {d q} : Goes ns d q [] (.found q)
  | notDir {d q o n rest} : ns q = some o → o.isDir = false → Goes ns d q (n :: rest) .notDir
  | missing {d q n rest} : ns.isDir q → ns (q ++ [n]) = none → Goes ns d q (n :: rest) .missing
  | step {d q o n rest out} : ns.isDir q → ns (q ++ [n]) = some o → o.isLink = false →
      Goes ns d (q ++ [n]) rest out → Goes ns d q (n :: rest) out
  | link {d q t m s n rest ts q' out} : ns.isDir q → ns (q ++ [n]) = some (.link t m s) →
      stepsOf t = some ts → Goes ns d [] ts (.found q') → Goes ns (d + 1) q' rest out →
      Goes ns (d + 1) q (n :: rest) out
  | linkLost {d q t m s n ts} : ns.isDir q → ns (q ++ [n]) = some (.link t m s) →
      stepsOf t = some ts → Goes ns d [] ts .missing → Goes ns (d + 1) q [n] .missing
  | linkLostMid {d q t m s n n' rest ts} : ns.isDir q → ns (q ++ [n]) = some (.link t m s) →
      stepsOf t = some ts → Goes ns d [] ts .missing → Goes ns (d + 1) q (n :: n' :: rest) .dangling
  | linkFail {d q t m s n rest ts out} : ns.isDir q → ns (q ++ [n]) = some (.link t m s) →
      stepsOf t = some ts → Goes ns d [] ts out → (out = .dangling ∨ out = .notDir ∨ out = .badLink) →
      Goes ns (d + 1) q (n :: rest) out
  | badLink {d q t m s n rest} : ns.isDir q → ns (q ++ [n]) = some (.link t m s) →
      stepsOf t = none → Goes ns (d + 1) q (n :: rest) .badLink

/-- links on the way are nested at most 32 deep (memory.py:320) -/
def maxDepth : Nat := 32

/-- every proper prefix of `cs` is a directory: no link occurs on the way -/
def Plain (ns : NS) (cs : List Str) : Prop := ∀ q n r, cs = q ++ n :: r → ns.isDir q

end Verif.Spec
