import Verif.Any.Pump
/-!
# A plain file system to compare with

What the calls do in a file system without links, permissions and open files: a list of names and what they stand for.
Nothing here is code of the repository; it says what a user expects of every backend.  Where the backends of the
repository differ from each other (a path that leads through a file, listing or reading what is not of the kind, the
root as something to make, write or remove, copying a file to itself) the answer is `PyErr.outside`: no expectation.
-/
namespace Verif.Any
open Verif.Spec

/-- the objects, by the names that lead to them; the root is not in the list -/
abbrev Tree := List (List Str × Kind)

namespace Tree

/-- what there is at a name; there is always a root -/
def get (t : Tree) (p : List Str) : Option Kind := if p = [] then some .dir else t.lookup p

/-- putting an object at a name -/
def set (t : Tree) (p : List Str) (o : Kind) : Tree := (p, o) :: t.filter (·.1 ≠ p)

/-- taking away what is at a name -/
def del (t : Tree) (p : List Str) : Tree := t.filter (·.1 ≠ p)

/-- the names in a directory, in order -/
def names (t : Tree) (q : List Str) : List Str :=
  sortStr (t.filterMap fun e => if e.1 ≠ [] ∧ e.1.dropLast = q then e.1.getLast? else none)

/-- the object at `p`, with all below it, gets the name `e`; what had that name is gone -/
def shift (t : Tree) (p e : List Str) : Tree :=
  (t.filter fun x => ¬ e <+: x.1).map fun x => (if p <+: x.1 then e ++ x.1.drop p.length else x.1, x.2)

/-- no file on the way -/
def Way (t : Tree) (p : List Str) : Prop := ∀ a ∈ p.inits, a ≠ p → isF (t.get a) = false

instance (t : Tree) (p : List Str) : Decidable (t.Way p) := by unfold Way; infer_instance

end Tree

/-- no expectation -/
def outside {α : Type} : OM Tree α := OM.raise .outside

/-- a question about the object at a path -/
def pAsk (f : Option Kind → Bool) (u : Uri) : OM Tree Bool := fun t =>
  if t.Way (comps u.path) then (.ok (f (t.get (comps u.path))), t) else (.error .outside, t)

/-- the names in a directory; ENOENT if there is nothing -/
def pListdir (u : Uri) : OM Tree (List Str) := fun t =>
  if t.Way (comps u.path) then
    match t.get (comps u.path) with
    | some .dir => (.ok (t.names (comps u.path)), t)
    | none => (.error (.os .ENOENT), t)
    | _ => (.error .outside, t)
  else (.error .outside, t)

/-- a new directory; EEXIST if there is something, ENOENT if there is no directory to put it in -/
def pMkdir (u : Uri) : OM Tree Unit := fun t =>
  if comps u.path = [] ∨ ¬ t.Way (comps u.path) then (.error .outside, t)
  else if t.get (comps u.path) ≠ none then (.error (.os .EEXIST), t)
  else if t.get (comps u.path).dropLast = some .dir then (.ok (), t.set (comps u.path) .dir)
  else (.error (.os .ENOENT), t)

/-- the file is gone -/
def pRemovefile (u : Uri) : OM Tree Unit := fun t =>
  if isF (t.get (comps u.path)) then (.ok (), t.del (comps u.path)) else (.error .outside, t)

/-- the directory is gone; ENOTEMPTY if there is something in it -/
def pRemovedir (u : Uri) : OM Tree Unit := fun t =>
  if comps u.path ≠ [] ∧ t.get (comps u.path) = some .dir then
    if t.names (comps u.path) = [] then (.ok (), t.del (comps u.path)) else (.error (.os .ENOTEMPTY), t)
  else (.error .outside, t)

/-- the file to read; ENOENT if there is nothing -/
def pOpenR (u : Uri) : OM Tree (List Str) := fun t =>
  if t.Way (comps u.path) then
    match t.get (comps u.path) with
    | some (.file _) => (.ok (comps u.path), t)
    | none => (.error (.os .ENOENT), t)
    | _ => (.error .outside, t)
  else (.error .outside, t)

/-- an empty file to write; EISDIR if there is a directory, ENOENT if there is no directory to put it in -/
def pOpenW (u : Uri) : OM Tree (List Str) := fun t =>
  if comps u.path = [] ∨ ¬ t.Way (comps u.path) then (.error .outside, t)
  else if t.get (comps u.path) = some .dir then (.error (.os .EISDIR), t)
  else if t.get (comps u.path).dropLast = some .dir then (.ok (comps u.path), t.set (comps u.path) (.file []))
  else (.error (.os .ENOENT), t)

/-- what is in the one file gets into the other -/
def pPump (a b : List Str) : OM Tree Unit := fun t =>
  match t.get a with
  | some (.file d) => if a = b then (.error .outside, t) else (.ok (), t.set b (.file d))
  | _ => (.error .outside, t)

/-- what is in the file -/
def pData (a : List Str) : OM Tree Bytes := fun t =>
  match t.get a with
  | some (.file d) => (.ok d, t)
  | _ => (.error .outside, t)

/-- writing an open file -/
def pPut (a : List Str) (d : Bytes) : OM Tree Unit := fun t => (.ok (), t.set a (.file d))

/-- permissions are not in the tree; ENOENT if one of the two is missing -/
def pCopystat (u v : Uri) : OM Tree Unit := fun t =>
  if isF (t.get (comps u.path)) = true ∧ isF (t.get (comps v.path)) = true then (.ok (), t)
  else if t.Way (comps u.path) ∧ t.Way (comps v.path) ∧ (t.get (comps u.path) = none ∨ t.get (comps v.path) = none) then (.error (.os .ENOENT), t)
  else (.error .outside, t)

/-- where something moved to `q` goes: into the directory, if `q` is one -/
def Tree.dest (t : Tree) (p q : List Str) : List Str := if t.get q = some .dir then q ++ [p.getLastD []] else q

/-- moving to a free name, or a file onto a file; the place where it goes is neither above nor below it.  `depth` is
    Python's recursion limit. -/
def pMove (depth : Nat) (u v : Uri) : OM Tree Unit := fun t =>
  let p := comps u.path
  let e := t.dest p (comps v.path)
  if t.get p ≠ none ∧ ¬ p <+: e ∧ ¬ e <+: p ∧ t.get e.dropLast = some .dir ∧
      (t.get e = none ∨ (isF (t.get e) = true ∧ isF (t.get p) = true ∧ e = comps v.path)) ∧
      e.length < depth ∧ ∀ x ∈ t, p <+: x.1 → x.1.length < p.length + depth then (.ok (), t.shift p e)
  else (.error .outside, t)

/-- the plain file system as a backend, to run the algorithms of fs.py over -/
def plainOps : Ops Tree where
  Conn := Unit
  Hd := List Str
  conn _ := pure ()
  hook _ _ _ := pure ()
  exists_ _ := pAsk Option.isSome
  isfile _ := pAsk isF
  isdir _ := pAsk isD
  islink _ := pAsk fun _ => false
  readlink _ _ := outside
  symlink _ _ _ := outside
  listdir _ := pListdir
  mkdir _ := pMkdir
  removefile _ := pRemovefile
  removedir _ := pRemovedir
  copystat _ := pCopystat
  openR _ := pOpenR
  openW _ := pOpenW
  pump := pPump
  blocks a := do
    let d ← pData a
    pure [d]
  moveSelf _ _ _ := none

/-! ## Programs -/

/-- names with which all calls can be made: those of `Nm`, without whitespace at the ends -/
structure Fit (cs : List Str) : Prop where
  nm : Nm cs
  trim : ∀ n ∈ cs, Trimmed n

instance (cs : List Str) : Decidable (Fit cs) :=
  decidable_of_iff (Nm cs ∧ ∀ n ∈ cs, Trimmed n) ⟨fun h => ⟨h.1, h.2⟩, fun h => ⟨h.1, h.2⟩⟩

/-- a call of a program that works in one file system; paths are given by their names -/
inductive Act
  | exists_ (p : List Str)
  | isfile (p : List Str)
  | isdir (p : List Str)
  | islink (p : List Str)
  | listdir (p : List Str)
  | mkdir (p : List Str)
  | makedirs (p : List Str)
  | write (p : List Str) (chunks : List Bytes)
  | read (p : List Str)
  | md5 (p : List Str)
  | copystat (p q : List Str)
  | remove (p : List Str) (recursive : Bool)
  | move (p q : List Str)
  | copy (p q : List Str) (recursive : Bool) (ignore : List Str) (followlinks : Bool)
  | walk (p : List Str) (topdown followlinks : Bool)
  | glob (p : List Str) (match_ : Str → Bool)

/-- what a call answers; URIs are given by their paths, and of `md5` the bytes that were hashed -/
inductive Ans
  | unit
  | bool (b : Bool)
  | names (l : List Str)
  | bytes (b : Bytes)
  | rows (l : List (Str × List Str × List Str))
  | paths (l : List Str)
  deriving DecidableEq

/-- the names in the call can be written -/
def Act.Fit : Act → Prop
  | .exists_ p | .isfile p | .isdir p | .islink p | .listdir p | .mkdir p | .makedirs p | .write p _ | .read p | .md5 p
  | .remove p _ | .walk p _ _ | .glob p _ => Any.Fit p
  | .copystat p q => Any.Fit p ∧ Any.Fit q
  | .move p q | .copy p q _ _ _ => p ≠ [] ∧ Any.Fit p ∧ Any.Fit q ∧ Any.Fit (q ++ [p.getLastD []])

instance (a : Act) : Decidable a.Fit := by cases a <;> unfold Act.Fit <;> infer_instance

/-- `with u.open('rb') as f: return f.read()` -/
def sRead (u : Uri) : OM Sys Bytes := do
  let h ← uOpenR sysOps u
  let n ← hSize h
  match ← hRead n h with
  | .bytes b => pure b
  | .str _ => OM.raise .typeError

/-- writing one piece after the other -/
def sWrites (h : Hd) : List Bytes → OM Sys Unit
  | [] => pure ()
  | b :: l => do
    hWrite h (.bytes b)
    sWrites h l

/-- `with u.open('wb') as f: for b in chunks: f.write(b)` -/
def sWrite (u : Uri) (chunks : List Bytes) : OM Sys Unit := do
  let h ← uOpenW sysOps u
  sWrites h chunks

/-- the same in the plain file system -/
def pRead (u : Uri) : OM Tree Bytes := do
  let a ← uOpenR plainOps u
  pData a

/-- the same in the plain file system -/
def pWrite (u : Uri) (chunks : List Bytes) : OM Tree Unit := do
  let a ← uOpenW plainOps u
  pPut a chunks.flatten

/-- a call, over any backend; `at_` makes the URIs, `rd` and `wr` read and write a whole file, `mv` is `move`, `depth` is Python's
    recursion limit -/
def Act.over {σ : Type} (O : Ops σ) (at_ : List Str → Uri) (rd : Uri → OM σ Bytes) (wr : Uri → List Bytes → OM σ Unit)
    (mv : Nat → Uri → Uri → OM σ Unit) (depth : Nat) : Act → OM σ Ans
  | .exists_ p => do pure (.bool (← uExists O (at_ p)))
  | .isfile p => do pure (.bool (← uIsfile O (at_ p)))
  | .isdir p => do pure (.bool (← uIsdir O (at_ p)))
  | .islink p => do pure (.bool (← uIslink O (at_ p)))
  | .listdir p => do pure (.names (← uListdir O (at_ p)))
  | .mkdir p => do uMkdir O (at_ p); pure .unit
  | .makedirs p => do uMakedirs O depth (at_ p); pure .unit
  | .write p l => do wr (at_ p) l; pure .unit
  | .read p => do pure (.bytes (← rd (at_ p)))
  | .md5 p => do pure (.bytes (← uMd5 O (at_ p)).flatten)
  | .copystat p q => do uCopystat O (at_ p) (at_ q); pure .unit
  | .remove p b => do uRemove O depth (at_ p) b; pure .unit
  | .move p q => do mv depth (at_ p) (at_ q); pure .unit
  | .copy p q b ig fl => do uCopy O depth (at_ p) (at_ q) b ig fl; pure .unit
  | .walk p td fl => do pure (.rows ((← uWalk O depth (at_ p) td fl).map fun x => (x.1.path, x.2)))
  | .glob p m => do pure (.paths ((← uGlob O (at_ p) m).map Uri.path))

/-- a call in the file system of place `k` -/
def Act.run {ι : Type} (E : ι → Dict) (k : Option ι) (depth : Nat) : Act → OM Sys Ans :=
  Act.over sysOps (siteAt E k) sRead sWrite (uMove sysOps) depth

/-- a call in the plain file system -/
def Act.plain (depth : Nat) (a : Act) : OM Tree Ans :=
  if a.Fit then Act.over plainOps (Gen.mem []) pRead pWrite pMove depth a else outside

/-- a program decides on the next call by what the calls before it answered -/
def Prg (α : Type) := List (Except PyErr Ans) → Option α

/-- the answers of the first `n` calls of a program, and the state after them -/
def Prg.exec {σ α : Type} (step : α → OM σ Ans) (pr : Prg α) : Nat → σ → List (Except PyErr Ans) × σ
  | 0, s => ([], s)
  | n + 1, s =>
    let x := pr.exec step n s
    match pr x.1 with
    | none => x
    | some a => (x.1 ++ [(step a x.2).1], (step a x.2).2)

end Verif.Any
