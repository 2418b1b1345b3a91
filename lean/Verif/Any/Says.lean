import Verif.Any.Many
/-!
# What every call of a program does, said directly

The plain file system of Verif/Any/Plain.lean answers the calls by running the algorithms of fs.py over simple questions
and changes.  Here what each call answers and leaves is said without them: which directories a walk visits and in which
order, which objects a recursive remove takes away, what a copy puts where.  Nothing here is code of the repository.
-/
namespace Verif.Any
open Verif.Spec

/-- `a` is `b`, or is visited before `b`: a directory before (bottom-up: after) those below it, those beside each other in the
    order of their names -/
def comes (td : Bool) : List Str → List Str → Bool
  | [], [] => true
  | [], _ :: _ => td
  | _ :: _, [] => !td
  | a :: x, b :: y => if a = b then comes td x y else strLe a b

/-- one more directory in a list of them -/
def putIn (td : Bool) (a : List Str) : List (List Str) → List (List Str)
  | [] => [a]
  | b :: l => if comes td a b then a :: b :: l else b :: putIn td a l

/-- directories in the order in which they are visited -/
def inOrder (td : Bool) (l : List (List Str)) : List (List Str) := l.foldr (putIn td) []

namespace Tree

/-- the directory `p` and all directories below it -/
def dirs (t : Tree) (p : List Str) : List (List Str) :=
  (if p = [] then [[]] else []) ++ (t.filter fun x => x.1 ≠ [] ∧ p <+: x.1 ∧ isD (some x.2) = true).map (·.1)

/-- what a walk says of a directory: its path, the names of its directories, its other names -/
def row (t : Tree) (p : List Str) : Str × List Str × List Str :=
  (pathOf p, (t.names p).filter (fun n => isD (t.get (p ++ [n]))), (t.names p).filter (fun n => !isD (t.get (p ++ [n]))))

/-- nothing below `p` is deeper than Python's recursion limit -/
def Shallow (t : Tree) (depth : Nat) (p : List Str) : Prop := 0 < depth ∧ ∀ x ∈ t, p <+: x.1 → x.1.length < p.length + depth

instance (t : Tree) (depth : Nat) (p : List Str) : Decidable (t.Shallow depth p) := by unfold Shallow; infer_instance

end Tree

/-- an answer that depends on what is at `p` only -/
def ask (p : List Str) (f : Option Kind → Except PyErr Ans) : OM Tree Ans := fun t =>
  if t.Way p then (f (t.get p), t) else (.error .outside, t)

/-- what a call answers and leaves, with names that can be written -/
def Act.tells (depth : Nat) : Act → OM Tree Ans
  | .exists_ p => ask p fun o => .ok (.bool o.isSome)
  | .isfile p => ask p fun o => .ok (.bool (isF o))
  | .isdir p => ask p fun o => .ok (.bool (isD o))
  | .islink p => ask p fun _ => .ok (.bool false)
  | .listdir p => fun t => ask p (fun
    | some .dir => .ok (.names (t.names p))
    | none => .error (.os .ENOENT)
    | _ => .error .outside) t
  | .mkdir p => fun t =>
    if p = [] ∨ ¬ t.Way p then (.error .outside, t)
    else if t.get p ≠ none then (.error (.os .EEXIST), t)
    else if t.get p.dropLast = some .dir then (.ok .unit, t.set p .dir)
    else (.error (.os .ENOENT), t)
  | .makedirs p => fun t =>
    if p.length < depth ∧ ∀ a ∈ p.inits, t.get a = some .dir ∨ t.get a = none then (.ok .unit, t.lay [] (Tree.way p))
    else if 0 < depth ∧ t.Way p ∧ isF (t.get p) = true ∧ t.get p.dropLast = some .dir then (.error (.os .EEXIST), t)
    else (.error .outside, t)
  | .write p l => fun t =>
    if p = [] ∨ ¬ t.Way p then (.error .outside, t)
    else if t.get p = some .dir then (.error (.os .EISDIR), t)
    else if t.get p.dropLast = some .dir then (.ok .unit, t.set p (.file l.flatten))
    else (.error (.os .ENOENT), t)
  | .read p | .md5 p => ask p fun
    | some (.file d) => .ok (.bytes d)
    | none => .error (.os .ENOENT)
    | _ => .error .outside
  | .copystat p q => fun t =>
    if isF (t.get p) = true ∧ isF (t.get q) = true then (.ok .unit, t)
    else if t.Way p ∧ t.Way q ∧ (t.get p = none ∨ t.get q = none) then (.error (.os .ENOENT), t)
    else (.error .outside, t)
  | .remove p b => fun t =>
    if ¬ t.Way p ∨ p = [] then (.error .outside, t)
    else
      match t.get p with
      | none => (.error .fileDoesNotExist, t)
      | some (.file _) => (.ok .unit, t.del p)
      | some .dir =>
        if b then if t.Shallow depth p then (.ok .unit, t.cut p) else (.error .outside, t)
        else if t.names p = [] then (.ok .unit, t.del p) else (.error (.os .ENOTEMPTY), t)
      | some .other => (.error .outside, t)
  | .move p q => fun t =>
    let e := t.dest p q
    if t.get p ≠ none ∧ ¬ p <+: e ∧ ¬ e <+: p ∧ t.get e.dropLast = some .dir ∧
        (t.get e = none ∨ (isF (t.get e) = true ∧ isF (t.get p) = true ∧ e = q)) ∧
        e.length < depth ∧ ∀ x ∈ t, p <+: x.1 → x.1.length < p.length + depth then (.ok .unit, t.shift p e)
    else (.error .outside, t)
  | .copy p q b ig _ => fun t =>
    let e := t.dest p q
    if ¬ t.Way p then (.error .outside, t)
    else
      match t.get p with
      | none => (.error .fileDoesNotExist, t)
      | some (.file d) =>
        if b then (.error .assertionError, t)
        else if t.Room e ∧ p ≠ e then (.ok .unit, t.set e (.file d)) else (.error .outside, t)
      | some .dir =>
        if !b then (.error .assertionError, t)
        else if t.Over depth ig p t e ∧ ¬ p <+: e ∧ ¬ e <+: p then (.ok .unit, t.over ig p t e) else (.error .outside, t)
      | some .other => (.error .outside, t)
  | .walk p td _ => fun t => ask p (fun
    | some .dir => if t.Shallow depth p then .ok (.rows ((inOrder td (t.dirs p)).map t.row)) else .error .outside
    | none => if 0 < depth then .error (.os .ENOENT) else .error .outside
    | _ => .error .outside) t
  | .glob p m => fun t => ask p (fun
    | some .dir => .ok (.paths (((t.names p).filter m).map fun n => pathOf (p ++ [n])))
    | none => .error (.os .ENOENT)
    | _ => .error .outside) t

/-- what a call answers and leaves -/
def Act.says (depth : Nat) (a : Act) : OM Tree Ans := if a.Fit then a.tells depth else outside

/-- the same for calls in several file systems -/
def Acts.says {κ : Type} [DecidableEq κ] (may : κ → κ → Bool) (depth : Nat) : Acts κ → OM (κ → Tree) Ans
  | .one k a => oneAt k (a.says depth)
  | .copy k p k' q b ig fl => Acts.plain may depth (.copy k p k' q b ig fl)
  | .move k p k' q => Acts.plain may depth (.move k p k' q)

end Verif.Any
