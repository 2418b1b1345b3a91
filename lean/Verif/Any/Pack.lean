import Verif.Any.Arc
/-!
# Copying between archives and other places

`copy` (fs.py:903-929) from a member of an archive to a file and from a file to a member, where the archive is itself a file of
one of the places (Verif/Any/Arc.lean).
-/
namespace Verif.Any
open Verif.Spec

variable (C : Codec)

/-- what a program does: a call of Verif/Any/Arc.lean, copying the member `m` of the archive `z` to the name `q` in the place `k`,
    copying the file `p` of the place `k` to the member `m` of the archive `z` -/
inductive PackAct (κ ζ : Type)
  | act (a : ArcAct κ ζ)
  | out (z : ζ) (m : List Str) (k : κ) (q : List Str) (ignore : List Str) (followlinks : Bool)
  | into (k : κ) (p : List Str) (z : ζ) (m : List Str) (ignore : List Str) (followlinks : Bool)

/-- a call of a program: fs.py:519-537 `copy` with `recursive=False` -/
def PackAct.run {ι κ ζ : Type} (E : ι → Dict) (site : κ → Option ι) (X : ζ → Str) (depth : Nat) : PackAct κ ζ → OM Arc Ans
  | .act a => a.run C E site X depth
  | .out z m k q ig fl => do
    uCopy (arcOps C) depth (zat (X z) m) (siteAt E (site k) q) false ig fl
    pure .unit
  | .into k p z m ig fl => do
    uCopy (arcOps C) depth (siteAt E (site k) p) (zat (X z) m) false ig fl
    pure .unit

/-- a program decides on the next call by what the calls before it answered -/
def PackPrg (κ ζ : Type) := List (Except PyErr Ans) → Option (PackAct κ ζ)

/-- the answers of the first `n` calls of a program, and the state after them -/
def PackPrg.exec {σ κ ζ : Type} (step : PackAct κ ζ → OM σ Ans) (pr : PackPrg κ ζ) : Nat → σ → List (Except PyErr Ans) × σ
  | 0, s => ([], s)
  | n + 1, s =>
    let x := pr.exec step n s
    match pr x.1 with
    | none => x
    | some a => (x.1 ++ [(step a x.2).1], (step a x.2).2)

/-! ## What is expected

Nothing here is code of the repository. -/

section
variable {κ ζ : Type} [DecidableEq κ] [DecidableEq ζ]

/-- What a call of a program answers and leaves; the archive `z` is at the place `(arc z).1`, path `(arc z).2`.  Whether a member
    exists and whether the target is a directory is decided by what was seen when the archive was opened last; the bytes are
    those that are in the archive now.  No expectations about copying an archive into itself or over itself. -/
def PackAct.says (may : κ → κ → Bool) (arc : ζ → κ × List Str) (depth : Nat) :
    PackAct κ ζ → OM ((κ → Tree) × (ζ → Option (List Zip.Entry))) Ans
  | .act a => a.says C may arc depth
  | .out z m k q _ _ => fun (T, M) =>
    let e := (T k).dest m q
    if (arc z).2 = [] ∨ ¬ Fit (arc z).2 ∨ ¬ (T (arc z).1).Way (arc z).2 ∨ m = [] ∨ ¬ Nm m ∨ ¬ Fit q ∨ ¬ (T k).Way q ∨ ¬ Fit e ∨
        arc z = (k, e) then
      (.error .outside, T, M)
    else
      match M z with
      | none => (.error .attributeError, T, M)
      | some es =>
        if member es m = none then (.error (if hasDir es m then .assertionError else .fileDoesNotExist), T, M)
        else
          match found C (T (arc z).1) (arc z).2 with
          | .error x => (.error x, T, M)
          | .ok es' =>
            let M' := fun y => if y = z then some es' else M y
            match member es' m with
            | none => (.error .fileDoesNotExist, T, M')
            | some b =>
              match (T k).opens e .w with
              | .error x => (.error x, T, M')
              | .ok _ => (.ok .unit, setAt T k ((T k).set e (.file b)), M')
  | .into k p z m _ _ => fun (T, M) =>
    if (arc z).2 = [] ∨ ¬ Fit (arc z).2 ∨ ¬ (T (arc z).1).Way (arc z).2 ∨ ¬ Nm m ∨ p = [] ∨ ¬ Fit p ∨ ¬ (T k).Way p ∨ arc z = (k, p) then
      (.error .outside, T, M)
    else
      match (T k).get p with
      | none => (.error .fileDoesNotExist, T, M)
      | some .dir => (.error .assertionError, T, M)
      | some .other => (.error .outside, T, M)
      | some (.file d) =>
        if m ≠ [] ∧ M z = none then (.error .attributeError, T, M)
        else
          let e := if hasDir ((M z).getD []) m then m ++ [p.getLastD []] else m
          ArcAct.says C may arc depth (.zip z (.write e d)) (T, M)

end
end Verif.Any
