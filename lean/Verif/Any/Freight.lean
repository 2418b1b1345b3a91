import Verif.Any.Pack
/-!
# Copying members to members, moving, and what archives refuse

`copy` (fs.py:903-929) from a member of an archive to a member of the same or another one, `move` (fs.py:986-995) between archives
and files, and the methods that the zip backend does not have.
-/
namespace Verif.Any
open Verif.Spec

variable (C : Codec)

/-- methods that the zip backend does not have -/
inductive Bare
  | isexec | setExec | info | sync | mtime | lock | manipulate

/-- the method of `BaseUri` -/
def Bare.meth : Bare → Mem.Meth
  | .isexec => .isexec
  | .setExec => .set_exec
  | .info => .info
  | .sync => .sync
  | .mtime => .mtime
  | .lock => .lock
  | .manipulate => .manipulate

/-- What the method of `ZipFileSystem` raises: zip.py:170-177 `isexec` and `set_exec`; fs.py:1085-1094 `info`, `sync` and `mtime` of
    `FileSystem`; neither class has `lock` and `_manipulate`, so `self.connection.lock` raises.  The other arguments are not used. -/
def Bare.raises : Bare → PyErr
  | .isexec | .setExec | .info | .sync | .mtime => .notImplemented
  | .lock | .manipulate => .attributeError

/-- the method on something in an archive: fs.py:652-680, 727-735, 762-780, 804-823 -/
def uBare (b : Bare) (X : Str) (m : List Str) : OM Arc Unit := withConn (arcOps C) (zat X m) b.meth fun _ => OM.raise b.raises

/-- calls on a member of an archive that cannot do what they are for -/
inductive Deny
  | islink (m : List Str)
  | readlink (m : List Str)
  | symlink (m : List Str) (link : Uri)
  | mkdir (m : List Str)
  | makedirs (m : List Str)
  | copystat (m : List Str) (other : Uri)
  | remove (m : List Str) (recursive : Bool)
  | bare (m : List Str) (b : Bare)

/-- the member the call is about -/
def Deny.about : Deny → List Str
  | .islink m | .readlink m | .symlink m _ | .mkdir m | .makedirs m | .copystat m _ | .remove m _ | .bare m _ => m

/-- a call on a member of the archive whose URI has the text `X`: fs.py:540-553, 569-590, 602-616, 683-724 -/
def Deny.run (X : Str) (depth : Nat) : Deny → OM Arc Ans
  | .islink m => do pure (.bool (← uIslink (arcOps C) (zat X m)))
  | .readlink m => do
    let _ ← uReadlink (arcOps C) (zat X m)
    pure .unit
  | .symlink m l => do
    uSymlink (arcOps C) (zat X m) l
    pure .unit
  | .mkdir m => do
    uMkdir (arcOps C) (zat X m)
    pure .unit
  | .makedirs m => do
    uMakedirs (arcOps C) depth (zat X m)
    pure .unit
  | .copystat m v => do
    uCopystat (arcOps C) (zat X m) v
    pure .unit
  | .remove m b => do
    uRemove (arcOps C) depth (zat X m) b
    pure .unit
  | .bare m b => do
    uBare C b X m
    pure .unit

/-- what a program does: a call of Verif/Any/Pack.lean, copying the member `m` of the archive `z` to the member `m'` of the archive
    `z'`, moving a member to a file, moving a file to a member, or a call that is refused -/
inductive FreightAct (κ ζ : Type)
  | act (a : PackAct κ ζ)
  | carry (z : ζ) (m : List Str) (z' : ζ) (m' : List Str) (ignore : List Str) (followlinks : Bool)
  | moveOut (z : ζ) (m : List Str) (k : κ) (q : List Str)
  | moveIn (k : κ) (p : List Str) (z : ζ) (m : List Str)
  | deny (z : ζ) (d : Deny)

/-- a call of a program: fs.py:519-537 `copy` with `recursive=False`, fs.py:556-566 `move` -/
def FreightAct.run {ι κ ζ : Type} (E : ι → Dict) (site : κ → Option ι) (X : ζ → Str) (depth : Nat) : FreightAct κ ζ → OM Arc Ans
  | .act a => a.run C E site X depth
  | .carry z m z' m' ig fl => do
    uCopy (arcOps C) depth (zat (X z) m) (zat (X z') m') false ig fl
    pure .unit
  | .moveOut z m k q => do
    uMove (arcOps C) depth (zat (X z) m) (siteAt E (site k) q)
    pure .unit
  | .moveIn k p z m => do
    uMove (arcOps C) depth (siteAt E (site k) p) (zat (X z) m)
    pure .unit
  | .deny z d => d.run C (X z) depth

/-- a program decides on the next call by what the calls before it answered -/
def FreightPrg (κ ζ : Type) := List (Except PyErr Ans) → Option (FreightAct κ ζ)

/-- the answers of the first `n` calls of a program, and the state after them -/
def FreightPrg.exec {σ κ ζ : Type} (step : FreightAct κ ζ → OM σ Ans) (pr : FreightPrg κ ζ) : Nat → σ → List (Except PyErr Ans) × σ
  | 0, s => ([], s)
  | n + 1, s =>
    let x := pr.exec step n s
    match pr x.1 with
    | none => x
    | some a => (x.1 ++ [(step a x.2).1], (step a x.2).2)

/-! ## What is expected

Nothing here is code of the repository. -/

/-- What a refused call answers, by what was seen when the archive was opened last; nothing changes.  No expectations about
    removing a directory with all that is in it, and about making directories in an archive in which no member's name begins
    with a slash. -/
def Deny.tells (depth : Nat) (seen : Option (List Zip.Entry)) : Deny → Except PyErr Ans
  | .islink _ => .ok (.bool false)
  | .readlink _ => .error .unsupported
  | .symlink _ _ => .error .unsupported
  | .mkdir _ => .error .notImplemented
  | .copystat _ _ => .error .notImplemented
  | .bare _ .lock | .bare _ .manipulate => .error .attributeError
  | .bare _ _ => .error .notImplemented
  | .makedirs m =>
    if depth < m.length ∨ depth = 0 then .error .outside
    else if m = [] then .ok .unit
    else
      match seen with
      | none => .error .attributeError
      | some es =>
        if hasDir es m then .ok .unit
        else if ∀ e ∈ es, e.name.head? ≠ some '/' then .error .outside
        else .error .notImplemented
  | .remove m b =>
    match seen with
    | none => if m ≠ [] then .error .attributeError else if b then .error .outside else .error .notImplemented
    | some es =>
      if hasDir es m then if b then .error .outside else .error .notImplemented
      else if member es m = none then .error .fileDoesNotExist
      else .error .notImplemented

section
variable {κ ζ : Type} [DecidableEq κ] [DecidableEq ζ]

/-- What a call of a program answers and leaves; `loc k`: the place `k` is that of the local files.  Copying to a member of an
    archive stores the bytes and raises NotImplementedError; inside one archive that is a local file nothing is read: an empty
    member is stored, and ValueError is raised.  Moving a member to a file leaves it in the archive and raises
    NotImplementedError. -/
def FreightAct.says (may : κ → κ → Bool) (loc : κ → Bool) (arc : ζ → κ × List Str) (depth : Nat) :
    FreightAct κ ζ → OM ((κ → Tree) × (ζ → Option (List Zip.Entry))) Ans
  | .act a => a.says C may arc depth
  | .carry z m z' m' _ _ => fun (T, M) =>
    if (arc z).2 = [] ∨ ¬ Fit (arc z).2 ∨ ¬ (T (arc z).1).Way (arc z).2 ∨ m = [] ∨ ¬ Nm m ∨ ¬ Nm (m' ++ [m.getLastD []]) then
      (.error .outside, T, M)
    else
      match M z with
      | none => (.error .attributeError, T, M)
      | some es =>
        if member es m = none then (.error (if hasDir es m then .assertionError else .fileDoesNotExist), T, M)
        else if m' ≠ [] ∧ M z' = none then (.error .attributeError, T, M)
        else
          let e := if hasDir ((M z').getD []) m' then m' ++ [m.getLastD []] else m'
          match found C (T (arc z).1) (arc z).2 with
          | .error x => (.error x, T, M)
          | .ok es' =>
            let M' := fun y => if y = z then some es' else M y
            match member es' m with
            | none => (.error .fileDoesNotExist, T, M')
            | some b =>
              let lost := z = z' ∧ loc (arc z).1 = true
              if lost ∧ b = [] then (.error .outside, T, M)
              else
                let r := ArcAct.says C may arc depth (.zip z' (.write e (if lost then [] else b))) (T, M')
                match r.1 with
                | .error x => (.error x, r.2)
                | .ok _ => (.error (if lost then .valueError else .notImplemented), r.2)
  | .moveOut z m k q => fun (T, M) =>
    if hasDir ((M z).getD []) m ∧ member ((M z).getD []) m = none then (.error .outside, T, M)
    else
      let r := PackAct.says C may arc depth (.out z m k q [] true) (T, M)
      match r.1 with
      | .error x => (.error x, r.2)
      | .ok _ => (.error .notImplemented, r.2)
  | .moveIn k p z m => fun (T, M) =>
    if (T k).get p = some .dir then (.error .outside, T, M)
    else
      let r := PackAct.says C may arc depth (.into k p z m [] true) (T, M)
      match r.1 with
      | .error x => (.error x, r.2)
      | .ok _ => ArcAct.says C may arc depth (.call (.one k (.remove p false))) r.2
  | .deny z d => fun (T, M) =>
    if ¬ Nm d.about then (.error .outside, T, M) else (d.tells depth (M z), T, M)

end
end Verif.Any
