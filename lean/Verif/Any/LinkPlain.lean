import Verif.Any.Same
/-!
# A plain file system with links to compare with

What the calls do in a tree of directories, files and links to absolute paths.  Nothing here is code of the repository;
it says what a user expects of every backend that has links.  Where the backends of the repository differ from each
other (a path that leads through a file, a link in the middle of a path that leads nowhere, more than 32 links, writing
through a link that leads nowhere, asking for a link whose name occurs earlier in a path with links) the answer is
`PyErr.outside`: no expectation.
-/
namespace Verif.Any
open Verif.Spec

/-- what there is at a name -/
inductive LKind
  | dir
  | file (d : Bytes)
  /-- a link to the path with these names -/
  | link (t : List Str)
  deriving DecidableEq

/-- without the target of a link -/
def LKind.kind : LKind → Kind
  | .dir => .dir
  | .file d => .file d
  | .link _ => .other

/-- is it a link? -/
def LKind.isLink : LKind → Bool
  | .link _ => true
  | _ => false

/-- the objects, by the names that lead to them; the root is not in the list -/
abbrev LTree := List (List Str × LKind)

namespace LTree

/-- what there is at a name; there is always a root -/
def get (t : LTree) (p : List Str) : Option LKind := if p = [] then some .dir else t.lookup p

/-- putting an object at a name -/
def set (t : LTree) (p : List Str) (o : LKind) : LTree := (p, o) :: t.filter (·.1 ≠ p)

/-- taking away what is at a name -/
def del (t : LTree) (p : List Str) : LTree := t.filter (·.1 ≠ p)

/-- taking away what is at a name and below -/
def wipe (t : LTree) (p : List Str) : LTree := t.filter fun e => ¬ p <+: e.1

/-- the object at `p`, with all below it, gets the name `e`; what had that name is gone -/
def shift (t : LTree) (p e : List Str) : LTree :=
  (t.filter fun x => ¬ e <+: x.1).map fun x => (if p <+: x.1 then e ++ x.1.drop p.length else x.1, x.2)

/-- the name that what is at `p` gets when it goes to `q`: in a directory its own -/
def dest (t : LTree) (p q : List Str) : List Str := if t.get q = some .dir then q ++ [p.getLastD []] else q

/-- the names in a directory, in order -/
def names (t : LTree) (q : List Str) : List Str :=
  sortStr (t.filterMap fun e => if e.1 ≠ [] ∧ e.1.dropLast = q then e.1.getLast? else none)

/-- following a path from the directory `cur` to the first link; from there `jump` follows the path with the target of
    the link in place of the link.  No expectation where the path leads through a file, or through a link to nothing. -/
def hop (t : LTree) (jump : List Str → Option (List Str)) : List Str → List Str → Option (List Str)
  | cur, [] => some cur
  | cur, n :: rest =>
    match t.get (cur ++ [n]) with
    | none => some (cur ++ n :: rest)
    | some .dir => t.hop jump (cur ++ [n]) rest
    | some (.file _) => if rest = [] then some (cur ++ [n]) else none
    | some (.link x) =>
      if Nm (x ++ rest) ∧ (rest = [] ∨ ((jump x).bind t.get).isSome = true) then jump (x ++ rest) else none

/-- the path without links that a path with at most so many links stands for -/
def lead (t : LTree) : Nat → List Str → Option (List Str)
  | 0, p => t.hop (fun _ => none) [] p
  | k + 1, p => t.hop (t.lead k) [] p

/-- the directory in which the last name of a path is looked up, and that name -/
def entry (t : LTree) (p : List Str) : Option (List Str × Str) :=
  match p.getLast? with
  | none => none
  | some n =>
    match t.lead 32 p.dropLast with
    | none => none
    | some q => if Nm (q ++ [n]) then some (q, n) else none

/-- the same for calls that do not follow a link at the end: no expectation if the name occurs earlier in a path with links -/
def bare (t : LTree) (p : List Str) : Option (List Str × Str) :=
  match t.entry p with
  | some (q, n) => if n ∉ p.dropLast ∨ q = p.dropLast then some (q, n) else none
  | none => none

/-- the name of the file that writing by a path writes -/
def goal (t : LTree) (p : List Str) : Option (List Str) :=
  match t.entry p with
  | none => none
  | some (q, n) =>
    match t.get (q ++ [n]) with
    | some (.link _) => t.lead 32 p
    | _ => some (q ++ [n])

/-- a new object at a path; EEXIST if there is something, be it a link, ENOENT if there is no directory to put it in -/
def make (t : LTree) (p : List Str) (o : LKind) : Except PyErr Unit × LTree :=
  match t.entry p with
  | none => (.error .outside, t)
  | some (q, n) =>
    match t.get q with
    | some .dir => if t.get (q ++ [n]) = none then (.ok (), t.set (q ++ [n]) o) else (.error (.os .EEXIST), t)
    | none => (.error (.os .ENOENT), t)
    | _ => (.error .outside, t)

/-- no file and no link is on the way to a path -/
def clear (t : LTree) (p : List Str) : Bool :=
  (List.range p.length).all fun i => t.get (p.take i) = some .dir || t.get (p.take i) = none

/-- a path that leads, over at most so many links, to something or to nothing, each link being the last name of a path
    without links -/
def tame (t : LTree) : Nat → List Str → Bool
  | 0, p => t.clear p
  | k + 1, p =>
    t.clear p &&
      match t.get p with
      | some (.link x) => t.tame k x
      | _ => true

/-- a directory that can be removed with everything in it: names that can be written, nested less than `depth` deep, and
    links that are tame -/
def removable (t : LTree) (depth : Nat) (p : List Str) : Bool :=
  t.all fun e => !decide (p <+: e.1) ||
    (decide (Nm e.1) && (e.2 ≠ .dir || e.1.length < p.length + depth) && (!e.2.isLink || t.tame 32 e.1))

end LTree

/-- a question about what a path leads to -/
def lAsk (f : Option Kind → Bool) (p : List Str) : OM LTree Bool := fun t =>
  match t.lead 32 p with
  | none => (.error .outside, t)
  | some q => (.ok (f ((t.get q).map LKind.kind)), t)

/-- the names in the directory a path leads to; ENOENT if there is nothing -/
def lListdir (p : List Str) : OM LTree (List Str) := fun t =>
  match t.lead 32 p with
  | none => (.error .outside, t)
  | some q =>
    match t.get q with
    | some .dir => (.ok (t.names q), t)
    | none => (.error (.os .ENOENT), t)
    | _ => (.error .outside, t)

/-- what is in the file a path leads to; ENOENT if there is nothing -/
def lRead (p : List Str) : OM LTree Bytes := fun t =>
  match t.lead 32 p with
  | none => (.error .outside, t)
  | some q =>
    match t.get q with
    | some (.file d) => (.ok d, t)
    | none => (.error (.os .ENOENT), t)
    | _ => (.error .outside, t)

/-- writing the file a path leads to; a new one if there is nothing and not a link to nothing -/
def lWrite (p : List Str) (d : Bytes) : OM LTree Unit := fun t =>
  match t.entry p with
  | none => (.error .outside, t)
  | some (q, n) =>
    match t.get q with
    | some .dir =>
      match t.get (q ++ [n]) with
      | some .dir => (.error (.os .EISDIR), t)
      | some (.link _) =>
        match t.lead 32 p with
        | none => (.error .outside, t)
        | some q' =>
          match t.get q' with
          | some (.file _) => (.ok (), t.set q' (.file d))
          | some .dir => (.error (.os .EISDIR), t)
          | _ => (.error .outside, t)
      | _ => (.ok (), t.set (q ++ [n]) (.file d))
    | none => (.error (.os .ENOENT), t)
    | _ => (.error .outside, t)

/-- is there a link at the path?  A link at its end is not followed. -/
def lIslink (p : List Str) : OM LTree Bool := fun t =>
  if p = [] then (.ok false, t)
  else
    match t.bare p with
    | none => (.error .outside, t)
    | some (q, n) =>
      if t.get q = some .dir then (.ok ((t.get (q ++ [n])).any LKind.isLink), t) else (.error .outside, t)

/-- the path the link at a path leads to; EINVAL if there is something else, ENOENT if there is nothing -/
def lReadlink (p : List Str) : OM LTree Str := fun t =>
  match t.bare p with
  | none => (.error .outside, t)
  | some (q, n) =>
    if t.get q = some .dir then
      match t.get (q ++ [n]) with
      | some (.link x) => (.ok (pathOf x), t)
      | some _ => (.error (.os .EINVAL), t)
      | none => (.error (.os .ENOENT), t)
    else (.error .outside, t)

/-- the file, link or empty directory is gone; the target of a link stays -/
def lRemove (p : List Str) : OM LTree Unit := fun t =>
  match t.bare p with
  | none => (.error .outside, t)
  | some (q, n) =>
    if t.get q = some .dir then
      match t.get (q ++ [n]) with
      | none => (.error .fileDoesNotExist, t)
      | some .dir => if t.names (q ++ [n]) = [] then (.ok (), t.del (q ++ [n])) else (.error (.os .ENOTEMPTY), t)
      | some _ => (.ok (), t.del (q ++ [n]))
    else (.error .outside, t)

/-- what is at the path, and everything below it, is gone; the targets of links stay.  No expectation if the path leads
    through a link. -/
def lRemoveTree (depth : Nat) (p : List Str) : OM LTree Unit := fun t =>
  if p ≠ [] ∧ t.get p.dropLast = some .dir then
    match t.get p with
    | none => (.error .fileDoesNotExist, t)
    | some .dir => if t.removable depth p then (.ok (), t.wipe p) else (.error .outside, t)
    | some _ => (.ok (), t.del p)
  else (.error .outside, t)

/-- the names in a directory; no expectation if one of them cannot be written -/
def lNames (p : List Str) : OM LTree (List Str) := do
  let l ← lListdir p
  if ∀ n ∈ l, Any.Nm (p ++ [n]) then pure l else OM.raise .outside

/-- all directories on the way to a path that are not there, and the one at the path; each call for a parent counts for the
    recursion limit `depth` -/
def lMakedirs : Nat → List Str → OM LTree Unit
  | 0, _ => OM.raise .recursionError
  | depth + 1, p => do
    if ← lAsk isD p then pure ()
    else
      if !(← lAsk isD p.dropLast) then lMakedirs depth p.dropLast
      fun t => t.make p .dir

/-- which of the names in a directory lead to directories -/
def lSplit (p : List Str) : List Str → OM LTree (List Str × List Str)
  | [] => pure ([], [])
  | n :: l => do
    let d ← lAsk isD (p ++ [n])
    let (dirs, files) ← lSplit p l
    pure (if d then (n :: dirs, files) else (dirs, n :: files))

/-- the directories below, links among them only if they are to be followed -/
def lBelow {α : Type} (fl : Bool) (visit : List Str → OM LTree (List α)) (p : List Str) : List Str → OM LTree (List α)
  | [] => pure []
  | n :: l => do
    let link ← lIslink (p ++ [n])
    let a ← if !link || fl then visit (p ++ [n]) else pure []
    let b ← lBelow fl visit p l
    pure (a ++ b)

/-- for each directory its path, the names in it that lead to directories, and the others; itself before what is below it
    (`td`) or after -/
def lWalk (td fl : Bool) : Nat → List Str → OM LTree (List (Str × List Str × List Str))
  | 0, _ => OM.raise .recursionError
  | depth + 1, p => do
    let l ← lNames p
    let (dirs, files) ← lSplit p l
    let below ← lBelow fl (lWalk td fl depth) p dirs
    pure (if td then (pathOf p, dirs, files) :: below else below ++ [(pathOf p, dirs, files)])

/-- the paths of the names in a directory that match -/
def lGlob (p : List Str) (m : Str → Bool) : OM LTree (List Str) := do
  let l ← lNames p
  pure ((l.filter m).map fun n => pathOf (p ++ [n]))

/-- what is in the file a path leads to is written by another path; ENOENT if there is nothing; a file written to
    itself is emptied -/
def lCopyFile (p q : List Str) : OM LTree Unit := fun t =>
  match t.lead 32 p with
  | none => (.error .outside, t)
  | some f =>
    match t.get f with
    | some (.file d) => if t.goal q = some f then lWrite q [] t else lWrite q d t
    | none => (.error (.os .ENOENT), t)
    | _ => (.error .outside, t)

/-- the names of the path the link at a path leads to -/
def lTarget (p : List Str) : OM LTree (List Str) := fun t =>
  match t.bare p with
  | none => (.error .outside, t)
  | some (q, n) =>
    if t.get q = some .dir then
      match t.get (q ++ [n]) with
      | some (.link x) => (.ok x, t)
      | some _ => (.error (.os .EINVAL), t)
      | none => (.error (.os .ENOENT), t)
    else (.error .outside, t)

/-- if a path leads to a file, what is at the path is removed, be it the file or a link -/
def lRemoveFile (q : List Str) : OM LTree Unit := lAsk isF q >>= fun b => if b then lRemove q else pure ()

/-- a new link at a path to what the link at another path leads to, in place of what leads to a file there -/
def lCopyLink (p q : List Str) : OM LTree Unit := lIslink p >>= fun b =>
  if !b then OM.raise .assertionError else lRemoveFile q >>= fun _ => lTarget p >>= fun x => fun t => t.make q (.link x)

/-- a link as it is if links are not to be followed, otherwise the file -/
def lCopyOne (fl : Bool) (p q : List Str) : OM LTree Unit := do
  let l ← lIslink p
  if l && !fl then lCopyLink p q else lCopyFile p q

/-- a directory for each name, or a link if links are not to be followed -/
def lCopyDirs (fl : Bool) (depth : Nat) (p q : List Str) : List Str → OM LTree Unit
  | [] => pure ()
  | n :: l => lIslink (p ++ [n]) >>= fun b =>
      (if b && !fl then lCopyLink (p ++ [n]) (q ++ [n]) else lMakedirs depth (q ++ [n])) >>= fun _ => lCopyDirs fl depth p q l

/-- the file of each name -/
def lCopyFiles (fl : Bool) (p q : List Str) : List Str → OM LTree Unit
  | [] => pure ()
  | n :: l => lCopyOne fl (p ++ [n]) (q ++ [n]) >>= fun _ => lCopyFiles fl p q l

/-- `visit` for each name that is no link, or for all if links are followed -/
def lDown (fl : Bool) (visit : List Str → List Str → OM LTree Unit) (p q : List Str) : List Str → OM LTree Unit
  | [] => pure ()
  | n :: l => lIslink (p ++ [n]) >>= fun b =>
      (if !b || fl then visit (p ++ [n]) (q ++ [n]) else pure ()) >>= fun _ => lDown fl visit p q l

/-- what is below `p` into the directory `q`: first its directories but those with names in `ig`, then its files, then what is
    below its directories; no expectation for names with spaces at an end -/
def lCopyBelow (fl : Bool) (ig : List Str) (depth : Nat) : Nat → List Str → List Str → OM LTree Unit
  | 0, _, _ => OM.raise .recursionError
  | d + 1, p, q => lNames p >>= fun l => if ∀ n ∈ l, Fit (p ++ [n]) then lSplit p l >>= fun x =>
      lCopyDirs fl depth p q (x.1.filter (· ∉ ig)) >>= fun _ => lCopyFiles fl p q x.2 >>= fun _ =>
        lDown fl (lCopyBelow fl ig depth d) p q (x.1.filter (· ∉ ig))
      else OM.raise .outside

/-- one file, or one link to a file; into a directory under the last name of the path -/
def lCopy (fl : Bool) (p q : List Str) : OM LTree Unit := do
  if !(← lAsk Option.isSome p) then OM.raise .fileDoesNotExist
  else
    if !(← lAsk isF p) then OM.raise .assertionError
    else
      let d ← lAsk isD q
      let q' := if d then q ++ [p.getLastD []] else q
      if p ≠ [] ∧ Any.Nm q' then lCopyOne fl p q' else OM.raise .outside

/-- a directory with all that is below it, or one link to a directory; into a directory under the last name of the path -/
def lCopyTree (fl : Bool) (ig : List Str) (depth : Nat) (p q : List Str) : OM LTree Unit := do
  if !(← lAsk Option.isSome p) then OM.raise .fileDoesNotExist
  else
    if !(← lAsk isD p) then OM.raise .assertionError
    else
      let d ← lAsk isD q
      let q' := if d then q ++ [p.getLastD []] else q
      if p ≠ [] ∧ Fit p ∧ q' ≠ [] ∧ Fit q' then
        if (← lIslink p) && !fl then lCopyLink p q'
        else
          lMakedirs depth q'
          lCopyBelow fl ig depth depth p q'
      else OM.raise .outside

/-- what is at a path, with all below it, gets another name, in a directory its own name there; a file may take the place of a
    file.  No expectation if it has links in it or names with spaces at an end, if a path leads over links or to a link, or if
    one of the two names is below the other. -/
def lMove (depth : Nat) (p q : List Str) : OM LTree Unit := fun t =>
  let e := t.dest p q
  if t.get p ≠ none ∧ ¬ p <+: e ∧ ¬ e <+: p ∧ t.get e.dropLast = some .dir ∧ Any.Nm e ∧
      (t.get e = none ∨ (isF ((t.get e).map LKind.kind) = true ∧ isF ((t.get p).map LKind.kind) = true ∧ e = q)) ∧
      e.length < depth ∧ (∀ x ∈ t, p <+: x.1 → x.2.isLink = false ∧ Fit x.1 ∧ x.1.length < p.length + depth)
  then (.ok (), t.shift p e) else (.error .outside, t)

/-- a call of a program that works in one file system; paths are given by their names -/
inductive LAct
  | exists_ (p : List Str)
  | isfile (p : List Str)
  | isdir (p : List Str)
  | listdir (p : List Str)
  | read (p : List Str)
  | md5 (p : List Str)
  | write (p : List Str) (chunks : List Bytes)
  | islink (p : List Str)
  | readlink (p : List Str)
  | mkdir (p : List Str)
  /-- `p` becomes a link to `x` -/
  | symlink (x p : List Str)
  | remove (p : List Str)
  /-- `remove(recursive=True)` -/
  | removeTree (p : List Str)
  | makedirs (p : List Str)
  | walk (p : List Str) (topdown followlinks : Bool)
  /-- `m` is what matches the pattern -/
  | glob (p : List Str) (m : Str → Bool)
  | copy (p q : List Str) (recursive : Bool) (ignore : List Str) (followlinks : Bool)
  | move (p q : List Str)

/-- the names in the call can be written -/
def LAct.Nm : LAct → Prop
  | .exists_ p | .isfile p | .isdir p | .listdir p | .read p | .md5 p | .write p _ | .islink p | .readlink p | .mkdir p | .remove p
  | .removeTree p | .makedirs p | .walk p _ _ | .glob p _ => Any.Nm p
  | .symlink x p | .copy x p _ _ _ | .move x p => Any.Nm x ∧ Any.Nm p

instance (a : LAct) : Decidable a.Nm := by cases a <;> unfold LAct.Nm <;> infer_instance

/-- a call in the file system of place `k`; `depth` is Python's recursion limit -/
def LAct.run {ι : Type} (E : ι → Dict) (k : Option ι) (depth : Nat) : LAct → OM Sys Ans
  | .exists_ p => do pure (.bool (← uExists sysOps (siteAt E k p)))
  | .isfile p => do pure (.bool (← uIsfile sysOps (siteAt E k p)))
  | .isdir p => do pure (.bool (← uIsdir sysOps (siteAt E k p)))
  | .listdir p => do pure (.names (← uListdir sysOps (siteAt E k p)))
  | .read p => do pure (.bytes (← sRead (siteAt E k p)))
  | .md5 p => do pure (.bytes (← uMd5 sysOps (siteAt E k p)).flatten)
  | .write p l => do sWrite (siteAt E k p) l; pure .unit
  | .islink p => do pure (.bool (← uIslink sysOps (siteAt E k p)))
  | .readlink p => do pure (.paths [(← uReadlink sysOps (siteAt E k p)).path])
  | .mkdir p => do uMkdir sysOps (siteAt E k p); pure .unit
  | .symlink x p => do uSymlink sysOps (siteAt E k x) (siteAt E k p); pure .unit
  | .remove p => do uRemove sysOps depth (siteAt E k p) false; pure .unit
  | .removeTree p => do uRemove sysOps depth (siteAt E k p) true; pure .unit
  | .makedirs p => do uMakedirs sysOps depth (siteAt E k p); pure .unit
  | .walk p td fl => do pure (.rows ((← uWalk sysOps depth (siteAt E k p) td fl).map fun x => (x.1.path, x.2)))
  | .glob p m => do pure (.paths ((← uGlob sysOps (siteAt E k p) m).map Uri.path))
  | .copy p q rec ig fl => do uCopy sysOps depth (siteAt E k p) (siteAt E k q) rec ig fl; pure .unit
  | .move p q => do uMove sysOps depth (siteAt E k p) (siteAt E k q); pure .unit

/-- a call in the plain file system -/
def LAct.plain (depth : Nat) (a : LAct) : OM LTree Ans :=
  if a.Nm then
    match a with
    | .exists_ p => do pure (.bool (← lAsk Option.isSome p))
    | .isfile p => do pure (.bool (← lAsk isF p))
    | .isdir p => do pure (.bool (← lAsk isD p))
    | .listdir p => do pure (.names (← lListdir p))
    | .read p => do pure (.bytes (← lRead p))
    | .md5 p => do pure (.bytes (← lRead p))
    | .write p l => do lWrite p l.flatten; pure .unit
    | .islink p => do pure (.bool (← lIslink p))
    | .readlink p => do pure (.paths [← lReadlink p])
    | .mkdir p => do (fun t => t.make p .dir); pure .unit
    | .symlink x p => do (fun t => t.make p (.link x)); pure .unit
    | .remove p => do lRemove p; pure .unit
    | .removeTree p => do lRemoveTree depth p; pure .unit
    | .makedirs p => do lMakedirs depth p; pure .unit
    | .walk p td fl => do pure (.rows (← lWalk td fl depth p))
    | .glob p m => do pure (.paths (← lGlob p m))
    | .copy p q rec ig fl => do (if rec then lCopyTree fl ig depth p q else lCopy fl p q); pure .unit
    | .move p q => do lMove depth p q; pure .unit
  else OM.raise .outside

end Verif.Any
