import Verif.Py.Str
import Verif.Py.Err
import Verif.Mem.World
import Verif.Uri.Base
/-!
# The local backend (localfs.py) and misc.py

The operating system and the standard library are not part of the repository; the model assumes of them what the
`os…` and `shutil…` definitions here say.  Simplifications: one POSIX volume without symbolic links, permission checks
and `..`; a trailing slash after a file name is not an error; the process does not lose its current directory by
renames.  Taking a connection (`with_connection`) is the same as for other backends, and leaves the operating system
alone; it is left out here.
-/
namespace Verif.Local

/-- what a name stands for; `perm` are the lower twelve bits of the mode -/
inductive Obj
  | dir (perm : Nat)
  | file (perm : Nat) (data : Bytes)
  deriving DecidableEq, Repr

/-- the state of the operating system: the objects by the components of their absolute paths, and the current
    directory of the process -/
structure Os where
  tree : List Str → Option Obj
  cwd : List Str

/-- what a call does: it returns or raises, and leaves a state -/
abbrev LM (α : Type) := Os → Except PyErr α × Os

/-- the components of a path string, seen from the current directory -/
def resolve (w : Os) (p : Str) : List Str :=
  (if startsWith p cl!"/" then [] else w.cwd) ++ (splitC '/' p).filter fun c => c ≠ [] ∧ c ≠ cl!"."

/-- the object is a directory -/
def isDirO : Option Obj → Bool
  | some (.dir _) => true
  | _ => false

/-- the object is a file -/
def isFileO : Option Obj → Bool
  | some (.file _ _) => true
  | _ => false

/-- the error for a path that leads to nothing: ENOTDIR if it goes through a file, else ENOENT -/
def missErr (tree : List Str → Option Obj) (q : List Str) : PyErr :=
  if (List.range q.length).any fun n => isFileO (tree (q.take n)) then .os .ENOTDIR else .os .ENOENT

theorem missErr_noent {tree : List Str → Option Obj} {q : List Str} (h : ∀ p, p <+: q → p ≠ q → isFileO (tree p) = false) :
    missErr tree q = .os .ENOENT := by
  unfold missErr
  rw [if_neg]
  simp only [List.any_eq_true, List.mem_range, not_exists, not_and]
  intro n hn
  rw [h _ (List.take_prefix _ _) (fun e => by have := congrArg List.length e; rw [List.length_take] at this; omega)]
  simp

theorem missErr_notdir {tree : List Str → Option Obj} {p q : List Str} (h : p <+: q) (hne : p ≠ q) (hf : isFileO (tree p) = true) :
    missErr tree q = .os .ENOTDIR := by
  unfold missErr
  rw [if_pos]
  simp only [List.any_eq_true, List.mem_range]
  obtain ⟨t, rfl⟩ := h
  refine ⟨p.length, ?_, by simpa using hf⟩
  cases t with
  | nil => simp at hne
  | cons a t => simp

/-- `os.path.isdir` -/
def osIsdir (w : Os) (p : Str) : Bool := isDirO (w.tree (resolve w p))
/-- `os.path.isfile` -/
def osIsfile (w : Os) (p : Str) : Bool := isFileO (w.tree (resolve w p))
/-- `os.path.exists` -/
def osExists (w : Os) (p : Str) : Bool := (w.tree (resolve w p)).isSome

/-- the tree after the object at `s`, with all below it, was renamed to `t` -/
def moved (tree : List Str → Option Obj) (s t : List Str) : List Str → Option Obj := fun q =>
  if t <+: q then tree (s ++ q.drop t.length)
  else if s <+: q then none
  else tree q

/-- something has a name below `s` -/
def Occupied (tree : List Str → Option Obj) (s : List Str) : Prop := ∃ c, (tree (s ++ [c])).isSome

open Classical in
/-- `os.rename` of POSIX -/
noncomputable def osRename (s t : List Str) : LM Unit := fun w =>
  if w.tree s = none then (.error (.os .ENOENT), w)
  else if w.tree t.dropLast = none then (.error (.os .ENOENT), w)
  else if ¬ isDirO (w.tree t.dropLast) then (.error (.os .ENOTDIR), w)
  else if s = t then (.ok (), w)
  else if s <+: t then (.error (.os .EINVAL), w)
  else if isDirO (w.tree s) ∧ isFileO (w.tree t) then (.error (.os .ENOTDIR), w)
  else if isFileO (w.tree s) ∧ isDirO (w.tree t) then (.error (.os .EISDIR), w)
  else if Occupied w.tree t then (.error (.os .ENOTEMPTY), w)
  else (.ok (), { w with tree := moved w.tree s t })

/-- the last lines of `shutil.move`: `os.rename`, and what is done if that fails.  Of this only some errors are in
    the model: no such source, a directory moved into itself, and a directory moved to a file (FileExistsError from
    `copytree`).  Copying, for all other reasons, is outside. -/
noncomputable def renameOrCopy (src dst real : List Str) : LM Unit := fun w =>
  match osRename src real w with
  | (.ok (), w') => (.ok (), w')
  | (.error _, w') =>
    if w'.tree src = none then (.error (missErr w'.tree src), w')
    else if isDirO (w'.tree src) then
      if src <+: dst then (.error .shutilError, w')
      else if isFileO (w'.tree real) then (.error (.os .EEXIST), w')
      else (.error .outside, w')
    else (.error .outside, w')

/-- `os.path.basename(path.rstrip('/'))` -/
def shBasename (p : Str) : Str := ((splitC '/' (rstripC '/' p)).getLast?).getD []

/-- `os.path.join(a, b)` for a name `b` that does not begin with '/' -/
def osJoin (a b : Str) : Str := if endsWith a cl!"/" ∨ a = [] then a ++ b else a ++ cl!"/" ++ b

/-- `shutil.move` -/
noncomputable def shutilMove (src dst : Str) : LM Unit := fun w =>
  if osIsdir w dst then
    if resolve w src = resolve w dst then osRename (resolve w src) (resolve w dst) w
    else
      let real := osJoin dst (shBasename src)
      if osExists w real then (.error .shutilError, w)
      else renameOrCopy (resolve w src) (resolve w dst) (resolve w real) w
  else renameOrCopy (resolve w src) (resolve w dst) (resolve w dst) w

/-- localfs.py:129-150 `LocalFileSystem.move`; the other branch (`FileSystem.move` between backends) is outside -/
noncomputable def move (source dest : Uri) : LM Unit := fun w =>
  if dest.scheme = some cl!"file" then
    if osIsdir w source.path ∧ osIsdir w dest.path then
      match source.basename with
      | .error e => (.error e, w)
      | .ok n =>
        match dest.div n with
        | .error e => (.error e, w)
        | .ok dest => shutilMove source.path dest.path w
    else shutilMove source.path dest.path w
  else (.error .outside, w)

/-! ## modes -/

/-- `st_mode`: the type of the object and its permissions -/
def stMode : Obj → Nat
  | .dir perm => 0o040000 ||| perm
  | .file perm _ => 0o100000 ||| perm

/-- `chmod`: only the lower twelve bits count -/
def Obj.chmod (m : Nat) : Obj → Obj
  | .dir _ => .dir (m &&& 0o7777)
  | .file _ d => .file (m &&& 0o7777) d

/-- localfs.py:52-76 `info(unc).mode` -/
def infoMode (u : Uri) : LM Nat := fun w =>
  match w.tree (resolve w u.path) with
  | none => (.error (missErr w.tree (resolve w u.path)), w)
  | some o => (.ok (stMode o), w)

/-- localfs.py:59-62 `info(unc, dict(mode=m))` -/
def setMode (u : Uri) (m : Nat) : LM Unit := fun w =>
  match w.tree (resolve w u.path) with
  | none => (.error (missErr w.tree (resolve w u.path)), w)
  | some o => (.ok (), { w with tree := fun q => if q = resolve w u.path then some (o.chmod m) else w.tree q })

/-- localfs.py:119-120 `isexec` -/
def isexec (u : Uri) (mask : Nat) : LM Bool := fun w =>
  match infoMode u w with
  | (.error e, w) => (.error e, w)
  | (.ok m, w) => (.ok (m &&& mask ≠ 0), w)

/-- `a & ~b` of non-negative numbers -/
def clearBits (a b : Nat) : Nat := a ^^^ (a &&& b)

/-- localfs.py:123-126 `set_exec` -/
def setExec (u : Uri) (mode : Nat) : LM Unit := fun w =>
  match infoMode u w with
  | (.error e, w) => (.error e, w)
  | (.ok m, w) => setMode u (clearBits m 0o111 ||| mode) w

/-! ## misc.py -/

/-- `os.getcwd()`: the absolute path of the current directory -/
def getcwd : LM Str := fun w =>
  if isDirO (w.tree w.cwd) then (.ok ('/' :: joinS cl!"/" w.cwd), w) else (.error (.os .ENOENT), w)

/-- `os.chdir` -/
def chdir (p : Str) : LM Unit := fun w =>
  match w.tree (resolve w p) with
  | some (.dir _) => (.ok (), { w with cwd := resolve w p })
  | some (.file _ _) => (.error (.os .ENOTDIR), w)
  | none => (.error (missErr w.tree (resolve w p)), w)

/-- misc.py:41-45 `WorkingDirectory`: the directory that was current, and the path to work in -/
structure WorkingDirectory where
  cwd : Str
  path : Str

/-- misc.py:43-45 `WorkingDirectory.__init__` -/
def WorkingDirectory.create (u : Uri) : LM WorkingDirectory := fun w =>
  match getcwd w with
  | (.error e, w) => (.error e, w)
  | (.ok c, w) => (.ok ⟨c, u.path⟩, w)

/-- misc.py:47-51: `with wd: body`, with `__enter__` and `__exit__`; the latter returns None, so that an exception of
    the body goes on -/
def WorkingDirectory.using {α : Type} (wd : WorkingDirectory) (body : LM α) : LM α := fun w =>
  match chdir wd.path w with
  | (.error e, w) => (.error e, w)
  | (.ok (), w) =>
    let (r, w) := body w
    match chdir wd.cwd w with
    | (.error e, w) => (.error e, w)
    | (.ok (), w) => (r, w)

/-- `os.unlink` -/
def osUnlink (p : Str) : LM Unit := fun w =>
  match w.tree (resolve w p) with
  | some (.file _ _) => (.ok (), { w with tree := fun q => if q = resolve w p then none else w.tree q })
  | some (.dir _) => (.error (.os .EISDIR), w)
  | none => (.error (missErr w.tree (resolve w p)), w)

/-- misc.py:22-24 `TempFileHandle`: a file name, and the data of the file opened (as bytes) -/
structure TempFile where
  name : Str
  data : Bytes

/-- misc.py:22-24 `TempFileHandle.__init__` -/
def TempFile.create (name : Str) : LM TempFile := fun w =>
  match w.tree (resolve w name) with
  | some (.file _ d) => (.ok ⟨name, d⟩, w)
  | some (.dir _) => (.error (.os .EISDIR), w)
  | none => (.error (missErr w.tree (resolve w name)), w)

/-- misc.py:35-38 `TempFileHandle.close`; closing the file object a second time does nothing -/
def TempFile.close (f : TempFile) : LM Unit := osUnlink f.name

/-- misc.py:26-30: `with f: body` -/
def TempFile.using {α : Type} (f : TempFile) (body : LM α) : LM α := fun w =>
  let (r, w) := body w
  match f.close w with
  | (.error e, w) => (.error e, w)
  | (.ok (), w) => (r, w)

end Verif.Local
