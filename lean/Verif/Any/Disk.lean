import Verif.Any.Ops
import Verif.Local.Model
/-!
# The operating system, with symbolic links and open files

The operating system is not part of the repository; the definitions here say what is assumed of it.  The objects are in
a list, so that directories can be listed.  Simplifications: one POSIX volume, no permission checks; a slash or `.` after
the last name of a path is as nothing.  Python's buffering of local files is not in the model: a file is copied between
opening and closing it, and nobody else looks at it.
-/
namespace Verif.Any

/-- what a name stands for; `perm` are the lower twelve bits of the mode, `target` is the text of a link -/
inductive DObj
  | dir (perm : Nat)
  | file (perm : Nat) (data : Bytes)
  | link (target : Str)
  deriving DecidableEq

/-- the object is a directory -/
def isDirD : Option DObj → Bool
  | some (.dir _) => true
  | _ => false

/-- the object is a file -/
def isFileD : Option DObj → Bool
  | some (.file _ _) => true
  | _ => false

/-- the object is a link -/
def isLinkD : Option DObj → Bool
  | some (.link _) => true
  | _ => false

/-- the permissions of another object; those of a link are not used -/
def DObj.withPermOf (o : DObj) : DObj → DObj
  | .dir p => match o with
    | .dir q => .dir (q &&& 0o7777)
    | .file q _ => .dir (q &&& 0o7777)
    | .link _ => .dir p
  | .file p b => match o with
    | .dir q => .file (q &&& 0o7777) b
    | .file q _ => .file (q &&& 0o7777) b
    | .link _ => .file p b
  | .link t => .link t

/-- the state of the operating system: the objects by the components of their absolute paths, the current directory
    and the umask of the process, and the open files (components, position) -/
structure Disk where
  ents : List (List Str × DObj)
  cwd : List Str
  umask : Nat
  fds : List (List Str × Nat)

/-- the object at a place -/
def Disk.tree (d : Disk) (q : List Str) : Option DObj := d.ents.lookup q

/-- putting an object at a place -/
def Disk.set (d : Disk) (q : List Str) (o : DObj) : Disk := { d with ents := (q, o) :: d.ents.filter (·.1 ≠ q) }

/-- taking away the object at a place -/
def Disk.del (d : Disk) (q : List Str) : Disk := { d with ents := d.ents.filter (·.1 ≠ q) }

/-- the names in a directory -/
def Disk.names (d : Disk) (q : List Str) : List Str :=
  d.ents.filterMap fun e => if e.1 ≠ [] ∧ e.1.dropLast = q then e.1.getLast? else none

/-- where a path leads: to an object, to a name that is free in a directory, or nowhere -/
inductive Landing
  | here (q : List Str)
  | free (dir : List Str) (name : Str)
  | fail (e : PyErr)
  deriving DecidableEq

/-- the names in a path -/
def comps (p : Str) : List Str := (splitC '/' p).filter fun c => c ≠ [] ∧ c ≠ cl!"."

/-- going from the directory `cur` along names; `fl`: a link at the end is followed; `jump` says where one gets from a
    directory along the names in a link and those after it -/
def Disk.hop (d : Disk) (fl : Bool) (jump : List Str → List Str → Landing) (cur : List Str) : List Str → Landing
  | [] => .here cur
  | n :: rest =>
    if n = cl!".." then d.hop fl jump cur.dropLast rest
    else
      match d.tree (cur ++ [n]) with
      | none => if rest = [] then .free cur n else .fail (.os .ENOENT)
      | some (.dir _) => d.hop fl jump (cur ++ [n]) rest
      | some (.file _ _) => if rest = [] then .here (cur ++ [n]) else .fail (.os .ENOTDIR)
      | some (.link t) =>
        if rest = [] ∧ fl = false then .here (cur ++ [n])
        else jump (if startsWith t cl!"/" then [] else cur) (comps t ++ rest)

/-- going along names, following at most `n` links -/
def Disk.land (d : Disk) (fl : Bool) : Nat → List Str → List Str → Landing
  | 0 => d.hop fl fun _ _ => .fail (.os .ELOOP)
  | n + 1 => d.hop fl (d.land fl n)

/-- where a path leads, from the root or from the current directory; at most 40 links are followed -/
def Disk.find (d : Disk) (fl : Bool) (p : Str) : Landing :=
  if p = [] then .fail (.os .ENOENT)
  else if startsWith p cl!"/" then d.land fl 40 [] (comps p)
  else if isDirD (d.tree d.cwd) then d.land fl 40 d.cwd (comps p)
  else .fail (.os .ENOENT)

/-- what `stat` or `lstat` (`fl = false`) finds -/
def Disk.stat (d : Disk) (fl : Bool) (p : Str) : Option DObj :=
  match d.find fl p with
  | .here q => d.tree q
  | _ => none

/-- `os.listdir` -/
def osListdir (p : Str) : OM Disk (List Str) := fun d =>
  match d.find true p with
  | .here q => if isDirD (d.tree q) then (.ok (d.names q), d) else (.error (.os .ENOTDIR), d)
  | .free _ _ => (.error (.os .ENOENT), d)
  | .fail e => (.error e, d)

/-- `os.mkdir` -/
def osMkdir (p : Str) : OM Disk Unit := fun d =>
  match d.find false p with
  | .here _ => (.error (.os .EEXIST), d)
  | .free c n => (.ok (), d.set (c ++ [n]) (.dir (Local.clearBits 0o777 d.umask)))
  | .fail e => (.error e, d)

/-- `os.rmdir`; removing the root directory is outside -/
def osRmdir (p : Str) : OM Disk Unit := fun d =>
  match d.find false p with
  | .here q =>
    if isDirD (d.tree q) then
      if d.names q ≠ [] then (.error (.os .ENOTEMPTY), d)
      else if q = [] then (.error .outside, d)
      else (.ok (), d.del q)
    else (.error (.os .ENOTDIR), d)
  | .free _ _ => (.error (.os .ENOENT), d)
  | .fail e => (.error e, d)

/-- `os.unlink` -/
def osUnlink (p : Str) : OM Disk Unit := fun d =>
  match d.find false p with
  | .here q => if isDirD (d.tree q) then (.error (.os .EISDIR), d) else (.ok (), d.del q)
  | .free _ _ => (.error (.os .ENOENT), d)
  | .fail e => (.error e, d)

/-- `os.readlink` -/
def osReadlink (p : Str) : OM Disk Str := fun d =>
  match d.find false p with
  | .here q =>
    match d.tree q with
    | some (.link t) => (.ok t, d)
    | _ => (.error (.os .EINVAL), d)
  | .free _ _ => (.error (.os .ENOENT), d)
  | .fail e => (.error e, d)

/-- `os.symlink` -/
def osSymlink (target p : Str) : OM Disk Unit := fun d =>
  if target = [] then (.error (.os .ENOENT), d)
  else
    match d.find false p with
    | .here _ => (.error (.os .EEXIST), d)
    | .free c n => (.ok (), d.set (c ++ [n]) (.link target))
    | .fail e => (.error e, d)

/-- a new open file -/
def Disk.newFd (d : Disk) (q : List Str) : Except PyErr Nat × Disk :=
  (.ok d.fds.length, { d with fds := d.fds ++ [(q, 0)] })

/-- `open(p, 'rb')` -/
def osOpenR (p : Str) : OM Disk Nat := fun d =>
  match d.find true p with
  | .here q => if isDirD (d.tree q) then (.error (.os .EISDIR), d) else d.newFd q
  | .free _ _ => (.error (.os .ENOENT), d)
  | .fail e => (.error e, d)

/-- `open(p, 'wb')`; where a link leads to nothing, the file is made there -/
def osOpenW (p : Str) : OM Disk Nat := fun d =>
  match d.find true p with
  | .here q =>
    match d.tree q with
    | some (.file perm _) => (d.set q (.file perm [])).newFd q
    | _ => (.error (.os .EISDIR), d)
  | .free c n => (d.set (c ++ [n]) (.file (Local.clearBits 0o666 d.umask) [])).newFd (c ++ [n])
  | .fail e => (.error e, d)

/-- `read(n)` of an open file; what was done to the name of the file since is outside -/
def fdRead (h n : Nat) : OM Disk Bytes := fun d =>
  match d.fds[h]? with
  | none => (.error (.os .EBADF), d)
  | some (q, pos) =>
    match d.tree q with
    | some (.file _ data) =>
      (.ok ((data.drop pos).take n), { d with fds := d.fds.set h (q, pos + ((data.drop pos).take n).length) })
    | _ => (.error .outside, d)

/-- `write(b)` to an open file -/
def fdWrite (h : Nat) (b : Bytes) : OM Disk Unit := fun d =>
  match d.fds[h]? with
  | none => (.error (.os .EBADF), d)
  | some (q, pos) =>
    match d.tree q with
    | some (.file perm data) =>
      let r := BytesIO.write data pos b
      (.ok (), { d.set q (.file perm r.1) with fds := d.fds.set h (q, r.2) })
    | _ => (.error .outside, d)

/-- the size of an open file -/
def fdSize (h : Nat) : OM Disk Nat := fun d =>
  match d.fds[h]? with
  | none => (.error (.os .EBADF), d)
  | some (q, _) =>
    match d.tree q with
    | some (.file _ data) => (.ok data.length, d)
    | _ => (.error .outside, d)

/-- `shutil.copystat`: the permissions (times are not in the model) -/
def osCopystat (p p' : Str) : OM Disk Unit := fun d =>
  match d.find true p with
  | .here q =>
    match d.find true p' with
    | .here q' =>
      match d.tree q, d.tree q' with
      | some o, some o' => (.ok (), d.set q' (o.withPermOf o'))
      | _, _ => (.error .outside, d)
    | .free _ _ => (.error (.os .ENOENT), d)
    | .fail e => (.error e, d)
  | .free _ _ => (.error (.os .ENOENT), d)
  | .fail e => (.error e, d)

/-! ## Renaming and `shutil.move` -/

/-- `q` seen after the object at `s` got the name `t` -/
def rebase (s t q : List Str) : List Str := if s <+: q then t ++ q.drop s.length else q

/-- the object at `s`, with all below it, gets the name `t`; what had that name is gone.  Open files and the current
    directory stay with their objects (of an open file whose object is gone nothing is said). -/
def Disk.rename (d : Disk) (s t : List Str) : Disk :=
  { d with
    ents := (d.ents.filter fun e => ¬ t <+: e.1).map fun e => (rebase s t e.1, e.2)
    cwd := rebase s t d.cwd
    fds := d.fds.map fun f => (rebase s t f.1, f.2) }

/-- the path names no object by its own name: the root, or `..` at the end -/
def noOwnName (p : Str) : Bool := (comps p).getLast?.getD cl!".." = cl!".."

/-- `os.rename`; links at the ends are renamed or replaced, not followed.  The root and names `..` are outside. -/
def osRename (p p' : Str) : OM Disk Unit := fun d =>
  if noOwnName p ∨ noOwnName p' then (.error .outside, d)
  else
    match d.find false p with
    | .fail e => (.error e, d)
    | .free _ _ => (.error (.os .ENOENT), d)
    | .here s =>
      match d.find false p' with
      | .fail e => (.error e, d)
      | .free c n => if s <+: c ++ [n] then (.error (.os .EINVAL), d) else (.ok (), d.rename s (c ++ [n]))
      | .here t =>
        if s = t then (.ok (), d)
        else if s <+: t then (.error (.os .EINVAL), d)
        else if t <+: s then (.error (.os .ENOTEMPTY), d)
        else if isDirD (d.tree s) ∧ ¬ isDirD (d.tree t) then (.error (.os .ENOTDIR), d)
        else if ¬ isDirD (d.tree s) ∧ isDirD (d.tree t) then (.error (.os .EISDIR), d)
        else if d.names t ≠ [] then (.error (.os .ENOTEMPTY), d)
        else (.ok (), d.rename s t)

/-- `os.path.dirname` -/
def shDirname (p : Str) : Str :=
  let h := p.take (p.length - ((splitC '/' p).getLast?.getD []).length)
  if rstripC '/' h = [] then h else rstripC '/' h

/-- `os.makedirs`; the first argument bounds the number of directories -/
def osMakedirs : Nat → Str → OM Disk Unit
  | 0, _ => fun d => (.error .outside, d)
  | k + 1, p => fun d =>
    if shDirname p ≠ [] ∧ (d.stat true (shDirname p)).isNone then
      match osMakedirs k (shDirname p) d with
      | (.ok (), d') => osMkdir p d'
      | (.error e, d') => if e = .os .EEXIST then osMkdir p d' else (.error e, d')
    else osMkdir p d

/-- `os.path.abspath`, as names: `..` takes away the name before it, whatever that is -/
def absNames (d : Disk) (p : Str) : List Str :=
  ((if startsWith p cl!"/" then [] else d.cwd) ++ comps p).foldl (fun l n => if n = cl!".." then l.dropLast else l ++ [n]) []

/-- the last lines of `shutil.move`: `os.rename`, and what is done if that fails.  A link is made anew.  A directory is
    copied with `copytree`, which makes the directories above the new place, and removed: assumed to leave what a rename
    leaves; to copy a directory into itself (by a link) is outside.  A file is opened (`copy2`), which fails: either it is
    not there, or the new place cannot be. -/
def renameOrCopy (src dst real : Str) : OM Disk Unit := fun d =>
  match osRename src real d with
  | (.ok (), d') => (.ok (), d')
  | (.error e, _) =>
    if e = .outside then (.error .outside, d)
    else if isLinkD (d.stat false src) then
      (do
        let t ← osReadlink src
        osSymlink t real
        osUnlink src : OM Disk Unit) d
    else if isDirD (d.stat true src) then
      if absNames d src <+: absNames d dst then (.error .shutilError, d)
      else
        match osMakedirs real.length real d with
        | (.error e, d') => (.error e, d')
        | (.ok (), d') =>
          match osRename src real d' with
          | (.ok (), d'') => (.ok (), d'')
          | (.error _, _) => (.error .outside, d')
    else
      match d.find true src with
      | .here _ =>
        match d.find true real with
        | .fail e => (.error e, d)
        | _ => (.error .outside, d)
      | .free _ _ => (.error (.os .ENOENT), d)
      | .fail e => (.error e, d)

/-- `shutil.move`; of a link to the directory it is to be moved into nothing is said (the versions of the library do not
    agree) -/
def shutilMove (src dst : Str) : OM Disk Unit := fun d =>
  if isDirD (d.stat true dst) then
    if d.find true src = d.find true dst then
      if isLinkD (d.stat false src) then (.error .outside, d) else osRename src dst d
    else if (d.stat true (Local.osJoin dst (Local.shBasename src))).isSome then (.error .shutilError, d)
    else renameOrCopy src dst (Local.osJoin dst (Local.shBasename src)) d
  else renameOrCopy src dst dst d

end Verif.Any
