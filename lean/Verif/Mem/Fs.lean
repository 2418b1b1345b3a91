import Verif.Mem.Lookup
import Verif.Py.Sort
import Mathlib.Data.Int.Bitwise
/-!
# The methods of `MemoryFileSystem` (memory.py:299-629)

`root` is `self._fs`.  In Python 3 `IOError` is `OSError`, so `lookup_exc_class` (memory.py:284-296) makes
no difference and is left out.
-/
namespace Verif.Mem
open M

/-- is the object a directory? -/
def World.isDir (w : World) (i : Nat) : Bool := match w.node i with | .dir _ => true | _ => false
/-- is the object a file? -/
def World.isFile (w : World) (i : Nat) : Bool := match w.node i with | .file _ => true | _ => false
/-- is the object a link? -/
def World.isLink (w : World) (i : Nat) : Bool := match w.node i with | .link _ => true | _ => false

/-- memory.py:384-396 -/
def isdir (w : World) (root : Nat) (u : Uri) : Except PyErr Bool :=
  match stripPath u with
  | .error e => .error e
  | .ok p =>
    if p ≠ [] then
      match nodeForPath w root true false u with
      | .ok none => .ok false
      | .ok (some i) => .ok (w.isDir i)
      | .error (.os .ELOOP) => .ok false
      | .error (.os _) => .ok true
      | .error e => .error e
    else .ok true

/-- memory.py:399-409 -/
def isfile (w : World) (root : Nat) (u : Uri) : Except PyErr Bool :=
  match stripPath u with
  | .error e => .error e
  | .ok p =>
    if p ≠ [] then
      match nodeForPath w root true false u with
      | .ok none => .ok false
      | .ok (some i) => .ok (w.isFile i)
      | .error (.os _) => .ok false
      | .error e => .error e
    else .ok false

/-- memory.py:432-442 -/
def exists_ (w : World) (root : Nat) (u : Uri) : Except PyErr Bool :=
  match stripPath u with
  | .error e => .error e
  | .ok p =>
    if p ≠ [] then
      match nodeForPath w root true false u with
      | .ok none => .ok false
      | .ok (some _) => .ok true
      | .error (.os .ELOOP) => .ok false
      | .error (.os _) => .ok true
      | .error e => .error e
    else .ok true

/-- memory.py:604-611 -/
def islink (w : World) (root : Nat) (u : Uri) : Except PyErr Bool :=
  match stripPath u with
  | .error e => .error e
  | .ok p =>
    if p ≠ [] then
      match nodeForPath w root false false u with
      | .error e => .error e
      | .ok none => .ok false
      | .ok (some i) => .ok (w.isLink i)
    else .ok false

/-- memory.py:624-629 -/
def readlink (w : World) (root : Nat) (u : Uri) : Except PyErr Uri :=
  match stripPath u with
  | .error e => .error e
  | .ok p =>
    if p ≠ [] then
      match nodeForPath w root false true u with
      | .error e => .error e
      | .ok none => .error .attributeError
      | .ok (some i) =>
        match w.node i with
        | .link l => .ok l.target
        | _ => .error (.os .EINVAL)
    else .error (.os .EINVAL)

/-- memory.py:543-546 -/
def listdir (w : World) (root : Nat) (u : Uri) : Except PyErr (List Str) :=
  match stripPath u with
  | .error e => .error e
  | .ok p =>
    match getNode w root ((splitC '/' p).filter fun x => x ≠ []) with
    | .error e => .error e
    | .ok none => .error .attributeError
    | .ok (some i) =>
      match w.node i with
      | .dir d => .ok (sortStr d.keys)
      | _ => .error .attributeError

/-- the `Bunch` of memory.py:531-533 -/
structure Info where
  mtime : Int
  mode : Int
  size : Nat
  deriving DecidableEq, Repr

/-- `mtime`, `mode` attributes and `size()` of an object (memory.py:55-56, 205-206, 245-246) -/
def Node.info : Node → Info
  | .file f => ⟨f.mtime, f.mode, f.data.length⟩
  | .dir d => ⟨d.mtime, d.mode, 0⟩
  | .link l => ⟨l.mtime, l.mode, 8⟩

/-- assignment to the `mode` attribute -/
def Node.setMode (m : Int) : Node → Node
  | .file f => .file { f with mode := m }
  | .dir d => .dir { d with mode := m }
  | .link l => .link { l with mode := m }

/-- assignment to the `mtime` attribute -/
def Node.setMtime (t : Int) : Node → Node
  | .file f => .file { f with mtime := t }
  | .dir d => .dir { d with mtime := t }
  | .link l => .link { l with mtime := t }

/-- memory.py:522-533 `info` without `set_info` -/
def info (w : World) (root : Nat) (u : Uri) (followlinks : Bool) : Except PyErr Info :=
  match nodeForPath w root followlinks true u with
  | .error e => .error e
  | .ok none => .error .attributeError
  | .ok (some i) => .ok (w.node i).info

/-- the keys of `set_info` that `info` looks at -/
structure SetInfo where
  mode : Option Int := none
  mtime : Option Int := none

/-- memory.py:524-528 -/
def Node.apply (s : SetInfo) (n : Node) : Node :=
  let n := match s.mode with | some m => n.setMode m | none => n
  match s.mtime with | some t => n.setMtime t | none => n

/-- memory.py:522-529 `info` with `set_info` -/
def setInfo (root : Nat) (u : Uri) (s : SetInfo) (followlinks : Bool) : M Unit := fun w =>
  match nodeForPath w root followlinks true u with
  | .error e => (.error e, w)
  | .ok none => (.error .attributeError, w)
  | .ok (some i) => (.ok (), w.setNode i ((w.node i).apply s))

/-- memory.py:549-550 -/
def mtime (w : World) (root : Nat) (u : Uri) : Except PyErr Int :=
  match nodeForPath w root true true u with
  | .error e => .error e
  | .ok none => .error .attributeError
  | .ok (some i) => .ok (w.node i).info.mtime

/-- memory.py:412-413; `k` is `mode_mask` -/
def isexec (w : World) (root : Nat) (u : Uri) (k : Int) : Except PyErr Bool :=
  match info w root u true with
  | .error e => .error e
  | .ok x => .ok (decide (Int.land x.mode k ≠ 0))

/-- `stat.S_IXUSR | stat.S_IXGRP | stat.S_IXOTH` -/
def xMask : Int := 0o111

/-- memory.py:417-418 -/
def newMode (old mode : Int) : Int := Int.lor (Int.land old (Int.lnot xMask)) mode

/-- memory.py:416-419 -/
def setExec (root : Nat) (u : Uri) (mode : Int) : M Unit := do
  let x ← query fun w => info w root u true
  setInfo root u { mode := some (newMode x.mode mode) } true

/-- memory.py:536-540 -/
def copystat (root : Nat) (src dest : Uri) : M Unit := fun w =>
  match nodeForPath w root true true src with
  | .error e => (.error e, w)
  | .ok none =>
    match nodeForPath w root true true dest with
    | .error e => (.error e, w)
    | .ok _ => (.error .attributeError, w)
  | .ok (some s) =>
    match nodeForPath w root true true dest with
    | .error e => (.error e, w)
    | .ok none => (.error .attributeError, w)
    | .ok (some d) =>
      let w1 := w.setNode d ((w.node d).setMtime (w.node s).info.mtime)
      (.ok (), w1.setNode d ((w1.node d).setMode (w1.node s).info.mode))

/-- memory.py:199-202 `MemoryDir()` -/
def newDir : M Nat := do
  let t ← now
  newNode (.dir ⟨[], t, t, 0⟩)

/-- memory.py:240-243 `MemorySymlink(target)` -/
def newLink (target : Uri) : M Nat := do
  let t ← now
  newNode (.link ⟨target, t, t, 0⟩)

/-- memory.py:30-36 `MemoryFile(path)` -/
def newFile (path : Str) : M Nat := do
  let t ← now
  fun w => newNode (.file ⟨[], 0, t, t, 0, path, (w.gen, path)⟩) w

/-- memory.py:331-332 `_create_child` -/
def createChild (parent : Nat) (name : Str) (i : Nat) : M Unit := fun w =>
  match w.node parent with
  | .dir d => (.ok (), w.setNode parent (.dir (d.create name i)))
  | _ => (.error .attributeError, w)

/-- memory.py:334-335 `_del_child` -/
def delChild (parent : Nat) (name : Str) : M Unit := fun w =>
  match w.node parent with
  | .dir d =>
    if d.has name then (.ok (), w.setNode parent (.dir (d.remove name)))
    else (.error .keyError, w)
  | _ => (.error .attributeError, w)

/-- memory.py:425-428, 617-620 `_get_node(self._fs, p.split("/")[:-1])` followed by `nd.has(last)`: the
    parent, the last part, and whether the name is taken -/
def parentOf (w : World) (root : Nat) (p : Str) : Except PyErr (Nat × Str × Bool) :=
  match getNode w root (splitC '/' p).dropLast with
  | .error e => .error e
  | .ok none => .error .attributeError
  | .ok (some nd) =>
    let name := (splitC '/' p).getLastD []
    match w.node nd with
    | .dir d => .ok (nd, name, d.has name)
    | _ => .error .attributeError

/-- memory.py:422-429 -/
def mkdir (root : Nat) (u : Uri) : M Unit := do
  let p ← lift (stripPath u)
  if p ≠ [] then
    let (nd, name, taken) ← query fun w => parentOf w root p
    if taken then raise (.os .EEXIST)
    else
      let i ← newDir
      createChild nd name i
  else pure ()

/-- memory.py:614-621 -/
def symlink (root : Nat) (target linkName : Uri) : M Unit := do
  let p ← lift (stripPath linkName)
  if p ≠ [] then
    let (nd, name, taken) ← query fun w => parentOf w root p
    if taken then raise (.os .EEXIST)
    else
      let i ← newLink target
      createChild nd name i
  else pure ()

/-- memory.py:553-558 -/
def removefile (root : Nat) (u : Uri) : M Unit := do
  let p ← lift (stripPath u)
  let r ← query fun w => nodePrev w root false true ((splitC '/' p).filter fun x => x ≠ [])
  match r.1 with
  | none => pure ()
  | some parent => delChild parent u.last

/-- memory.py:561-569 -/
def removedir (root : Nat) (u : Uri) : M Unit := do
  let p ← lift (stripPath u)
  let r ← query fun w => nodePrev w root true true ((splitC '/' p).filter fun x => x ≠ [])
  match r.1 with
  | none => pure ()
  | some prev =>
    let c ← query fun w => child w (resolveLink w root true 32) prev u.last true
    match c with
    | none => raise .attributeError
    | some c => fun w =>
      match w.node c with
      | .dir d => if d.files = [] then delChild prev u.last w else (.error (.os .ENOTEMPTY), w)
      | _ => (.error .attributeError, w)

/-- `MemoryFileProxy` (memory.py:137-142) -/
structure Handle where
  id : Nat
  readable : Bool
  binary : Bool
  deriving DecidableEq, Repr

/-- memory.py:451-454; `nd.seek(0)` -/
def openRead (root : Nat) (u : Uri) (binary : Bool) : M Handle := fun w =>
  match nodeForPath w root true true u with
  | .error e => (.error e, w)
  | .ok none => (.error .attributeError, w)
  | .ok (some i) =>
    match w.node i with
    | .file f => (.ok ⟨i, true, binary⟩, w.setNode i (.file { f with pos := 0 }))
    | _ => (.error .attributeError, w)

/-- memory.py:39-44 `reset` -/
def resetFile (i : Nat) (f : FileObj) : M Unit := do
  let t ← now
  fun w => setNode i (.file { f with data := [], pos := 0, mtime := t, ctime := t, mode := 0,
                                     lock := (w.gen, f.path) }) w

/-- memory.py:457-471 -/
def openWrite (root : Nat) (u : Uri) (binary : Bool) : M Handle := do
  let p ← lift (stripPath u)
  let (nd, name, taken) ← query fun w => parentOf w root p
  if taken then
    let c ← query fun w => child w (resolveLink w root true 32) nd name true
    match c with
    | none => raise .attributeError
    | some c => fun w =>
      match w.node c with
      | .dir _ => (.error (.os .EISDIR), w)
      | .file f => (do resetFile c f; pure ⟨c, false, binary⟩ : M Handle) w
      | .link _ => (.error .attributeError, w)
  else
    let i ← newFile p
    createChild nd name i
    pure ⟨i, false, binary⟩

/-- memory.py:47-52 `__len__`: `seek(-1, 2)` stops at 0, so an empty file has length 1 -/
def FileObj.len (f : FileObj) : Nat := f.data.length - 1 + 1

/-- memory.py:474-477 -/
def openAppend (root : Nat) (u : Uri) (binary : Bool) : M Handle := fun w =>
  match nodeForPath w root true true u with
  | .error e => (.error e, w)
  | .ok none => (.error .attributeError, w)
  | .ok (some i) =>
    match w.node i with
    | .file f => (.ok ⟨i, false, binary⟩, w.setNode i (.file { f with pos := f.len }))
    | _ => (.error .attributeError, w)

/-- memory.py:480-490 -/
def open_ (root : Nat) (u : Uri) (options : Option Str) : M Handle :=
  match options with
  | none => openRead root u false
  | some o =>
    let binary := o.contains 'b'
    if o.contains 'r' then openRead root u binary
    else if o.contains 'w' then openWrite root u binary
    else if o.contains 'a' then openAppend root u binary
    else raise (.os .EINVAL)

end Verif.Mem
