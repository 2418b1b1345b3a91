import Verif.Conc.Prog
/-!
# memory.py, one access to a shared object at a time

The methods of `Verif/Mem/Fs` and `Verif/Mem/Handle` again, as programs of atomic accesses, for many threads.  The kind of an
object and the target of a link never change, so reading them is a step of its own without consequence.  Objects
are made (memory.py:30-36, 199-202, 240-243) in one step with the dictionary store that publishes them: before, no other thread can
see them.  Looking up `self._data` and the call of a BytesIO method on it are one step.
-/
namespace Verif.Conc
open Mem Mem.M Prog

/-! ## Atomic accesses -/

/-- memory.py:217-218 `name in self._files`; only directories have the method -/
def aHas (d : Nat) (n : Str) : M Bool := query fun w =>
  match w.node d with
  | .dir o => .ok (o.has n)
  | _ => .error .attributeError

/-- memory.py:221-222 `self._files[name]` -/
def aGet (d : Nat) (n : Str) : M Nat := query fun w =>
  match w.node d with
  | .dir o => match o.get n with
    | some i => .ok i
    | none => .error .keyError
  | _ => .error .attributeError

/-- the class of an object, with the target of a link -/
inductive Tag
  | file | dir | link (t : Uri)

/-- memory.py:26, 197, 238 `kind` and memory.py:241 `target` -/
def tagOf : Node → Tag
  | .file _ => .file
  | .dir _ => .dir
  | .link l => .link l.target

/-- reading them -/
def aTag (i : Nat) : M Tag := query fun w => .ok (tagOf (w.node i))

/-- memory.py:233-234 `isempty` -/
def aIsEmpty (d : Nat) : M Bool := query fun w =>
  match w.node d with
  | .dir o => .ok (decide (o.files = []))
  | _ => .error .attributeError

/-- memory.py:213-214 `list(self._files.keys())` -/
def aKeys (d : Nat) : M (List Str) := query fun w =>
  match w.node d with
  | .dir o => .ok o.keys
  | _ => .error .attributeError

/-- memory.py:429, 225-226 `parent.create(name, MemoryDir())` -/
def aNewDir (d : Nat) (n : Str) : M Unit := do
  let i ← newDir
  createChild d n i

/-- memory.py:621 `parent.create(name, MemorySymlink(target))` -/
def aNewLink (d : Nat) (n : Str) (t : Uri) : M Unit := do
  let i ← newLink t
  createChild d n i

/-- memory.py:469-470 `parent.create(name, MemoryFile(p))` -/
def aNewFile (d : Nat) (n p : Str) : M Nat := do
  let i ← newFile p
  createChild d n i
  pure i

/-- a BytesIO method or an attribute of a file -/
def aFile {α : Type} (i : Nat) (f : FileObj → Except PyErr (α × FileObj)) : M α :=
  withFile i fun o =>
    match f o with
    | .ok (a, o') => do setNode i (.file o'); pure a
    | .error e => raise e

/-- `x.mtime = t` -/
def aSetMtime (i : Nat) (t : Int) : M Unit := fun w => (.ok (), w.setNode i ((w.node i).setMtime t))
/-- `x.mode = m` -/
def aSetMode (i : Nat) (m : Int) : M Unit := fun w => (.ok (), w.setNode i ((w.node i).setMode m))
/-- `x.mtime`, `x.mode`, `x.size()` -/
def aInfo (i : Nat) : M Info := query fun w => .ok (w.node i).info

/-! ## Looking up paths -/

/-- memory.py:314-329 `_child` -/
def cChild (resolve : Uri → Prog (Option Nat)) (parent : Nat) (name : Str) (resolveLink : Bool) : Prog (Option Nat) := do
  if ← call (aHas parent name) then
    let i ← call (aGet parent name)
    match ← call (aTag i) with
    | .link t =>
      if resolveLink then
        match ← resolve t with
        | none => pure none
        | some j =>
          match ← call (aTag j) with
          | .link _ => raise .assertionError
          | _ => pure (some j)
      else pure (some i)
    | _ => pure (some i)
  else pure none

/-- memory.py:340-357 the loop of `_get_node_prev` -/
def cPrevLoop (resolve : Uri → Prog (Option Nat)) (follow throw : Bool) (last : Str) :
    List Str → Option Nat → Option Nat → Prog (Option Nat × Option Nat)
  | [], prev, cur => pure (prev, cur)
  | part :: rest, _, cur =>
    match cur with
    | none => raise .attributeError
    | some c => do
      if ← call (aHas c part) then
        let nxt ← cChild resolve c part (if part = last then follow else true)
        cPrevLoop resolve follow throw last rest (some c) nxt
      else if throw then raise (.os .ENOENT)
      else pure (none, none)

/-- memory.py:338-357 `_get_node_prev` -/
def cPrevWith (root : Nat) (resolve : Uri → Prog (Option Nat)) (follow throw : Bool) (steps : List Str) :
    Prog (Option Nat × Option Nat) :=
  cPrevLoop resolve follow throw (steps.getLastD []) steps none (some root)

/-- memory.py:366-373 `_get_node_for_path` -/
def cForPathWith (root : Nat) (resolve : Uri → Prog (Option Nat)) (follow throw : Bool) (u : Uri) : Prog (Option Nat) := do
  let p ← lift (stripPath u)
  if p ≠ [] then
    let r ← cPrevWith root resolve follow throw (splitC '/' p)
    pure r.2
  else pure (some root)

/-- memory.py:318-324 the target of a link -/
def cResolve (root : Nat) (throw : Bool) : Nat → Uri → Prog (Option Nat)
  | 0, _ => raise (.os .ELOOP)
  | k + 1, t => cForPathWith root (cResolve root throw k) true throw t

/-- memory.py:338-357 `_get_node_prev` at link level 0 -/
def cPrev (root : Nat) (follow throw : Bool) (steps : List Str) : Prog (Option Nat × Option Nat) :=
  cPrevWith root (cResolve root throw 32) follow throw steps

/-- memory.py:360-363 `_get_node` -/
def cNode (root : Nat) (steps : List Str) : Prog (Option Nat) := do
  let r ← cPrev root true true steps
  pure r.2

/-- memory.py:366-373 `_get_node_for_path` at link level 0 -/
def cForPath (root : Nat) (follow throw : Bool) (u : Uri) : Prog (Option Nat) :=
  cForPathWith root (cResolve root throw 32) follow throw u

/-- use of an object that may be None -/
def cSome : Option Nat → Prog Nat
  | some i => pure i
  | none => raise .attributeError

/-! ## Methods -/

/-- memory.py:384-396 -/
def cIsdir (root : Nat) (u : Uri) : Prog Bool := do
  let p ← lift (stripPath u)
  if p ≠ [] then
    (cForPath root true false u).after fun
      | .ok none => pure false
      | .ok (some i) => do
        match ← call (aTag i) with
        | .dir => pure true
        | _ => pure false
      | .error (.os .ELOOP) => pure false
      | .error (.os _) => pure true
      | .error e => raise e
  else pure true

/-- memory.py:399-409 -/
def cIsfile (root : Nat) (u : Uri) : Prog Bool := do
  let p ← lift (stripPath u)
  if p ≠ [] then
    (cForPath root true false u).after fun
      | .ok none => pure false
      | .ok (some i) => do
        match ← call (aTag i) with
        | .file => pure true
        | _ => pure false
      | .error (.os _) => pure false
      | .error e => raise e
  else pure false

/-- memory.py:432-442 -/
def cExists (root : Nat) (u : Uri) : Prog Bool := do
  let p ← lift (stripPath u)
  if p ≠ [] then
    (cForPath root true false u).after fun
      | .ok none => pure false
      | .ok (some _) => pure true
      | .error (.os .ELOOP) => pure false
      | .error (.os _) => pure true
      | .error e => raise e
  else pure true

/-- memory.py:604-611 -/
def cIslink (root : Nat) (u : Uri) : Prog Bool := do
  let p ← lift (stripPath u)
  if p ≠ [] then
    match ← cForPath root false false u with
    | none => pure false
    | some i =>
      match ← call (aTag i) with
      | .link _ => pure true
      | _ => pure false
  else pure false

/-- memory.py:624-629 -/
def cReadlink (root : Nat) (u : Uri) : Prog Uri := do
  let p ← lift (stripPath u)
  if p ≠ [] then
    let i ← cSome (← cForPath root false true u)
    match ← call (aTag i) with
    | .link t => pure t
    | _ => raise (.os .EINVAL)
  else raise (.os .EINVAL)

/-- memory.py:543-546 -/
def cListdir (root : Nat) (u : Uri) : Prog (List Str) := do
  let p ← lift (stripPath u)
  let i ← cSome (← cNode root ((splitC '/' p).filter fun x => x ≠ []))
  let l ← call (aKeys i)
  pure (sortStr l)

/-- memory.py:522-533 `info` without `set_info`: three attributes are read one after the other -/
def cInfo (root : Nat) (u : Uri) (follow : Bool) : Prog Info := do
  let i ← cSome (← cForPath root follow true u)
  let a ← call (aInfo i)
  let b ← call (aInfo i)
  let c ← call (aInfo i)
  pure ⟨a.mtime, b.mode, c.size⟩

/-- memory.py:522-529 `info` with `set_info` -/
def cSetInfo (root : Nat) (u : Uri) (s : SetInfo) (follow : Bool) : Prog Unit := do
  let o ← cForPath root follow true u
  let i ← cSome o
  match s.mode with
  | some m => call (aSetMode i m)
  | none => pure ()
  match s.mtime with
  | some t => call (aSetMtime i t)
  | none => pure ()

/-- memory.py:549-550 -/
def cMtime (root : Nat) (u : Uri) : Prog Int := do
  let i ← cSome (← cForPath root true true u)
  let a ← call (aInfo i)
  pure a.mtime

/-- memory.py:412-413 -/
def cIsexec (root : Nat) (u : Uri) (k : Int) : Prog Bool := do
  let x ← cInfo root u true
  pure (decide (Int.land x.mode k ≠ 0))

/-- memory.py:416-419 -/
def cSetExec (root : Nat) (u : Uri) (mode : Int) : Prog Unit := do
  let x ← cInfo root u true
  cSetInfo root u { mode := some (newMode x.mode mode) } true

/-- memory.py:536-540 -/
def cCopystat (root : Nat) (src dest : Uri) : Prog Unit := do
  let s ← cForPath root true true src
  let d ← cForPath root true true dest
  let s ← cSome s
  let d ← cSome d
  let a ← call (aInfo s)
  call (aSetMtime d a.mtime)
  let b ← call (aInfo s)
  call (aSetMode d b.mode)

/-- memory.py:425-427, 617-619 the parent and whether the name is taken -/
def cParent (root : Nat) (p : Str) : Prog (Nat × Str × Bool) := do
  let nd ← cSome (← cNode root (splitC '/' p).dropLast)
  let name := (splitC '/' p).getLastD []
  let taken ← call (aHas nd name)
  pure (nd, name, taken)

/-- memory.py:422-429 -/
def cMkdir (root : Nat) (u : Uri) : Prog Unit := do
  let p ← lift (stripPath u)
  if p ≠ [] then
    let x ← cParent root p
    if x.2.2 then raise (.os .EEXIST)
    else call (aNewDir x.1 x.2.1)
  else pure ()

/-- memory.py:614-621 -/
def cSymlink (root : Nat) (target linkName : Uri) : Prog Unit := do
  let p ← lift (stripPath linkName)
  if p ≠ [] then
    let x ← cParent root p
    if x.2.2 then raise (.os .EEXIST)
    else call (aNewLink x.1 x.2.1 target)
  else pure ()

/-- memory.py:553-558 -/
def cRemovefile (root : Nat) (u : Uri) : Prog Unit := do
  let p ← lift (stripPath u)
  let r ← cPrev root false true ((splitC '/' p).filter fun x => x ≠ [])
  match r.1 with
  | none => pure ()
  | some parent => call (delChild parent u.last)

/-- memory.py:561-569 -/
def cRemovedir (root : Nat) (u : Uri) : Prog Unit := do
  let p ← lift (stripPath u)
  let r ← cPrev root true true ((splitC '/' p).filter fun x => x ≠ [])
  match r.1 with
  | none => pure ()
  | some prev =>
    let c ← cSome (← cChild (cResolve root true 32) prev u.last true)
    if ← call (aIsEmpty c) then call (delChild prev u.last)
    else raise (.os .ENOTEMPTY)

/-- memory.py:451-454 -/
def cOpenRead (root : Nat) (u : Uri) (binary : Bool) : Prog Handle := do
  let i ← cSome (← cForPath root true true u)
  call (aFile i fun f => .ok ((), { f with pos := 0 }))
  pure ⟨i, true, binary⟩

/-- memory.py:39-44 `reset`: `_data`, `mtime` and `ctime`, `mode`, `lock` are assigned one after the other -/
def cReset (i : Nat) : Prog Unit := do
  call (aFile i fun f => .ok ((), { f with data := [], pos := 0 }))
  let t ← call now
  call (aFile i fun f => .ok ((), { f with mtime := t, ctime := t }))
  call (aFile i fun f => .ok ((), { f with mode := 0 }))
  let g ← call (query fun w => .ok w.gen)
  call (aFile i fun f => .ok ((), { f with lock := (g, f.path) }))

/-- memory.py:457-471 -/
def cOpenWrite (root : Nat) (u : Uri) (binary : Bool) : Prog Handle := do
  let p ← lift (stripPath u)
  let x ← cParent root p
  if x.2.2 then
    let c ← cChild (cResolve root true 32) x.1 x.2.1 true
    match c with
    | none => raise .attributeError
    | some c =>
      match ← call (aTag c) with
      | .dir => raise (.os .EISDIR)
      | .file =>
        cReset c
        pure ⟨c, false, binary⟩
      | .link _ => raise .attributeError
  else
    let i ← call (aNewFile x.1 x.2.1 p)
    pure ⟨i, false, binary⟩

/-- memory.py:47-52 `__len__`, which moves the position to and fro -/
def cLen (i : Nat) : Prog Nat := do
  let pos ← call (aFile i fun f => .ok (f.pos, f))
  call (aFile i fun f => (BytesIO.seek f.data f.pos (-1) 2).map fun p => ((), { f with pos := p }))
  let l ← call (aFile i fun f => .ok (f.pos, f))
  call (aFile i fun f => .ok ((), { f with pos := pos }))
  pure (l + 1)

/-- memory.py:474-477 -/
def cOpenAppend (root : Nat) (u : Uri) (binary : Bool) : Prog Handle := do
  let i ← cSome (← cForPath root true true u)
  let l ← cLen i
  call (aFile i fun f => .ok ((), { f with pos := l }))
  pure ⟨i, false, binary⟩

/-- memory.py:480-490 -/
def cOpen (root : Nat) (u : Uri) (options : Option Str) : Prog Handle :=
  match options with
  | none => cOpenRead root u false
  | some o =>
    let binary := o.contains 'b'
    if o.contains 'r' then cOpenRead root u binary
    else if o.contains 'w' then cOpenWrite root u binary
    else if o.contains 'a' then cOpenAppend root u binary
    else raise (.os .EINVAL)

/-- memory.py:159-160, 59-61 `write`: the data, then the time -/
def cWrite (h : Handle) (d : PyData) : Prog Unit := do
  let b ← lift (h.encode d)
  call (aFile h.id fun f => .ok ((), { f with data := (BytesIO.write f.data f.pos b).1, pos := (BytesIO.write f.data f.pos b).2 }))
  let t ← call now
  call (aFile h.id fun f => .ok ((), { f with mtime := t }))

/-- memory.py:153-156, 64-65 `read` -/
def cRead (h : Handle) (size : Int) : Prog PyData :=
  if h.readable then do
    let b ← call (aFile h.id fun f => .ok ((BytesIO.read f.data f.pos size).1, { f with pos := (BytesIO.read f.data f.pos size).2 }))
    lift (h.decode b)
  else raise (.os .EBADF)

/-- memory.py:68-69 `seek` -/
def cSeek (h : Handle) (target whence : Int) : Prog Unit :=
  call (aFile h.id fun f => (BytesIO.seek f.data f.pos target whence).map fun p => ((), { f with pos := p }))

/-- memory.py:76-77 `tell` -/
def cTell (h : Handle) : Prog Nat := call (aFile h.id fun f => .ok (f.pos, f))

/-- memory.py:55-56 `size` -/
def cSize (h : Handle) : Prog Nat := call (aFile h.id fun f => .ok (f.data.length, f))

/-- memory.py:84-85 `truncate` -/
def cTruncate (h : Handle) (size : Option Int) : Prog Int :=
  call (aFile h.id fun f => (BytesIO.truncate f.data f.pos size).map fun r => (r.2, { f with data := r.1 }))

/-- memory.py:104-106 `close` -/
def cClose (h : Handle) : Prog Unit := call (aFile h.id fun f => .ok ((), { f with pos := 0 }))

/-- memory.py:186-187, 109-110 `readline` -/
def cReadline (h : Handle) : Prog PyData := do
  let b ← call (aFile h.id fun f => .ok ((BytesIO.readline f.data f.pos).1, { f with pos := (BytesIO.readline f.data f.pos).2 }))
  lift (h.decode b)

/-! ## Calls through URIs -/

/-- fs.py:219-230 `with_connection` for a file system that is there; making one is not part of this model (see C57) -/
def cConn {α : Type} (u : Uri) (m : Meth) (body : Nat → Prog α) : Prog α := do
  let r ← call (query fun w =>
    if u.allExtras.any (fun kv => kv.1 ∈ reservedNames) then .error .typeError
    else if u.scheme = some cl!"memory" then
      match w.connOf (connKey u) with
      | some r => .ok r
      | none => if truthy (connKey u).key.hostname then .error .assertionError else .error .outside
    else if u.scheme = some cl!"file" ∨ u.scheme = some cl!"zip" then .error .outside
    else .error .noScheme)
  call (preCallHook r u m)
  body r

end Verif.Conc
