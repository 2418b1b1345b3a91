import Verif.Mem.Api
/-!
# The backend independent algorithms of fs.py, over the memory backend

`depth` is Python's recursion limit, counted in nested calls of the recursive function at hand; running out
of it is a RecursionError.
-/
namespace Verif.Gen
open Mem Mem.M

/-- fs.py:974-983 `FileSystem.makedirs` (`path.isdir()`, `path.mkdir()` go through `with_connection`) -/
def makedirs : Nat → Uri → M Unit
  | 0, _ => raise .recursionError
  | depth + 1, path => do
    if ← uIsdir path then pure ()
    else
      let (pth, tail) ← lift path.split
      if !(← uIsdir pth) then makedirs depth pth
      if tail ≠ [] then uMkdir path else pure ()

/-- fs.py:602-607 -/
def uMakedirs (depth : Nat) (u : Uri) : M Unit := withConn u .makedirs fun _ => makedirs depth u

/-- fs.py:1003-1007 classification of the names -/
def classify (root : Nat) (top : Uri) : List Str → M (List Str × List Str)
  | [] => pure ([], [])
  | name :: names => do
    let p ← lift (top.div name)
    let d ← query fun w => isdir w root p
    let (dirs, nondirs) ← classify root top names
    pure (if d then (name :: dirs, nondirs) else (dirs, name :: nondirs))

/-- fs.py:1011-1015 the loop over the sub-directories; `visit` is the recursive call -/
def walkDirs {σ : Type} (followlinks : Bool) (visit : Uri → σ → M σ) (top : Uri) : List Str → σ → M σ
  | [], s => pure s
  | name :: names, s => do
    let path ← lift (top.div name)
    let l ← uIslink path
    let s ← if !l || followlinks then visit path s else pure s
    walkDirs followlinks visit top names s

/-- fs.py:998-1017 `FileSystem.walk`, a generator, fused with its consumer: `body` is run at every yield on
    the consumer's state, `(root, dirs, files)`, and returns the new consumer state and the (possibly
    mutated) list `dirs`. -/
def walk {σ : Type} (root : Nat) (topdown followlinks : Bool)
    (body : σ → Uri → List Str → List Str → M (σ × List Str)) : Nat → Uri → σ → M σ
  | 0, _, _ => raise .recursionError
  | depth + 1, top, s => do
    let names ← query fun w => listdir w root top
    let (dirs, nondirs) ← classify root top (sortStr names)
    if topdown then
      let (s, dirs) ← body s top dirs nondirs
      walkDirs followlinks (walk root topdown followlinks body depth) top dirs s
    else
      let s ← walkDirs followlinks (walk root topdown followlinks body depth) top dirs s
      let (s, _) ← body s top dirs nondirs
      pure s

/-- fs.py:738-750 `list(u.walk(topdown, followlinks))` -/
def uWalk (depth : Nat) (u : Uri) (topdown : Bool := true) (followlinks : Bool := true) :
    M (List (Uri × List Str × List Str)) :=
  withConn u .walk fun r =>
    walk r topdown followlinks (fun s top dirs files => pure (s ++ [(top, dirs, files)], dirs)) depth u []

/-- fs.py:1020-1026 and 783-785 `glob`; `match_` is `fnmatch.fnmatch(·, pattern)`.  `path.listdir()` goes
    through `with_connection` once more. -/
def uGlob (u : Uri) (match_ : Str → Bool) : M (List Uri) :=
  withConn u .glob fun _ => do
    let l ← uListdir u
    (l.filter match_).mapM fun f => lift (u.div f)

/-- fs.py:201-209 the loop body of `remove_dir_recursively` -/
def removeBody (root : Nat) (top : Uri) (dirs files : List Str) : M Unit := do
  files.forM fun f => do
    let p ← lift (top.div f)
    removefile root p
  dirs.forM fun d => do
    let p ← lift (top.div d)
    if ← query fun w => islink w root p then removefile root p else removedir root p

/-- fs.py:198-214 `remove_dir_recursively` -/
def removeDirRec (depth : Nat) (root : Nat) (path : Uri) : M Unit := do
  walk root false false (fun (_ : Unit) top dirs files => do
    removeBody root top dirs files
    pure ((), dirs)) depth path ()
  if ← query fun w => islink w root path then removefile root path else removedir root path

/-- fs.py:569-590 `remove` -/
def uRemove (depth : Nat) (u : Uri) (recursive : Bool := false) : M Unit :=
  withConn u .remove fun r => do
    if ← query fun w => islink w r u then removefile r u
    else if !(← query fun w => exists_ w r u) then raise .fileDoesNotExist
    else if ← query fun w => isdir w r u then
      if recursive then removeDirRec depth r u else removedir r u
    else if ← query fun w => isfile w r u then removefile r u
    else pure ()

/-- emptiness of `bytes`/`str` (`while buf`) -/
def isEmptyData : PyData → Bool
  | .bytes b => b.isEmpty
  | .str s => s.isEmpty

/-- `shutil.copyfileobj(infs, outfs, 8192)`, at most `n` rounds -/
def copyFileObj (inf outf : Handle) : Nat → M Unit
  | 0 => raise .hang
  | n + 1 => do
    let b ← inf.read 8192
    if isEmptyData b then pure ()
    else
      outf.write b
      copyFileObj inf outf n

/-- fs.py:926-927, 968-969: opening both files and copying.  Every round of `copyfileobj` but the last
    consumes at least one byte, so the number of rounds is bounded by the size of the source. -/
def copyContent (source dest : Uri) : M Unit := do
  let inf ← uOpen source (some cl!"rb")
  let outf ← uOpen dest (some cl!"wb")
  let n ← inf.size
  copyFileObj inf outf (n + 1)

/-- fs.py:896-900 `_copy_link`; `root` is the connection of the source, also used for the destination -/
def copyLink (root : Nat) (source dest : Uri) : M Unit := do
  if !(← query fun w => islink w root source) then raise .assertionError
  if ← uIsfile dest then removefile root dest
  let t ← query fun w => readlink w root source
  symlink root t dest

/-- fs.py:923-929, 965-971 copying one file or link -/
def copyOne (root : Nat) (source dest : Uri) (followlinks : Bool) : M Unit := do
  if (← uIslink source) && !followlinks then copyLink root source dest
  else
    copyContent source dest
    if source.scheme = dest.scheme then copystat root source dest

/-- fs.py:951-960 the loop over `dirs[:]`, which removes ignored names from `dirs` -/
def copyDirs (depth root : Nat) (ignore : List Str) (followlinks : Bool) (top dbase : Uri) :
    List Str → List Str → M (List Str)
  | [], dirs => pure dirs
  | folder :: rest, dirs =>
    if folder ∈ ignore then copyDirs depth root ignore followlinks top dbase rest (dirs.erase folder)
    else do
      let ddir ← lift (dbase.div folder)
      let srcp ← lift (top.div folder)
      if (← uIslink srcp) && !followlinks then copyLink root srcp ddir
      else uMakedirs depth ddir
      copyDirs depth root ignore followlinks top dbase rest dirs

/-- fs.py:962-971 the loop over the files -/
def copyFiles (root : Nat) (followlinks : Bool) (top dbase : Uri) : List Str → M Unit
  | [] => pure ()
  | fname :: rest => do
    let srcf ← lift (top.div fname)
    let destf ← lift (dbase.div fname)
    copyOne root srcf destf followlinks
    copyFiles root followlinks top dbase rest

/-- fs.py:944-971 the loop body of the recursive copy -/
def copyBody (depth root : Nat) (ignore : List Str) (followlinks : Bool) (spthLen : Nat) (droot : Uri)
    (top : Uri) (dirs files : List Str) : M (List Str) := do
  let tojoin := stripW (top.path.drop spthLen)
  let dbase ← if tojoin ≠ [] then lift (droot.div tojoin) else pure droot
  let dirs' ← copyDirs depth root ignore followlinks top dbase dirs dirs
  copyFiles root followlinks top dbase files
  pure dirs'

/-- fs.py:738-750 `source.walk(followlinks=followlinks)` consumed by the copy loop -/
def copyWalk (depth root : Nat) (ignore : List Str) (followlinks : Bool) (source droot : Uri) : M Unit :=
  withConn source .walk fun r =>
    walk r true followlinks (fun (_ : Unit) top dirs files => do
      let dirs' ← copyBody depth root ignore followlinks (source.path.length + 1) droot top dirs files
      pure ((), dirs')) depth source ()

/-- fs.py:903-971 `FileSystem.copy`.  No shipped backend has `internal_copy` (fs.py:905-906). -/
def copy (depth root : Nat) (source dest : Uri) (recursive : Bool) (ignore : List Str) (followlinks : Bool) :
    M Unit := do
  if !(← uExists source) then raise .fileDoesNotExist
  if !recursive then
    if !(← uIsfile source) then raise .assertionError
    let dest ← if ← uIsdir dest then lift (dest.div source.last) else pure dest
    copyOne root source dest followlinks
  else
    if !(← uIsdir source) then raise .assertionError
    let droot ← if ← uIsdir dest then lift (dest.div source.last) else pure dest
    if (← uIslink source) && !followlinks then copyLink root source droot
    else
      uMakedirs depth droot
      copyWalk depth root ignore followlinks source droot

/-- fs.py:519-537 -/
def uCopy (depth : Nat) (u dest : Uri) (recursive : Bool := false) (ignore : List Str := [])
    (followlinks : Bool := true) : M Unit :=
  withConn u .copy fun r => copy depth r u dest recursive ignore followlinks

/-- fs.py:986-995 `FileSystem.move` -/
def move (depth : Nat) (source dest : Uri) : M Unit := do
  if ← uIsfile source then
    uCopy depth source dest
    uRemove depth source
  else
    uCopy depth source dest true
    uRemove depth source true

/-- fs.py:556-566 -/
def uMove (depth : Nat) (u dest : Uri) : M Unit := withConn u .move fun _ => move depth u dest

/-- fs.py:795-799 the loop feeding the hash: the blocks in order, at most `n` rounds -/
def md5Loop (h : Handle) : Nat → M (List Bytes)
  | 0 => raise .hang
  | n + 1 => do
    match ← h.read 4096 with
    | .bytes b =>
      if b = [] then pure []
      else
        let r ← md5Loop h n
        pure (b :: r)
    | .str _ => raise .typeError

/-- fs.py:788-801 `md5`: the sequence of `hash_.update` arguments (the hash function itself is a
    parameter of the properties) -/
def uMd5 (u : Uri) : M (List Bytes) :=
  withConn u .md5 fun _ => do
    let h ← uOpen u (some cl!"rb")
    let n ← h.size
    md5Loop h (n + 1)

/-- `MemoryLock` (memory.py:257-264) together with the lock taken by `__enter__` -/
structure LockGuard where
  path : Uri
  cleanup : Bool
  lock : LockId
  handle : Handle
  deriving DecidableEq

/-- memory.py:271-272 `if not self.lock.acquire(False): raise LockFileObtainException` -/
def tryAcquire (l : LockId) : M Unit := fun w =>
  if w.held l then (.error .lockObtain, w) else acquire l w

/-- memory.py:267-275 `__enter__` -/
def lockEnter (root : Nat) (u : Uri) (failOnLock cleanup : Bool) : M LockGuard := do
  let h ← open_ root u (some cl!"w")
  let l ← withFile h.id fun f => pure f.lock
  if failOnLock then tryAcquire l else acquire l
  pure ⟨u, cleanup, l, h⟩

/-- fs.py:804-812, memory.py:572-573: `with u.lock(...)`, entry -/
def uLockEnter (u : Uri) (failOnLock cleanup : Bool) : M LockGuard :=
  withConn u .lock fun r => lockEnter r u failOnLock cleanup

/-- memory.py:278-281 `__exit__` -/
def lockExit (depth : Nat) (g : LockGuard) : M Unit := do
  release g.lock
  if g.cleanup then uRemove depth g.path

end Verif.Gen
