import Verif.Mem.Handle
/-!
# `BaseUri` methods on memory URIs (fs.py:519-823): `with_connection` and the one-line delegations
-/
namespace Verif.Mem
open M

/-- parameter names of `get_connection` (fs.py:82-90): an extra of that name is a TypeError -/
def reservedNames : List Str :=
  [cl!"self", cl!"scheme", cl!"hostname", cl!"port", cl!"username", cl!"password", cl!"vpath_connector"]

/-- fs.py:300-301, 119-127 the registry key of a URI -/
def connKey (u : Uri) : ConnKey := ⟨u.key, u.allExtras⟩

/-- the connection registered for a key -/
def World.connOf (w : World) (k : ConnKey) : Option Nat :=
  (w.conns.find? fun c => c.1.same k).map Prod.snd

/-- fs.py:76-79, memory.py:306-311: a new `MemoryFileSystem` is created and registered -/
def createConn (k : ConnKey) : M Nat := do
  if truthy k.key.hostname then raise .assertionError
  else
    let r ← newDir
    fun w => (.ok r, { w with hooks := fun j => if j = r then [] else w.hooks j,
                              gen := w.gen + 1,
                              conns := w.conns ++ [(k, r)] })

/-- fs.py:300-301 `self.get_connection()` through fs.py:82-131, restricted to the memory backend: for the
    other shipped backends the model stops with `outside`. -/
def getConnection (u : Uri) : M Nat := fun w =>
  if u.allExtras.any (fun kv => kv.1 ∈ reservedNames) then (.error .typeError, w)
  else if u.scheme = some cl!"memory" then
    match w.connOf (connKey u) with
    | some r => (.ok r, w)
    | none => createConn (connKey u) w
  else if u.scheme = some cl!"file" ∨ u.scheme = some cl!"zip" then (.error .outside, w)
  else (.error .noScheme, w)

/-- memory.py:445-448 `pre_call_hook` -/
def preCallHook (root : Nat) (u : Uri) (m : Meth) : M Unit := do
  let p ← lift (stripPath u)
  query fun w =>
    match (w.hooks root).lookup p with
    | some (some cb) => match cb m with
      | some e => .error e
      | none => .ok ()
    | _ => .ok ()

/-- fs.py:219-230 the decorator `with_connection` (`last_used` is dealt with in Verif/Reg) -/
def withConn {α : Type} (u : Uri) (m : Meth) (body : Nat → M α) : M α := do
  let r ← getConnection u
  preCallHook r u m
  body r

/-- fs.py:619-627 -/
def uExists (u : Uri) : M Bool := withConn u .exists_ fun r => query fun w => exists_ w r u
/-- fs.py:630-638 -/
def uIsfile (u : Uri) : M Bool := withConn u .isfile fun r => query fun w => isfile w r u
/-- fs.py:641-649 -/
def uIsdir (u : Uri) : M Bool := withConn u .isdir fun r => query fun w => isdir w r u
/-- fs.py:652-665 -/
def uIsexec (u : Uri) (k : Int) : M Bool := withConn u .isexec fun r => query fun w => isexec w r u k
/-- fs.py:668-680 -/
def uSetExec (u : Uri) (m : Int) : M Unit := withConn u .set_exec fun r => setExec r u m
/-- fs.py:683-694 -/
def uIslink (u : Uri) : M Bool := withConn u .islink fun r => query fun w => islink w r u
/-- fs.py:697-709 -/
def uReadlink (u : Uri) : M Uri := withConn u .readlink fun r => query fun w => readlink w r u
/-- fs.py:712-724: the link is created in the file system of its target -/
def uSymlink (u linkName : Uri) : M Unit := withConn u .symlink fun r => symlink r u linkName
/-- fs.py:727-735 -/
def uMtime (u : Uri) : M Int := withConn u .mtime fun r => query fun w => mtime w r u
/-- fs.py:753-759 -/
def uListdir (u : Uri) : M (List Str) := withConn u .listdir fun r => query fun w => listdir w r u
/-- fs.py:762-775 without set_info -/
def uInfo (u : Uri) (followlinks : Bool := true) : M Info :=
  withConn u .info fun r => query fun w => info w r u followlinks
/-- fs.py:762-775 with set_info -/
def uSetInfo (u : Uri) (s : SetInfo) (followlinks : Bool := true) : M Unit :=
  withConn u .info fun r => setInfo r u s followlinks
/-- fs.py:540-553 -/
def uCopystat (u v : Uri) : M Unit := withConn u .copystat fun r => copystat r u v
/-- fs.py:593-599 -/
def uOpen (u : Uri) (options : Option Str) : M Handle := withConn u .open_ fun r => open_ r u options
/-- fs.py:610-616 -/
def uMkdir (u : Uri) : M Unit := withConn u .mkdir fun r => mkdir r u

/-- keyword arguments of `_manipulate` (memory.py:578-579) -/
structure Manip where
  lock : Bool := false
  unlock : Bool := false
  mtime : Option Int := none
  callback : Option (Option Callback) := none

/-- `lock.acquire()` -/
def acquire (l : LockId) : M Unit := fun w =>
  if w.held l then (.error .hang, w)
  else (.ok (), { w with held := fun k => if k = l then true else w.held k })

/-- `lock.release()` -/
def release (l : LockId) : M Unit := fun w =>
  if w.held l then (.ok (), { w with held := fun k => if k = l then false else w.held k })
  else (.error .runtimeError, w)

/-- `MemoryFile(p).lock` of a temporary file object (memory.py:582, 588) -/
def tempLock (p : Str) : M LockId := do
  let _ ← now
  query fun w => .ok (w.gen, p)

/-- `d[k] = v` on the callback dictionary -/
def setHook (l : List (Str × Option Callback)) (k : Str) (v : Option Callback) :
    List (Str × Option Callback) := (k, v) :: l.filter fun e => e.1 ≠ k

/-- memory.py:578-597 `_manipulate` -/
def manipulate (root : Nat) (u : Uri) (a : Manip) : M Unit := do
  if a.lock then
    let p ← lift (stripPath u)
    let l ← tempLock p
    acquire l
  if a.unlock then
    let p ← lift (stripPath u)
    let l ← tempLock p
    release l
  match a.mtime with
  | none => pure ()
  | some t => setInfo root u { mtime := some t } true
  match a.callback with
  | none => pure ()
  | some cb =>
    let p ← lift (stripPath u)
    fun w => (.ok (), { w with hooks := fun j => if j = root then setHook (w.hooks root) p cb else w.hooks j })

/-- fs.py:815-823 -/
def uManipulate (u : Uri) (a : Manip) : M Unit := withConn u .manipulate fun r => manipulate r u a

end Verif.Mem
