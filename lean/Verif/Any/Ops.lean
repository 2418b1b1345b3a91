import Verif.Mem.World
import Verif.Uri.Base
import Verif.Py.Str
import Verif.Py.Sort
/-!
# The backend independent algorithms of fs.py, over any backend

`Ops σ` is what the algorithms use of the registry and of the backends, over a state `σ`.  The algorithms are those of
Verif/Gen/Tree.lean with the memory backend replaced by this; Verif/Any/Sys.lean has the memory and the local backend
in one state, and shows that over the memory backend alone they are the functions of Verif/Gen/Tree.lean.
`depth` is Python's recursion limit as there.
-/
namespace Verif.Any
open Mem (Meth)

/-- A Python computation over the state `σ` -/
def OM (σ α : Type) := σ → Except PyErr α × σ

namespace OM
variable {σ : Type}

/-- `return a` -/
def ret {α : Type} (a : α) : OM σ α := fun s => (.ok a, s)

/-- sequencing: an exception stops the rest -/
def bnd {α β : Type} (m : OM σ α) (f : α → OM σ β) : OM σ β := fun s =>
  match m s with
  | (.ok a, s') => f a s'
  | (.error e, s') => (.error e, s')

instance : Monad (OM σ) where
  pure := ret
  bind := bnd

/-- `raise e` -/
def raise {α : Type} (e : PyErr) : OM σ α := fun s => (.error e, s)

/-- a state independent computation that may raise -/
def lift {α : Type} (x : Except PyErr α) : OM σ α := fun s => (x, s)

instance : LawfulMonad (OM σ) := LawfulMonad.mk' (OM σ)
  (id_map := by
    intro α x; funext w; show (bnd x (fun a => OM.ret a)) w = x w
    simp only [bnd]; cases h : x w with | mk r w' => cases r <;> rfl)
  (pure_bind := by intro α β x f; rfl)
  (bind_assoc := by
    intro α β γ x f g; funext w; show (bnd (bnd x f) g) w = (bnd x fun a => bnd (f a) g) w
    simp only [bnd]; cases h : x w with | mk r w' => cases r <;> rfl)

end OM
open OM

/-- What the algorithms call.  `conn` is `get_connection` (fs.py:300-301), `hook` is `pre_call_hook` (fs.py:888-893),
    then the methods of `FileSystem` that backends implement; `openR`, `openW` are `open` with 'rb' and 'wb'; `pump` is
    `shutil.copyfileobj(infs, outfs, 8192)` and closing both; `blocks` are the blocks `md5` reads, 4096 bytes each;
    `moveSelf` is `move` where a backend has one of its own (localfs.py:129-150) and uses it. -/
structure Ops (σ : Type) where
  Conn : Type
  Hd : Type
  conn : Uri → OM σ Conn
  hook : Conn → Uri → Meth → OM σ Unit
  exists_ : Conn → Uri → OM σ Bool
  isfile : Conn → Uri → OM σ Bool
  isdir : Conn → Uri → OM σ Bool
  islink : Conn → Uri → OM σ Bool
  readlink : Conn → Uri → OM σ Uri
  symlink : Conn → Uri → Uri → OM σ Unit
  listdir : Conn → Uri → OM σ (List Str)
  mkdir : Conn → Uri → OM σ Unit
  removefile : Conn → Uri → OM σ Unit
  removedir : Conn → Uri → OM σ Unit
  copystat : Conn → Uri → Uri → OM σ Unit
  openR : Conn → Uri → OM σ Hd
  openW : Conn → Uri → OM σ Hd
  pump : Hd → Hd → OM σ Unit
  blocks : Hd → OM σ (List Bytes)
  moveSelf : Conn → Uri → Uri → Option (OM σ Unit)

variable {σ : Type} (O : Ops σ)

/-- fs.py:219-230 the decorator `with_connection` -/
def withConn {α : Type} (u : Uri) (m : Meth) (body : O.Conn → OM σ α) : OM σ α := do
  let c ← O.conn u
  O.hook c u m
  body c

/-- fs.py:619-627 -/
def uExists (u : Uri) : OM σ Bool := withConn O u .exists_ fun c => O.exists_ c u
/-- fs.py:630-638 -/
def uIsfile (u : Uri) : OM σ Bool := withConn O u .isfile fun c => O.isfile c u
/-- fs.py:641-649 -/
def uIsdir (u : Uri) : OM σ Bool := withConn O u .isdir fun c => O.isdir c u
/-- fs.py:683-694 -/
def uIslink (u : Uri) : OM σ Bool := withConn O u .islink fun c => O.islink c u
/-- fs.py:697-709 -/
def uReadlink (u : Uri) : OM σ Uri := withConn O u .readlink fun c => O.readlink c u
/-- fs.py:712-724: the link is created in the file system of its target -/
def uSymlink (u linkName : Uri) : OM σ Unit := withConn O u .symlink fun c => O.symlink c u linkName
/-- fs.py:753-759 -/
def uListdir (u : Uri) : OM σ (List Str) := withConn O u .listdir fun c => O.listdir c u
/-- fs.py:610-616 -/
def uMkdir (u : Uri) : OM σ Unit := withConn O u .mkdir fun c => O.mkdir c u
/-- fs.py:540-553 -/
def uCopystat (u v : Uri) : OM σ Unit := withConn O u .copystat fun c => O.copystat c u v
/-- fs.py:593-599, mode 'rb' -/
def uOpenR (u : Uri) : OM σ O.Hd := withConn O u .open_ fun c => O.openR c u
/-- fs.py:593-599, mode 'wb' -/
def uOpenW (u : Uri) : OM σ O.Hd := withConn O u .open_ fun c => O.openW c u

/-- fs.py:974-983 `FileSystem.makedirs` -/
def makedirs : Nat → Uri → OM σ Unit
  | 0, _ => raise .recursionError
  | depth + 1, path => do
    if ← uIsdir O path then pure ()
    else
      let (pth, tail) ← lift path.split
      if !(← uIsdir O pth) then makedirs depth pth
      if tail ≠ [] then uMkdir O path else pure ()

/-- fs.py:602-607 -/
def uMakedirs (depth : Nat) (u : Uri) : OM σ Unit := withConn O u .makedirs fun _ => makedirs O depth u

/-- fs.py:1003-1007 classification of the names -/
def classify (c : O.Conn) (top : Uri) : List Str → OM σ (List Str × List Str)
  | [] => pure ([], [])
  | name :: names => do
    let p ← lift (top.div name)
    let d ← O.isdir c p
    let (dirs, nondirs) ← classify c top names
    pure (if d then (name :: dirs, nondirs) else (dirs, name :: nondirs))

/-- fs.py:1011-1015 the loop over the sub-directories; `visit` is the recursive call -/
def walkDirs {τ : Type} (followlinks : Bool) (visit : Uri → τ → OM σ τ) (top : Uri) : List Str → τ → OM σ τ
  | [], t => pure t
  | name :: names, t => do
    let path ← lift (top.div name)
    let l ← uIslink O path
    let t ← if !l || followlinks then visit path t else pure t
    walkDirs followlinks visit top names t

/-- fs.py:998-1017 `FileSystem.walk` fused with its consumer, as `Gen.walk` -/
def walk {τ : Type} (c : O.Conn) (topdown followlinks : Bool)
    (body : τ → Uri → List Str → List Str → OM σ (τ × List Str)) : Nat → Uri → τ → OM σ τ
  | 0, _, _ => raise .recursionError
  | depth + 1, top, t => do
    let names ← O.listdir c top
    let (dirs, nondirs) ← classify O c top (sortStr names)
    if topdown then
      let (t, dirs) ← body t top dirs nondirs
      walkDirs O followlinks (walk c topdown followlinks body depth) top dirs t
    else
      let t ← walkDirs O followlinks (walk c topdown followlinks body depth) top dirs t
      let (t, _) ← body t top dirs nondirs
      pure t

/-- fs.py:738-750 `list(u.walk(topdown, followlinks))` -/
def uWalk (depth : Nat) (u : Uri) (topdown : Bool := true) (followlinks : Bool := true) :
    OM σ (List (Uri × List Str × List Str)) :=
  withConn O u .walk fun c =>
    walk O c topdown followlinks (fun t top dirs files => pure (t ++ [(top, dirs, files)], dirs)) depth u []

/-- fs.py:1020-1026 and 783-785 `glob`; `match_` is `fnmatch.fnmatch(·, pattern)` -/
def uGlob (u : Uri) (match_ : Str → Bool) : OM σ (List Uri) :=
  withConn O u .glob fun _ => do
    let l ← uListdir O u
    (l.filter match_).mapM fun f => lift (u.div f)

/-- fs.py:201-209 the loop body of `remove_dir_recursively` -/
def removeBody (c : O.Conn) (top : Uri) (dirs files : List Str) : OM σ Unit := do
  files.forM fun f => do
    let p ← lift (top.div f)
    O.removefile c p
  dirs.forM fun d => do
    let p ← lift (top.div d)
    if ← O.islink c p then O.removefile c p else O.removedir c p

/-- fs.py:198-214 `remove_dir_recursively` -/
def removeDirRec (depth : Nat) (c : O.Conn) (path : Uri) : OM σ Unit := do
  walk O c false false (fun (_ : Unit) top dirs files => do
    removeBody O c top dirs files
    pure ((), dirs)) depth path ()
  if ← O.islink c path then O.removefile c path else O.removedir c path

/-- fs.py:569-590 `remove` -/
def uRemove (depth : Nat) (u : Uri) (recursive : Bool := false) : OM σ Unit :=
  withConn O u .remove fun c => do
    if ← O.islink c u then O.removefile c u
    else if !(← O.exists_ c u) then raise .fileDoesNotExist
    else if ← O.isdir c u then
      if recursive then removeDirRec O depth c u else O.removedir c u
    else if ← O.isfile c u then O.removefile c u
    else pure ()

/-- fs.py:926-927, 968-969: opening both files and copying -/
def copyContent (source dest : Uri) : OM σ Unit := do
  let inf ← uOpenR O source
  let outf ← uOpenW O dest
  O.pump inf outf

/-- fs.py:896-900 `_copy_link`; `c` is the connection of the source, also used for the destination -/
def copyLink (c : O.Conn) (source dest : Uri) : OM σ Unit := do
  if !(← O.islink c source) then raise .assertionError
  if ← uIsfile O dest then O.removefile c dest
  let t ← O.readlink c source
  O.symlink c t dest

/-- fs.py:923-929, 965-971 copying one file or link -/
def copyOne (c : O.Conn) (source dest : Uri) (followlinks : Bool) : OM σ Unit := do
  if (← uIslink O source) && !followlinks then copyLink O c source dest
  else
    copyContent O source dest
    if source.scheme = dest.scheme then O.copystat c source dest

/-- fs.py:951-960 the loop over `dirs[:]`, which removes ignored names from `dirs` -/
def copyDirs (depth : Nat) (c : O.Conn) (ignore : List Str) (followlinks : Bool) (top dbase : Uri) :
    List Str → List Str → OM σ (List Str)
  | [], dirs => pure dirs
  | folder :: rest, dirs =>
    if folder ∈ ignore then copyDirs depth c ignore followlinks top dbase rest (dirs.erase folder)
    else do
      let ddir ← lift (dbase.div folder)
      let srcp ← lift (top.div folder)
      if (← uIslink O srcp) && !followlinks then copyLink O c srcp ddir
      else uMakedirs O depth ddir
      copyDirs depth c ignore followlinks top dbase rest dirs

/-- fs.py:962-971 the loop over the files -/
def copyFiles (c : O.Conn) (followlinks : Bool) (top dbase : Uri) : List Str → OM σ Unit
  | [] => pure ()
  | fname :: rest => do
    let srcf ← lift (top.div fname)
    let destf ← lift (dbase.div fname)
    copyOne O c srcf destf followlinks
    copyFiles c followlinks top dbase rest

/-- fs.py:944-971 the loop body of the recursive copy -/
def copyBody (depth : Nat) (c : O.Conn) (ignore : List Str) (followlinks : Bool) (spthLen : Nat) (droot : Uri)
    (top : Uri) (dirs files : List Str) : OM σ (List Str) := do
  let tojoin := stripW (top.path.drop spthLen)
  let dbase ← if tojoin ≠ [] then lift (droot.div tojoin) else pure droot
  let dirs' ← copyDirs O depth c ignore followlinks top dbase dirs dirs
  copyFiles O c followlinks top dbase files
  pure dirs'

/-- fs.py:738-750 `source.walk(followlinks=followlinks)` consumed by the copy loop -/
def copyWalk (depth : Nat) (c : O.Conn) (ignore : List Str) (followlinks : Bool) (source droot : Uri) : OM σ Unit :=
  withConn O source .walk fun r =>
    walk O r true followlinks (fun (_ : Unit) top dirs files => do
      let dirs' ← copyBody O depth c ignore followlinks (source.path.length + 1) droot top dirs files
      pure ((), dirs')) depth source ()

/-- fs.py:903-971 `FileSystem.copy`.  No shipped backend has `internal_copy` (fs.py:905-906). -/
def copy (depth : Nat) (c : O.Conn) (source dest : Uri) (recursive : Bool) (ignore : List Str) (followlinks : Bool) :
    OM σ Unit := do
  if !(← uExists O source) then raise .fileDoesNotExist
  if !recursive then
    if !(← uIsfile O source) then raise .assertionError
    let dest ← if ← uIsdir O dest then lift (dest.div source.last) else pure dest
    copyOne O c source dest followlinks
  else
    if !(← uIsdir O source) then raise .assertionError
    let droot ← if ← uIsdir O dest then lift (dest.div source.last) else pure dest
    if (← uIslink O source) && !followlinks then copyLink O c source droot
    else
      uMakedirs O depth droot
      copyWalk O depth c ignore followlinks source droot

/-- fs.py:519-537 -/
def uCopy (depth : Nat) (u dest : Uri) (recursive : Bool := false) (ignore : List Str := [])
    (followlinks : Bool := true) : OM σ Unit :=
  withConn O u .copy fun c => copy O depth c u dest recursive ignore followlinks

/-- fs.py:986-995 `FileSystem.move` -/
def move (depth : Nat) (source dest : Uri) : OM σ Unit := do
  if ← uIsfile O source then
    uCopy O depth source dest
    uRemove O depth source
  else
    uCopy O depth source dest true
    uRemove O depth source true

/-- fs.py:556-566 -/
def uMove (depth : Nat) (u dest : Uri) : OM σ Unit :=
  withConn O u .move fun c =>
    match O.moveSelf c u dest with
    | some m => m
    | none => move O depth u dest

/-- fs.py:788-801 `md5`: the sequence of `hash_.update` arguments -/
def uMd5 (u : Uri) : OM σ (List Bytes) :=
  withConn O u .md5 fun _ => do
    let h ← uOpenR O u
    O.blocks h

end Verif.Any
