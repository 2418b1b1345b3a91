import Verif.Conc.Fs
import Verif.Gen.Tree
/-!
# The operations of fs.py on whole trees, one method call at a time

The functions of `Verif/Gen/Tree` again, as trees of method calls, for many threads: `Op.prog` says which atomic accesses
they make, `Op.seq` what they do without interruption.
-/
namespace Verif.Conc
open Mem Mem.M Prog

/-! ## Copying and hashing the contents of a file -/

/-- `shutil.copyfileobj(infs, outfs, 8192)` (fs.py:927, 969), at most `n` rounds -/
def cPump (inf outf : Handle) : Nat → Prog Unit
  | 0 => raise .hang
  | n + 1 => do
    let b ← cRead inf 8192
    if Gen.isEmptyData b then pure ()
    else
      cWrite outf b
      cPump inf outf n

/-- fs.py:926-927, 968-969: opening both files and copying.  As in the sequential model there are at most as many rounds as the
    source has bytes after both are open, and one more; a source that grows meanwhile may need more, which is not modelled. -/
def cContent (source dest : Uri) : Prog Unit := do
  let inf ← cConn source .open_ fun r => cOpen r source (some cl!"rb")
  let outf ← cConn dest .open_ fun r => cOpen r dest (some cl!"wb")
  let n ← cSize inf
  cPump inf outf (n + 1)

/-- fs.py:795-799 the loop feeding the hash, at most `n` rounds -/
def cBlocks (h : Handle) : Nat → Prog (List Bytes)
  | 0 => raise .hang
  | n + 1 => do
    match ← cRead h 4096 with
    | .bytes b =>
      if b = [] then pure []
      else
        let r ← cBlocks h n
        pure (b :: r)
    | .str _ => raise .typeError

/-- fs.py:788-801 `md5`: the blocks fed to the hash; the number of rounds as in `cContent` -/
def cMd5 (u : Uri) : Prog (List Bytes) :=
  cConn u .md5 fun _ => do
    let h ← cConn u .open_ fun r => cOpen r u (some cl!"rb")
    let n ← cSize h
    cBlocks h (n + 1)

/-! ## Method calls -/

/-- what the operations ask for: the connection of a URI (fs.py:219-230), methods of a connection, and the two above; the
    parameter is the type of the answer -/
inductive Prim : Type → Type
  | conn (u : Uri) (m : Meth) : Prim Nat
  | exists_ (r : Nat) (u : Uri) : Prim Bool
  | isfile (r : Nat) (u : Uri) : Prim Bool
  | isdir (r : Nat) (u : Uri) : Prim Bool
  | islink (r : Nat) (u : Uri) : Prim Bool
  | readlink (r : Nat) (u : Uri) : Prim Uri
  | listdir (r : Nat) (u : Uri) : Prim (List Str)
  | mkdir (r : Nat) (u : Uri) : Prim Unit
  | symlink (r : Nat) (t u : Uri) : Prim Unit
  | removefile (r : Nat) (u : Uri) : Prim Unit
  | removedir (r : Nat) (u : Uri) : Prim Unit
  | copystat (r : Nat) (u v : Uri) : Prim Unit
  | content (u v : Uri) : Prim Unit
  | md5 (u : Uri) : Prim (List Bytes)

/-- the accesses of a method call (fs.py:219-230, 788-801, 926-927, memory.py:384-629) -/
def Prim.prog : {β : Type} → Prim β → Prog β
  | _, .conn u m => cConn u m fun r => pure r
  | _, .exists_ r u => cExists r u
  | _, .isfile r u => cIsfile r u
  | _, .isdir r u => cIsdir r u
  | _, .islink r u => cIslink r u
  | _, .readlink r u => cReadlink r u
  | _, .listdir r u => cListdir r u
  | _, .mkdir r u => cMkdir r u
  | _, .symlink r t u => cSymlink r t u
  | _, .removefile r u => cRemovefile r u
  | _, .removedir r u => cRemovedir r u
  | _, .copystat r u v => cCopystat r u v
  | _, .content u v => cContent u v
  | _, .md5 u => cMd5 u

/-- a method call without interruption (fs.py:219-230, 788-801, 926-927, memory.py:384-629) -/
def Prim.seq : {β : Type} → Prim β → M β
  | _, .conn u m => withConn u m fun r => pure r
  | _, .exists_ r u => query fun w => Mem.exists_ w r u
  | _, .isfile r u => query fun w => Mem.isfile w r u
  | _, .isdir r u => query fun w => Mem.isdir w r u
  | _, .islink r u => query fun w => Mem.islink w r u
  | _, .readlink r u => query fun w => Mem.readlink w r u
  | _, .listdir r u => query fun w => Mem.listdir w r u
  | _, .mkdir r u => Mem.mkdir r u
  | _, .symlink r t u => Mem.symlink r t u
  | _, .removefile r u => Mem.removefile r u
  | _, .removedir r u => Mem.removedir r u
  | _, .copystat r u v => Mem.copystat r u v
  | _, .content u v => Gen.copyContent u v
  | _, .md5 u => Gen.uMd5 u

/-- an operation: finished, or a method call followed by what depends on its outcome -/
inductive Op (α : Type) : Type 1
  | ret (r : Except PyErr α)
  | ask {β : Type} (p : Prim β) (k : Except PyErr β → Op α)

namespace Op

/-- sequencing: an exception stops the rest -/
def next {α β : Type} (f : α → Op β) : Op α → Op β
  | .ret (.ok a) => f a
  | .ret (.error e) => .ret (.error e)
  | .ask p k => .ask p fun x => next f (k x)

instance : Monad Op where
  pure a := .ret (.ok a)
  bind m f := next f m

/-- one method call -/
def get {β : Type} (p : Prim β) : Op β := .ask p .ret

/-- `raise e` -/
def raise {α : Type} (e : PyErr) : Op α := .ret (.error e)

/-- something that makes no method call -/
def lift {α : Type} (x : Except PyErr α) : Op α := .ret x

/-- the accesses of an operation -/
def prog {α : Type} : Op α → Prog α
  | .ret r => .ret r
  | .ask p k => p.prog.after fun x => (k x).prog

/-- an operation without interruption -/
def seq {α : Type} : Op α → M α
  | .ret r => fun w => (r, w)
  | .ask p k => fun w => (k (p.seq w).1).seq (p.seq w).2

end Op

/-! ## Operations -/

open Op in
/-- fs.py:219-230 `with_connection` -/
def oConn {α : Type} (u : Uri) (m : Meth) (body : Nat → Op α) : Op α := do
  let r ← get (.conn u m)
  body r

/-- fs.py:619-627 -/
def oExists (u : Uri) : Op Bool := oConn u .exists_ fun r => .get (.exists_ r u)
/-- fs.py:630-638 -/
def oIsfile (u : Uri) : Op Bool := oConn u .isfile fun r => .get (.isfile r u)
/-- fs.py:641-649 -/
def oIsdir (u : Uri) : Op Bool := oConn u .isdir fun r => .get (.isdir r u)
/-- fs.py:683-694 -/
def oIslink (u : Uri) : Op Bool := oConn u .islink fun r => .get (.islink r u)
/-- fs.py:753-759 -/
def oListdir (u : Uri) : Op (List Str) := oConn u .listdir fun r => .get (.listdir r u)
/-- fs.py:610-616 -/
def oMkdir (u : Uri) : Op Unit := oConn u .mkdir fun r => .get (.mkdir r u)

/-- fs.py:974-983 `FileSystem.makedirs` -/
def oMakedirs_ : Nat → Uri → Op Unit
  | 0, _ => .raise .recursionError
  | depth + 1, path => do
    if ← oIsdir path then pure ()
    else
      let (pth, tail) ← Op.lift path.split
      if !(← oIsdir pth) then oMakedirs_ depth pth
      if tail ≠ [] then oMkdir path else pure ()

/-- fs.py:602-607 -/
def oMakedirs (depth : Nat) (u : Uri) : Op Unit := oConn u .makedirs fun _ => oMakedirs_ depth u

/-- fs.py:1003-1007 classification of the names -/
def oClassify (root : Nat) (top : Uri) : List Str → Op (List Str × List Str)
  | [] => pure ([], [])
  | name :: names => do
    let p ← Op.lift (top.div name)
    let d ← Op.get (.isdir root p)
    let (dirs, nondirs) ← oClassify root top names
    pure (if d then (name :: dirs, nondirs) else (dirs, name :: nondirs))

/-- fs.py:1011-1015 the loop over the sub-directories -/
def oWalkDirs {σ : Type} (followlinks : Bool) (visit : Uri → σ → Op σ) (top : Uri) : List Str → σ → Op σ
  | [], s => pure s
  | name :: names, s => do
    let path ← Op.lift (top.div name)
    let l ← oIslink path
    let s ← if !l || followlinks then visit path s else pure s
    oWalkDirs followlinks visit top names s

/-- fs.py:998-1017 `FileSystem.walk`, fused with its consumer as in `Gen.walk` -/
def oWalk_ {σ : Type} (root : Nat) (topdown followlinks : Bool)
    (body : σ → Uri → List Str → List Str → Op (σ × List Str)) : Nat → Uri → σ → Op σ
  | 0, _, _ => .raise .recursionError
  | depth + 1, top, s => do
    let names ← Op.get (.listdir root top)
    let (dirs, nondirs) ← oClassify root top (sortStr names)
    if topdown then
      let (s, dirs) ← body s top dirs nondirs
      oWalkDirs followlinks (oWalk_ root topdown followlinks body depth) top dirs s
    else
      let s ← oWalkDirs followlinks (oWalk_ root topdown followlinks body depth) top dirs s
      let (s, _) ← body s top dirs nondirs
      pure s

/-- fs.py:738-750 `list(u.walk(topdown, followlinks))` -/
def oWalk (depth : Nat) (u : Uri) (topdown followlinks : Bool) : Op (List (Uri × List Str × List Str)) :=
  oConn u .walk fun r =>
    oWalk_ r topdown followlinks (fun s top dirs files => pure (s ++ [(top, dirs, files)], dirs)) depth u []

/-- fs.py:1020-1026 and 783-785 `glob` -/
def oGlob (u : Uri) (match_ : Str → Bool) : Op (List Uri) :=
  oConn u .glob fun _ => do
    let l ← oListdir u
    (l.filter match_).mapM fun f => Op.lift (u.div f)

/-- fs.py:201-209 the loop body of `remove_dir_recursively` -/
def oRemoveBody (root : Nat) (top : Uri) (dirs files : List Str) : Op Unit := do
  files.forM fun f => do
    let p ← Op.lift (top.div f)
    Op.get (.removefile root p)
  dirs.forM fun d => do
    let p ← Op.lift (top.div d)
    if ← Op.get (.islink root p) then Op.get (.removefile root p) else Op.get (.removedir root p)

/-- fs.py:198-214 `remove_dir_recursively` -/
def oRemoveDirRec (depth : Nat) (root : Nat) (path : Uri) : Op Unit := do
  oWalk_ root false false (fun (_ : Unit) top dirs files => do
    oRemoveBody root top dirs files
    pure ((), dirs)) depth path ()
  if ← Op.get (.islink root path) then Op.get (.removefile root path) else Op.get (.removedir root path)

/-- fs.py:569-590 `remove` -/
def oRemove (depth : Nat) (u : Uri) (recursive : Bool) : Op Unit :=
  oConn u .remove fun r => do
    if ← Op.get (.islink r u) then Op.get (.removefile r u)
    else if !(← Op.get (.exists_ r u)) then .raise .fileDoesNotExist
    else if ← Op.get (.isdir r u) then
      if recursive then oRemoveDirRec depth r u else Op.get (.removedir r u)
    else if ← Op.get (.isfile r u) then Op.get (.removefile r u)
    else pure ()

/-- fs.py:896-900 `_copy_link` -/
def oCopyLink (root : Nat) (source dest : Uri) : Op Unit := do
  if !(← Op.get (.islink root source)) then .raise .assertionError
  if ← oIsfile dest then Op.get (.removefile root dest)
  let t ← Op.get (.readlink root source)
  Op.get (.symlink root t dest)

/-- fs.py:923-929, 965-971 copying one file or link -/
def oCopyOne (root : Nat) (source dest : Uri) (followlinks : Bool) : Op Unit := do
  if (← oIslink source) && !followlinks then oCopyLink root source dest
  else
    Op.get (.content source dest)
    if source.scheme = dest.scheme then Op.get (.copystat root source dest)

/-- fs.py:951-960 the loop over `dirs[:]`, which removes ignored names from `dirs` -/
def oCopyDirs (depth root : Nat) (ignore : List Str) (followlinks : Bool) (top dbase : Uri) :
    List Str → List Str → Op (List Str)
  | [], dirs => pure dirs
  | folder :: rest, dirs =>
    if folder ∈ ignore then oCopyDirs depth root ignore followlinks top dbase rest (dirs.erase folder)
    else do
      let ddir ← Op.lift (dbase.div folder)
      let srcp ← Op.lift (top.div folder)
      if (← oIslink srcp) && !followlinks then oCopyLink root srcp ddir
      else oMakedirs depth ddir
      oCopyDirs depth root ignore followlinks top dbase rest dirs

/-- fs.py:962-971 the loop over the files -/
def oCopyFiles (root : Nat) (followlinks : Bool) (top dbase : Uri) : List Str → Op Unit
  | [] => pure ()
  | fname :: rest => do
    let srcf ← Op.lift (top.div fname)
    let destf ← Op.lift (dbase.div fname)
    oCopyOne root srcf destf followlinks
    oCopyFiles root followlinks top dbase rest

/-- fs.py:944-971 the loop body of the recursive copy -/
def oCopyBody (depth root : Nat) (ignore : List Str) (followlinks : Bool) (spthLen : Nat) (droot : Uri)
    (top : Uri) (dirs files : List Str) : Op (List Str) := do
  let tojoin := stripW (top.path.drop spthLen)
  let dbase ← if tojoin ≠ [] then Op.lift (droot.div tojoin) else pure droot
  let dirs' ← oCopyDirs depth root ignore followlinks top dbase dirs dirs
  oCopyFiles root followlinks top dbase files
  pure dirs'

/-- fs.py:738-750 `source.walk(followlinks=followlinks)` consumed by the copy loop -/
def oCopyWalk (depth root : Nat) (ignore : List Str) (followlinks : Bool) (source droot : Uri) : Op Unit :=
  oConn source .walk fun r =>
    oWalk_ r true followlinks (fun (_ : Unit) top dirs files => do
      let dirs' ← oCopyBody depth root ignore followlinks (source.path.length + 1) droot top dirs files
      pure ((), dirs')) depth source ()

/-- fs.py:903-971 `FileSystem.copy` -/
def oCopy_ (depth root : Nat) (source dest : Uri) (recursive : Bool) (ignore : List Str) (followlinks : Bool) : Op Unit := do
  if !(← oExists source) then .raise .fileDoesNotExist
  if !recursive then
    if !(← oIsfile source) then .raise .assertionError
    let dest ← if ← oIsdir dest then Op.lift (dest.div source.last) else pure dest
    oCopyOne root source dest followlinks
  else
    if !(← oIsdir source) then .raise .assertionError
    let droot ← if ← oIsdir dest then Op.lift (dest.div source.last) else pure dest
    if (← oIslink source) && !followlinks then oCopyLink root source droot
    else
      oMakedirs depth droot
      oCopyWalk depth root ignore followlinks source droot

/-- fs.py:519-537 -/
def oCopy (depth : Nat) (u dest : Uri) (recursive : Bool) (ignore : List Str) (followlinks : Bool) : Op Unit :=
  oConn u .copy fun r => oCopy_ depth r u dest recursive ignore followlinks

/-- fs.py:986-995 `FileSystem.move` -/
def oMove_ (depth : Nat) (source dest : Uri) : Op Unit := do
  if ← oIsfile source then
    oCopy depth source dest false [] true
    oRemove depth source false
  else
    oCopy depth source dest true [] true
    oRemove depth source true

/-- fs.py:556-566 -/
def oMove (depth : Nat) (u dest : Uri) : Op Unit := oConn u .move fun _ => oMove_ depth u dest

/-- fs.py:788-801 -/
def oMd5 (u : Uri) : Op (List Bytes) := .get (.md5 u)

end Verif.Conc
