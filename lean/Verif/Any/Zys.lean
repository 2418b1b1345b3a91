import Verif.Any.Sys
import Verif.Zip.Model
import Verif.Reg.Model
/-!
# All three backends in one state

The archives are those of Verif/Zip/Model.lean: what is at `URI(self.vpath_connector)` is a `Container`, which is not one of
the files of the other backends here.  Connections with the same connector text share it; different texts stand for
different files.
-/
namespace Verif.Any
open Mem (Meth)

/-- the state of all backends: `file` is what is at `URI(connector)`, `handle` is `_ziphandle` of the connection with that
    key (zip.py:105-107); `none` also before the connection exists -/
structure Zys where
  sys : Sys
  file : Str → Zip.Container
  handle : Reg.Key → Option Zip.ZHandle

/-- a computation in the other two backends -/
def onSys {α : Type} (m : OM Sys α) : OM Zys α := fun z => ((m z.sys).1, { z with sys := (m z.sys).2 })

/-- what a zip connection has -/
def Zys.st (z : Zys) (k : Reg.Key) : Zip.St := ⟨z.file k.base.vpathConnector, z.handle k⟩

/-- the state after a call of a zip connection -/
def Zys.putSt (z : Zys) (k : Reg.Key) (s : Zip.St) : Zys :=
  { z with file := fun c => if c = k.base.vpathConnector then s.file else z.file c,
           handle := fun k' => if k' = k then s.handle else z.handle k' }

/-- a call of a zip connection -/
def onZip {α : Type} (k : Reg.Key) (m : Zip.ZM α) : OM Zys α := fun z => ((m (z.st k)).1, z.putSt k (m (z.st k)).2)

/-- a connection -/
inductive ZConn
  | sys (c : Conn)
  | zip (k : Reg.Key)

/-- a file object: of the other backends; what `ZipFile.open` returns, with what is left to be read; a `WriteStatement`
    (zip.py:13-17) -/
inductive ZHd
  | sys (h : Hd)
  | zipR (k : Reg.Key) (data : Bytes)
  | zipW (k : Reg.Key) (path : Str)

/-- fs.py:300-301 and 82-131 -/
def zysConn (u : Uri) : OM Zys ZConn :=
  if u.allExtras.any (fun kv => kv.1 ∈ Mem.reservedNames) then OM.raise .typeError
  else if u.scheme = some cl!"zip" then pure (.zip (Reg.keyOf u))
  else do
    let c ← onSys (sysConn u)
    pure (.sys c)

/-- `data` in blocks of `n` bytes, as `read(n)` of an open member gives it; at most `m` of them -/
def blocksOf (n : Nat) : Nat → Bytes → List Bytes
  | 0, _ => []
  | m + 1, data => if data = [] then [] else data.take n :: blocksOf n m (data.drop n)

/-- `shutil.copyfileobj(infs, outfs, 8192)` from a member to a file -/
def writeBlocks (outf : Hd) : List Bytes → OM Zys Unit
  | [] => pure ()
  | b :: bs => do
    onSys (hWrite outf (.bytes b))
    writeBlocks outf bs

/-- `shutil.copyfileobj(infs, outfs, 8192)` from a file to the buffer of a `WriteStatement`, at most `n` rounds: what was
    written, and whether an exception ended it -/
def readBlocks (inf : Hd) : Nat → Bytes → Zys → (Bytes × Option PyErr) × Zys
  | 0, buf, z => ((buf, some .hang), z)
  | n + 1, buf, z =>
    match onSys (hRead 8192 inf) z with
    | (.error e, z') => ((buf, some e), z')
    | (.ok (.str _), z') => ((buf, some .typeError), z')
    | (.ok (.bytes b), z') => if b = [] then ((buf, none), z') else readBlocks inf n (buf ++ b) z'

/-- zip.py:24-29: leaving the `with` statement, whether there was an exception or not -/
def leave (k : Reg.Key) (p : Str) (r : Bytes × Option PyErr) : OM Zys Unit := do
  onZip k (Zip.exitWriting p r.1)
  match r.2 with
  | some e => OM.raise e
  | none => pure ()

/-- fs.py:926-927, 968-969 `shutil.copyfileobj(infs, outfs, 8192)` and leaving the `with` statement.  Outside of the model:
    copying inside one archive, which is closed and opened again while it is read. -/
def zysPump : ZHd → ZHd → OM Zys Unit
  | .sys inf, .sys outf => onSys (pump inf outf)
  | .zipR _ data, .sys outf => writeBlocks outf (blocksOf 8192 data.length data)
  | .sys inf, .zipW k p => do
    let n ← onSys (hSize inf)
    fun z =>
      let (r, z') := readBlocks inf (n + 1) [] z
      leave k p r z'
  | .zipR k' data, .zipW k p =>
    if k'.base.vpathConnector = k.base.vpathConnector then OM.raise .outside
    else leave k p (data, none)
  | .zipW _ _, _ => OM.raise .outside
  | _, .zipR _ _ => OM.raise .outside

/-- All backends: `sysOps`, and zip.py:97-216 with the defaults of fs.py:1029-1098 -/
def zysOps : Ops Zys where
  Conn := ZConn
  Hd := ZHd
  conn := zysConn
  hook c u m := match c with
    | .sys c => onSys (sysOps.hook c u m)
    | .zip _ => pure ()
  exists_ c u := match c with
    | .sys c => onSys (sysOps.exists_ c u)
    | .zip k => onZip k (Zip.exists_ u.path)
  isfile c u := match c with
    | .sys c => onSys (sysOps.isfile c u)
    | .zip k => onZip k (Zip.isfile u.path)
  isdir c u := match c with
    | .sys c => onSys (sysOps.isdir c u)
    | .zip k => onZip k (Zip.isdir u.path)
  islink c u := match c with
    | .sys c => onSys (sysOps.islink c u)
    | .zip _ => pure false
  readlink c u := match c with
    | .sys c => onSys (sysOps.readlink c u)
    | .zip _ => OM.raise .unsupported
  symlink c t u := match c with
    | .sys c => onSys (sysOps.symlink c t u)
    | .zip _ => OM.raise .unsupported
  listdir c u := match c with
    | .sys c => onSys (sysOps.listdir c u)
    | .zip k => onZip k (Zip.listdir u.path)
  mkdir c u := match c with
    | .sys c => onSys (sysOps.mkdir c u)
    | .zip _ => OM.raise .notImplemented
  removefile c u := match c with
    | .sys c => onSys (sysOps.removefile c u)
    | .zip _ => OM.raise .notImplemented
  removedir c u := match c with
    | .sys c => onSys (sysOps.removedir c u)
    | .zip _ => OM.raise .notImplemented
  copystat c u v := match c with
    | .sys c => onSys (sysOps.copystat c u v)
    | .zip _ => OM.raise .notImplemented
  openR c u := match c with
    | .sys c => do
      let h ← onSys (sysOps.openR c u)
      pure (.sys h)
    | .zip k => do
      match ← onZip k (Zip.open_ u.path (some cl!"rb")) with
      | .file d => pure (.zipR k d)
      | .statement => pure (.zipW k u.path)
  openW c u := match c with
    | .sys c => do
      let h ← onSys (sysOps.openW c u)
      pure (.sys h)
    | .zip k => do
      match ← onZip k (Zip.open_ u.path (some cl!"wb")) with
      | .file d => pure (.zipR k d)
      | .statement => pure (.zipW k u.path)
  pump := zysPump
  blocks h := match h with
    | .sys h => onSys (blocks h)
    | .zipR _ d => pure (blocksOf 4096 d.length d)
    | .zipW _ _ => OM.raise .outside
  moveSelf c u v := match c with
    | .sys c => (sysOps.moveSelf c u v).map onSys
    | .zip _ => none

end Verif.Any
