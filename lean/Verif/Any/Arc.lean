import Verif.Any.Files
import Verif.Any.ZipUri
import Verif.Any.PartSys
/-!
# Archives that are files of the other backends

In Verif/Any/Zys.lean what is at `URI(self.vpath_connector)` is a `Container` of its own.  Here it is a file of a memory file
system or a local file, opened, read and written through the file objects of Verif/Any/Files.lean.  The functions are those
of Verif/Zip/Model.lean with the file in place of the `Container`.
-/
namespace Verif.Any
open Verif.Spec

/-- What is assumed of `zipfile.ZipFile` (not part of the repository): `unpack b` are the entries it reads from a file with
    the bytes `b`, `none` if it raises BadZipFile; `store b es` are the bytes of the file after `close()`, where `b` were those
    at the beginning and `es` are the entries, old and new.  Names longer than the format allows are not considered. -/
structure Codec where
  unpack : Bytes → Option (List Zip.Entry)
  store : Bytes → List Zip.Entry → Bytes
  back : ∀ b es, unpack (store b es) = some es
  nothing : unpack [] = none

/-- a `ZipFile`, the bytes of the file when it was made, and `self._file_handle` (zip.py:105-107) -/
structure AHandle where
  z : Zip.ZHandle
  base : Bytes
  file : FObj

/-- what a method of a zip connection does: the state of the other backends, and `self._ziphandle` -/
abbrev AM (α : Type) := OM (Sys × Option AHandle) α

/-- a computation in the other backends -/
def aSys {α : Type} (m : OM Sys α) : AM α := fun s => ((m s.1).1, (m s.1).2, s.2)

/-- `self._ziphandle`, `self._file_handle` -/
def aGet : AM (Option AHandle) := fun s => (.ok s.2, s)

/-- `self._file_handle = …`, `self._ziphandle = …` (zip.py:130-131) -/
def aSet (h : AHandle) : AM Unit := fun s => (.ok (), s.1, some h)

/-- what `ZipFile.close()` does to its file object: the bytes are replaced (`seek`, `write`, `truncate`).  What `writestr`
    writes before is taken together with it. -/
def FObj.put (f : FObj) (b : Bytes) : OM Sys Unit := do
  let _ ← f.op (.seek 0 0)
  let _ ← f.op (.write b)
  let _ ← f.op (.truncate none)
  f.close

variable (C : Codec)

/-- zip.py:110-114 `close_zip`.  A file object that was read is closed already (`aStart`). -/
def aClose : AM Unit := do
  match ← aGet with
  | none => pure ()
  | some h =>
    if h.z.closed then pure ()
    else do
      if h.z.dirty then aSys (h.file.put (C.store h.base h.z.entries))
      aSet { h with z := { h.z with dirty := false, closed := true } }

/-- zip.py:130-131: the file `a` is opened and a `ZipFile` made.  In mode 'r' all is read and the file object closed at once:
    what is read from it later is a member, which is read to its end before the backend is used again (but see `arcPump`). -/
def aStart (a : Uri) (m : OMode) (zm : Zip.ZMode) : AM Unit := do
  let hd ← aSys (sOpen m a)
  if zm = .w then aSet ⟨⟨.w, [], true, false⟩, [], ⟨hd, m, false⟩⟩
  else
    match ← aSys (FObj.op ⟨hd, m, false⟩ (.read (-1))) with
    | .bytes b =>
      if zm = .r then do
        aSys (FObj.close ⟨hd, m, false⟩)
        match C.unpack b with
        | some es => aSet ⟨⟨.r, es, false, false⟩, b, ⟨hd, m, true⟩⟩
        | none => OM.raise .badZip
      else
        match C.unpack b with
        | some es => aSet ⟨⟨.a, es, false, false⟩, b, ⟨hd, m, false⟩⟩
        | none => aSet ⟨⟨.a, [], true, false⟩, b, ⟨hd, m, false⟩⟩
    | _ => OM.raise .typeError

/-- zip.py:117-131 `open_zip`; outside of the model: modes with neither 'r' nor 'w' (C63_append_refused) -/
def aOpenZip (a : Uri) (options : Option Str) : AM Unit := do
  aClose C
  if options.all fun o => o.contains 'r' then aStart C a .r .r
  else if options.any fun o => o.contains 'w' then do
    if ← aSys (uIsfile sysOps a) then aStart C a .rw .a
    else aStart C a .w .w
  else OM.raise .outside

/-- zip.py:134-155 `open`, `_open_for_reading`, `_open_for_writing` -/
def aOpen (a : Uri) (p : Str) (options : Option Str) : AM Zip.Opened := do
  aOpenZip C a options
  if (options.getD cl!"r").contains 'r' then
    match ← aGet with
    | none => OM.raise .attributeError
    | some h =>
      match Zip.getinfo h.z.entries p with
      | some e => pure (.file e.data)
      | none => OM.raise .fileDoesNotExist
  else pure .statement

/-- zip.py:24-29 `WriteStatement.__exit__` -/
def aExit (a : Uri) (p : Str) (data : Bytes) : AM Unit := do
  match ← aGet with
  | none => OM.raise .attributeError
  | some h =>
    if h.z.closed then OM.raise .valueError
    else if h.z.mode = .r then OM.raise .valueError
    else if Zip.zipName p = [] then OM.raise .outside
    else do
      aSet { h with z := { h.z with entries := h.z.entries ++ [⟨Zip.zipName p, data⟩], dirty := true } }
      aClose C
      aOpenZip C a none

/-- zip.py:203-211 `_ispart` -/
def aIspart (p : Str) (expected : List Zip.Cmp) : AM Bool := do
  if p = ['/'] then pure true
  else
    match ← aGet with
    | none => OM.raise .attributeError
    | some h => pure (h.z.entries.any fun e => Zip.comparePathStrings p e.name ∈ expected)

/-- zip.py:182-200 `listdir`; `self._ziphandle is None` in line 188 does not happen -/
def aListdir (a : Uri) (p : Str) : AM (List Str) := do
  if !(← aSys (uExists sysOps a)) then pure []
  else do
    if (← aGet).isNone then aOpenZip C a none
    if !(← aIspart p [.isdir]) then OM.raise .fileDoesNotExist
    else
      match ← aGet with
      | none => OM.raise .attributeError
      | some h => pure (sortStr ((h.z.entries.map fun e => Zip.contentItem p e.name).filter fun c => c ≠ []).dedup)

/-! ## All three backends -/

/-- the state of all backends: what the zip connections have, by their keys -/
structure Arc where
  sys : Sys
  handle : Reg.Key → Option AHandle

/-- a computation in the other backends -/
def arcSys {α : Type} (m : OM Sys α) : OM Arc α := fun s => ((m s.sys).1, { s with sys := (m s.sys).2 })

/-- a call of a zip connection; zip.py:101-102 `_zip_file_path` gives the URI of the archive.  Outside of the model: an archive
    in an archive. -/
def onArc {α : Type} (k : Reg.Key) (m : Uri → AM α) : OM Arc α := fun s =>
  match URI k.base.vpathConnector with
  | .error e => (.error e, s)
  | .ok a =>
    if a.scheme = some cl!"zip" then (.error .outside, s)
    else
      let r := m a (s.sys, s.handle k)
      (r.1, ⟨r.2.1, fun k' => if k' = k then r.2.2 else s.handle k'⟩)

/-- fs.py:300-301 and 82-131 -/
def arcConn (u : Uri) : OM Arc ZConn :=
  if u.allExtras.any (fun kv => kv.1 ∈ Mem.reservedNames) then OM.raise .typeError
  else if u.scheme = some cl!"zip" then pure (.zip (Reg.keyOf u))
  else do
    let c ← arcSys (sysConn u)
    pure (.sys c)

/-- `shutil.copyfileobj(infs, outfs, 8192)` from a member to a file -/
def arcWriteBlocks (outf : Hd) : List Bytes → OM Arc Unit
  | [] => pure ()
  | b :: bs => do
    arcSys (hWrite outf (.bytes b))
    arcWriteBlocks outf bs

/-- `shutil.copyfileobj(infs, outfs, 8192)` from a file to the buffer of a `WriteStatement`, at most `n` rounds: what was
    written, and whether an exception ended it -/
def arcReadBlocks (inf : Hd) : Nat → Bytes → Arc → (Bytes × Option PyErr) × Arc
  | 0, buf, s => ((buf, some .hang), s)
  | n + 1, buf, s =>
    match arcSys (hRead 8192 inf) s with
    | (.error e, s') => ((buf, some e), s')
    | (.ok (.str _), s') => ((buf, some .typeError), s')
    | (.ok (.bytes b), s') => if b = [] then ((buf, none), s') else arcReadBlocks inf n (buf ++ b) s'

/-- zip.py:24-29: leaving the `with` statement, whether there was an exception or not -/
def arcLeave (k : Reg.Key) (p : Str) (r : Bytes × Option PyErr) : OM Arc Unit := do
  onArc k fun a => aExit C a p r.1
  match r.2 with
  | some e => OM.raise e
  | none => pure ()

/-- the file object of the archive is a local file -/
def AHandle.local (h : AHandle) : Bool :=
  match h.file.hd with
  | .loc _ => true
  | .mem _ => false

/-- fs.py:926-927, 968-969 `shutil.copyfileobj(infs, outfs, 8192)` and leaving the `with` statement.  If both members are of
    one connection, opening the second has closed the file object that the first is read from (zip.py:113-114, 118): reading
    raises ValueError if that was a local file (localfs.py:78-82); a memory file can still be read (memory.py:104-106).  Outside
    of the model: an empty member of a local archive, copied inside of it (whether something is read depends on how it is
    compressed). -/
def arcPump : ZHd → ZHd → OM Arc Unit
  | .sys inf, .sys outf => arcSys (pump inf outf)
  | .zipR _ data, .sys outf => arcWriteBlocks outf (blocksOf 8192 data.length data)
  | .sys inf, .zipW k p => do
    let n ← arcSys (hSize inf)
    fun s =>
      let (r, s') := arcReadBlocks inf (n + 1) [] s
      arcLeave C k p r s'
  | .zipR k data, .zipW k' p => fun s =>
    if k = k' ∧ (s.handle k).any (·.local) then
      if data = [] then (.error .outside, s) else arcLeave C k' p ([], some .valueError) s
    else arcLeave C k' p (data, none) s
  | .zipW _ _, _ => OM.raise .outside
  | _, .zipR _ _ => OM.raise .outside

/-- All backends: `sysOps`, and zip.py:97-216 with the defaults of fs.py:1029-1098 -/
def arcOps : Ops Arc where
  Conn := ZConn
  Hd := ZHd
  conn := arcConn
  hook c u m := match c with
    | .sys c => arcSys (sysOps.hook c u m)
    | .zip _ => pure ()
  exists_ c u := match c with
    | .sys c => arcSys (sysOps.exists_ c u)
    | .zip k => onArc k fun _ => aIspart u.path [.isdir, .isfile]
  isfile c u := match c with
    | .sys c => arcSys (sysOps.isfile c u)
    | .zip k => onArc k fun _ => aIspart u.path [.isfile]
  isdir c u := match c with
    | .sys c => arcSys (sysOps.isdir c u)
    | .zip k => onArc k fun _ => aIspart u.path [.isdir]
  islink c u := match c with
    | .sys c => arcSys (sysOps.islink c u)
    | .zip _ => pure false
  readlink c u := match c with
    | .sys c => arcSys (sysOps.readlink c u)
    | .zip _ => OM.raise .unsupported
  symlink c t u := match c with
    | .sys c => arcSys (sysOps.symlink c t u)
    | .zip _ => OM.raise .unsupported
  listdir c u := match c with
    | .sys c => arcSys (sysOps.listdir c u)
    | .zip k => onArc k fun a => aListdir C a u.path
  mkdir c u := match c with
    | .sys c => arcSys (sysOps.mkdir c u)
    | .zip _ => OM.raise .notImplemented
  removefile c u := match c with
    | .sys c => arcSys (sysOps.removefile c u)
    | .zip _ => OM.raise .notImplemented
  removedir c u := match c with
    | .sys c => arcSys (sysOps.removedir c u)
    | .zip _ => OM.raise .notImplemented
  copystat c u v := match c with
    | .sys c => arcSys (sysOps.copystat c u v)
    | .zip _ => OM.raise .notImplemented
  openR c u := match c with
    | .sys c => do
      let h ← arcSys (sysOps.openR c u)
      pure (.sys h)
    | .zip k => do
      match ← onArc k fun a => aOpen C a u.path (some cl!"rb") with
      | .file d => pure (.zipR k d)
      | .statement => pure (.zipW k u.path)
  openW c u := match c with
    | .sys c => do
      let h ← arcSys (sysOps.openW c u)
      pure (.sys h)
    | .zip k => do
      match ← onArc k fun a => aOpen C a u.path (some cl!"wb") with
      | .file d => pure (.zipR k d)
      | .statement => pure (.zipW k u.path)
  pump := arcPump C
  blocks h := match h with
    | .sys h => arcSys (blocks h)
    | .zipR _ d => pure (blocksOf 4096 d.length d)
    | .zipW _ _ => OM.raise .outside
  moveSelf c u v := match c with
    | .sys c => (sysOps.moveSelf c u v).map arcSys
    | .zip _ => none

/-- `with u.open('rb') as f: return f.read()` -/
def mRead (u : Uri) : OM Arc Bytes := do
  match ← uOpenR (arcOps C) u with
  | .zipR _ d => pure d
  | .sys h => arcSys do
    let n ← hSize h
    match ← hRead n h with
    | .bytes b => pure b
    | .str _ => OM.raise .typeError
  | .zipW _ _ => OM.raise .outside

/-- `with u.open('wb') as f: for b in chunks: f.write(b)` (for members: zip.py:19-29) -/
def mWrite (u : Uri) (chunks : List Bytes) : OM Arc Unit := do
  match ← uOpenW (arcOps C) u with
  | .zipW k p => onArc k fun a => aExit C a p chunks.flatten
  | .sys h => arcSys (sWrites h chunks)
  | .zipR _ _ => OM.raise .outside

/-! ## Programs -/

/-- a call on a member of an archive, which is given by its names -/
inductive ZAct
  | exists_ (m : List Str)
  | isfile (m : List Str)
  | isdir (m : List Str)
  | listdir (m : List Str)
  | read (m : List Str)
  | write (m : List Str) (b : Bytes)
  deriving DecidableEq

/-- the member the call is about -/
def ZAct.about : ZAct → List Str
  | .exists_ m | .isfile m | .isdir m | .listdir m | .read m | .write m _ => m

/-- a call on a member of the archive whose URI has the text `X` -/
def ZAct.run (X : Str) : ZAct → OM Arc Ans
  | .exists_ m => do pure (.bool (← uExists (arcOps C) (zat X m)))
  | .isfile m => do pure (.bool (← uIsfile (arcOps C) (zat X m)))
  | .isdir m => do pure (.bool (← uIsdir (arcOps C) (zat X m)))
  | .listdir m => do pure (.names (← uListdir (arcOps C) (zat X m)))
  | .read m => do pure (.bytes (← mRead C (zat X m)))
  | .write m b => do
    mWrite C (zat X m) [b]
    pure .unit

/-- what a program does: a call on files and directories (Verif/Any/Many.lean), or on a member of the archive `z` -/
inductive ArcAct (κ ζ : Type)
  | call (a : Acts κ)
  | zip (z : ζ) (a : ZAct)

/-- a call of a program; `X z` is the text of the URI of the archive `z` -/
def ArcAct.run {ι κ ζ : Type} (E : ι → Dict) (site : κ → Option ι) (X : ζ → Str) (depth : Nat) : ArcAct κ ζ → OM Arc Ans
  | .call a => a.over (arcOps C) (mRead C) (mWrite C) E site depth
  | .zip z a => a.run C (X z)

/-- a program decides on the next call by what the calls before it answered -/
def ArcPrg (κ ζ : Type) := List (Except PyErr Ans) → Option (ArcAct κ ζ)

/-- the answers of the first `n` calls of a program, and the state after them -/
def ArcPrg.exec {σ κ ζ : Type} (step : ArcAct κ ζ → OM σ Ans) (pr : ArcPrg κ ζ) : Nat → σ → List (Except PyErr Ans) × σ
  | 0, s => ([], s)
  | n + 1, s =>
    let x := pr.exec step n s
    match pr x.1 with
    | none => x
    | some a => (x.1 ++ [(step a x.2).1], (step a x.2).2)

/-! ## What is expected

Nothing here is code of the repository. -/

/-- the bytes of the member `m`: those of the entry that was added last -/
def member (es : List Zip.Entry) (m : List Str) : Option Bytes := (es.filter fun e => e.name = pathOf m).getLast?.map (·.data)

/-- `m` is a directory: the root, or a member is below it -/
def hasDir (es : List Zip.Entry) (m : List Str) : Prop := m = [] ∨ ∃ e ∈ es, pathOf m ++ cl!"/" <+: e.name

instance (es : List Zip.Entry) (m : List Str) : Decidable (hasDir es m) := by unfold hasDir; infer_instance

/-- the names in the directory `m`: what follows it in the names of members, up to the next slash -/
def namesIn (es : List Zip.Entry) (m : List Str) : List Str :=
  sortStr ((es.filterMap fun e =>
    if slash m ++ cl!"/" <+: e.name then some ((e.name.drop ((slash m).length + 1)).takeWhile (· ≠ '/')) else none).filter (· ≠ [])).dedup

/-- what is found in the archive at `p` when it is opened -/
def found (t : Tree) (p : List Str) : Except PyErr (List Zip.Entry) :=
  match t.get p with
  | none => .error (.os .ENOENT)
  | some (.file d) =>
    match C.unpack d with
    | some es => .ok es
    | none => .error .badZip
  | _ => .error .outside

/-- What a call on a member of the archive at `p` in the tree `t` answers, and the tree after it.  `seen` is what was found
    when the archive was opened last, `none` if it has not been opened: by it questions are answered. -/
def ZAct.tells (p : List Str) : ZAct → Tree × Option (List Zip.Entry) → Except PyErr Ans × Tree × Option (List Zip.Entry)
  | .read m => fun (t, seen) =>
    match found C t p with
    | .error e => (.error e, t, seen)
    | .ok es =>
      match member es m with
      | some b => (.ok (.bytes b), t, some es)
      | none => (.error .fileDoesNotExist, t, some es)
  | .write m b => fun (t, seen) =>
    let add (d : Bytes) (es : List Zip.Entry) : Except PyErr Ans × Tree × Option (List Zip.Entry) :=
      (.ok .unit, t.set p (.file (C.store d (es ++ [⟨pathOf m, b⟩]))), some (es ++ [⟨pathOf m, b⟩]))
    if m = [] ∨ '\x00' ∈ pathOf m then (.error .outside, t, seen)
    else
      match t.get p with
      | some (.file d) => add d ((C.unpack d).getD [])
      | none => if t.get p.dropLast = some .dir then add [] [] else (.error (.os .ENOENT), t, seen)
      | some .dir => (.error (.os .EISDIR), t, seen)
      | some .other => (.error .outside, t, seen)
  | .isfile m => fun (t, seen) =>
    match seen with
    | some es => (.ok (.bool (m = [] ∨ (member es m).isSome)), t, seen)
    | none => (if m = [] then .ok (.bool true) else .error .attributeError, t, seen)
  | .isdir m => fun (t, seen) =>
    match seen with
    | some es => (.ok (.bool (hasDir es m)), t, seen)
    | none => (if m = [] then .ok (.bool true) else .error .attributeError, t, seen)
  | .exists_ m => fun (t, seen) =>
    match seen with
    | some es => (.ok (.bool ((member es m).isSome ∨ hasDir es m)), t, seen)
    | none => (if m = [] then .ok (.bool true) else .error .attributeError, t, seen)
  | .listdir m => fun (t, seen) =>
    if t.get p = none then (.ok (.names []), t, seen)
    else
      match (match seen with
        | some es => Except.ok es
        | none => found C t p) with
      | .error e => (.error e, t, seen)
      | .ok es =>
        if ¬ hasDir es m then (.error .fileDoesNotExist, t, some es)
        else if m = [] ∧ ∃ e ∈ es, e.name.head? ≠ some '/' then (.error .outside, t, some es)
        else (.ok (.names (namesIn es m)), t, some es)

section
variable {κ ζ : Type} [DecidableEq κ] [DecidableEq ζ]

/-- what a call of a program answers and leaves; the archive `z` is at the place `(arc z).1`, path `(arc z).2` -/
def ArcAct.says (may : κ → κ → Bool) (arc : ζ → κ × List Str) (depth : Nat) :
    ArcAct κ ζ → OM ((κ → Tree) × (ζ → Option (List Zip.Entry))) Ans
  | .call a => fun (T, M) => ((a.says may depth T).1, (a.says may depth T).2, M)
  | .zip z a => fun (T, M) =>
    if (arc z).2 = [] ∨ ¬ Fit (arc z).2 ∨ ¬ (T (arc z).1).Way (arc z).2 ∨ ¬ Nm a.about then (.error .outside, T, M)
    else
      let r := a.tells C (arc z).2 (T (arc z).1, M z)
      (r.1, setAt T (arc z).1 r.2.1, fun y => if y = z then r.2.2 else M y)

end
end Verif.Any
