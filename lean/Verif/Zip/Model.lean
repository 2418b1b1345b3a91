import Verif.Py.Str
import Verif.Py.Sort
import Verif.Py.Err
import Verif.Mem.World
import Mathlib.Data.List.Dedup
/-!
# The zip backend (zip.py)

The functions take `path_string = self._path(unc)`, which is `unc.path` (fs.py:881-885).

Of `zipfile.ZipFile` (not part of the repository) the model assumes, for a file object it is given:
* mode 'r' reads the entries of an archive, and raises BadZipFile for anything else;
* mode 'a' does so too, but starts a new archive after anything else; mode 'w' starts a new archive;
* `namelist()` gives the names of the entries in order, also after `close()`;
* `getinfo(n)` finds the last entry named `n`, KeyError if there is none, and `open(n)` reads that entry;
* `writestr(n, d)` adds an entry, its name cut off at the first NUL; it is a ValueError after `close()` and in
  mode 'r';
* `close()` stores the entries if anything was added or the archive is new.
Nobody else changes the file the archive is in while it is used through the connection.
-/
namespace Verif.Zip

/-- a member: name and content -/
structure Entry where
  name : Str
  data : Bytes
  deriving DecidableEq, Repr

/-- what is at `URI(self.vpath_connector)` (zip.py:101-102): nothing, a zip archive, another file, a directory -/
inductive Container
  | missing
  | archive (es : List Entry)
  | raw
  | dir
  deriving DecidableEq, Repr

/-- the modes of `ZipFile` (zip.py:120-130) -/
inductive ZMode
  | r | w | a
  deriving DecidableEq, Repr

/-- a `ZipFile` -/
structure ZHandle where
  mode : ZMode
  entries : List Entry
  /-- there is something to be stored by `close()` -/
  dirty : Bool
  closed : Bool
  deriving DecidableEq, Repr

/-- the file with the archive, and `self._ziphandle` (zip.py:105-107; `_file_handle` is opened and closed with it) -/
structure St where
  file : Container
  handle : Option ZHandle
  deriving DecidableEq, Repr

/-- what a call does: it returns or raises, and leaves a state -/
abbrev ZM (α : Type) := St → Except PyErr α × St

/-- zip.py:39-58 `content_item` with `path_sep='/'`; the loop is the comparison of the first
    `len(p1_parts)` items -/
def contentItem (path1 path2 : Str) : Str :=
  let p1 := splitC '/' path1
  let p2 := splitC '/' path2
  if path1 = ['/'] ∧ 2 ≤ p2.length then p2.getD 1 []
  else if p2.length ≤ p1.length then []
  else if p2.take p1.length ≠ p1 then []
  else p2.getD p1.length []

/-- ISDIR (zip.py:36), ISFILE (zip.py:37) and 0 -/
inductive Cmp
  | unknown | isdir | isfile
  deriving DecidableEq, Repr

/-- zip.py:78-89 `compare_parts`; called with `len(list1) <= len(list2)` -/
def compareParts (l1 l2 : List Str) : Cmp :=
  if l2.take l1.length ≠ l1 then .unknown
  else if l1.length < l2.length then .isdir
  else .isfile

/-- zip.py:61-75 `compare_path_strings` with `path_sep='/'` -/
def comparePathStrings (path1 path2 : Str) : Cmp :=
  if path2.length < path1.length then .unknown
  else if path1 = path2 then .isfile
  else
    let p1 := splitC '/' path1
    let p2 := splitC '/' path2
    if p2.length < p1.length then .unknown else compareParts p1 p2

/-- zip.py:110-114 `close_zip` -/
def closeZip (s : St) : St :=
  match s.handle with
  | none => s
  | some h =>
    if h.closed then s
    else ⟨if h.dirty then .archive h.entries else s.file, some { h with dirty := false, closed := true }⟩

/-- zip.py:117-131 `open_zip`.  With mode 'a' or 'ab' the file of the archive is opened (which does not change it),
    but `zip_options` is never set: UnboundLocalError.  Outside of the model: these modes if there is no such file (the
    backends of the archive differ), other modes with neither 'r' nor 'w', and an archive that is a directory. -/
def openZip (options : Option Str) : ZM Unit := fun s0 =>
  let s := closeZip s0
  if options.all fun o => o.contains 'r' then
    match s.file with
    | .archive es => (.ok (), { s with handle := some ⟨.r, es, false, false⟩ })
    | .raw => (.error .badZip, s)
    | .missing => (.error (.os .ENOENT), s)
    | .dir => (.error .outside, s)
  else if options.any fun o => o.contains 'w' then
    match s.file with
    | .archive es => (.ok (), { s with handle := some ⟨.a, es, false, false⟩ })
    | .raw => (.ok (), { s with handle := some ⟨.a, [], true, false⟩ })
    | .missing => (.ok (), ⟨.raw, some ⟨.w, [], true, false⟩⟩)
    | .dir => (.error .outside, s)
  else if options = some cl!"a" ∨ options = some cl!"ab" then
    match s.file with
    | .archive _ => (.error .unboundLocal, s)
    | .raw => (.error .unboundLocal, s)
    | .missing => (.error .outside, s)
    | .dir => (.error .outside, s)
  else (.error .outside, s)

/-- `getinfo`: the last entry of that name -/
def getinfo (es : List Entry) (n : Str) : Option Entry := es.reverse.find? fun e => e.name = n

/-- what `open` returns: a file object, read to its end before the backend is used again; or a `WriteStatement`
    (zip.py:13-17) with an empty buffer -/
inductive Opened
  | file (data : Bytes)
  | statement
  deriving DecidableEq, Repr

/-- zip.py:144-150 `_open_for_reading` -/
def openForReading (p : Str) : ZM Opened := fun s =>
  match s.handle with
  | none => (.error .attributeError, s)
  | some h =>
    match getinfo h.entries p with
    | some e => (.ok (.file e.data), s)
    | none => (.error .fileDoesNotExist, s)

/-- zip.py:134-141 `open`, with `_open_for_writing` (zip.py:153-155) -/
def open_ (p : Str) (options : Option Str) : ZM Opened := fun s0 =>
  match openZip options s0 with
  | (.error e, s) => (.error e, s)
  | (.ok (), s) => if (options.getD cl!"r").contains 'r' then openForReading p s else (.ok .statement, s)

/-- `with u.open() as f: f.read()` -/
def read (p : Str) : ZM Bytes := fun s0 =>
  match open_ p none s0 with
  | (.error e, s) => (.error e, s)
  | (.ok (.file d), s) => (.ok d, s)
  | (.ok .statement, s) => (.error .outside, s)

/-- `ZipInfo(name)` cuts the name at the first NUL -/
def zipName (p : Str) : Str := p.takeWhile fun c => c ≠ '\x00'

/-- zip.py:24-29 `WriteStatement.__exit__`, `data` being what was written to the buffer; it ignores whether the
    body raised.  An empty name is outside of the model (Python versions differ). -/
def exitWriting (p : Str) (data : Bytes) : ZM Unit := fun s =>
  match s.handle with
  | none => (.error .attributeError, s)
  | some h =>
    if h.closed then (.error .valueError, s)
    else if h.mode = .r then (.error .valueError, s)
    else if zipName p = [] then (.error .outside, s)
    else openZip none (closeZip { s with handle := some { h with entries := h.entries ++ [⟨zipName p, data⟩], dirty := true } })

/-- `with u.open('w') as f: f.write(data)` -/
def write (p : Str) (data : Bytes) : ZM Unit := fun s =>
  match open_ p (some cl!"w") s with
  | (.error e, s') => (.error e, s')
  | (.ok _, s') => exitWriting p data s'

/-- `with u.open('w') as f: f.write(data); raise e`: `__exit__` (zip.py:24-29) returns nothing, so the exception goes on
    unless another one comes up -/
def writeRaising (p : Str) (data : Bytes) (e : PyErr) : ZM Unit := fun s =>
  match open_ p (some cl!"w") s with
  | (.error e', s') => (.error e', s')
  | (.ok _, s') =>
    match exitWriting p data s' with
    | (.error e', s'') => (.error e', s'')
    | (.ok (), s'') => (.error e, s'')

/-- zip.py:203-211 `_ispart` -/
def ispart (p : Str) (expected : List Cmp) : ZM Bool := fun s =>
  if p = ['/'] then (.ok true, s)
  else match s.handle with
    | none => (.error .attributeError, s)
    | some h => (.ok (h.entries.any fun e => comparePathStrings p e.name ∈ expected), s)

/-- zip.py:158-159 -/
def exists_ (p : Str) : ZM Bool := ispart p [.isdir, .isfile]
/-- zip.py:162-163 -/
def isdir (p : Str) : ZM Bool := ispart p [.isdir]
/-- zip.py:166-167 -/
def isfile (p : Str) : ZM Bool := ispart p [.isfile]

/-- zip.py:189-200, the second half of `listdir` -/
def listdirOpen (p : Str) : ZM (List Str) := fun s =>
  match s.handle with
  | none => if p = ['/'] then (.ok [], s) else (.error .attributeError, s)
  | some h =>
    match isdir p s with
    | (.error e, s) => (.error e, s)
    | (.ok false, s) => (.error .fileDoesNotExist, s)
    | (.ok true, s) =>
      (.ok (sortStr ((h.entries.map fun e => contentItem p e.name).filter fun c => c ≠ []).dedup), s)

/-- zip.py:184-200 `listdir` -/
def listdir (p : Str) : ZM (List Str) := fun s =>
  if s.file = .missing then (.ok [], s)
  else match s.handle with
    | none =>
      match openZip none s with
      | (.error e, s) => (.error e, s)
      | (.ok (), s) => listdirOpen p s
    | some _ => listdirOpen p s

/-- the calls -/
inductive Op
  | open_ (p : Str) (o : Option Str) | exitWriting (p : Str) (d : Bytes)
  | exists_ (p : Str) | isdir (p : Str) | isfile (p : Str) | listdir (p : Str)

/-- the state after a call -/
def Op.run : Op → St → St
  | .open_ p o, s => (Zip.open_ p o s).2
  | .exitWriting p d, s => (Zip.exitWriting p d s).2
  | .exists_ p, s => (Zip.exists_ p s).2
  | .isdir p, s => (Zip.isdir p s).2
  | .isfile p, s => (Zip.isfile p s).2
  | .listdir p, s => (Zip.listdir p s).2

/-- the state after a history of calls -/
def runAll (ops : List Op) (s : St) : St := ops.foldl (fun s o => o.run s) s

/-- a new connection (zip.py:105-107) to whatever is there, and what any history of calls makes of it -/
def Reachable (s : St) : Prop := ∃ c ops, runAll ops ⟨c, none⟩ = s

end Verif.Zip
