import Verif.Reg.Model
/-!
# Loading the backends when fs.py is imported (fs.py:1118-1135)

An entry point is given by what `entrypoint.load()` does.  Not modelled: the two ways to ask for the entry points
(fs.py:1120-1125, they give the same list), and what is printed for those that cannot be loaded (1131-1132).
-/
namespace Verif.Reg

/-- what the loop uses of a backend class (fs.py:1134-1135): the class itself, by its name, and its attributes `scheme`
    and `uri`; `none` if there is no such attribute.  Subclasses of `FileSystem` that set no scheme have `None`
    (fs.py:856). -/
structure Backend where
  name : Str
  scheme : Option (Option Str)
  uri : Option Str
  deriving DecidableEq

/-- what `entrypoint.load()` does (fs.py:1129): it gives a class, raises an `Exception`, or something else
    (`SystemExit`, `KeyboardInterrupt`), which `except Exception` lets pass -/
inductive Load
  | loads (b : Backend)
  | raises (e : PyErr)
  | exits (e : PyErr)
  deriving DecidableEq

/-- `d[k] = v` -/
def slot (d : List (Option Str × Str)) (k : Option Str) (v : Str) : List (Option Str × Str) :=
  match d with
  | [] => [(k, v)]
  | (k', v') :: d => if k = k' then (k, v) :: d else (k', v') :: slot d k v

/-- the dictionaries that the loop fills: `CONNECTION_REGISTRY.schemes` (fs.py:66, 162-165) and `SCHEME_REGISTRY` (fs.py:179) -/
structure Tables where
  schemes : List (Option Str × Str)
  uris : List (Option Str × Str)
  deriving DecidableEq

/-- fs.py:1128-1135 one turn of the loop -/
def Load.turn : Load → Tables → Except PyErr Unit × Tables
  | .raises _, t => (.ok (), t)
  | .exits e, t => (.error e, t)
  | .loads b, t =>
    match b.scheme with
    | none => (.error .attributeError, t)
    | some s =>
      let t := { t with schemes := slot t.schemes s b.name }
      match b.uri with
      | none => (.error .attributeError, t)
      | some u => (.ok (), { t with uris := slot t.uris s u })

/-- fs.py:1127-1135 the loop; an exception ends it, and the import of fs.py with it -/
def loadAll : List Load → Tables → Except PyErr Unit × Tables
  | [], t => (.ok (), t)
  | x :: l, t =>
    match x.turn t with
    | (.ok (), t) => loadAll l t
    | (.error e, t) => (.error e, t)

/-- fs.py:246 `SCHEME_REGISTRY.get(scheme, BaseUri)`, by the name of the class -/
def Tables.uriClass (t : Tables) (s : Str) : Str := (t.uris.lookup (some s)).getD cl!"BaseUri"

/-- the entry points of the package (pyproject.toml:30-33) and the attributes of the three classes (localfs.py:44-46,
    memory.py:300-304, zip.py:96-98) -/
def shipped : List Load :=
  [.loads ⟨cl!"LocalFileSystem", some (some cl!"file"), some cl!"LocalFileSystemUri"⟩,
   .loads ⟨cl!"MemoryFileSystem", some (some cl!"memory"), some cl!"MemoryFileSystemUri"⟩,
   .loads ⟨cl!"ZipFileSystem", some (some cl!"zip"), some cl!"ZipFileSystemUri"⟩]

end Verif.Reg
