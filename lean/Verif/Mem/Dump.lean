import Verif.Mem.Handle
/-!
# `MemoryFileSystem.dump` (memory.py:492-519)

`outf.write(s)` appends `s` to what `outf` has got; nothing else can go wrong with `outf`.
-/
namespace Verif.Mem

/-- an action that writes to `outf`: from the world and what `outf` has got so far -/
abbrev DM := World × Str → Except PyErr Unit × World × Str

/-- one action after the other; an exception ends both -/
def DM.seq (a b : DM) : DM := fun s =>
  match a s with
  | (.ok (), s') => b s'
  | (.error e, s') => (.error e, s')

/-- `outf.write(s)` -/
def DM.put (t : Str) : DM := fun s => (.ok (), s.1, s.2 ++ t)

/-- memory.py:499 `sorted(current.items())`; the keys of a dict are distinct, so the values are never compared -/
def sortedItems (d : DirObj) : List (Str × Nat) :=
  (sortStr d.keys).filterMap fun n => (d.files.lookup n).map fun c => (n, c)

/-- memory.py:500-510 a file.  `skip` is `no_binary` and `mimetypes.guess_type(name)[0] in BINARY_MIME_TYPES`;
    then `hash_.update(value)` is a TypeError, as a MemoryFile is no bytes-like object. -/
def dumpFile (skip : Str → Bool) (path name : Str) (c : Nat) : DM := fun s =>
  if skip name then (.error .typeError, s)
  else
    let out := s.2 ++ (cl!"--- START " ++ (path ++ name) ++ cl!" ---\n")
    match (⟨c, true, false⟩ : Handle).read (-1) s.1 with
    | (.ok (.str t), w) => (.ok (), w, out ++ t ++ cl!"\n--- END ---\n\n")
    | (.ok (.bytes _), w) => (.error .typeError, w, out)
    | (.error e, w) => (.error e, w, out)

/-- memory.py:511-512 a link -/
def dumpLink (path name : Str) (l : LinkObj) : DM := fun s =>
  match l.target.str with
  | .ok t => (.ok (), s.1, s.2 ++ (cl!"LINK: " ++ (path ++ name) ++ cl!" -> " ++ t ++ cl!"\n"))
  | .error e => (.error e, s)

/-- memory.py:515-516 the path handed to the recursive call -/
def dumpPath (path name : Str) : Str :=
  (if endsWith path cl!"/" then path.dropLast else path) ++ cl!"/" ++ name ++ cl!"/"

/-- memory.py:500-516 the body of the loop; `visit` is the recursive call -/
def dumpItem (skip : Str → Bool) (visit : Nat → Str → DM) (path name : Str) (c : Nat) : DM := fun s =>
  match s.1.node c with
  | .file _ => dumpFile skip path name c s
  | .link o => dumpLink path name o s
  | .dir _ => DM.seq (DM.put (cl!"DIR: " ++ (path ++ name) ++ cl!"\n")) (visit c (dumpPath path name)) s

/-- memory.py:499-516 the loop -/
def dumpItems (skip : Str → Bool) (visit : Nat → Str → DM) (path : Str) : List (Str × Nat) → DM
  | [] => fun s => (.ok (), s)
  | (name, c) :: l => DM.seq (dumpItem skip visit path name c) (dumpItems skip visit path l)

/-- memory.py:498-516 `traverse`; the first argument is the recursion limit, counted in nested calls -/
def dumpTree (skip : Str → Bool) : Nat → Nat → Str → DM
  | 0, _, _ => fun s => (.error .recursionError, s)
  | depth + 1, i, path => fun s =>
    match s.1.node i with
    | .dir d => dumpItems skip (dumpTree skip depth) path (sortedItems d) s
    | .file _ => (.ok (), s)
    | .link _ => (.error .attributeError, s)

/-- memory.py:497, 518-520 `dump`; `root` is `self._fs` -/
def dump (skip : Str → Bool) (depth root : Nat) : DM :=
  DM.seq (DM.put cl!"MEMORY DUMP: START\n")
    (DM.seq (dumpTree skip depth root cl!"memory:///") (DM.put cl!"MEMORY DUMP: END\n"))

end Verif.Mem
