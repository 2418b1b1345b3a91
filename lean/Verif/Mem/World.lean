import Verif.Py.BytesIO
import Verif.Uri.Base
/-!
# The Python heap of memory.py

Objects (`MemoryFile`, `MemoryDir`, `MemorySymlink`) live in a heap and are referred to by identity, as in
Python: a directory's dictionary holds references, a file handle holds a reference, and an object that
is unlinked from its directory lives on as long as somebody holds it.
-/
namespace Verif.Mem

/-- A `threading.Lock` out of `MemoryFile.FILE_LOCKS` (memory.py:28): the table is a `defaultdict` keyed by
    path, shared by all memory file systems and emptied whenever a memory file system is created
    (memory.py:311), so a lock is identified by the number of such clearings and the path. -/
abbrev LockId := Nat × Str

/-- `MemoryFile` (memory.py:24-36): `_data` is a BytesIO (`data`, `pos`).  `_line_reader` is never used. -/
structure FileObj where
  data : Bytes
  pos : Nat
  mtime : Int
  ctime : Int
  mode : Int
  path : Str
  lock : LockId
  deriving DecidableEq

/-- `MemoryDir` (memory.py:195-202) -/
structure DirObj where
  files : List (Str × Nat)
  mtime : Int
  ctime : Int
  mode : Int
  deriving DecidableEq

/-- `MemorySymlink` (memory.py:237-243) -/
structure LinkObj where
  target : Uri
  mtime : Int
  ctime : Int
  mode : Int
  deriving DecidableEq

/-- the three node kinds (memory.py:18-21) -/
inductive Node
  | file (f : FileObj)
  | dir (d : DirObj)
  | link (l : LinkObj)
  deriving DecidableEq

/-- memory.py:217-218 `MemoryDir.has` -/
def DirObj.has (d : DirObj) (name : Str) : Bool := (d.files.lookup name).isSome

/-- memory.py:221-222 `MemoryDir.get` (`none` is a KeyError) -/
def DirObj.get (d : DirObj) (name : Str) : Option Nat := d.files.lookup name

/-- `files[name] = i` on a dict -/
def setEntry : List (Str × Nat) → Str → Nat → List (Str × Nat)
  | [], k, v => [(k, v)]
  | (k', v') :: r, k, v => if k' = k then (k, v) :: r else (k', v') :: setEntry r k v

/-- memory.py:225-226 `MemoryDir.create` -/
def DirObj.create (d : DirObj) (name : Str) (i : Nat) : DirObj := { d with files := setEntry d.files name i }

/-- memory.py:229-230 `MemoryDir.remove`, when the name is present -/
def DirObj.remove (d : DirObj) (name : Str) : DirObj :=
  { d with files := d.files.filter fun e => e.1 ≠ name }

/-- memory.py:213-214 `MemoryDir.keys` -/
def DirObj.keys (d : DirObj) : List Str := d.files.map Prod.fst

/-- The BaseUri methods decorated with `with_connection` (fs.py:519-823); the decorated function is handed
    to a `next_op_callback`. -/
inductive Meth
  | copy | copystat | move | remove | open_ | makedirs | mkdir | exists_ | isfile | isdir | isexec
  | set_exec | islink | readlink | symlink | mtime | walk | listdir | info | sync | glob | md5 | lock
  | manipulate
  deriving DecidableEq, Repr

/-- A user supplied `next_op_callback(path, func)` (memory.py:445-448), as used for fault injection: for a
    given function it either raises or returns.  Callbacks with other effects are not modelled. -/
abbrev Callback := Meth → Option PyErr

/-- What `ConnectionRegistry.get_connection` uses as key (fs.py:119-127); the extras are a frozenset of
    items, so dictionaries are compared up to order. -/
structure ConnKey where
  key : Uri.Key
  extras : Dict

/-- equality of connection keys -/
def ConnKey.same (a b : ConnKey) : Bool := decide (a.key = b.key) && Dict.eq a.extras b.extras

/-- Global state.  `node`/`next`: the heap.  `clock`: the (arbitrary) results of successive
    `time.time()` calls, `tick` counts those made.  `gen`: how often FILE_LOCKS has been cleared.
    `held`: locked locks.  `hooks`: `next_op_callbacks` of each memory file system.  `conns`: the memory
    connections of CONNECTION_REGISTRY; a connection is named by the identity of its root directory
    (`_fs`).  Time stamps and `last_used` are dealt with in Verif/Reg. -/
structure World where
  node : Nat → Node
  next : Nat
  clock : Nat → Int
  tick : Nat
  gen : Nat
  held : LockId → Bool
  hooks : Nat → List (Str × Option Callback)
  conns : List (ConnKey × Nat)

/-- A Python computation: it may raise, and what it did before raising persists. -/
def M (α : Type) := World → Except PyErr α × World

namespace M

/-- `return a` -/
def ret {α : Type} (a : α) : M α := fun w => (.ok a, w)

/-- sequencing: an exception stops the rest -/
def bnd {α β : Type} (m : M α) (f : α → M β) : M β := fun w =>
  match m w with
  | (.ok a, w') => f a w'
  | (.error e, w') => (.error e, w')

instance : Monad M where
  pure := ret
  bind := bnd

/-- `raise e` -/
def raise {α : Type} (e : PyErr) : M α := fun w => (.error e, w)

/-- a computation that only looks at the state -/
def query {α : Type} (f : World → Except PyErr α) : M α := fun w => (f w, w)

/-- a state independent computation that may raise -/
def lift {α : Type} (x : Except PyErr α) : M α := fun w => (x, w)

end M

/-- `time.time()` -/
def now : M Int := fun w => (.ok (w.clock w.tick), { w with tick := w.tick + 1 })

/-- replacing the state of one object -/
def World.setNode (w : World) (i : Nat) (n : Node) : World :=
  { w with node := fun j => if j = i then n else w.node j }

/-- update of one object -/
def setNode (i : Nat) (n : Node) : M Unit := fun w => (.ok (), w.setNode i n)

/-- allocation of a new object -/
def newNode (n : Node) : M Nat := fun w =>
  (.ok w.next, { w.setNode w.next n with next := w.next + 1 })

/-- The state at interpreter start: no connections (fs.py:178), no locks. -/
def World.init (clock : Nat → Int) : World :=
  { node := fun _ => .dir ⟨[], 0, 0, 0⟩, next := 0, clock, tick := 0, gen := 0, held := fun _ => false,
    hooks := fun _ => [], conns := [] }

end Verif.Mem
