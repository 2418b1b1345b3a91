import Mathlib.Data.Finset.Dedup
import Verif.Mem.Api
/-!
# `ConnectionRegistry` (fs.py:21-175), one thread

What a factory does is left open: it is part of each call whether it raises, and what time it is.  Not
modelled: factories that call the registry themselves, and the printing at fs.py:141-142.
-/
namespace Verif.Reg

/-- the key of fs.py:119-127: scheme, hostname, port, username, password, vpath_connector and
    `frozenset(extras.items())` -/
structure Key where
  base : Uri.Key
  extras : Finset (Str × Str)
  deriving DecidableEq

/-- `get_connection(*self._key(), **self._extras())` (fs.py:300-301) computes this key (fs.py:119-127) -/
def keyOf (u : Uri) : Key := ⟨u.key, u.allExtras.toFinset⟩

/-- What is recorded of a connection object: the arguments its factory was called with, `last_used`
    (fs.py:872, 228) and how often `close()` was called. -/
structure Conn where
  key : Key
  lastUsed : Int
  closed : Nat
  deriving DecidableEq

/-- `ConnectionRegistry` (fs.py:64-73).  `schemes`: the registered schemes.  `connections`: the dict, in
    insertion order; a connection is an object identity.  `conn`: the connection objects; `next` is the
    first unused identity.  `timeout`: `clean_timeout`.  The cleaner thread is in Verif/Reg/Threads. -/
structure Registry where
  schemes : List (Option Str)
  connections : List (Key × Nat)
  conn : Nat → Conn
  next : Nat
  timeout : Int

/-- `d[k] = v` -/
def dictSet : List (Key × Nat) → Key → Nat → List (Key × Nat)
  | [], k, v => [(k, v)]
  | (k', v') :: d, k, v => if k' = k then (k, v) :: d else (k', v') :: dictSet d k v

/-- `del d[k]`; `none` is a KeyError -/
def dictDel (d : List (Key × Nat)) (k : Key) : Option (List (Key × Nat)) :=
  if (d.lookup k).isSome then some (d.filter fun e => e.1 ≠ k) else none

/-- fs.py:64-73 `__init__`.  The function `conn` is irrelevant from `next` on. -/
def init (timeout : Int) (junk : Nat → Conn) : Registry := ⟨[], [], junk, 0, timeout⟩

/-- a connection object comes into being; fs.py:872 sets `last_used` -/
def Registry.make (s : Registry) (k : Key) (now : Int) : Registry :=
  { s with conn := fun i => if i = s.next then ⟨k, now, 0⟩ else s.conn i, next := s.next + 1 }

/-- fs.py:76-79 `create`; `out` says whether the factory raises.  The lock is always free here. -/
def create (k : Key) (now : Int) (out : Option PyErr) (s : Registry) : Except PyErr Unit × Registry :=
  match out with
  | some e => (.error e, s)
  | none => (.ok (), { s.make k now with connections := dictSet s.connections k s.next })

/-- fs.py:82-131 `get_connection` -/
def getConnection (k : Key) (now : Int) (out : Option PyErr) (s : Registry) : Except PyErr Nat × Registry :=
  if k.base.scheme ∉ s.schemes then (.error .noScheme, s)
  else
    let (r, s) := if (s.connections.lookup k).isNone then create k now out s else (.ok (), s)
    match r with
    | .error e => (.error e, s)
    | .ok () => match s.connections.lookup k with
      | some c => (.ok c, s)
      | none => (.error .keyError, s)

/-- `conn.close()`: it is counted, and it may raise -/
def close (c : Nat) (fails : Nat → Option PyErr) (s : Registry) : Except PyErr Unit × Registry :=
  ((match fails c with | some e => .error e | none => .ok ()),
   { s with conn := fun i => if i = c then { s.conn c with closed := (s.conn c).closed + 1 } else s.conn i })

/-- fs.py:137 the condition of the `if` -/
def Registry.tooOld (s : Registry) (now : Int) (force : Bool) (c : Nat) : Bool :=
  decide (now - (s.conn c).lastUsed > s.timeout) || force

/-- fs.py:136-143 the loop over the snapshot -/
def cleanupLoop (now : Int) (force : Bool) (fails : Nat → Option PyErr) :
    List (Key × Nat) → Registry → Except PyErr Unit × Registry
  | [], s => (.ok (), s)
  | (k, c) :: rest, s =>
    if s.tooOld now force c then
      match close c fails s with
      | (.ok (), s') | (.error _, s') =>      -- fs.py:140 `except:` swallows everything
        match dictDel s'.connections k with
        | none => (.error .keyError, s')
        | some d => cleanupLoop now force fails rest { s' with connections := d }
    else cleanupLoop now force fails rest s

/-- fs.py:134-143 `cleanup` -/
def cleanup (now : Int) (force : Bool) (fails : Nat → Option PyErr) (s : Registry) : Except PyErr Unit × Registry :=
  cleanupLoop now force fails s.connections s

/-- fs.py:162-165 `register` -/
def register (scheme : Option Str) (s : Registry) : Registry := { s with schemes := scheme :: s.schemes }

/-- fs.py:228 `self.connection.last_used = time.time()` -/
def touch (c : Nat) (now : Int) (s : Registry) : Registry :=
  { s with conn := fun i => if i = c then { s.conn c with lastUsed := now } else s.conn i }

/-- fs.py:168-175 `shutdown`, without the joining of the cleaner thread -/
def shutdown (now : Int) (fails : Nat → Option PyErr) (s : Registry) : Except PyErr Unit × Registry :=
  cleanup now true fails s

/-- what can be done with a registry -/
inductive Op
  | register (scheme : Option Str)
  | get (k : Key) (now : Int) (out : Option PyErr)
  | touch (c : Nat) (now : Int)
  | cleanup (now : Int) (force : Bool) (fails : Nat → Option PyErr)

/-- the state after an operation (whether it raised or not) -/
def Op.run : Op → Registry → Registry
  | .register x, s => Reg.register x s
  | .get k now out, s => (getConnection k now out s).2
  | .touch c now, s => Reg.touch c now s
  | .cleanup now force fails, s => (Reg.cleanup now force fails s).2

/-- a history of operations -/
def runAll : List Op → Registry → Registry
  | [], s => s
  | o :: os, s => runAll os (o.run s)

/-- the states a registry can be in -/
def Reachable (s : Registry) : Prop := ∃ os timeout junk, s = runAll os (init timeout junk)

end Verif.Reg
