import Verif.Reg.Lemmas
/-!
# `ConnectionRegistry` (fs.py:21-175) used by many threads

Every thread runs `get_connection` and `cleanup` calls, one after another; a schedule picks which thread
makes its next step.  One step is one access to the shared registry (CPython makes single dictionary
operations, `list(d.items())`, and `creation_locks[scheme]` on the `defaultdict(threading.Lock)` with
string keys atomic).  The thread at fs.py:70-72 running `cleaner` (146-159) is a thread that calls `cleanup`
again and again.  `register` is done at import time, before any of this: the set of schemes is fixed.
-/
namespace Verif.Reg.Threads

/-- where a thread is, and its local variables -/
inductive Pc
  /-- not in a call, never was -/
  | start
  /-- fs.py:129 before `if not key in self.connections` -/
  | check (k : Key)
  /-- fs.py:77 before acquiring `creation_locks[scheme]` -/
  | wait (k : Key)
  /-- fs.py:78 in the factory -/
  | factory (k : Key)
  /-- fs.py:79 before `self.connections[key] = conn` -/
  | store (k : Key) (c : Nat)
  /-- fs.py:77 at the end of the `with` block, with the exception that is on its way -/
  | unlock (k : Key) (e : Option PyErr)
  /-- fs.py:131 before `return self.connections[key]` -/
  | fetch (k : Key)
  /-- `get_connection` has returned -/
  | got (k : Key) (c : Nat)
  /-- `get_connection` has raised -/
  | failed (k : Key) (e : PyErr)
  /-- fs.py:136 at the head of the loop -/
  | loop (now : Int) (force : Bool) (todo : List (Key × Nat))
  /-- fs.py:143 before `del self.connections[key]` -/
  | del (now : Int) (force : Bool) (k : Key) (todo : List (Key × Nat))
  /-- `cleanup` has returned -/
  | cleaned
  /-- `cleanup` has raised -/
  | crashed (e : PyErr)
  deriving DecidableEq

/-- The shared registry, who holds which creation lock, and where the threads are. -/
structure State where
  reg : Registry
  lock : Option Str → Option Nat
  pc : Nat → Pc

/-- the start: an arbitrary registered set of schemes, an empty dictionary, no thread in a call -/
def State.init (schemes : List (Option Str)) (timeout : Int) (junk : Nat → Conn) : State :=
  ⟨⟨schemes, [], junk, 0, timeout⟩, fun _ => none, fun _ => .start⟩

/-- thread `t` goes on to `p` -/
def State.goto (s : State) (t : Nat) (p : Pc) : State := { s with pc := fun i => if i = t then p else s.pc i }

/-- a thread outside of a call may begin one -/
def Pc.free : Pc → Bool
  | .start | .got _ _ | .failed _ _ | .cleaned | .crashed _ => true
  | _ => false

/-- What a thread does next: begin a call, use the connection it has got (fs.py:228), or make one step in
    the call it is in.  `now` and `out` are what the clock and the factory give if the step asks for them. -/
inductive Act
  | get (k : Key)
  | cleanup (now : Int) (force : Bool)
  | use (now : Int)
  | step (now : Int) (out : Option PyErr)
  deriving DecidableEq

/-- fs.py:76-131 and 134-143, step by step; `none`: not possible now -/
def act (t : Nat) (a : Act) (s : State) : Option State :=
  match a, s.pc t with
  | .get k, p =>
    if p.free then
      if k.base.scheme ∉ s.reg.schemes then some (s.goto t (.failed k .noScheme))     -- fs.py:115
      else some (s.goto t (.check k))
    else none
  | .cleanup now force, p =>
    if p.free then some (s.goto t (.loop now force s.reg.connections)) else none       -- fs.py:135-136
  | .use now, .got k c => some ({ s with reg := touch c now s.reg }.goto t (.got k c))
  | .step _ _, .check k =>
    if (s.reg.connections.lookup k).isSome then some (s.goto t (.fetch k)) else some (s.goto t (.wait k))
  | .step _ _, .wait k =>
    if s.lock k.base.scheme = none then
      some ({ s with lock := fun x => if x = k.base.scheme then some t else s.lock x }.goto t (.factory k))
    else none                                                                          -- blocked
  | .step now none, .factory k => some ({ s with reg := s.reg.make k now }.goto t (.store k s.reg.next))
  | .step _ (some e), .factory k => some (s.goto t (.unlock k (some e)))
  | .step _ _, .store k c =>
    some ({ s with reg := { s.reg with connections := dictSet s.reg.connections k c } }.goto t (.unlock k none))
  | .step _ _, .unlock k e =>
    some ({ s with lock := fun x => if x = k.base.scheme then none else s.lock x }.goto t
      (match e with | none => .fetch k | some e => .failed k e))
  | .step _ _, .fetch k =>
    match s.reg.connections.lookup k with
    | some c => some (s.goto t (.got k c))
    | none => some (s.goto t (.failed k .keyError))
  | .step _ _, .loop _ _ [] => some (s.goto t .cleaned)
  | .step _ out, .loop now force ((k, c) :: todo) =>
    if s.reg.tooOld now force c then
      some ({ s with reg := (close c (fun _ => out) s.reg).2 }.goto t (.del now force k todo))   -- fs.py:137-142
    else some (s.goto t (.loop now force todo))
  | .step _ _, .del now force k todo =>
    match dictDel s.reg.connections k with
    | some d => some ({ s with reg := { s.reg with connections := d } }.goto t (.loop now force todo))
    | none => some (s.goto t (.crashed .keyError))
  | _, _ => none

/-- a schedule; `none` if it asks for something impossible -/
def runs : List (Nat × Act) → State → Option State
  | [], s => some s
  | (t, a) :: l, s => (act t a s).bind (runs l)

/-- the states that some schedule leads to -/
def Reachable (s : State) : Prop := ∃ l schemes timeout junk, runs l (.init schemes timeout junk) = some s

end Verif.Reg.Threads
