import Verif.Mem.Calm
/-!
# `with p.lock(...)` on memory files (memory.py:257-281) by many threads

Every execution of a `with p.lock(...)` statement has a number, called its thread below (a thread that nests
two such statements counts as two).  A schedule picks who makes the next step.  The steps of the statement are
those of `__enter__` and `__exit__`; in between, and by threads outside of the statement, any other calls may
happen.  A single call of the memory file system is one step.
-/
namespace Verif.Lock
open Mem Mem.M

/-- the arguments of `p.lock(fail_on_lock, cleanup)` (fs.py:804-812) -/
structure Args where
  path : Uri
  failOnLock : Bool
  cleanup : Bool
  deriving DecidableEq

/-- where a thread is in the statement -/
inductive Pc
  /-- not in it -/
  | out
  /-- memory.py:268, `mfile` is open, before `self.lock = mfile.lock` -/
  | opened (a : Args) (h : Handle)
  /-- memory.py:269-274, before `acquire` -/
  | waiting (a : Args) (h : Handle) (l : LockId)
  /-- memory.py:275, in the body -/
  | inside (a : Args) (h : Handle) (l : LockId)
  /-- memory.py:280-281, released, before `self.path.remove()` -/
  | removing (a : Args)
  /-- the statement has ended by an exception of `__enter__` or `__exit__` -/
  | failed (e : PyErr)
  deriving DecidableEq

/-- the shared state and where the threads are -/
structure State where
  w : World
  pc : Nat → Pc

/-- thread `t` goes on to `p` -/
def State.goto (s : State) (t : Nat) (p : Pc) : State := { s with pc := fun i => if i = t then p else s.pc i }

/-- What a thread does next: begin the statement (its expression and the `open` of memory.py:268, as one step),
    make the next step of entering it, leave the body, or call something else. -/
inductive Act
  | enter (a : Args)
  | step
  | leave
  | call (o : Op)

/-- a thread outside of the statement may begin it -/
def Pc.free : Pc → Bool
  | .out | .failed _ => true
  | _ => false

/-- memory.py:267-281, step by step; `none`: not possible now -/
def act (t : Nat) (x : Act) (s : State) : Option State :=
  match x, s.pc t with
  | .enter a, p =>
    if p.free then
      match withConn a.path .lock (fun r => open_ r a.path (some cl!"w")) s.w with     -- fs.py:811, memory.py:268
      | (.ok h, w) => some (State.goto ⟨w, s.pc⟩ t (.opened a h))
      | (.error e, w) => some (State.goto ⟨w, s.pc⟩ t (.failed e))
    else none
  | .step, .opened a h =>
    match s.w.node h.id with
    | .file f => some (s.goto t (.waiting a h f.lock))                                  -- memory.py:269
    | _ => some (s.goto t (.failed .attributeError))
  | .step, .waiting a h l =>
    if s.w.held l then
      if a.failOnLock then some (s.goto t (.failed .lockObtain))                        -- memory.py:271-272
      else none                                                                         -- memory.py:274, blocked
    else some (State.goto ⟨(acquire l s.w).2, s.pc⟩ t (.inside a h l))
  | .leave, .inside a _ l =>
    match release l s.w with                                                            -- memory.py:279
    | (.ok _, w) => some (State.goto ⟨w, s.pc⟩ t (if a.cleanup then .removing a else .out))
    | (.error e, w) => some (State.goto ⟨w, s.pc⟩ t (.failed e))
  | .step, .removing a =>
    match Gen.uRemove 0 a.path false s.w with                                           -- memory.py:281
    | (.ok _, w) => some (State.goto ⟨w, s.pc⟩ t .out)
    | (.error e, w) => some (State.goto ⟨w, s.pc⟩ t (.failed e))
  | .call o, _ => if o.locks then none else some ⟨o.run s.w, s.pc⟩
  | _, _ => none

/-- a schedule; `none` if it asks for something impossible -/
def runs : List (Nat × Act) → State → Option State
  | [], s => some s
  | (t, a) :: l, s => (act t a s).bind (runs l)

/-- the state `w` with no thread in the statement -/
def State.start (w : World) : State := ⟨w, fun _ => .out⟩

end Verif.Lock
