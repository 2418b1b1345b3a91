import Verif.Reg.Threads
/-!
# The cleaner thread and `shutdown` (fs.py:64-73, 146-175)

Three parties work on one registry: the thread started at fs.py:70-72, which runs `cleaner`; the thread that
calls `shutdown` (once; it is the `atexit` handler); and any number of other threads, which call the registry
as in Verif/Reg/Threads.  One step is one access to something shared, or one look at the clock.  What is raised
inside the `try` of fs.py:153-159 from outside (KeyboardInterrupt) is not modelled.
-/
namespace Verif.Reg.Cleaner
open Threads

/-- where the cleaner thread is in fs.py:146-159 -/
inductive Cl
  /-- fs.py:151 before `self.cleanup()` -/
  | top
  /-- fs.py:151 inside `self.cleanup()` -/
  | busy
  /-- fs.py:152 before `now = time.time()` -/
  | stamp
  /-- fs.py:154 before the test of the inner `while`; `t0` is the variable `now`; `first`: directly after 152 -/
  | test (first : Bool) (t0 : Int)
  /-- fs.py:155 before `if not self.run_clean_thread` -/
  | flag (t0 : Int)
  /-- fs.py:157 in `time.sleep(1)`, which does not return before the time `till` -/
  | sleep (t0 till : Int)
  /-- fs.py:156 the method has returned, the thread is no longer alive -/
  | ended
  /-- fs.py:151 `cleanup` has raised (it is outside the `try`), the thread is no longer alive -/
  | dead (e : PyErr)
  deriving DecidableEq

/-- where the thread that calls `shutdown` is in fs.py:168-175 -/
inductive Sd
  /-- not called yet; the next step is fs.py:172 `self.run_clean_thread = False` -/
  | idle
  /-- fs.py:173 before `self.cleanup(True)` -/
  | force
  /-- fs.py:173 inside `self.cleanup(True)` -/
  | busy
  /-- fs.py:174 before `self.cleaner_thread.is_alive()` -/
  | alive
  /-- fs.py:175 in `self.cleaner_thread.join()` -/
  | join
  /-- returned -/
  | done
  /-- raised -/
  | raised (e : PyErr)
  deriving DecidableEq

/-- The registry with its threads (0 is the cleaner, 1 calls `shutdown`), `run_clean_thread` (fs.py:67),
    `clean_interval` (fs.py:68), and how many units of time a second has. -/
structure State where
  s : Threads.State
  run : Bool
  cl : Cl
  sd : Sd
  interval : Int
  second : Int

/-- fs.py:64-73 `__init__`, with the schemes registered after it -/
def State.init (schemes : List (Option Str)) (timeout : Int) (junk : Nat → Conn) (interval second : Int) : State :=
  ⟨.init schemes timeout junk, true, .top, .idle, interval, second⟩

/-- whose turn it is: the cleaner's, that of the thread calling `shutdown` (each with what a `close()` called in
    this step does), or that of another thread -/
inductive Event
  | cleaner (out : Option PyErr)
  | shutdown (out : Option PyErr)
  | other (t : Nat) (a : Act)
  deriving DecidableEq

/-- `threading.Thread.is_alive` is false -/
def Cl.over : Cl → Bool
  | .ended | .dead _ => true
  | _ => false

/-- fs.py:146-159 `cleaner`, one step; `none`: not possible now -/
def cleaner (now : Int) (out : Option PyErr) (s : State) : Option State :=
  match s.cl with
  | .top => (act 0 (.cleanup now false) s.s).map fun s' => { s with s := s', cl := .busy }
  | .busy => (act 0 (.step now out) s.s).map fun s' => { s with s := s', cl := match s'.pc 0 with
    | .cleaned => .stamp
    | .crashed e => .dead e
    | _ => .busy }
  | .stamp => some { s with cl := .test true now }
  | .test _ t0 => some { s with cl := if now - t0 < s.interval then .flag t0 else .top }
  | .flag t0 => some { s with cl := if s.run then .sleep t0 (now + s.second) else .ended }
  | .sleep t0 till => if till ≤ now then some { s with cl := .test false t0 } else none
  | .ended | .dead _ => none

/-- fs.py:168-175 `shutdown`, one step; `none`: not possible now -/
def shutdown (now : Int) (out : Option PyErr) (s : State) : Option State :=
  match s.sd with
  | .idle => some { s with run := false, sd := .force }
  | .force => (act 1 (.cleanup now true) s.s).map fun s' => { s with s := s', sd := .busy }
  | .busy => (act 1 (.step now out) s.s).map fun s' => { s with s := s', sd := match s'.pc 1 with
    | .cleaned => .alive
    | .crashed e => .raised e
    | _ => .busy }
  | .alive => some { s with sd := if s.cl.over then .done else .join }
  | .join => if s.cl.over then some { s with sd := .done } else none
  | .done | .raised _ => none

/-- one turn at the time `now`; a thread that cannot go on stays where it is -/
def turn (now : Int) (e : Event) (s : State) : State :=
  match e with
  | .cleaner out => (cleaner now out s).getD s
  | .shutdown out => (shutdown now out s).getD s
  | .other t a => match act (t + 2) a s.s with
    | some s' => { s with s := s' }
    | none => s

/-- an endless schedule: when and whose turn it is -/
abbrev Sched := Nat → Int × Event

/-- the state after `n` turns -/
def run (σ : Sched) (s : State) : Nat → State
  | 0 => s
  | n + 1 => turn (σ n).1 (σ n).2 (run σ s n)

end Verif.Reg.Cleaner
