import Verif.Lock.Threads
import Verif.Mem.Calm
/-!
# Threads that take several locks, one inside the other (memory.py:257-281)

As in Verif/Lock/Threads.lean a call of the memory file system is one step; the steps of `__enter__` and `__exit__` are those
there.  Here each thread follows a plan with `with p.lock(...)` statements inside each other, and exceptions leave them.
-/
namespace Verif.Lock
open Mem Mem.M

/-- what a thread does.  `done`: nothing more; `raise e`; `call o k`: a call that is no lock statement, what follows may depend on
    everything; `locked a body k`: `with a.path.lock(...) as f: body f`, what follows may depend on whether, and with which
    exception, the statement was left (a `try` around it). -/
inductive Plan
  | done
  | raise (e : PyErr)
  | call (o : Op) (h : o.locks = false) (k : World → Plan)
  | locked (a : Args) (body : Handle → Plan) (k : Option PyErr → Plan)

/-- a statement the thread is in: its arguments, the lock it has, and what follows it -/
structure Frame where
  args : Args
  lock : LockId
  k : Option PyErr → Plan

/-- where a thread is -/
inductive At
  /-- it follows a plan -/
  | runs (p : Plan)
  /-- memory.py:268, `mfile` is open, before `self.lock = mfile.lock` -/
  | opened (a : Args) (h : Handle) (body : Handle → Plan) (k : Option PyErr → Plan)
  /-- memory.py:269-274, before `acquire` -/
  | waiting (a : Args) (h : Handle) (l : LockId) (body : Handle → Plan) (k : Option PyErr → Plan)
  /-- memory.py:280-281, released, before `self.path.remove()`; `r`: the exception that left the body -/
  | removing (a : Args) (r : Option PyErr) (k : Option PyErr → Plan)

/-- where a thread is, and the statements it is in, the innermost first -/
structure Thread where
  here : At
  stack : List Frame

/-- the shared state and the threads -/
structure Crowd where
  w : World
  th : Nat → Thread

/-- the state is `w` now, and thread `t` at `x` -/
def Crowd.goto (s : Crowd) (t : Nat) (w : World) (x : Thread) : Crowd := ⟨w, fun i => if i = t then x else s.th i⟩

/-- memory.py:278-281 `__exit__`, up to `self.path.remove()`; `r`: the exception that left the body, which stays the one raised if
    `__exit__` raises none -/
def Crowd.leave (s : Crowd) (t : Nat) (f : Frame) (st : List Frame) (r : Option PyErr) : Crowd :=
  match release f.lock s.w with
  | (.ok _, w) => s.goto t w ⟨if f.args.cleanup then .removing f.args r f.k else .runs (f.k r), st⟩
  | (.error e, w) => s.goto t w ⟨.runs (f.k (some e)), st⟩

/-- memory.py:267-281, step by step; `none`: the thread is over, or has to wait -/
def Crowd.step (s : Crowd) (t : Nat) : Option Crowd :=
  match (s.th t).here, (s.th t).stack with
  | .runs .done, [] => none
  | .runs (.raise _), [] => none
  | .runs .done, f :: st => some (s.leave t f st none)
  | .runs (.raise e), f :: st => some (s.leave t f st (some e))
  | .runs (.call o _ k), st => some (s.goto t (o.run s.w) ⟨.runs (k (o.run s.w)), st⟩)
  | .runs (.locked a b k), st =>
    match withConn a.path .lock (fun r => open_ r a.path (some cl!"w")) s.w with       -- fs.py:811, memory.py:268
    | (.ok h, w) => some (s.goto t w ⟨.opened a h b k, st⟩)
    | (.error e, w) => some (s.goto t w ⟨.runs (k (some e)), st⟩)
  | .opened a h b k, st =>
    match s.w.node h.id with
    | .file f => some (s.goto t s.w ⟨.waiting a h f.lock b k, st⟩)                     -- memory.py:269
    | _ => some (s.goto t s.w ⟨.runs (k (some .attributeError)), st⟩)
  | .waiting a h l b k, st =>
    if s.w.held l then
      if a.failOnLock then some (s.goto t s.w ⟨.runs (k (some .lockObtain)), st⟩)      -- memory.py:271-272
      else none                                                                        -- memory.py:274, blocked
    else some (s.goto t (acquire l s.w).2 ⟨.runs (b h), ⟨a, l, k⟩ :: st⟩)
  | .removing a r k, st =>
    match Gen.uRemove 0 a.path false s.w with                                          -- memory.py:281
    | (.ok _, w) => some (s.goto t w ⟨.runs (k r), st⟩)
    | (.error e, w) => some (s.goto t w ⟨.runs (k (some e)), st⟩)

/-- the threads at their beginning -/
def Crowd.start (w : World) (plans : Nat → Plan) : Crowd := ⟨w, fun t => ⟨.runs (plans t), []⟩⟩

/-- thread `σ n` has the `n`th turn; who has to wait lets it pass -/
def Crowd.till (s : Crowd) (σ : Nat → Nat) : Nat → Crowd
  | 0 => s
  | n + 1 => ((s.till σ n).step (σ n)).getD (s.till σ n)

/-- the same for finitely many turns -/
def Crowd.run (s : Crowd) (l : List Nat) : Crowd := l.foldl (fun s t => (s.step t).getD s) s

/-- the thread has come to its end, or has been left by an exception -/
def Thread.Over (x : Thread) : Prop := x.stack = [] ∧ (x.here = .runs .done ∨ ∃ e, x.here = .runs (.raise e))

/-- the thread waits for the lock -/
def Thread.Wants (x : Thread) (l : LockId) : Prop := ∃ a h b k, x.here = .waiting a h l b k ∧ a.failOnLock = false

/-- the thread has the lock -/
def Thread.Has (x : Thread) (l : LockId) : Prop := ∃ f ∈ x.stack, f.lock = l

end Verif.Lock
