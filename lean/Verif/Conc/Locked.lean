import Verif.Conc.Pool
import Verif.Lock.Threads
/-!
# Threads that do their work in `with p.lock(...)` (memory.py:257-281), access by access

As in `Verif/Lock/Threads`, but a call is not one step: between two accesses to shared objects any other thread may run
(`Verif/Conc/Pool`), in the `open` of `__enter__` and in the `remove` of `__exit__` too.
-/
namespace Verif.Conc
open Mem Mem.M Prog

/-- what a thread does: nothing more, or `with a.path.lock(a.failOnLock, a.cleanup): body` and then what depends on the outcomes of the
    calls of the body, or on the exception of `__enter__` or `__exit__`; the file object the statement yields is not used -/
inductive Task
  | done
  | locked (a : Lock.Args) (body : Script) (k : Except PyErr Log → Task)

/-- where a thread is -/
inductive Pc : Type 1
  /-- between two statements -/
  | idle (t : Task)
  /-- fs.py:811, memory.py:268, the `open` of `__enter__` -/
  | entering (a : Lock.Args) (body : Script) (k : Except PyErr Log → Task) (p : Prog Handle)
  /-- memory.py:269, before `self.lock = mfile.lock` -/
  | opened (a : Lock.Args) (body : Script) (k : Except PyErr Log → Task) (h : Handle)
  /-- memory.py:270-274, before `acquire` -/
  | waiting (a : Lock.Args) (body : Script) (k : Except PyErr Log → Task) (l : LockId)
  /-- memory.py:275, in the body -/
  | inside (a : Lock.Args) (body : Script) (k : Except PyErr Log → Task) (l : LockId) (p : Prog Log)
  /-- memory.py:280-281, the `remove` of `__exit__` -/
  | leaving (k : Except PyErr Log → Task) (log : Log) (p : Prog Unit)

/-- the thread is in the body of a statement -/
def Pc.In : Pc → Prop
  | .inside .. => True
  | _ => False

/-- what all threads share, where each is, the bodies that have been left, in this order: whose, which, and the outcomes of its calls;
    and the statements that have come to their end: whose, and the outcome -/
structure Hall where
  world : World
  pc : Nat → Pc
  left : List (Nat × Script × Log)
  outs : List (Nat × Except PyErr Log)

/-- thread `t` goes on to `p`, with the state `w` -/
def Hall.goto (s : Hall) (t : Nat) (w : World) (p : Pc) : Hall := { s with world := w, pc := fun i => if i = t then p else s.pc i }

/-- the statement of thread `t` ends with the outcome `r` -/
def Hall.close (s : Hall) (t : Nat) (w : World) (k : Except PyErr Log → Task) (r : Except PyErr Log) : Hall :=
  { s.goto t w (.idle (k r)) with outs := s.outs ++ [(t, r)] }

/-- the `open` of `__enter__` (fs.py:811, memory.py:268) -/
def cEnter (a : Lock.Args) : Prog Handle := cConn a.path .lock fun r => cOpen r a.path (some cl!"w")

/-- thread `t` makes its next step (memory.py:267-281); a thread that waits for a lock makes none -/
def Hall.step (s : Hall) (t : Nat) : Hall :=
  match s.pc t with
  | .idle .done => s
  | .idle (.locked a b k) => s.goto t s.world (.entering a b k (cEnter a))
  | .entering a b k (.act x f) => s.goto t (x s.world).2 (.entering a b k (f (x s.world).1))
  | .entering a b k (.ret (.ok h)) => s.goto t s.world (.opened a b k h)
  | .entering _ _ k (.ret (.error e)) => s.close t s.world k (.error e)
  | .opened a b k h =>
    match s.world.node h.id with
    | .file f => s.goto t s.world (.waiting a b k f.lock)
    | _ => s.close t s.world k (.error .attributeError)
  | .waiting a b k l =>
    if s.world.held l then
      if a.failOnLock then s.close t s.world k (.error .lockObtain) else s
    else s.goto t (acquire l s.world).2 (.inside a b k l (b.prog [] []))
  | .inside a b k l (.act x f) => s.goto t (x s.world).2 (.inside a b k l (f (x s.world).1))
  | .inside a b k l (.ret r) =>
    match release l s.world, r with
    | (.error e, w), _ => s.close t w k (.error e)
    | (.ok _, w), .error e => s.close t w k (.error e)
    | (.ok _, w), .ok log =>
      { s.goto t w (if a.cleanup then .leaving k log (cRemove a.path) else .idle (k (.ok log))) with
        left := s.left ++ [(t, b, log)], outs := if a.cleanup then s.outs else s.outs ++ [(t, .ok log)] }
  | .leaving k log (.act x f) => s.goto t (x s.world).2 (.leaving k log (f (x s.world).1))
  | .leaving k log (.ret (.ok _)) => s.close t s.world k (.ok log)
  | .leaving k _ (.ret (.error e)) => s.close t s.world k (.error e)

/-- the threads take turns as in `sched` -/
def Hall.run (s : Hall) (sched : List Nat) : Hall := sched.foldl Hall.step s

/-- the threads at their beginning -/
def Hall.start (w : World) (tasks : Nat → Task) : Hall := ⟨w, fun t => .idle (tasks t), [], []⟩

/-- a statement a task may come to -/
inductive Task.Has (a : Lock.Args) (b : Script) : Task → Prop
  | here {k : Except PyErr Log → Task} : Has a b (.locked a b k)
  | later {a' : Lock.Args} {b' : Script} {k : Except PyErr Log → Task} (r : Except PyErr Log) : Has a b (k r) → Has a b (.locked a' b' k)

end Verif.Conc
