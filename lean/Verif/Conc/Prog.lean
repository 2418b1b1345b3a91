import Verif.Mem.MLemmas
/-!
# Python code as a sequence of atomic accesses to shared objects

Under the interpreter lock a single operation on a dictionary, an attribute or a BytesIO is atomic; between two of them any
other thread may run.
-/
namespace Verif.Conc
open Mem Mem.M

/-- The rest of a computation: finished, or one atomic access followed by what depends on its outcome. -/
inductive Prog (α : Type) : Type 1
  | ret (r : Except PyErr α)
  | act {β : Type} (a : M β) (k : Except PyErr β → Prog α)

namespace Prog

/-- go on with the result or the exception -/
def after {α β : Type} : Prog α → (Except PyErr α → Prog β) → Prog β
  | .ret r, f => f r
  | .act a k, f => .act a fun r => (k r).after f

/-- sequencing: an exception stops the rest -/
def next {α β : Type} (f : α → Prog β) : Except PyErr α → Prog β
  | .ok a => f a
  | .error e => .ret (.error e)

instance : Monad Prog where
  pure a := .ret (.ok a)
  bind p f := p.after (next f)

/-- one atomic access -/
def call {α : Type} (a : M α) : Prog α := .act a .ret

/-- `raise e` -/
def raise {α : Type} (e : PyErr) : Prog α := .ret (.error e)

/-- something that does not look at shared objects -/
def lift {α : Type} (x : Except PyErr α) : Prog α := .ret x

/-- the computation without interruption -/
def run {α : Type} : Prog α → M α
  | .ret r => fun w => (r, w)
  | .act a k => fun w => (k (a w).1).run (a w).2

theorem run_after {α β : Type} (p : Prog α) (f : Except PyErr α → Prog β) (w : World) :
    (p.after f).run w = (f (p.run w).1).run (p.run w).2 := by
  induction p generalizing w with
  | ret r => rfl
  | act a k ih => exact ih (a w).1 (a w).2

theorem run_bind {α β : Type} (p : Prog α) (f : α → Prog β) : (p >>= f).run = p.run >>= fun a => (f a).run := by
  funext w
  show (p.after (next f)).run w = _
  rw [run_after, bind_apply]
  rcases p.run w with ⟨r, w'⟩
  cases r <;> rfl

theorem run_pure {α : Type} (a : α) : (pure a : Prog α).run = pure a := rfl
theorem run_call {α : Type} (a : M α) : (call a).run = a := rfl
theorem run_raise {α : Type} (e : PyErr) : (raise e : Prog α).run = M.raise e := rfl
theorem run_lift {α : Type} (x : Except PyErr α) : (lift x).run = M.lift x := rfl
theorem run_ite {α : Type} (c : Prop) [Decidable c] (p q : Prog α) : (if c then p else q).run = if c then p.run else q.run := by
  split <;> rfl

end Prog

end Verif.Conc
