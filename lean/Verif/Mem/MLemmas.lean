import Verif.Mem.Api
/-! # Evaluating computations -/
namespace Verif.Mem
open M

@[simp] theorem pure_apply {α : Type} (a : α) (w : World) : (pure a : M α) w = (.ok a, w) := rfl
@[simp] theorem ret_apply {α : Type} (a : α) (w : World) : (M.ret a) w = (.ok a, w) := rfl
@[simp] theorem raise_apply {α : Type} (e : PyErr) (w : World) : (raise e : M α) w = (.error e, w) := rfl
@[simp] theorem query_apply {α : Type} (f : World → Except PyErr α) (w : World) : (query f) w = (f w, w) := rfl
@[simp] theorem lift_apply {α : Type} (x : Except PyErr α) (w : World) : (lift x) w = (x, w) := rfl

theorem bind_apply {α β : Type} (m : M α) (f : α → M β) (w : World) :
    (m >>= f) w = match m w with
      | (.ok a, w') => f a w'
      | (.error e, w') => (.error e, w') := rfl

theorem bind_ok {α β : Type} {m : M α} {f : α → M β} {w w' : World} {a : α} (h : m w = (.ok a, w')) :
    (m >>= f) w = f a w' := by rw [bind_apply, h]

theorem bind_error {α β : Type} {m : M α} {f : α → M β} {w w' : World} {e : PyErr} (h : m w = (.error e, w')) :
    (m >>= f) w = (.error e, w') := by rw [bind_apply, h]

theorem ite_apply' {α : Type} (c : Prop) [Decidable c] (a b : M α) (w : World) :
    (if c then a else b) w = if c then a w else b w := by split <;> rfl

theorem bind_inv {α β : Type} {m : M α} {f : α → M β} {w w' : World} {b : β} (h : (m >>= f) w = (.ok b, w')) :
    ∃ a w1, m w = (.ok a, w1) ∧ f a w1 = (.ok b, w') := by
  rw [bind_apply] at h
  cases hm : m w with
  | mk x w1 =>
    rw [hm] at h
    cases x with
    | error e => simp at h
    | ok a => exact ⟨a, w1, rfl, h⟩

instance : LawfulMonad M := LawfulMonad.mk' M
  (id_map := by
    intro α x; funext w; show (bnd x (fun a => M.ret a)) w = x w
    simp only [bnd]; cases h : x w with | mk r w' => cases r <;> rfl)
  (pure_bind := by intro α β x f; rfl)
  (bind_assoc := by
    intro α β γ x f g; funext w; show (bnd (bnd x f) g) w = (bnd x fun a => bnd (f a) g) w
    simp only [bnd]; cases h : x w with | mk r w' => cases r <;> rfl)

theorem bind_query {α β : Type} {f : World → Except PyErr α} {k : α → M β} {w : World} {a : α} (h : f w = .ok a) :
    (M.query f >>= k) w = k a w := by
  rw [bind_ok (by rw [query_apply, h])]

theorem bind_lift {α β : Type} {x : Except PyErr α} {k : α → M β} {w : World} {a : α} (h : x = .ok a) :
    (M.lift x >>= k) w = k a w := by
  rw [bind_ok (by rw [lift_apply, h])]

end Verif.Mem
