import Verif.Lock.Several
import Verif.Lock.Lemmas
import Verif.Props.Lock
import Mathlib.Logic.Relation
import Mathlib.Data.Fintype.Pigeonhole
/-!
# C119 Locks inside each other
-/
namespace Verif.Props
open Mem Mem.M Spec Lock

/-- no two statements have the same lock, and the locks they have are held; the locks that are held are theirs -/
structure Kept (s : Crowd) : Prop where
  held : ∀ t l, (s.th t).Has l → s.w.held l = true
  owner : ∀ l, s.w.held l = true → ∃ t, (s.th t).Has l
  apart : ∀ t t' l, (s.th t).Has l → (s.th t').Has l → t = t'
  once : ∀ t, ((s.th t).stack.map (·.lock)).Nodup

theorem has_goto {s : Crowd} {t i : Nat} {w : World} {x : Thread} {l : LockId} :
    ((s.goto t w x).th i).Has l ↔ if i = t then x.Has l else (s.th i).Has l := by
  unfold Crowd.goto
  dsimp only
  split <;> rfl

theorem Kept.same {s : Crowd} (h : Kept s) {t : Nat} {w : World} {x : At} (hw : w.held = s.w.held) : Kept (s.goto t w ⟨x, (s.th t).stack⟩) := by
  have e : ∀ i l, ((s.goto t w ⟨x, (s.th t).stack⟩).th i).Has l ↔ (s.th i).Has l := by
    intro i l
    rw [has_goto]
    split
    · rename_i hi; rw [hi]; rfl
    · rfl
  refine ⟨fun i l hl => ?_, fun l hl => ?_, fun i j l hi hj => ?_, fun i => ?_⟩
  · rw [e] at hl; exact (congrFun hw l).trans (h.held i l hl)
  · obtain ⟨i, hi⟩ := h.owner l ((congrFun hw l).symm.trans hl)
    exact ⟨i, (e i l).2 hi⟩
  · rw [e] at hi hj; exact h.apart i j l hi hj
  · unfold Crowd.goto
    dsimp only
    split
    · exact h.once t
    · exact h.once i

/-- taking a lock that nobody has -/
theorem Kept.take {s : Crowd} (h : Kept s) {t : Nat} {x : At} {f : Frame} (hf : s.w.held f.lock = false) :
    Kept (s.goto t (acquire f.lock s.w).2 ⟨x, f :: (s.th t).stack⟩) := by
  have hw : (acquire f.lock s.w).2.held = fun k => if k = f.lock then true else s.w.held k := by
    unfold acquire; rw [if_neg (by rw [hf]; simp)]
  have e : ∀ i l, ((s.goto t (acquire f.lock s.w).2 ⟨x, f :: (s.th t).stack⟩).th i).Has l ↔ (s.th i).Has l ∨ (i = t ∧ l = f.lock) := by
    intro i l
    rw [has_goto]
    split
    · rename_i hi
      subst hi
      unfold Thread.Has
      simp only [List.mem_cons, exists_eq_or_imp, true_and]
      rw [or_comm, eq_comm]
    · rename_i hi; simp [hi]
  refine ⟨fun i l hl => ?_, fun l hl => ?_, fun i j l hi hj => ?_, fun i => ?_⟩
  · show (acquire f.lock s.w).2.held l = true
    rw [hw]
    dsimp only
    split
    · rfl
    · rename_i hne
      rcases (e i l).1 hl with hl | ⟨-, rfl⟩
      · exact h.held i l hl
      · exact absurd rfl hne
  · change (acquire f.lock s.w).2.held l = true at hl
    rw [hw] at hl
    dsimp only at hl
    by_cases c : l = f.lock
    · exact ⟨t, (e t l).2 (.inr ⟨rfl, c⟩)⟩
    · rw [if_neg c] at hl
      obtain ⟨i, hi⟩ := h.owner l hl
      exact ⟨i, (e i l).2 (.inl hi)⟩
  · rcases (e i l).1 hi with hi | ⟨hi, hl⟩ <;> rcases (e j l).1 hj with hj | ⟨hj, hl'⟩
    · exact h.apart i j l hi hj
    · rw [← hl', h.held i l hi] at hf; cases hf
    · rw [← hl, h.held j l hj] at hf; cases hf
    · rw [hi, hj]
  · unfold Crowd.goto
    dsimp only
    split
    · refine List.nodup_cons.2 ⟨fun hm => ?_, h.once t⟩
      obtain ⟨g, g1, g2⟩ := List.mem_map.1 hm
      rw [h.held t f.lock ⟨g, g1, g2⟩] at hf; cases hf
    · exact h.once i

/-- giving back the innermost lock -/
theorem Kept.give {s : Crowd} (h : Kept s) {t : Nat} {f : Frame} {st : List Frame} (hs : (s.th t).stack = f :: st) (r : Option PyErr) :
    Kept (s.leave t f st r) ∧ release f.lock s.w = (.ok (), { s.w with held := fun k => if k = f.lock then false else s.w.held k }) := by
  have hh : s.w.held f.lock = true := h.held t _ ⟨f, by rw [hs]; simp, rfl⟩
  have hw : release f.lock s.w = (.ok (), { s.w with held := fun k => if k = f.lock then false else s.w.held k }) := by
    unfold release; rw [if_pos hh]
  refine ⟨?_, hw⟩
  unfold Crowd.leave
  rw [hw]
  dsimp only
  generalize (if f.args.cleanup = true then At.removing f.args r f.k else At.runs (f.k r)) = x
  have hn := h.once t
  rw [hs, List.map_cons, List.nodup_cons] at hn
  have e : ∀ i l, ((s.goto t { s.w with held := fun k => if k = f.lock then false else s.w.held k } ⟨x, st⟩).th i).Has l ↔
      (s.th i).Has l ∧ l ≠ f.lock := by
    intro i l
    rw [has_goto]
    split
    · rename_i hi
      subst hi
      constructor
      · rintro ⟨g, g1, rfl⟩
        exact ⟨⟨g, by rw [hs]; simp [g1], rfl⟩, fun c => hn.1 (c ▸ List.mem_map_of_mem g1)⟩
      · rintro ⟨⟨g, g1, rfl⟩, hne⟩
        rw [hs] at g1
        rcases List.mem_cons.1 g1 with rfl | g1
        · exact absurd rfl hne
        · exact ⟨g, g1, rfl⟩
    · rename_i hi
      refine ⟨fun hl => ⟨hl, ?_⟩, fun hl => hl.1⟩
      rintro rfl
      exact hi (h.apart i t _ hl ⟨f, by rw [hs]; simp, rfl⟩)
  refine ⟨fun i l hl => ?_, fun l hl => ?_, fun i j l hi hj => ?_, fun i => ?_⟩
  · obtain ⟨h1, h2⟩ := (e i l).1 hl
    show (if l = f.lock then false else s.w.held l) = true
    rw [if_neg h2]; exact h.held i l h1
  · change (if l = f.lock then false else s.w.held l) = true at hl
    split at hl
    · cases hl
    · rename_i hne
      obtain ⟨i, hi⟩ := h.owner l hl
      exact ⟨i, (e i l).2 ⟨hi, hne⟩⟩
  · exact h.apart i j l ((e i l).1 hi).1 ((e j l).1 hj).1
  · unfold Crowd.goto
    dsimp only
    split
    · exact hn.2
    · exact h.once i

theorem Kept.step {s s' : Crowd} (h : Kept s) {t : Nat} (e : s.step t = some s') : Kept s' := by
  unfold Crowd.step at e
  split at e
  · cases e
  · cases e
  · rename_i f st h1 h2; cases e; exact (h.give h2 _).1
  · rename_i e' f st h1 h2; cases e; exact (h.give h2 _).1
  · rename_i o ho k h1; cases e; exact h.same (o.calm ho s.w).1
  · rename_i a b k h1
    have hC : Calm (withConn a.path .lock fun r => open_ r a.path (some cl!"w")) := .withConn fun r => calm_open r a.path _
    have hc := (hC s.w).1
    split at e <;> rename_i h2 <;> rw [h2] at hc <;> cases e <;> exact h.same hc
  · split at e <;> cases e <;> exact h.same rfl
  · split at e
    · split at e
      · cases e; exact h.same rfl
      · cases e
    · rename_i hf; cases e; exact h.take (f := ⟨_, _, _⟩) (by simpa using hf)
  · rename_i a r k h1
    have hc := (Gen.calm_uRemove 0 a.path false s.w).1
    split at e <;> rename_i h2 <;> rw [h2] at hc <;> cases e <;> exact h.same hc

theorem Kept.next {s : Crowd} (h : Kept s) (t : Nat) : Kept ((s.step t).getD s) := by
  cases e : s.step t with
  | none => exact h
  | some s' => exact h.step e

theorem kept_start {w : World} (hw : ∀ l, w.held l = false) (plans : Nat → Plan) : Kept (.start w plans) :=
  ⟨fun t l ⟨f, hf, _⟩ => by simp [Crowd.start] at hf, fun l hl => by simp [Crowd.start, hw] at hl, fun t t' l ⟨f, hf, _⟩ => by simp [Crowd.start] at hf,
    fun t => by simp [Crowd.start]⟩

theorem kept_run {s : Crowd} (h : Kept s) (l : List Nat) : Kept (s.run l) := by
  induction l generalizing s with
  | nil => exact h
  | cons t l ih => exact ih (h.next t)

theorem kept_till {s : Crowd} (h : Kept s) (σ : Nat → Nat) (n : Nat) : Kept (s.till σ n) := by
  induction n with
  | zero => exact h
  | succ n ih => exact ih.next _

/-! ## Who has a lock -/

/-- In every interleaving of any number of threads, with statements inside each other in any way: the locks that are held are those of
    the statements that threads are in, and no two of these, of one thread or of two, have the same lock. -/
theorem C119_locks {w : World} (hw : ∀ l, w.held l = false) (plans : Nat → Plan) (sched : List Nat) :
    let s := (Crowd.start w plans).run sched
    (∀ l, s.w.held l = true ↔ ∃ t, (s.th t).Has l) ∧ (∀ t t' l, (s.th t).Has l → (s.th t').Has l → t = t') ∧
    ∀ t, ((s.th t).stack.map (·.lock)).Nodup :=
  have h := kept_run (kept_start hw plans) sched
  ⟨fun l => ⟨h.owner l, fun ⟨t, ht⟩ => h.held t l ht⟩, h.apart, h.once⟩

/-- A thread makes its next step, unless it is over, or waits for a lock that is held. -/
theorem C119_step (s : Crowd) (t : Nat) : s.step t = none ↔ (s.th t).Over ∨ ∃ l, (s.th t).Wants l ∧ s.w.held l = true := by
  unfold Crowd.step Thread.Over Thread.Wants
  cases hh : (s.th t).here with
  | runs p =>
    cases hst : (s.th t).stack with
    | nil =>
      cases p with
      | done => simp
      | raise e => simp
      | call o ho k => simp
      | locked a b k => dsimp only; split <;> simp
    | cons f st =>
      cases p with
      | done => simp
      | raise e => simp
      | call o ho k => simp
      | locked a b k => dsimp only; split <;> simp
  | opened a h b k => dsimp only; split <;> simp
  | waiting a h l b k =>
    dsimp only
    by_cases c : s.w.held l = true
    · by_cases c' : a.failOnLock = true
      · simp [c, c']
      · simp only [c, c', if_true, if_false, Bool.false_eq_true, true_iff]
        exact .inr ⟨l, ⟨a, h, b, k, rfl, by simpa using c'⟩, c⟩
    · simp only [c, if_false, Bool.false_eq_true, reduceCtorEq, false_iff]
      rintro (⟨-, h | ⟨-, h⟩⟩ | ⟨l', ⟨a', h', b', k', h1, h2⟩, h3⟩)
      · cases h
      · cases h
      · cases h1; exact c h3
  | removing a r k => dsimp only; split <;> simp

/-! ## Threads that wait for each other -/

/-- thread `t` waits for a lock that thread `t'` has -/
def Blocks (s : Crowd) (t t' : Nat) : Prop := ∃ l, (s.th t).Wants l ∧ (s.th t').Has l

theorem cycle_of_next {α : Type} [Finite α] {R : α → α → Prop} (f : α → α) (hf : ∀ x, R x (f x)) (x : α) : ∃ y, Relation.TransGen R y y := by
  obtain ⟨i, j, hij, he⟩ := Finite.exists_ne_map_eq_of_infinite (fun n : Nat => f^[n] x)
  have go : ∀ (n : Nat) (y : α), Relation.TransGen R y (f^[n + 1] y) := by
    intro n
    induction n with
    | zero => exact fun y => .single (hf y)
    | succ n ih => exact fun y => .head (hf y) (ih (f y))
  have key : ∀ i j : Nat, i < j → f^[i] x = f^[j] x → ∃ y, Relation.TransGen R y y := by
    intro i j hij he
    obtain ⟨k, rfl⟩ := Nat.exists_eq_add_of_lt hij
    refine ⟨f^[i] x, ?_⟩
    have := go k (f^[i] x)
    rwa [← Function.iterate_add_apply, show k + 1 + i = i + k + 1 by omega, ← he] at this
  rcases Nat.lt_or_gt_of_ne hij with h | h
  · exact key i j h he
  · exact key j i h he.symm

theorem has_busy {x : Thread} {l : LockId} (h : x.Has l) : ¬ x.Over := by
  rintro ⟨h1, -⟩
  obtain ⟨f, hf, -⟩ := h
  rw [h1] at hf; cases hf

theorem stuck_cycle {s : Crowd} (h : Kept s) {N : Nat} (hN : ∀ t, N ≤ t → (s.th t).Over) (hs : ∀ t, s.step t = none) {t : Nat}
    (ht : ¬ (s.th t).Over) : ∃ t, Relation.TransGen (Blocks s) t t := by
  have nx : ∀ x : {t // ¬ (s.th t).Over}, ∃ y : {t // ¬ (s.th t).Over}, Blocks s x.1 y.1 := by
    rintro ⟨x, hx⟩
    obtain ⟨l, h1, h2⟩ := ((C119_step s x).1 (hs x)).resolve_left hx
    obtain ⟨y, hy⟩ := h.owner l h2
    exact ⟨⟨y, has_busy hy⟩, l, h1, hy⟩
  choose f hf using nx
  have : Finite {t // ¬ (s.th t).Over} := by
    refine Finite.of_injective (β := Fin N) (fun x => ⟨x.1, ?_⟩) fun x y e => Subtype.ext (congrArg Fin.val e)
    exact Nat.lt_of_not_le fun c => x.2 (hN _ c)
  obtain ⟨y, hy⟩ := cycle_of_next (R := fun x y => Blocks s x.1 y.1) f hf ⟨t, ht⟩
  exact ⟨y.1, Relation.TransGen.lift (r := fun x y => Blocks s x.1 y.1) (p := Blocks s) Subtype.val (fun _ _ h => h) _ _ hy⟩

/-- who is over stays over -/
theorem Crowd.step_other {s s' : Crowd} {t i : Nat} (e : s.step t = some s') (hi : i ≠ t) : s'.th i = s.th i := by
  have go : ∀ {w x}, (s.goto t w x).th i = s.th i := by intros; simp [Crowd.goto, hi]
  unfold Crowd.step at e
  split at e
  · cases e
  · cases e
  · cases e; unfold Crowd.leave; split <;> exact go
  · cases e; unfold Crowd.leave; split <;> exact go
  · cases e; exact go
  · split at e <;> cases e <;> exact go
  · split at e <;> cases e <;> exact go
  · split at e
    · split at e
      · cases e; exact go
      · cases e
    · cases e; exact go
  · split at e <;> cases e <;> exact go

theorem Crowd.over_next {s : Crowd} {i : Nat} (h : (s.th i).Over) (t : Nat) : (((s.step t).getD s).th i) = s.th i := by
  cases e : s.step t with
  | none => rfl
  | some s' =>
    refine Crowd.step_other e ?_
    rintro rfl
    rw [(C119_step s i).2 (.inl h)] at e; cases e

theorem over_run {s : Crowd} {i : Nat} (h : (s.th i).Over) (l : List Nat) : ((s.run l).th i).Over := by
  induction l generalizing s with
  | nil => exact h
  | cons t l ih => exact ih (by rw [Crowd.over_next h]; exact h)

theorem over_till {s : Crowd} {i : Nat} (h : (s.th i).Over) (σ : Nat → Nat) (n : Nat) : ((s.till σ n).th i).Over := by
  induction n with
  | zero => exact h
  | succ n ih => show ((((s.till σ n).step (σ n)).getD (s.till σ n)).th i).Over; rw [Crowd.over_next ih]; exact ih

theorem over_start {w : World} {plans : Nat → Plan} {N : Nat} (hN : ∀ t, N ≤ t → plans t = .done) {t : Nat} (ht : N ≤ t) :
    ((Crowd.start w plans).th t).Over := ⟨rfl, .inl (by simp [Crowd.start, hN t ht])⟩

/-- If finitely many threads have come to a state where none of them can make a step, and one of them is not over, then there are
    threads that wait for each other in a circle: each waits for a lock that the next one has (or one waits for a lock that it has). -/
theorem C119_circle {w : World} (hw : ∀ l, w.held l = false) {plans : Nat → Plan} {N : Nat} (hN : ∀ t, N ≤ t → plans t = .done)
    (sched : List Nat) :
    let s := (Crowd.start w plans).run sched
    (∀ t, s.step t = none) → (∃ t, ¬ (s.th t).Over) → ∃ t, Relation.TransGen (Blocks s) t t :=
  fun hs ⟨_, ht⟩ => stuck_cycle (kept_run (kept_start hw plans) sched) (fun _ h => over_run (over_start hN h) sched) hs ht

/-- the thread waits for no lock that does not come, in the order, after all those it has -/
def Climbs (rank : LockId → Nat) (x : Thread) : Prop := ∀ l l', x.Wants l → x.Has l' → rank l' < rank l

theorem no_circle {s : Crowd} {rank : LockId → Nat} (hr : ∀ t, Climbs rank (s.th t)) (t : Nat) : ¬ Relation.TransGen (Blocks s) t t := by
  have one : ∀ {x : Thread} {l l' : LockId}, x.Wants l → x.Wants l' → l = l' := by
    rintro x l l' ⟨a, h, b, k, h1, -⟩ ⟨a', h', b', k', h1', -⟩
    rw [h1] at h1'; cases h1'; rfl
  have key : ∀ {x y : Nat}, Relation.TransGen (Blocks s) x y → ∀ l, (s.th x).Wants l → ∀ l', (s.th y).Wants l' → rank l < rank l' := by
    intro x y h
    induction h with
    | single h =>
      obtain ⟨m, h1, h2⟩ := h
      intro l hl l' hl'
      rw [one hl h1]; exact hr _ _ _ hl' h2
    | tail _ h ih =>
      obtain ⟨m, h1, h2⟩ := h
      intro l hl l' hl'
      exact (ih l hl m h1).trans (hr _ _ _ hl' h2)
  intro h
  obtain ⟨l, hl⟩ : ∃ l, (s.th t).Wants l := by
    rcases Relation.TransGen.head'_iff.1 h with ⟨c, ⟨l, h1, -⟩, -⟩
    exact ⟨l, h1⟩
  exact Nat.lt_irrefl _ (key h l hl l hl)

/-- If no thread waits for a lock that does not come, in some order of the locks, after all those it has, then some thread can make a
    step, unless all are over. -/
theorem C119_order {w : World} (hw : ∀ l, w.held l = false) {plans : Nat → Plan} {N : Nat} (hN : ∀ t, N ≤ t → plans t = .done)
    (sched : List Nat) (rank : LockId → Nat) :
    let s := (Crowd.start w plans).run sched
    (∀ t, Climbs rank (s.th t)) → (∃ t, s.step t ≠ none) ∨ ∀ t, (s.th t).Over := by
  intro s hr
  by_cases c : ∃ t, s.step t ≠ none
  · exact .inl c
  · refine .inr fun t => Classical.byContradiction fun ht => ?_
    obtain ⟨x, hx⟩ := C119_circle hw hN sched (fun t => Classical.byContradiction fun h => c ⟨t, h⟩) ⟨t, ht⟩
    exact no_circle hr x hx

/-! ## They come to their end -/

/-- where a thread may be after its next step -/
inductive Thread.Next : Thread → Thread → Prop
  | leave {p f st r} : Next ⟨.runs (f.k r), st⟩ ⟨.runs p, f :: st⟩
  | cleanup {p f st r} : Next ⟨.removing f.args r f.k, st⟩ ⟨.runs p, f :: st⟩
  | call {o h k w st} : Next ⟨.runs (k w), st⟩ ⟨.runs (.call o h k), st⟩
  | enter {a b k h st} : Next ⟨.opened a h b k, st⟩ ⟨.runs (.locked a b k), st⟩
  | refused {a b k r st} : Next ⟨.runs (k r), st⟩ ⟨.runs (.locked a b k), st⟩
  | found {a h b k l st} : Next ⟨.waiting a h l b k, st⟩ ⟨.opened a h b k, st⟩
  | missed {a h b k r st} : Next ⟨.runs (k r), st⟩ ⟨.opened a h b k, st⟩
  | acquire {a h b k l st} : Next ⟨.runs (b h), ⟨a, l, k⟩ :: st⟩ ⟨.waiting a h l b k, st⟩
  | taken {a h b k l r st} : Next ⟨.runs (k r), st⟩ ⟨.waiting a h l b k, st⟩
  | removed {a r k r' st} : Next ⟨.runs (k r'), st⟩ ⟨.removing a r k, st⟩

/-- what follows the statements comes to its end -/
def Ends : List Frame → Prop
  | [] => True
  | f :: st => ∀ r, Acc Thread.Next ⟨.runs (f.k r), st⟩

theorem acc_removing {a : Args} {r : Option PyErr} {k : Option PyErr → Plan} {st : List Frame} (h : ∀ r, Acc Thread.Next ⟨.runs (k r), st⟩) :
    Acc Thread.Next ⟨.removing a r k, st⟩ := ⟨_, fun _ e => by cases e; exact h _⟩

theorem acc_waits {a : Args} {x : Handle} {l : LockId} {b : Handle → Plan} {k : Option PyErr → Plan} {st : List Frame}
    (h : ∀ r, Acc Thread.Next ⟨.runs (k r), st⟩) (hb : ∀ st, Ends st → Acc Thread.Next ⟨.runs (b x), st⟩) :
    Acc Thread.Next ⟨.waiting a x l b k, st⟩ :=
  ⟨_, fun _ e => by
    cases e with
    | acquire => exact hb _ h
    | taken => exact h _⟩

theorem acc_opens {a : Args} {x : Handle} {b : Handle → Plan} {k : Option PyErr → Plan} {st : List Frame}
    (h : ∀ r, Acc Thread.Next ⟨.runs (k r), st⟩) (hb : ∀ st, Ends st → Acc Thread.Next ⟨.runs (b x), st⟩) :
    Acc Thread.Next ⟨.opened a x b k, st⟩ :=
  ⟨_, fun _ e => by
    cases e with
    | found => exact acc_waits h hb
    | missed => exact h _⟩

theorem acc_runs (p : Plan) : ∀ st, Ends st → Acc Thread.Next ⟨.runs p, st⟩ := by
  induction p with
  | done =>
    refine fun st hs => ⟨_, fun x e => ?_⟩
    cases e with
    | leave => exact hs _
    | cleanup => exact acc_removing hs
  | raise er =>
    refine fun st hs => ⟨_, fun x e => ?_⟩
    cases e with
    | leave => exact hs _
    | cleanup => exact acc_removing hs
  | call o h k ih =>
    refine fun st hs => ⟨_, fun x e => ?_⟩
    cases e with
    | leave => exact hs _
    | cleanup => exact acc_removing hs
    | call => exact ih _ _ hs
  | locked a b k ihb ihk =>
    refine fun st hs => ⟨_, fun x e => ?_⟩
    cases e with
    | leave => exact hs _
    | cleanup => exact acc_removing hs
    | enter => exact acc_opens (fun r => ihk r _ hs) (ihb _)
    | refused => exact ihk _ _ hs

theorem ends_all (st : List Frame) : Ends st := by
  induction st with
  | nil => trivial
  | cons f st ih => exact fun r => acc_runs _ _ ih

/-- a thread makes finitely many steps -/
theorem acc_thread (x : Thread) : Acc Thread.Next x := by
  obtain ⟨x, st⟩ := x
  cases x with
  | runs p => exact acc_runs p st (ends_all st)
  | opened a h b k => exact acc_opens (fun _ => acc_runs _ _ (ends_all _)) fun st h => acc_runs _ _ h
  | waiting a h l b k => exact acc_waits (fun _ => acc_runs _ _ (ends_all _)) fun st h => acc_runs _ _ h
  | removing a r k => exact acc_removing fun _ => acc_runs _ _ (ends_all _)

theorem Crowd.step_next {s s' : Crowd} {t : Nat} (e : s.step t = some s') : Thread.Next (s'.th t) (s.th t) := by
  have go : ∀ {w x y}, s.th t = y → Thread.Next x y → Thread.Next ((s.goto t w x).th t) (s.th t) := by
    intro w x y h1 h2; rw [h1]; simpa [Crowd.goto] using h2
  obtain ⟨x, st, hx⟩ : ∃ x st, s.th t = ⟨x, st⟩ := ⟨_, _, rfl⟩
  have hl : ∀ {p f st r}, s.th t = ⟨.runs p, f :: st⟩ → Thread.Next ((s.leave t f st r).th t) (s.th t) := by
    intro p f st r h
    unfold Crowd.leave
    split
    · refine go h ?_
      split
      · exact .cleanup
      · exact .leave
    · exact go h .leave
  unfold Crowd.step at e
  rw [hx] at e
  dsimp only at e
  split at e
  · cases e
  · cases e
  · cases e; exact hl hx
  · cases e; exact hl hx
  · cases e; exact go hx .call
  · split at e <;> cases e
    · exact go hx .enter
    · exact go hx .refused
  · split at e <;> cases e
    · exact go hx .found
    · exact go hx .missed
  · split at e
    · split at e
      · cases e; exact go hx .taken
      · cases e
    · cases e; exact go hx .acquire
  · split at e <;> cases e <;> exact go hx .removed

/-- one of the first `n` threads makes a step -/
def OneSteps (n : Nat) (p' p : Nat → Thread) : Prop := ∃ t, t < n ∧ Thread.Next (p' t) (p t) ∧ ∀ i, i ≠ t → p' i = p i

theorem acc_crowd (n : Nat) : ∀ p, Acc (OneSteps n) p := by
  induction n with
  | zero => exact fun p => ⟨_, fun _ ⟨t, h, _⟩ => absurd h (by omega)⟩
  | succ n ih =>
    have key : ∀ x, Acc Thread.Next x → ∀ p : Nat → Thread, p n = x → Acc (OneSteps (n + 1)) p := by
      intro x hx
      induction hx with
      | intro x _ ih1 =>
        intro p
        induction ih p with
        | intro p _ ih2 =>
          intro hp
          refine ⟨_, fun p' ⟨t, h1, h2, h3⟩ => ?_⟩
          by_cases ht : t = n
          · subst ht
            exact ih1 _ (hp ▸ h2) p' rfl
          · exact ih2 p' ⟨t, by omega, h2, h3⟩ ((h3 n (Ne.symm ht)).trans hp)
    exact fun p => key _ (acc_thread _) p rfl

theorem till_rests (s : Crowd) (σ : Nat → Nat) {N : Nat} (hN : ∀ t, N ≤ t → (s.th t).Over) :
    ∃ m, ∀ n, m ≤ n → (s.till σ n).step (σ n) = none := by
  suffices ∀ p, Acc (OneSteps N) p → ∀ m, (s.till σ m).th = p → ∃ m, ∀ n, m ≤ n → (s.till σ n).step (σ n) = none from
    this _ (acc_crowd N _) 0 rfl
  intro p hp
  induction hp with
  | intro p _ ih =>
    intro m hm
    by_cases c : ∀ n, m ≤ n → (s.till σ n).step (σ n) = none
    · exact ⟨m, c⟩
    · have c' : ∃ d, (s.till σ (m + d)).step (σ (m + d)) ≠ none := by
        refine Classical.byContradiction fun h => c fun n hn => Classical.byContradiction fun h' => h ⟨n - m, ?_⟩
        rwa [Nat.add_sub_cancel' hn]
      classical
      have hd := Nat.find_spec c'
      have hmin : ∀ e, e < Nat.find c' → (s.till σ (m + e)).step (σ (m + e)) = none :=
        fun e he => Classical.byContradiction (Nat.find_min c' he)
      generalize Nat.find c' = d at hd hmin
      have hsame : ∀ e, e ≤ d → s.till σ (m + e) = s.till σ m := by
        intro e
        induction e with
        | zero => exact fun _ => rfl
        | succ e ih =>
          intro he
          rw [← ih (by omega)]
          show ((s.till σ (m + e)).step (σ (m + e))).getD (s.till σ (m + e)) = _
          rw [hmin e he]; rfl
      cases e : (s.till σ (m + d)).step (σ (m + d)) with
      | none => exact absurd e hd
      | some s' =>
        have h1 : s.till σ (m + d + 1) = s' := by
          show ((s.till σ (m + d)).step (σ (m + d))).getD (s.till σ (m + d)) = s'
          rw [e]; rfl
        refine ih s'.th ⟨σ (m + d), ?_, ?_, ?_⟩ (m + d + 1) (by rw [h1])
        · refine Nat.lt_of_not_le fun hle => ?_
          rw [(C119_step _ _).2 (.inl (over_till (hN _ hle) σ (m + d)))] at e
          cases e
        · rw [← hm, ← hsame d (le_refl _)]; exact Crowd.step_next e
        · intro i hi
          rw [← hm, ← hsame d (le_refl _)]; exact Crowd.step_other e hi

theorem till_const {s : Crowd} {σ : Nat → Nat} {m : Nat} (h : ∀ n, m ≤ n → (s.till σ n).step (σ n) = none) {n : Nat} (hn : m ≤ n) :
    s.till σ n = s.till σ m := by
  induction n, hn using Nat.le_induction with
  | base => rfl
  | succ n hn ih =>
    rw [← ih]
    show ((s.till σ n).step (σ n)).getD (s.till σ n) = _
    rw [h n hn]; rfl

/-- If finitely many threads have plans, each has turns again and again, and no thread ever waits for a lock that does not come, in some
    order of the locks, after all those it has, then the time comes when all threads are over; no lock is held then. -/
theorem C119_end {w : World} (hw : ∀ l, w.held l = false) {plans : Nat → Plan} {N : Nat} (hN : ∀ t, N ≤ t → plans t = .done)
    {σ : Nat → Nat} (hσ : ∀ t, t < N → ∀ m, ∃ n, m ≤ n ∧ σ n = t) {rank : LockId → Nat}
    (hr : ∀ n t, Climbs rank (((Crowd.start w plans).till σ n).th t)) :
    ∃ m, ∀ n, m ≤ n → (∀ t, (((Crowd.start w plans).till σ n).th t).Over) ∧ ∀ l, ((Crowd.start w plans).till σ n).w.held l = false := by
  obtain ⟨m, hm⟩ := till_rests (.start w plans) σ (fun t ht => over_start hN ht)
  refine ⟨m, fun n hn => ?_⟩
  have hk := kept_till (kept_start hw plans) σ n
  have hover : ∀ t, N ≤ t → (((Crowd.start w plans).till σ n).th t).Over := fun t ht => over_till (over_start hN ht) σ n
  have hall : ∀ t, (((Crowd.start w plans).till σ n).th t).Over := by
    have hs : ∀ i, ((Crowd.start w plans).till σ n).step i = none := by
      intro i
      by_cases hi : i < N
      · obtain ⟨n', h1, h2⟩ := hσ i hi m
        have := hm n' h1
        rw [h2, till_const hm h1, ← till_const hm hn] at this
        exact this
      · exact (C119_step _ _).2 (.inl (hover i (by omega)))
    refine fun t => Classical.byContradiction fun ht => ?_
    obtain ⟨x, hx⟩ := stuck_cycle hk hover hs ht
    exact no_circle (hr n) x hx
  refine ⟨hall, fun l => ?_⟩
  cases e : ((Crowd.start w plans).till σ n).w.held l with
  | false => rfl
  | true =>
    obtain ⟨t, ht⟩ := hk.owner l e
    exact absurd (hall t) (has_busy ht)

end Verif.Props
