import Mathlib.Data.Nat.Find
import Verif.Reg.Cleaner
import Verif.Props.RegThreads
/-!
# Lemmas on the cleaner thread and `shutdown`
-/
namespace Verif.Reg.Cleaner
open Threads

/-- a thread inside `cleanup` -/
def cleaning : Pc → Bool
  | .loop _ _ _ | .del _ _ _ _ => true
  | _ => false

theorem act_other {t i : Nat} {a : Act} {s s' : Threads.State} (h : act t a s = some s') (hi : i ≠ t) :
    s'.pc i = s.pc i := by
  unfold act at h
  split at h <;> (try split at h) <;> (try split at h) <;>
    first | (cases h; done) | (cases h; simp [State.goto, hi])

/-- a thread inside `cleanup` can always go on -/
theorem step_cleaning {t : Nat} {s : Threads.State} (h : cleaning (s.pc t) = true) (now : Int) (out : Option PyErr) :
    ∃ s', act t (.step now out) s = some s' ∧
      (cleaning (s'.pc t) = true ∨ s'.pc t = .cleaned ∨ ∃ e, s'.pc t = .crashed e) := by
  cases hp : s.pc t <;> rw [hp] at h <;> simp [cleaning] at h
  · rename_i now' force todo
    cases todo with
    | nil => exact ⟨s.goto t .cleaned, by simp [act, hp], .inr (.inl (goto_same _ _ _))⟩
    | cons e todo =>
      obtain ⟨k, c⟩ := e
      by_cases ho : s.reg.tooOld now' force c = true
      · refine ⟨_, by simp only [act, hp, if_pos ho]; rfl, .inl ?_⟩
        rw [goto_same]; rfl
      · refine ⟨_, by simp only [act, hp, if_neg ho]; rfl, .inl ?_⟩
        rw [goto_same]; rfl
  · rename_i now' force k todo
    cases hd : dictDel s.reg.connections k with
    | none => exact ⟨_, by simp only [act, hp, hd]; rfl, .inr (.inr ⟨_, goto_same _ _ _⟩)⟩
    | some d =>
      refine ⟨_, by simp only [act, hp, hd]; rfl, .inl ?_⟩
      rw [goto_same]; rfl

theorem cleaning_not_free {p : Pc} (h : cleaning p = true) : p.free = false := by
  cases p <;> simp [cleaning, Pc.free] at h ⊢

/-- the two threads are where the registry's threads 0 and 1 are -/
structure Link (s : State) : Prop where
  cl : s.cl = .busy → cleaning (s.s.pc 0) = true
  clF : s.cl ≠ .busy → (s.s.pc 0).free = true
  sd : s.sd = .busy → cleaning (s.s.pc 1) = true
  sdF : s.sd ≠ .busy → (s.s.pc 1).free = true
  run : s.run = false ↔ s.sd ≠ .idle
  ended : s.cl = .ended → s.run = false
  done : s.sd = .done → s.cl.over = true

theorem link_init (schemes : List (Option Str)) (timeout : Int) (junk : Nat → Conn) (interval second : Int) :
    Link (.init schemes timeout junk interval second) := by
  constructor <;> simp [State.init, Threads.State.init, Pc.free]

theorem Link.cleaner {s : State} (h : Link s) (now : Int) (out : Option PyErr) :
    Link ((cleaner now out s).getD s) := by
  unfold Cleaner.cleaner
  split
  · -- top
    rename_i hc
    have hf := h.clF (by rw [hc]; simp)
    simp only [act, hf, if_true, Option.map_some, Option.getD_some]
    refine ⟨fun _ => by simp [State.goto, cleaning], by simp, ?_, ?_, h.run, by simp, ?_⟩
    · intro e; simpa [State.goto] using h.sd e
    · intro e; simpa [State.goto] using h.sdF e
    · intro e; have := h.done e; rw [hc] at this; simp [Cl.over] at this
  · -- busy
    rename_i hc
    obtain ⟨s', e, hs'⟩ := step_cleaning (h.cl hc) now out
    have h1 := act_other e (i := 1) (by decide)
    rw [e]
    simp only [Option.map_some, Option.getD_some]
    have hd : s.sd ≠ .done := by
      intro e; have := h.done e; rw [hc] at this; simp [Cl.over] at this
    refine ⟨?_, ?_, ?_, ?_, h.run, ?_, fun e => absurd e hd⟩
    · rcases hs' with a | a | ⟨e, a⟩
      · exact fun _ => a
      · simp [a]
      · simp [a]
    · rcases hs' with a | a | ⟨e, a⟩
      · intro hne
        exfalso; apply hne
        cases hp : s'.pc 0 <;> rw [hp] at a <;> simp [cleaning] at a
      · simp [a, Pc.free]
      · simp [a, Pc.free]
    · intro e; simp only [h1]; exact h.sd e
    · intro e; simp only [h1]; exact h.sdF e
    · intro e; simp only at e; split at e <;> cases e
  · rename_i hc
    refine ⟨by simp, fun _ => h.clF (by rw [hc]; simp), h.sd, h.sdF, h.run, by simp, fun e => ?_⟩
    have := h.done e; rw [hc] at this; simp [Cl.over] at this
  · rename_i hc
    have hd : s.sd ≠ .done := by
      intro e; have := h.done e; rw [hc] at this; simp [Cl.over] at this
    refine ⟨?_, fun _ => h.clF (by rw [hc]; simp), h.sd, h.sdF, h.run, ?_, fun e => absurd e hd⟩
    · intro e; simp only [Option.getD_some] at e; split at e <;> cases e
    · intro e; simp only [Option.getD_some] at e; split at e <;> cases e
  · rename_i hc
    have hd : s.sd ≠ .done := by
      intro e; have := h.done e; rw [hc] at this; simp [Cl.over] at this
    refine ⟨?_, fun _ => h.clF (by rw [hc]; simp), h.sd, h.sdF, h.run, ?_, fun e => absurd e hd⟩
    · intro e; simp only [Option.getD_some] at e; split at e <;> cases e
    · intro e
      simp only [Option.getD_some] at e ⊢
      split at e
      · cases e
      · rename_i hr; simpa using hr
  · rename_i hc
    split
    · have hd : s.sd ≠ .done := by
        intro e; have := h.done e; rw [hc] at this; simp [Cl.over] at this
      exact ⟨by simp, fun _ => h.clF (by rw [hc]; simp), h.sd, h.sdF, h.run, by simp, fun e => absurd e hd⟩
    · exact h
  · exact h
  · exact h

theorem Link.shutdown {s : State} (h : Link s) (now : Int) (out : Option PyErr) :
    Link ((shutdown now out s).getD s) := by
  unfold Cleaner.shutdown
  split
  · rename_i hc
    exact ⟨h.cl, h.clF, by simp, fun _ => h.sdF (by rw [hc]; simp), by simp, fun _ => rfl, by simp⟩
  · rename_i hc
    have hf := h.sdF (by rw [hc]; simp)
    have hr := h.run.2 (by rw [hc]; simp)
    simp only [act, hf, if_true, Option.map_some, Option.getD_some]
    refine ⟨?_, ?_, fun _ => by simp [State.goto, cleaning], by simp, by simp [hr], fun _ => hr, by simp⟩
    · intro e; simpa [State.goto] using h.cl e
    · intro e; simpa [State.goto] using h.clF e
  · rename_i hc
    obtain ⟨s', e, hs'⟩ := step_cleaning (h.sd hc) now out
    have h1 := act_other e (i := 0) (by decide)
    have hr := h.run.2 (by rw [hc]; simp)
    rw [e]
    simp only [Option.map_some, Option.getD_some]
    refine ⟨?_, ?_, ?_, ?_, ?_, fun _ => hr, ?_⟩
    · intro e; simp only [h1]; exact h.cl e
    · intro e; simp only [h1]; exact h.clF e
    · rcases hs' with a | a | ⟨e, a⟩
      · exact fun _ => a
      · simp [a]
      · simp [a]
    · rcases hs' with a | a | ⟨e, a⟩
      · intro hne
        exfalso; apply hne
        cases hp : s'.pc 1 <;> rw [hp] at a <;> simp [cleaning] at a
      · simp [a, Pc.free]
      · simp [a, Pc.free]
    · simp only [hr, true_iff]; split <;> simp
    · intro e; simp only at e; split at e <;> cases e
  · rename_i hc
    have hr := h.run.2 (by rw [hc]; simp)
    refine ⟨h.cl, h.clF, ?_, fun _ => h.sdF (by rw [hc]; simp), ?_, fun _ => hr, ?_⟩
    · intro e; simp only [Option.getD_some] at e; split at e <;> cases e
    · simp only [Option.getD_some, hr, true_iff]; split <;> simp
    · intro e
      simp only [Option.getD_some] at e ⊢
      split at e
      · assumption
      · cases e
  · rename_i hc
    have hr := h.run.2 (by rw [hc]; simp)
    split
    · rename_i ho
      exact ⟨h.cl, h.clF, by simp, fun _ => h.sdF (by rw [hc]; simp), by simp [hr], fun _ => hr, fun _ => ho⟩
    · exact h
  · exact h
  · exact h

theorem Link.turn {s : State} (h : Link s) (now : Int) (e : Event) : Link (turn now e s) := by
  cases e with
  | cleaner out => exact h.cleaner now out
  | shutdown out => exact h.shutdown now out
  | other t a =>
    simp only [Cleaner.turn]
    split
    · rename_i s' e
      have h0 := act_other e (i := 0) (by omega)
      have h1 := act_other e (i := 1) (by omega)
      exact ⟨fun e => by rw [show _ = _ from h0]; exact h.cl e, fun e => by rw [show _ = _ from h0]; exact h.clF e,
        fun e => by rw [show _ = _ from h1]; exact h.sd e, fun e => by rw [show _ = _ from h1]; exact h.sdF e,
        h.run, h.ended, h.done⟩
    · exact h

theorem Link.run' {s : State} (h : Link s) (σ : Sched) (n : Nat) : Link (Cleaner.run σ s n) := by
  induction n with
  | zero => exact h
  | succ n ih => exact ih.turn _ _

/-- what never changes -/
theorem turn_const (now : Int) (e : Event) (s : State) :
    (turn now e s).interval = s.interval ∧ (turn now e s).second = s.second := by
  cases e with
  | cleaner out =>
    simp only [turn, cleaner]
    split
    · cases act 0 (.cleanup now false) s.s <;> simp
    · cases act 0 (.step now out) s.s <;> simp
    · simp
    · simp
    · simp
    · split <;> simp
    · simp
    · simp
  | shutdown out =>
    simp only [turn, shutdown]
    split
    · simp
    · cases act 1 (.cleanup now true) s.s <;> simp
    · cases act 1 (.step now out) s.s <;> simp
    · simp
    · split <;> simp
    · simp
    · simp
  | other t a => simp only [turn]; split <;> simp

theorem run_const (σ : Sched) (s : State) (n : Nat) :
    (run σ s n).interval = s.interval ∧ (run σ s n).second = s.second := by
  induction n with
  | zero => exact ⟨rfl, rfl⟩
  | succ n ih => exact ⟨(turn_const _ _ _).1.trans ih.1, (turn_const _ _ _).2.trans ih.2⟩

/-- the other threads and `shutdown` do not move the cleaner -/
theorem turn_cl {now : Int} {e : Event} {s : State} (he : ∀ out, e ≠ .cleaner out) :
    (turn now e s).cl = s.cl ∧ (turn now e s).s.pc 0 = s.s.pc 0 := by
  cases e with
  | cleaner out => exact absurd rfl (he out)
  | shutdown out =>
    simp only [turn, shutdown]
    split
    · simp
    · cases h : act 1 (.cleanup now true) s.s with
      | none => simp
      | some s' => simpa using act_other h (i := 0) (by decide)
    · cases h : act 1 (.step now out) s.s with
      | none => simp
      | some s' => simpa using act_other h (i := 0) (by decide)
    · simp
    · split <;> simp
    · simp
    · simp
  | other t a =>
    simp only [turn]
    split
    · rename_i s' h
      exact ⟨rfl, act_other h (i := 0) (by omega)⟩
    · exact ⟨rfl, rfl⟩

/-- the other threads and the cleaner do not move the thread calling `shutdown` -/
theorem turn_sd {now : Int} {e : Event} {s : State} (he : ∀ out, e ≠ .shutdown out) :
    (turn now e s).sd = s.sd ∧ (turn now e s).s.pc 1 = s.s.pc 1 ∧ (turn now e s).run = s.run := by
  cases e with
  | shutdown out => exact absurd rfl (he out)
  | cleaner out =>
    simp only [turn, cleaner]
    split
    · cases h : act 0 (.cleanup now false) s.s with
      | none => simp
      | some s' => simpa using act_other h (i := 1) (by decide)
    · cases h : act 0 (.step now out) s.s with
      | none => simp
      | some s' => simpa using act_other h (i := 1) (by decide)
    · simp
    · simp
    · simp
    · split <;> simp
    · simp
    · simp
  | other t a =>
    simp only [turn]
    split
    · rename_i s' h
      exact ⟨rfl, act_other h (i := 1) (by omega), rfl⟩
    · exact ⟨rfl, rfl, rfl⟩

/-! ## The dictionary while only the cleaner cleans up -/

/-- a turn of a thread that is not cleaning up changes the dictionary only by a store -/
theorem act_calm {t : Nat} {a : Act} {s s' : Threads.State} (h : act t a s = some s')
    (ha : ∀ now f, a ≠ .cleanup now f) (hp : cleaning (s.pc t) = false) :
    cleaning (s'.pc t) = false ∧ (s'.reg.connections = s.reg.connections ∨
      ∃ k c, s.pc t = .store k c ∧ s'.reg.connections = dictSet s.reg.connections k c) := by
  unfold act at h
  split at h
  · split at h
    · split at h <;> cases h <;> exact ⟨by rw [goto_same]; rfl, .inl rfl⟩
    · cases h
  · exact absurd rfl (ha _ _)
  · cases h; exact ⟨by rw [goto_same]; rfl, .inl rfl⟩
  · split at h <;> cases h <;> exact ⟨by rw [goto_same]; rfl, .inl rfl⟩
  · split at h
    · cases h; exact ⟨by rw [goto_same]; rfl, .inl rfl⟩
    · cases h
  · cases h; exact ⟨by rw [goto_same]; rfl, .inl rfl⟩
  · cases h; exact ⟨by rw [goto_same]; rfl, .inl rfl⟩
  · rename_i k c hpc
    cases h
    exact ⟨by rw [goto_same]; rfl, .inr ⟨k, c, hpc, rfl⟩⟩
  · rename_i k e hpc
    cases h
    refine ⟨?_, .inl rfl⟩
    rw [goto_same]
    cases e <;> rfl
  · split at h <;> cases h <;> exact ⟨by rw [goto_same]; rfl, .inl rfl⟩
  · rename_i hpc; rw [hpc] at hp; simp [cleaning] at hp
  · rename_i hpc; rw [hpc] at hp; simp [cleaning] at hp
  · rename_i hpc; rw [hpc] at hp; simp [cleaning] at hp
  · cases h

/-- what a turn does to a connection object that exists: `last_used` changes only by a use, and a connection that
    was closed stays so -/
theorem act_conn {t : Nat} {a : Act} {s s' : Threads.State} (h : act t a s = some s') :
    s'.reg.timeout = s.reg.timeout ∧ s.reg.next ≤ s'.reg.next ∧ ∀ c < s.reg.next,
      (s.reg.conn c).closed ≤ (s'.reg.conn c).closed ∧
      ((∀ now k, a = .use now → s.pc t ≠ .got k c) → (s'.reg.conn c).lastUsed = (s.reg.conn c).lastUsed) := by
  have same : ∀ {x : Threads.State} {p : Pc}, x.reg.conn = s.reg.conn → x.reg.next = s.reg.next →
      x.reg.timeout = s.reg.timeout → (x.goto t p).reg.timeout = s.reg.timeout ∧ s.reg.next ≤ (x.goto t p).reg.next ∧
      ∀ c < s.reg.next, (s.reg.conn c).closed ≤ ((x.goto t p).reg.conn c).closed ∧
      ((∀ now k, a = .use now → s.pc t ≠ .got k c) →
        ((x.goto t p).reg.conn c).lastUsed = (s.reg.conn c).lastUsed) := by
    intro x p h1 h2 h3
    refine ⟨h3, le_of_eq h2.symm, fun c _ => ?_⟩
    simp [State.goto, h1]
  unfold act at h
  split at h
  · split at h
    · split at h <;> cases h <;> exact same rfl rfl rfl
    · cases h
  · split at h
    · cases h; exact same rfl rfl rfl
    · cases h
  · rename_i now k c hpc
    cases h
    refine ⟨rfl, le_refl _, fun i _ => ?_⟩
    by_cases hi : i = c
    · subst hi
      refine ⟨by simp [State.goto, touch], fun hu => absurd hpc (hu now k rfl)⟩
    · simp [State.goto, touch, hi]
  · split at h <;> cases h <;> exact same rfl rfl rfl
  · split at h
    · cases h; exact same rfl rfl rfl
    · cases h
  · cases h
    refine ⟨rfl, Nat.le_succ _, fun i hi => ?_⟩
    simp [State.goto, Registry.make, Nat.ne_of_lt hi]
  · cases h; exact same rfl rfl rfl
  · cases h; exact same rfl rfl rfl
  · cases h; exact same rfl rfl rfl
  · split at h <;> cases h <;> exact same rfl rfl rfl
  · cases h; exact same rfl rfl rfl
  · rename_i out now f k c todo hpc
    split at h
    · cases h
      refine ⟨rfl, le_refl _, fun i _ => ?_⟩
      by_cases hi : i = c
      · subst hi; simp [State.goto, close]
      · simp [State.goto, close, hi]
    · cases h; exact same rfl rfl rfl
  · split at h <;> cases h <;> exact same rfl rfl rfl
  · cases h

/-- What holds of the dictionary as long as only thread 0 cleans up; `R` says that no connection is replaced by
    another one for the same key. -/
structure KInv (R : Prop) (s : Threads.State) : Prop where
  nodup : (s.reg.connections.map Prod.fst).Nodup
  others : ∀ i, i ≠ 0 → cleaning (s.pc i) = false
  loop : ∀ now f todo, s.pc 0 = .loop now f todo → (todo.map Prod.fst).Nodup ∧
    ∀ e ∈ todo, (s.reg.connections.lookup e.1).isSome = true ∧ (R → s.reg.connections.lookup e.1 = some e.2)
  del : ∀ now f k todo, s.pc 0 = .del now f k todo → k ∉ todo.map Prod.fst ∧ (todo.map Prod.fst).Nodup ∧
    ((s.reg.connections.lookup k).isSome = true ∧
      (R → ∃ c, s.reg.connections.lookup k = some c ∧ 1 ≤ (s.reg.conn c).closed)) ∧
    ∀ e ∈ todo, (s.reg.connections.lookup e.1).isSome = true ∧ (R → s.reg.connections.lookup e.1 = some e.2)

theorem kinv_init (R : Prop) (schemes : List (Option Str)) (timeout : Int) (junk : Nat → Conn) :
    KInv R (.init schemes timeout junk) := by
  constructor <;> simp [Threads.State.init, cleaning]

theorem KInv.calm {R : Prop} {s s' : Threads.State} (h : KInv R s) (ht : TInv s) {t : Nat} {a : Act}
    (e : act t a s = some s') (ha : ∀ now f, a ≠ .cleanup now f) (h0 : t ≠ 0)
    (hR : R → ∀ k c, s.pc t = .store k c → s.reg.connections.lookup k = none) : KInv R s' := by
  obtain ⟨h1, h2⟩ := act_calm e ha (h.others t h0)
  have hpc := act_other e (i := 0) (Ne.symm h0)
  have hc := (act_conn e).2.2
  have keep : ∀ k, (s.reg.connections.lookup k).isSome = true → (s'.reg.connections.lookup k).isSome = true ∧
      (R → s'.reg.connections.lookup k = s.reg.connections.lookup k) := by
    intro k hk
    rcases h2 with h2 | ⟨k', c, hs, h2⟩
    · rw [h2]; exact ⟨hk, fun _ => rfl⟩
    · rw [h2, lookup_dictSet]
      by_cases hkk : k = k'
      · rw [if_pos hkk]
        refine ⟨rfl, fun r => ?_⟩
        rw [hkk, hR r _ _ hs] at hk
        simp at hk
      · rw [if_neg hkk]; exact ⟨hk, fun _ => rfl⟩
  refine ⟨?_, ?_, ?_, ?_⟩
  · rcases h2 with h2 | ⟨k, c, -, h2⟩
    · rw [h2]; exact h.nodup
    · rw [h2]; exact nodup_dictSet h.nodup k c
  · intro i hi
    by_cases hit : i = t
    · rw [hit]; exact h1
    · rw [act_other e hit]; exact h.others i hi
  · intro now f todo hp
    rw [hpc] at hp
    obtain ⟨a1, a2⟩ := h.loop _ _ _ hp
    refine ⟨a1, fun x hx => ⟨(keep _ (a2 x hx).1).1, fun r => ?_⟩⟩
    rw [(keep _ (a2 x hx).1).2 r]; exact (a2 x hx).2 r
  · intro now f k todo hp
    rw [hpc] at hp
    obtain ⟨a0, a1, a2, a3⟩ := h.del _ _ _ _ hp
    refine ⟨a0, a1, ⟨(keep _ a2.1).1, fun r => ?_⟩, fun x hx => ⟨(keep _ (a3 x hx).1).1, fun r => ?_⟩⟩
    · obtain ⟨c, b1, b2⟩ := a2.2 r
      refine ⟨c, by rw [(keep _ a2.1).2 r, b1], b2.trans (hc c ?_).1⟩
      exact (ht.dict _ _ (lookup_mem b1)).1
    · rw [(keep _ (a3 x hx).1).2 r]; exact (a3 x hx).2 r

theorem KInv.begin {R : Prop} {s : Threads.State} (h : KInv R s) (now : Int) (f : Bool) :
    KInv R (s.goto 0 (.loop now f s.reg.connections)) := by
  refine ⟨h.nodup, ?_, ?_, ?_⟩
  · intro i hi; rw [goto_other _ _ hi]; exact h.others i hi
  · intro now' f' todo e
    rw [goto_same] at e
    cases e
    refine ⟨h.nodup, ?_⟩
    rintro ⟨k, c⟩ hx
    have := lookup_of_mem h.nodup hx
    show (s.reg.connections.lookup k).isSome = true ∧ (R → s.reg.connections.lookup k = some c)
    rw [this]; exact ⟨rfl, fun _ => rfl⟩
  · intro now' f' k todo e; rw [goto_same] at e; cases e

/-- a step of the cleaner inside `cleanup` does not crash -/
theorem KInv.clean {R : Prop} {s s' : Threads.State} (h : KInv R s) (hc : cleaning (s.pc 0) = true) {now : Int}
    {out : Option PyErr} (e : act 0 (.step now out) s = some s') :
    KInv R s' ∧ (∀ x, s'.pc 0 ≠ .crashed x) ∧
    (s'.reg.connections = s.reg.connections ∨ ∃ now f k todo, s.pc 0 = .del now f k todo ∧
      s'.reg.connections = s.reg.connections.filter fun x => x.1 ≠ k) := by
  have hoth : ∀ i, i ≠ 0 → cleaning (s'.pc i) = false := fun i hi => by
    rw [act_other e hi]; exact h.others i hi
  cases hp : s.pc 0 <;> rw [hp] at hc <;> simp [cleaning] at hc
  · rename_i now' f todo
    obtain ⟨a1, a2⟩ := h.loop _ _ _ hp
    cases todo with
    | nil =>
      simp [act, hp] at e
      subst e
      refine ⟨⟨h.nodup, hoth, ?_, ?_⟩, ?_, .inl rfl⟩ <;> simp [goto_same]
    | cons x todo =>
      obtain ⟨k, c⟩ := x
      simp only [List.map_cons, List.nodup_cons] at a1
      by_cases ho : s.reg.tooOld now' f c = true
      · simp only [act, hp, if_pos ho, Option.some.injEq] at e
        subst e
        refine ⟨⟨h.nodup, hoth, by simp [goto_same], ?_⟩, by simp [goto_same], .inl rfl⟩
        intro now2 f2 k2 todo2 e2
        rw [goto_same] at e2
        cases e2
        refine ⟨a1.1, a1.2, ⟨(a2 (k, c) (List.mem_cons_self ..)).1, fun r => ?_⟩,
          fun x hx => a2 x (List.mem_cons_of_mem _ hx)⟩
        refine ⟨c, (a2 (k, c) (List.mem_cons_self ..)).2 r, ?_⟩
        simp [State.goto, close]
      · simp only [act, hp, if_neg ho, Option.some.injEq] at e
        subst e
        refine ⟨⟨h.nodup, hoth, ?_, by simp [goto_same]⟩, by simp [goto_same], .inl rfl⟩
        intro now2 f2 todo2 e2
        rw [goto_same] at e2
        cases e2
        exact ⟨a1.2, fun x hx => a2 x (List.mem_cons_of_mem _ hx)⟩
  · rename_i now' f k todo
    obtain ⟨a0, a1, a2, a3⟩ := h.del _ _ _ _ hp
    have hd : dictDel s.reg.connections k = some (s.reg.connections.filter fun x => x.1 ≠ k) := by
      rw [dictDel, if_pos a2.1]
    simp only [act, hp, hd, Option.some.injEq] at e
    subst e
    have hn : ((s.reg.connections.filter fun x => x.1 ≠ k).map Prod.fst).Nodup :=
      h.nodup.sublist ((List.filter_sublist).map _)
    refine ⟨⟨hn, hoth, ?_, by simp [goto_same]⟩, by simp [goto_same], .inr ⟨_, _, _, _, rfl, rfl⟩⟩
    intro now2 f2 todo2 e2
    rw [goto_same] at e2
    cases e2
    refine ⟨a1, fun x hx => ?_⟩
    have hne : x.1 ≠ k := by
      rintro rfl
      exact a0 (List.mem_map_of_mem hx)
    have hl : (s.reg.connections.filter fun x => x.1 ≠ k).lookup x.1 = s.reg.connections.lookup x.1 := by
      cases hx2 : s.reg.connections.lookup x.1 with
      | none => have := (a3 x hx).1; rw [hx2] at this; cases this
      | some c =>
        apply lookup_of_mem hn
        rw [List.mem_filter]
        exact ⟨lookup_mem hx2, by simpa using hne⟩
    show ((s.reg.connections.filter fun x => x.1 ≠ k).lookup x.1).isSome = true ∧
      (R → (s.reg.connections.filter fun x => x.1 ≠ k).lookup x.1 = some x.2)
    rw [hl]
    exact a3 x hx

/-! ## A clean-up ends -/

/-- how many steps are left in `cleanup`, at most -/
def left : Pc → Nat
  | .loop _ _ todo => 2 * todo.length
  | .del _ _ _ todo => 2 * todo.length + 1
  | _ => 0

theorem step_left {t : Nat} {s s' : Threads.State} (h : cleaning (s.pc t) = true) {now : Int} {out : Option PyErr}
    (e : act t (.step now out) s = some s') (hc : cleaning (s'.pc t) = true) : left (s'.pc t) < left (s.pc t) := by
  cases hp : s.pc t <;> rw [hp] at h <;> simp [cleaning] at h
  · rename_i now' f todo
    cases todo with
    | nil =>
      simp [act, hp] at e
      subst e
      rw [goto_same] at hc
      simp [cleaning] at hc
    | cons x todo =>
      obtain ⟨k, c⟩ := x
      by_cases ho : s.reg.tooOld now' f c = true
      · simp only [act, hp, if_pos ho, Option.some.injEq] at e
        subst e
        rw [goto_same]
        simp [left]; omega
      · simp only [act, hp, if_neg ho, Option.some.injEq] at e
        subst e
        rw [goto_same]
        simp [left]
  · rename_i now' f k todo
    cases hd : dictDel s.reg.connections k with
    | none =>
      simp only [act, hp, hd, Option.some.injEq] at e
      subst e
      rw [goto_same] at hc
      simp [cleaning] at hc
    | some d =>
      simp only [act, hp, hd, Option.some.injEq] at e
      subst e
      rw [goto_same]
      simp [left]

/-- waiting for a turn, the place of the thread does not change -/
theorem wait_turn {α : Type} {f : Nat → α} {p : Nat → Prop} {n : Nat} (hex : ∃ m, n ≤ m ∧ p m)
    (hkeep : ∀ i, n ≤ i → ¬ p i → f i = f n → f (i + 1) = f n) : ∃ m, n ≤ m ∧ p m ∧ f m = f n := by
  classical
  refine ⟨Nat.find hex, (Nat.find_spec hex).1, (Nat.find_spec hex).2, ?_⟩
  have : ∀ d, n + d ≤ Nat.find hex → f (n + d) = f n := by
    intro d
    induction d with
    | zero => intro _; rfl
    | succ d ih =>
      intro hd
      have h1 : n + d < Nat.find hex := by omega
      have h2 := Nat.find_min hex h1
      rw [← Nat.add_assoc]
      exact hkeep _ (by omega) (fun h => h2 ⟨by omega, h⟩) (ih (by omega))
  obtain ⟨d, hd⟩ : ∃ d, Nat.find hex = n + d := ⟨Nat.find hex - n, by have := (Nat.find_spec hex).1; omega⟩
  rw [hd]
  exact this d (le_of_eq hd.symm)

/-- a thread inside `cleanup` that gets turns again and again comes to its end -/
theorem cleaning_ends {S : Nat → Threads.State} {t : Nat} {B turn : Nat → Prop}
    (hfair : ∀ n, ∃ m, n ≤ m ∧ turn m) (hB : ∀ n, B n → cleaning ((S n).pc t) = true)
    (hstep : ∀ n, B n → turn n → ∃ now out, act t (.step now out) (S n) = some (S (n + 1)) ∧
      (cleaning ((S (n + 1)).pc t) = true → B (n + 1)))
    (hstay : ∀ n, B n → ¬ turn n → B (n + 1) ∧ (S (n + 1)).pc t = (S n).pc t) :
    ∀ n, B n → ∃ m, n ≤ m ∧ B m ∧ turn m ∧ cleaning ((S (m + 1)).pc t) = false := by
  have key : ∀ k n, left ((S n).pc t) ≤ k → B n → ∃ m, n ≤ m ∧ B m ∧ turn m ∧ cleaning ((S (m + 1)).pc t) = false := by
    intro k
    induction k with
    | zero =>
      intro n hn hb
      obtain ⟨m, h1, h2, h3⟩ := wait_turn (f := fun i => ((S i).pc t, B i)) (hfair n) (by
        intro i _ hi e
        simp only [Prod.mk.injEq] at e ⊢
        have hbi : B i := by rw [e.2]; exact hb
        obtain ⟨a1, a2⟩ := hstay i hbi hi
        exact ⟨a2.trans e.1, propext ⟨fun _ => hb, fun _ => a1⟩⟩)
      simp only [Prod.mk.injEq] at h3
      have hbm : B m := by rw [h3.2]; exact hb
      refine ⟨m, h1, hbm, h2, ?_⟩
      obtain ⟨now, out, e, hc⟩ := hstep m hbm h2
      cases hcl : cleaning ((S (m + 1)).pc t) with
      | false => rfl
      | true =>
        have := step_left (hB m hbm) e hcl
        rw [h3.1] at this
        omega
    | succ k ih =>
      intro n hn hb
      obtain ⟨m, h1, h2, h3⟩ := wait_turn (f := fun i => ((S i).pc t, B i)) (hfair n) (by
        intro i _ hi e
        simp only [Prod.mk.injEq] at e ⊢
        have hbi : B i := by rw [e.2]; exact hb
        obtain ⟨a1, a2⟩ := hstay i hbi hi
        exact ⟨a2.trans e.1, propext ⟨fun _ => hb, fun _ => a1⟩⟩)
      simp only [Prod.mk.injEq] at h3
      have hbm : B m := by rw [h3.2]; exact hb
      obtain ⟨now, out, e, hc⟩ := hstep m hbm h2
      cases hcl : cleaning ((S (m + 1)).pc t) with
      | false => exact ⟨m, h1, hbm, h2, hcl⟩
      | true =>
        have := step_left (hB m hbm) e hcl
        rw [h3.1] at this
        obtain ⟨m', a1, a2⟩ := ih (m + 1) (by omega) (hc hcl)
        exact ⟨m', by omega, a2⟩
  intro n hb
  exact key _ n (le_refl _) hb

/-- `cleanup` raises nothing but KeyError -/
theorem step_crash {t : Nat} {s s' : Threads.State} (h : cleaning (s.pc t) = true) {now : Int} {out : Option PyErr}
    (e : act t (.step now out) s = some s') {x : PyErr} (hx : s'.pc t = .crashed x) : x = .keyError := by
  cases hp : s.pc t <;> rw [hp] at h <;> simp [cleaning] at h
  · rename_i now' f todo
    cases todo with
    | nil =>
      simp [act, hp] at e
      subst e
      rw [goto_same] at hx; cases hx
    | cons y todo =>
      obtain ⟨k, c⟩ := y
      by_cases ho : s.reg.tooOld now' f c = true
      · simp only [act, hp, if_pos ho, Option.some.injEq] at e
        subst e
        rw [goto_same] at hx; cases hx
      · simp only [act, hp, if_neg ho, Option.some.injEq] at e
        subst e
        rw [goto_same] at hx; cases hx
  · rename_i now' f k todo
    cases hd : dictDel s.reg.connections k with
    | none =>
      simp only [act, hp, hd, Option.some.injEq] at e
      subst e
      rw [goto_same] at hx; cases hx; rfl
    | some d =>
      simp only [act, hp, hd, Option.some.injEq] at e
      subst e
      rw [goto_same] at hx; cases hx

end Verif.Reg.Cleaner
