import Mathlib.Order.Monotone.Defs
import Mathlib.Tactic.Linarith
import Verif.Reg.CleanerLemmas
/-!
# C106–C108: the cleaner thread and `shutdown`
-/
namespace Verif.Reg.Cleaner
open Threads

/-- the cleaner has the `n`th turn -/
def Sched.cleans (σ : Sched) (n : Nat) : Prop := ∃ out, (σ n).2 = .cleaner out

/-- the thread calling `shutdown` has the `n`th turn -/
def Sched.shuts (σ : Sched) (n : Nat) : Prop := ∃ out, (σ n).2 = .shutdown out

/-- the clock never goes back -/
def Sched.Clock (σ : Sched) : Prop := Monotone fun n => (σ n).1

section
variable {schemes : List (Option Str)} {timeout : Int} {junk : Nat → Conn} {interval second : Int} {σ : Sched}

theorem link (σ : Sched) (n : Nat) : Link (run σ (.init schemes timeout junk interval second) n) :=
  (link_init _ _ _ _ _).run' σ n

theorem run_cleans {n : Nat} {out : Option PyErr} (h : (σ n).2 = .cleaner out) (s : State) :
    run σ s (n + 1) = (cleaner (σ n).1 out (run σ s n)).getD (run σ s n) := by
  simp only [run, turn, h]

theorem run_shuts {n : Nat} {out : Option PyErr} (h : (σ n).2 = .shutdown out) (s : State) :
    run σ s (n + 1) = (shutdown (σ n).1 out (run σ s n)).getD (run σ s n) := by
  simp only [run, turn, h]

theorem run_stays {n : Nat} (h : ¬ σ.cleans n) (s : State) :
    (run σ s (n + 1)).cl = (run σ s n).cl ∧ (run σ s (n + 1)).s.pc 0 = (run σ s n).s.pc 0 :=
  turn_cl fun out e => h ⟨out, e⟩

theorem run_stays' {n : Nat} (h : ¬ σ.shuts n) (s : State) :
    (run σ s (n + 1)).sd = (run σ s n).sd ∧ (run σ s (n + 1)).s.pc 1 = (run σ s n).s.pc 1 ∧
      (run σ s (n + 1)).run = (run σ s n).run :=
  turn_sd fun out e => h ⟨out, e⟩

/-- what a turn of the cleaner does to its place -/
theorem cleans_cl {s : State} (hl : Link s) (now : Int) (out : Option PyErr) :
    (s.cl = .top → ((cleaner now out s).getD s).cl = .busy) ∧
    (s.cl = .busy → ((cleaner now out s).getD s).cl = .busy ∨ ((cleaner now out s).getD s).cl = .stamp ∨
      ∃ e, ((cleaner now out s).getD s).cl = .dead e) ∧
    (s.cl = .stamp → ((cleaner now out s).getD s).cl = .test true now) ∧
    (∀ b t0, s.cl = .test b t0 →
      ((cleaner now out s).getD s).cl = if now - t0 < s.interval then .flag t0 else .top) ∧
    (∀ t0, s.cl = .flag t0 →
      ((cleaner now out s).getD s).cl = if s.run then .sleep t0 (now + s.second) else .ended) ∧
    (∀ t0 till, s.cl = .sleep t0 till →
      ((cleaner now out s).getD s).cl = if till ≤ now then .test false t0 else .sleep t0 till) ∧
    (s.cl = .ended → ((cleaner now out s).getD s).cl = .ended) ∧
    (∀ e, s.cl = .dead e → ((cleaner now out s).getD s).cl = .dead e) := by
  refine ⟨?_, ?_, ?_, ?_, ?_, ?_, ?_, ?_⟩
  · intro hc
    have hf := hl.clF (by rw [hc]; simp)
    simp [cleaner, hc, act, hf]
  · intro hc
    obtain ⟨s', e, hs'⟩ := step_cleaning (hl.cl hc) now out
    simp only [cleaner, hc, e, Option.map_some, Option.getD_some]
    rcases hs' with a | a | ⟨e, a⟩
    · left
      cases hp : s'.pc 0 <;> rw [hp] at a <;> simp [cleaning] at a
    · simp [a]
    · simp [a]
  · intro hc; simp [cleaner, hc]
  · intro b t0 hc; simp [cleaner, hc]
  · intro t0 hc; simp [cleaner, hc]
  · intro t0 till hc
    simp only [cleaner, hc]
    split
    · rfl
    · exact hc
  · intro hc; simp [cleaner, hc]
  · intro e hc; simp [cleaner, hc]

/-- C106: at least `clean_interval` passes between the beginnings of two clean-ups of the cleaner thread,
    whatever the other threads do. -/
theorem C106_interval (hτ : σ.Clock) {i j : Nat} (hij : i < j) (hi : σ.cleans i) (hj : σ.cleans j)
    (hci : (run σ (.init schemes timeout junk interval second) i).cl = .top)
    (hcj : (run σ (.init schemes timeout junk interval second) j).cl = .top) :
    (σ i).1 + interval ≤ (σ j).1 := by
  have key : ∀ d, (let s := run σ (.init schemes timeout junk interval second) (i + 1 + d)
      (s.cl = .busy ∨ s.cl = .stamp ∨ s.cl.over = true) ∨
      (∃ t0, (σ i).1 ≤ t0 ∧ ((∃ b, s.cl = .test b t0) ∨ s.cl = .flag t0 ∨ ∃ till, s.cl = .sleep t0 till)) ∨
      (s.cl = .top ∧ ∃ m, m < i + 1 + d ∧ (σ i).1 + interval ≤ (σ m).1)) := by
    intro d
    induction d with
    | zero =>
      obtain ⟨out, ho⟩ := hi
      left; left
      rw [Nat.add_zero, run_cleans ho]
      exact (cleans_cl (link σ i) _ _).1 hci
    | succ d ih =>
      rw [← Nat.add_assoc]
      by_cases hc : σ.cleans (i + 1 + d)
      · obtain ⟨out, ho⟩ := hc
        have hl := link (schemes := schemes) (timeout := timeout) (junk := junk) (interval := interval)
          (second := second) σ (i + 1 + d)
        have hs := run_cleans ho (.init schemes timeout junk interval second)
        have hint := (run_const σ (.init schemes timeout junk interval second) (i + 1 + d)).1
        obtain ⟨c1, c2, c3, c4, c5, c6, c7, c8⟩ := cleans_cl hl (σ (i + 1 + d)).1 out
        have hm : (σ i).1 ≤ (σ (i + 1 + d)).1 := hτ (by omega)
        simp only
        rw [hs]
        rcases ih with (a | a | a) | ⟨t0, h0, ⟨b, a⟩ | a | ⟨till, a⟩⟩ | ⟨a, -⟩
        · rcases c2 a with b | b | ⟨e, b⟩
          · exact .inl (.inl b)
          · exact .inl (.inr (.inl b))
          · exact .inl (.inr (.inr (by rw [b]; rfl)))
        · exact .inr (.inl ⟨_, hm, .inl ⟨_, c3 a⟩⟩)
        · cases hc : (run σ (.init schemes timeout junk interval second) (i + 1 + d)).cl <;> rw [hc] at a <;>
            simp [Cl.over] at a
          · exact .inl (.inr (.inr (by rw [c7 hc]; rfl)))
          · exact .inl (.inr (.inr (by rw [c8 _ hc]; rfl)))
        · rw [c4 _ _ a]
          split
          · exact .inr (.inl ⟨t0, h0, .inr (.inl rfl)⟩)
          · rename_i hlt
            rw [hint] at hlt
            refine .inr (.inr ⟨rfl, i + 1 + d, by omega, ?_⟩)
            change ¬ _ < interval at hlt
            omega
        · rw [c5 _ a]
          split
          · exact .inr (.inl ⟨t0, h0, .inr (.inr ⟨_, rfl⟩)⟩)
          · exact .inl (.inr (.inr rfl))
        · rw [c6 _ _ a]
          split
          · exact .inr (.inl ⟨t0, h0, .inl ⟨_, rfl⟩⟩)
          · exact .inr (.inl ⟨t0, h0, .inr (.inr ⟨_, rfl⟩)⟩)
        · exact .inl (.inl (c1 a))
      · simp only
        rw [(run_stays hc _).1]
        rcases ih with a | a | ⟨a, m, hm, b⟩
        · exact .inl a
        · exact .inr (.inl a)
        · exact .inr (.inr ⟨a, m, by omega, b⟩)
  obtain ⟨d, rfl⟩ : ∃ d, j = i + 1 + d := ⟨j - (i + 1), by omega⟩
  have := key d
  simp only at this
  rcases this with (a | a | a) | ⟨t0, -, ⟨b, a⟩ | a | ⟨till, a⟩⟩ | ⟨-, m, hm, b⟩
  · rw [hcj] at a; cases a
  · rw [hcj] at a; cases a
  · rw [hcj] at a; simp [Cl.over] at a
  · rw [hcj] at a; cases a
  · rw [hcj] at a; cases a
  · rw [hcj] at a; cases a
  · exact b.trans (hτ (by omega))

/-- C106: the cleaner does not spin while it waits: at least a second passes between two of its looks at
    `run_clean_thread`. -/
theorem C106_pause (hτ : σ.Clock) {i j : Nat} (hij : i < j) (hi : σ.cleans i) {t0 t1 : Int}
    (hci : (run σ (.init schemes timeout junk interval second) i).cl = .flag t0)
    (hcj : (run σ (.init schemes timeout junk interval second) j).cl = .flag t1) :
    (σ i).1 + second ≤ (σ j).1 := by
  have key : ∀ d, (let s := run σ (.init schemes timeout junk interval second) (i + 1 + d)
      s.cl = .ended ∨ (∃ t0 till, s.cl = .sleep t0 till ∧ (σ i).1 + second ≤ till) ∨
      ∃ m, m < i + 1 + d ∧ (σ i).1 + second ≤ (σ m).1) := by
    intro d
    induction d with
    | zero =>
      obtain ⟨out, ho⟩ := hi
      rw [Nat.add_zero, run_cleans ho]
      have h := (cleans_cl (link (schemes := schemes) (timeout := timeout) (junk := junk) (interval := interval)
        (second := second) σ i) (σ i).1 out).2.2.2.2.1 _ hci
      have hint := (run_const σ (.init schemes timeout junk interval second) i).2
      simp only
      rw [h]
      split
      · refine .inr (.inl ⟨_, _, rfl, ?_⟩)
        rw [hint]; exact le_refl _
      · exact .inl rfl
    | succ d ih =>
      rw [← Nat.add_assoc]
      by_cases hc : σ.cleans (i + 1 + d)
      · obtain ⟨out, ho⟩ := hc
        have hl := link (schemes := schemes) (timeout := timeout) (junk := junk) (interval := interval)
          (second := second) σ (i + 1 + d)
        obtain ⟨c1, c2, c3, c4, c5, c6, c7, c8⟩ := cleans_cl hl (σ (i + 1 + d)).1 out
        simp only
        rw [run_cleans ho]
        rcases ih with a | ⟨t0, till, a, b⟩ | ⟨m, hm, b⟩
        · exact .inl (c7 a)
        · rw [c6 _ _ a]
          split
          · rename_i hle
            exact .inr (.inr ⟨i + 1 + d, by omega, b.trans hle⟩)
          · exact .inr (.inl ⟨_, _, rfl, b⟩)
        · exact .inr (.inr ⟨m, by omega, b⟩)
      · simp only
        rw [(run_stays hc _).1]
        rcases ih with a | a | ⟨m, hm, b⟩
        · exact .inl a
        · exact .inr (.inl a)
        · exact .inr (.inr ⟨m, by omega, b⟩)
  obtain ⟨d, rfl⟩ : ∃ d, j = i + 1 + d := ⟨j - (i + 1), by omega⟩
  have := key d
  simp only at this
  rcases this with a | ⟨t0, till, a, -⟩ | ⟨m, hm, b⟩
  · rw [hcj] at a; cases a
  · rw [hcj] at a; cases a
  · exact b.trans (hτ (by omega))

/-- C106: the cleaner thread returns only after `shutdown` has been called. -/
theorem C106_asked {n : Nat} (h : (run σ (.init schemes timeout junk interval second) n).cl = .ended) :
    ∃ m < n, σ.shuts m := by
  have h1 := (link σ n).run.1 ((link σ n).ended h)
  clear h
  induction n with
  | zero => exact absurd rfl h1
  | succ n ih =>
    by_cases hs : σ.shuts n
    · exact ⟨n, by omega, hs⟩
    · rw [(run_stays' hs _).1] at h1
      obtain ⟨m, hm, h⟩ := ih h1
      exact ⟨m, by omega, h⟩

/-! ## The cleaner alone cleans up -/

/-- nobody but the cleaner cleans up: `shutdown` is not called, and no other thread calls `cleanup` -/
def Sched.Peaceful (σ : Sched) : Prop := ∀ n, ¬ σ.shuts n ∧ ∀ t now f, (σ n).2 ≠ .other t (.cleanup now f)

/-- no thread enters a connection for a key that has one already -/
def NoRace (σ : Sched) (s : State) : Prop := ∀ n t a k c, (σ n).2 = .other t a →
  (run σ s n).s.pc (t + 2) = .store k c → (run σ s n).s.reg.connections.lookup k = none

/-- a turn is an action of a thread, or changes nothing in the registry; only the other threads use connections -/
theorem turn_act (now : Int) (e : Event) (s : State) :
    (turn now e s).s = s.s ∨ ∃ t a, act t a s.s = some (turn now e s).s ∧
      ∀ x, a = .use x → ∃ t', t = t' + 2 ∧ e = .other t' a := by
  cases e with
  | cleaner out =>
    simp only [turn, cleaner]
    split
    · cases h : act 0 (.cleanup now false) s.s with
      | none => exact .inl rfl
      | some s' => exact .inr ⟨_, _, h, by simp⟩
    · cases h : act 0 (.step now out) s.s with
      | none => exact .inl rfl
      | some s' => exact .inr ⟨_, _, h, by simp⟩
    · exact .inl rfl
    · exact .inl rfl
    · exact .inl rfl
    · split <;> exact .inl rfl
    · exact .inl rfl
    · exact .inl rfl
  | shutdown out =>
    simp only [turn, shutdown]
    split
    · exact .inl rfl
    · cases h : act 1 (.cleanup now true) s.s with
      | none => exact .inl rfl
      | some s' => exact .inr ⟨_, _, h, by simp⟩
    · cases h : act 1 (.step now out) s.s with
      | none => exact .inl rfl
      | some s' => exact .inr ⟨_, _, h, by simp⟩
    · exact .inl rfl
    · split <;> exact .inl rfl
    · exact .inl rfl
    · exact .inl rfl
  | other t a =>
    simp only [turn]
    split
    · rename_i s' h; exact .inr ⟨_, _, h, fun _ _ => ⟨t, rfl, rfl⟩⟩
    · exact .inl rfl

theorem tinv_run (σ : Sched) (n : Nat) : TInv (run σ (.init schemes timeout junk interval second) n).s := by
  induction n with
  | zero => exact tinv_init _ _ _
  | succ n ih =>
    rcases turn_act (σ n).1 (σ n).2 (run σ (.init schemes timeout junk interval second) n) with h | ⟨t, a, h, -⟩
    · show TInv (turn _ _ _).s
      rw [h]; exact ih
    · exact ih.act h

theorem kinv_run (hp : σ.Peaceful) (n : Nat) :
    let s := run σ (.init schemes timeout junk interval second) n
    KInv (NoRace σ (.init schemes timeout junk interval second)) s.s ∧ s.cl.over = false ∧ s.sd = .idle := by
  induction n with
  | zero => exact ⟨kinv_init _ _ _ _, rfl, rfl⟩
  | succ n ih =>
    obtain ⟨h1, h2, h3⟩ := ih
    have hl := link (schemes := schemes) (timeout := timeout) (junk := junk) (interval := interval)
          (second := second) σ n
    have ht := tinv_run (schemes := schemes) (timeout := timeout) (junk := junk) (interval := interval)
          (second := second) σ n
    have hrun : (run σ (.init schemes timeout junk interval second) n).run = true := by
      cases h : (run σ (.init schemes timeout junk interval second) n).run with
      | true => rfl
      | false => exact absurd h3 (hl.run.1 h)
    have h4 := (run_stays' (hp n).1 (.init schemes timeout junk interval second)).1
    refine ⟨?_, ?_, h4.trans h3⟩
    · cases he : (σ n).2 with
      | cleaner out =>
        rw [run_cleans he]
        unfold cleaner
        split
        · rename_i hc
          have hf := hl.clF (by rw [hc]; simp)
          simp only [act, hf, if_true, Option.map_some, Option.getD_some]
          exact h1.begin _ _
        · rename_i hc
          obtain ⟨s', e, -⟩ := step_cleaning (hl.cl hc) (σ n).1 out
          rw [e]
          exact (h1.clean (hl.cl hc) e).1
        · exact h1
        · exact h1
        · exact h1
        · split <;> exact h1
        · exact h1
        · exact h1
      | shutdown out => exact absurd ⟨out, he⟩ (hp n).1
      | other t a =>
        simp only [run, turn, he]
        split
        · rename_i s' e
          refine h1.calm ht e ?_ (by omega) ?_
          · rintro now f rfl; exact (hp n).2 _ _ _ he
          · intro hR k c hs; exact hR n t a k c he hs
        · exact h1
    · by_cases hc : σ.cleans n
      · obtain ⟨out, ho⟩ := hc
        obtain ⟨c1, c2, c3, c4, c5, c6, c7, c8⟩ := cleans_cl hl (σ n).1 out
        rw [run_cleans ho]
        cases hcl : (run σ (.init schemes timeout junk interval second) n).cl with
        | top => rw [c1 hcl]; rfl
        | busy =>
          obtain ⟨s', e, hs'⟩ := step_cleaning (hl.cl hcl) (σ n).1 out
          have := (h1.clean (hl.cl hcl) e).2.1
          simp only [cleaner, hcl, e, Option.map_some, Option.getD_some]
          split
          · rfl
          · rename_i x hx; exact absurd hx (this x)
          · rfl
        | stamp => rw [c3 hcl]; rfl
        | test b t0 => rw [c4 _ _ hcl]; split <;> rfl
        | flag t0 => rw [c5 _ hcl, hrun]; rfl
        | sleep t0 till => rw [c6 _ _ hcl]; split <;> rfl
        | ended => rw [hcl] at h2; cases h2
        | dead e => rw [hcl] at h2; cases h2
      · rw [(run_stays hc _).1]; exact h2

/-- C106: as long as `shutdown` is not called and no other thread calls `cleanup`, the cleaner thread stays alive,
    whatever else the other threads do. -/
theorem C106_alive (hp : σ.Peaceful) (n : Nat) :
    (run σ (.init schemes timeout junk interval second) n).cl.over = false := (kinv_run hp n).2.1

/-- the cleaner gets turns again and again, and time goes on without end -/
def Sched.Fair (σ : Sched) : Prop := ∀ n T, ∃ m, n ≤ m ∧ σ.cleans m ∧ T ≤ (σ m).1

/-- the next turn of the cleaner that lets it go on -/
theorem next_turn (hf : σ.Fair) (s : State) (n : Nat) :
    ∃ m, n ≤ m ∧ σ.cleans m ∧ (run σ s m).cl = (run σ s n).cl ∧ (run σ s m).s.pc 0 = (run σ s n).s.pc 0 ∧
      ∀ t0 till, (run σ s n).cl = .sleep t0 till → till ≤ (σ m).1 := by
  obtain ⟨m, h1, h2, h3⟩ := wait_turn (n := n)
    (f := fun i => ((run σ s i).cl, (run σ s i).s.pc 0))
    (p := fun m => σ.cleans m ∧ ∀ t0 till, (run σ s n).cl = .sleep t0 till → till ≤ (σ m).1) (by
      cases hcl : (run σ s n).cl with
      | sleep t0 till =>
        obtain ⟨m, h1, h2, h3⟩ := hf n till
        exact ⟨m, h1, h2, fun _ _ e => by cases e; exact h3⟩
      | _ =>
        obtain ⟨m, h1, h2, h3⟩ := hf n 0
        exact ⟨m, h1, h2, fun _ _ e => by cases e⟩) (by
      intro i _ hi e
      simp only [Prod.mk.injEq] at e ⊢
      by_cases hc : σ.cleans i
      · obtain ⟨out, ho⟩ := hc
        have hnot : ¬ ∀ t0 till, (run σ s n).cl = .sleep t0 till → till ≤ (σ i).1 := fun h => hi ⟨⟨out, ho⟩, h⟩
        push Not at hnot
        obtain ⟨t0, till, a, b⟩ := hnot
        have hs : run σ s (i + 1) = run σ s i := by
          rw [run_cleans ho]
          simp only [cleaner, e.1, a, if_neg (not_le.2 b), Option.getD_none]
        rw [hs]; exact e
      · obtain ⟨a, b⟩ := run_stays hc s
        exact ⟨a.trans e.1, b.trans e.2⟩)
  simp only [Prod.mk.injEq] at h3
  exact ⟨m, h1, h2.1, h3.1, h3.2, h2.2⟩

/-- a clean-up of the cleaner ends -/
theorem busy_ends (hf : σ.Fair) {n : Nat}
    (h : (run σ (.init schemes timeout junk interval second) n).cl = .busy) :
    ∃ m, n ≤ m ∧ ((run σ (.init schemes timeout junk interval second) m).cl = .stamp ∨
      ∃ e, (run σ (.init schemes timeout junk interval second) m).cl = .dead e) := by
  obtain ⟨m, h1, h2, ⟨out, ho⟩, h4⟩ := cleaning_ends (t := 0)
    (S := fun n => (run σ (.init schemes timeout junk interval second) n).s)
    (B := fun n => (run σ (.init schemes timeout junk interval second) n).cl = .busy) (turn := σ.cleans)
    (fun n => by obtain ⟨m, h1, h2, -⟩ := hf n 0; exact ⟨m, h1, h2⟩)
    (fun n hb => (link σ n).cl hb)
    (fun n hb ⟨out, ho⟩ => by
      obtain ⟨s', e, hs'⟩ := step_cleaning ((link σ n).cl hb) (σ n).1 out
      have hs : run σ (.init schemes timeout junk interval second) (n + 1) =
          { run σ (.init schemes timeout junk interval second) n with s := s', cl := match s'.pc 0 with
            | .cleaned => .stamp
            | .crashed e => .dead e
            | _ => .busy } := by
        rw [run_cleans ho]
        simp only [cleaner, hb, e, Option.map_some, Option.getD_some]
        rfl
      refine ⟨(σ n).1, out, ?_, ?_⟩
      · rw [hs]; exact e
      · rw [hs]
        intro a
        simp only at a ⊢
        cases hp : s'.pc 0 <;> rw [hp] at a <;> simp [cleaning] at a)
    (fun n hb hc => ⟨(run_stays hc _).1.trans hb, (run_stays hc _).2⟩) n h
  refine ⟨m + 1, by omega, ?_⟩
  rcases (cleans_cl (link (schemes := schemes) (timeout := timeout) (junk := junk) (interval := interval)
    (second := second) σ m) (σ m).1 out).2.1 h2 with a | a | a
  · rw [← run_cleans ho] at a
    have := (link σ (m + 1)).cl a
    rw [h4] at this; cases this
  · rw [run_cleans ho]; exact .inl a
  · rw [run_cleans ho]; exact .inr a

/-- the cleaner comes back to its clean-up again and again -/
theorem again (hτ : σ.Clock) (hp : σ.Peaceful) (hf : σ.Fair) (n : Nat) (T : Int) :
    ∃ m, n ≤ m ∧ σ.cleans m ∧ T ≤ (σ m).1 ∧ (run σ (.init schemes timeout junk interval second) m).cl = .top := by
  have alive := fun m => C106_alive (schemes := schemes) (timeout := timeout) (junk := junk) (interval := interval)
    (second := second) hp m
  have hrun : ∀ m, (run σ (.init schemes timeout junk interval second) m).run = true := by
    intro m
    cases h : (run σ (.init schemes timeout junk interval second) m).run with
    | true => rfl
    | false => exact absurd (kinv_run hp m).2.2 ((link σ m).run.1 h)
  have top : ∀ {n}, T ≤ (σ n).1 → (run σ (.init schemes timeout junk interval second) n).cl = .top →
      ∃ m, n ≤ m ∧ σ.cleans m ∧ T ≤ (σ m).1 ∧ (run σ (.init schemes timeout junk interval second) m).cl = .top := by
    intro n hn hc
    obtain ⟨m, h1, h2, h3, -⟩ := next_turn hf (.init schemes timeout junk interval second) n
    exact ⟨m, h1, h2, le_trans hn (hτ h1), h3.trans hc⟩
  -- one turn of the cleaner
  have one : ∀ n, ∃ m, n ≤ m ∧ ∃ out, (σ m).2 = .cleaner out ∧
      (run σ (.init schemes timeout junk interval second) m).cl =
        (run σ (.init schemes timeout junk interval second) n).cl ∧
      ∀ t0 till, (run σ (.init schemes timeout junk interval second) n).cl = .sleep t0 till → till ≤ (σ m).1 := by
    intro n
    obtain ⟨m, h1, ⟨out, h2⟩, h3, -, h4⟩ := next_turn hf (.init schemes timeout junk interval second) n
    exact ⟨m, h1, out, h2, h3, h4⟩
  have late : ∀ {n b t0}, t0 + interval ≤ (σ n).1 → T ≤ (σ n).1 →
      (run σ (.init schemes timeout junk interval second) n).cl = .test b t0 →
      ∃ m, n ≤ m ∧ σ.cleans m ∧ T ≤ (σ m).1 ∧ (run σ (.init schemes timeout junk interval second) m).cl = .top := by
    intro n b t0 h0 hT hc
    obtain ⟨m, h1, out, h2, h3, -⟩ := one n
    have hm : (σ n).1 ≤ (σ m).1 := hτ h1
    have c4 := (cleans_cl (link (schemes := schemes) (timeout := timeout) (junk := junk) (interval := interval)
      (second := second) σ m) (σ m).1 out).2.2.2.1 b t0 (h3.trans hc)
    have hi : (run σ (.init schemes timeout junk interval second) m).interval = interval :=
      (run_const σ (.init schemes timeout junk interval second) m).1
    rw [hi, if_neg (by omega), ← run_cleans h2] at c4
    have hm' : (σ m).1 ≤ (σ (m + 1)).1 := hτ (Nat.le_succ m)
    obtain ⟨m', a1, a2⟩ := top (by omega) c4
    exact ⟨m', by omega, a2⟩
  have late' : ∀ {n t0 till}, t0 + interval ≤ (σ n).1 → T ≤ (σ n).1 →
      (run σ (.init schemes timeout junk interval second) n).cl = .sleep t0 till →
      ∃ m, n ≤ m ∧ σ.cleans m ∧ T ≤ (σ m).1 ∧ (run σ (.init schemes timeout junk interval second) m).cl = .top := by
    intro n t0 till h0 hT hc
    obtain ⟨m, h1, out, h2, h3, h4⟩ := one n
    have hm : (σ n).1 ≤ (σ (m + 1)).1 := hτ (by omega)
    have c6 := (cleans_cl (link (schemes := schemes) (timeout := timeout) (junk := junk) (interval := interval)
      (second := second) σ m) (σ m).1 out).2.2.2.2.2.1 _ _ (h3.trans hc)
    rw [if_pos (h4 _ _ hc), ← run_cleans h2] at c6
    obtain ⟨m', a1, a2⟩ := late (by omega) (by omega) c6
    exact ⟨m', by omega, a2⟩
  have late'' : ∀ {n t0}, t0 + interval ≤ (σ n).1 → T ≤ (σ n).1 →
      (run σ (.init schemes timeout junk interval second) n).cl = .flag t0 →
      ∃ m, n ≤ m ∧ σ.cleans m ∧ T ≤ (σ m).1 ∧ (run σ (.init schemes timeout junk interval second) m).cl = .top := by
    intro n t0 h0 hT hc
    obtain ⟨m, h1, out, h2, h3, h4⟩ := one n
    have hm : (σ n).1 ≤ (σ (m + 1)).1 := hτ (by omega)
    have c5 := (cleans_cl (link (schemes := schemes) (timeout := timeout) (junk := junk) (interval := interval)
      (second := second) σ m) (σ m).1 out).2.2.2.2.1 _ (h3.trans hc)
    rw [hrun m, if_pos rfl, ← run_cleans h2] at c5
    obtain ⟨m', a1, a2⟩ := late' (by omega) (by omega) c5
    exact ⟨m', by omega, a2⟩
  -- the waiting loop
  have loop : ∀ {n t0}, ((∃ b, (run σ (.init schemes timeout junk interval second) n).cl = .test b t0) ∨
      (run σ (.init schemes timeout junk interval second) n).cl = .flag t0 ∨
      ∃ till, (run σ (.init schemes timeout junk interval second) n).cl = .sleep t0 till) → T ≤ (σ n).1 →
      ∃ m, n ≤ m ∧ σ.cleans m ∧ T ≤ (σ m).1 ∧ (run σ (.init schemes timeout junk interval second) m).cl = .top := by
    intro n t0 hc hT
    obtain ⟨n1, hn1, -, ht1⟩ := hf n (t0 + interval)
    have key : ∀ d, (∃ m, n ≤ m ∧ (run σ (.init schemes timeout junk interval second) m).cl = .top) ∨
        ((∃ b, (run σ (.init schemes timeout junk interval second) (n + d)).cl = .test b t0) ∨
          (run σ (.init schemes timeout junk interval second) (n + d)).cl = .flag t0 ∨
          ∃ till, (run σ (.init schemes timeout junk interval second) (n + d)).cl = .sleep t0 till) := by
      intro d
      induction d with
      | zero => exact .inr hc
      | succ d ih =>
        rcases ih with ih | ih
        · exact .inl ih
        · rw [← Nat.add_assoc]
          by_cases hcl : σ.cleans (n + d)
          · obtain ⟨out, ho⟩ := hcl
            obtain ⟨c1, c2, c3, c4, c5, c6, c7, c8⟩ := cleans_cl (link (schemes := schemes) (timeout := timeout)
              (junk := junk) (interval := interval) (second := second) σ (n + d)) (σ (n + d)).1 out
            rw [← run_cleans ho] at c4 c5 c6
            rcases ih with ⟨b, a⟩ | a | ⟨till, a⟩
            · have := c4 _ _ a
              split at this
              · exact .inr (.inr (.inl this))
              · exact .inl ⟨n + d + 1, by omega, this⟩
            · have := c5 _ a
              rw [hrun, if_pos rfl] at this
              exact .inr (.inr (.inr ⟨_, this⟩))
            · have := c6 _ _ a
              split at this
              · exact .inr (.inl ⟨_, this⟩)
              · exact .inr (.inr (.inr ⟨_, this⟩))
          · rw [(run_stays hcl _).1]; exact .inr ih
    obtain ⟨d, rfl⟩ : ∃ d, n1 = n + d := ⟨n1 - n, by omega⟩
    have hT1 : T ≤ (σ (n + d)).1 := le_trans hT (hτ hn1)
    rcases key d with ⟨m, h1, h2⟩ | ⟨b, a⟩ | a | ⟨till, a⟩
    · obtain ⟨m', a1, a2⟩ := top (le_trans hT (hτ h1)) h2
      exact ⟨m', by omega, a2⟩
    · obtain ⟨m', a1, a2⟩ := late ht1 hT1 a
      exact ⟨m', by omega, a2⟩
    · obtain ⟨m', a1, a2⟩ := late'' ht1 hT1 a
      exact ⟨m', by omega, a2⟩
    · obtain ⟨m', a1, a2⟩ := late' ht1 hT1 a
      exact ⟨m', by omega, a2⟩
  have stamp : ∀ {n}, (run σ (.init schemes timeout junk interval second) n).cl = .stamp → T ≤ (σ n).1 →
      ∃ m, n ≤ m ∧ σ.cleans m ∧ T ≤ (σ m).1 ∧ (run σ (.init schemes timeout junk interval second) m).cl = .top := by
    intro n hc hT
    obtain ⟨m, h1, out, h2, h3, -⟩ := one n
    have c3 := (cleans_cl (link (schemes := schemes) (timeout := timeout) (junk := junk) (interval := interval)
      (second := second) σ m) (σ m).1 out).2.2.1 (h3.trans hc)
    rw [← run_cleans h2] at c3
    obtain ⟨m', a1, a2⟩ := loop (.inl ⟨_, c3⟩) (le_trans hT (hτ (by omega)))
    exact ⟨m', by omega, a2⟩
  obtain ⟨n0, hn0, -, hT0⟩ := hf n T
  suffices h : ∃ m, n0 ≤ m ∧ σ.cleans m ∧ T ≤ (σ m).1 ∧
      (run σ (.init schemes timeout junk interval second) m).cl = .top by
    obtain ⟨m, a1, a2⟩ := h
    exact ⟨m, by omega, a2⟩
  cases hcl : (run σ (.init schemes timeout junk interval second) n0).cl with
  | top => exact top hT0 hcl
  | busy =>
    obtain ⟨m, h1, h2 | ⟨e, h2⟩⟩ := busy_ends hf hcl
    · obtain ⟨m', a1, a2⟩ := stamp h2 (le_trans hT0 (hτ h1))
      exact ⟨m', by omega, a2⟩
    · have := alive m; rw [h2] at this; cases this
  | stamp => exact stamp hcl hT0
  | test b t0 => exact loop (.inl ⟨_, hcl⟩) hT0
  | flag t0 => exact loop (.inr (.inl hcl)) hT0
  | sleep t0 till => exact loop (.inr (.inr ⟨_, hcl⟩)) hT0
  | ended => have := alive n0; rw [hcl] at this; cases this
  | dead e => have := alive n0; rw [hcl] at this; cases this

/-! ## C108: unused connections go -/

/-- from the `n`th turn on, no thread uses the connection `c` -/
def Unused (σ : Sched) (s : State) (n c : Nat) : Prop := ∀ m t now k, n ≤ m → (σ m).2 = .other t (.use now) →
  (run σ s m).s.pc (t + 2) ≠ .got k c

theorem conn_mono (σ : Sched) (s : State) (n d : Nat) {c : Nat} (hc : c < (run σ s n).s.reg.next) :
    c < (run σ s (n + d)).s.reg.next ∧
    ((run σ s n).s.reg.conn c).closed ≤ ((run σ s (n + d)).s.reg.conn c).closed := by
  induction d with
  | zero => exact ⟨hc, le_refl _⟩
  | succ d ih =>
    rw [← Nat.add_assoc]
    rcases turn_act (σ (n + d)).1 (σ (n + d)).2 (run σ s (n + d)) with h | ⟨t, a, h, -⟩
    · simp only [run]; rw [h]; exact ih
    · obtain ⟨-, h2, h3⟩ := act_conn h
      exact ⟨lt_of_lt_of_le ih.1 h2, ih.2.trans (h3 c ih.1).1⟩

theorem timeout_run (σ : Sched) (s : State) (n : Nat) : (run σ s n).s.reg.timeout = s.s.reg.timeout := by
  induction n with
  | zero => rfl
  | succ n ih =>
    rcases turn_act (σ n).1 (σ n).2 (run σ s n) with h | ⟨t, a, h, -⟩
    · simp only [run]; rw [h]; exact ih
    · exact (act_conn h).1.trans ih

theorem unused_run (s : State) {n c : Nat} (hc : c < (run σ s n).s.reg.next)
    (hu : Unused σ s n c) (d : Nat) :
    ((run σ s (n + d)).s.reg.conn c).lastUsed = ((run σ s n).s.reg.conn c).lastUsed := by
  induction d with
  | zero => rfl
  | succ d ih =>
    rw [← Nat.add_assoc]
    rcases turn_act (σ (n + d)).1 (σ (n + d)).2 (run σ s (n + d)) with h | ⟨t, a, h, h'⟩
    · simp only [run]; rw [h]; exact ih
    · refine ((act_conn h).2.2 c (conn_mono σ s n d hc).1).2 ?_ |>.trans ih
      rintro now k rfl
      obtain ⟨t', rfl, e⟩ := h' now rfl
      exact hu _ _ _ k (by omega) e

theorem busy_step {s : State} {n : Nat} {out : Option PyErr} (ho : (σ n).2 = .cleaner out)
    (hb : (run σ s n).cl = .busy) {s' : Threads.State}
    (e : act 0 (.step (σ n).1 out) (run σ s n).s = some s') (hc : cleaning (s'.pc 0) = true) :
    (run σ s (n + 1)).cl = .busy ∧ (run σ s (n + 1)).s = s' := by
  rw [run_cleans ho]
  simp only [cleaner, hb, e, Option.map_some, Option.getD_some, and_true]
  cases hp : s'.pc 0 <;> rw [hp] at hc <;> simp [cleaning] at hc

theorem lookup_del {d : List (Key × Nat)} {k : Key} : (d.filter fun x => x.1 ≠ k).lookup k = none := by
  cases h : (d.filter fun x => x.1 ≠ k).lookup k with
  | none => rfl
  | some c =>
    have := lookup_mem h
    rw [List.mem_filter] at this
    simp at this

/-- C108: as long as `shutdown` is not called and no other thread calls `cleanup`: a connection in the registry
    that is not used any more is not in it for ever, whatever else the other threads do (they may ask for the
    connection again and again, without using it). -/
theorem C108_gone (hτ : σ.Clock) (hp : σ.Peaceful) (hf : σ.Fair) {n c : Nat} {k : Key}
    (hk : (run σ (.init schemes timeout junk interval second) n).s.reg.connections.lookup k = some c)
    (hu : Unused σ (.init schemes timeout junk interval second) n c) :
    ∃ m, n ≤ m ∧ (run σ (.init schemes timeout junk interval second) m).s.reg.connections.lookup k ≠ some c := by
  by_contra H
  push Not at H
  have hc := ((tinv_run σ n).dict _ _ (lookup_mem hk)).1
  have hlast := fun d => unused_run (.init schemes timeout junk interval second) hc hu d
  obtain ⟨m, h1, ⟨out, h2⟩, h3, h4⟩ := again (schemes := schemes) (timeout := timeout) (junk := junk)
    (interval := interval) (second := second) hτ hp hf n
    (((run σ (.init schemes timeout junk interval second) n).s.reg.conn c).lastUsed + timeout + 1)
  -- the clean-up that begins now cannot pass by the connection
  have key : ∀ r n', n ≤ n' → (run σ (.init schemes timeout junk interval second) n').cl = .busy →
      left ((run σ (.init schemes timeout junk interval second) n').s.pc 0) ≤ r →
      ((∃ todo, (run σ (.init schemes timeout junk interval second) n').s.pc 0 = .loop (σ m).1 false todo ∧ (k, c) ∈ todo) ∨
       (∃ k1 todo, (run σ (.init schemes timeout junk interval second) n').s.pc 0 = .del (σ m).1 false k1 todo ∧
        (k1 = k ∨ (k, c) ∈ todo))) → False := by
    intro r
    induction r with
    | zero =>
      intro n' hn' hb hr hq
      rcases hq with ⟨todo, a, b⟩ | ⟨k1, todo, a, b⟩
      · rw [a] at hr
        cases todo with
        | nil => cases b
        | cons => simp [left] at hr
      · rw [a] at hr; simp [left] at hr
    | succ r ih =>
      intro n' hn' hb hr hq
      obtain ⟨m', g1, ⟨out', g2⟩, g3, g4, -⟩ := next_turn hf (.init schemes timeout junk interval second) n'
      rw [← g4] at hr hq
      have hb' := g3.trans hb
      have hn'' : n ≤ m' := by omega
      have hki := (kinv_run (schemes := schemes) (timeout := timeout) (junk := junk) (interval := interval)
        (second := second) hp m').1
      rcases hq with ⟨todo, a, b⟩ | ⟨k1, todo, a, b⟩
      · cases todo with
        | nil => cases b
        | cons x todo =>
          obtain ⟨k1, c1⟩ := x
          by_cases ho : (run σ (.init schemes timeout junk interval second) m').s.reg.tooOld (σ m).1 false c1 = true
          · have e : act 0 (.step (σ m').1 out') (run σ (.init schemes timeout junk interval second) m').s = some
                ({ (run σ (.init schemes timeout junk interval second) m').s with
                  reg := (close c1 (fun _ => out') (run σ (.init schemes timeout junk interval second) m').s.reg).2 }.goto 0
                  (.del (σ m).1 false k1 todo)) := by simp only [act, a, if_pos ho]
            obtain ⟨b1, b2⟩ := busy_step g2 hb' e (by rw [goto_same]; rfl)
            refine ih (m' + 1) (by omega) b1 ?_ (.inr ⟨k1, todo, by rw [b2, goto_same], ?_⟩)
            · rw [b2, goto_same]
              rw [a] at hr
              simp [left] at hr ⊢; omega
            · rcases List.mem_cons.1 b with b | b
              · cases b; exact .inl rfl
              · exact .inr b
          · have e : act 0 (.step (σ m').1 out') (run σ (.init schemes timeout junk interval second) m').s = some
                ((run σ (.init schemes timeout junk interval second) m').s.goto 0 (.loop (σ m).1 false todo)) := by
              simp only [act, a, if_neg ho]
            obtain ⟨b1, b2⟩ := busy_step g2 hb' e (by rw [goto_same]; rfl)
            refine ih (m' + 1) (by omega) b1 ?_ (.inl ⟨todo, by rw [b2, goto_same], ?_⟩)
            · rw [b2, goto_same]
              rw [a] at hr
              simp [left] at hr ⊢; omega
            · rcases List.mem_cons.1 b with b | b
              · exfalso
                cases b
                apply ho
                obtain ⟨d, rfl⟩ : ∃ d, m' = n + d := ⟨m' - n, by omega⟩
                have ht : (run σ (.init schemes timeout junk interval second) (n + d)).s.reg.timeout = timeout :=
                  timeout_run σ (.init schemes timeout junk interval second) (n + d)
                simp only [Registry.tooOld, hlast d, ht, Bool.or_false, decide_eq_true_eq]
                omega
              · exact b
      · obtain ⟨a0, a1, a2, a3⟩ := hki.del _ _ _ _ a
        have hd : dictDel (run σ (.init schemes timeout junk interval second) m').s.reg.connections k1 =
            some ((run σ (.init schemes timeout junk interval second) m').s.reg.connections.filter
              fun x => x.1 ≠ k1) := by
          rw [dictDel, if_pos a2.1]
        have e : act 0 (.step (σ m').1 out') (run σ (.init schemes timeout junk interval second) m').s = some
            ({ (run σ (.init schemes timeout junk interval second) m').s with
              reg := { (run σ (.init schemes timeout junk interval second) m').s.reg with
                connections := (run σ (.init schemes timeout junk interval second) m').s.reg.connections.filter
                  fun x => x.1 ≠ k1 } }.goto 0 (.loop (σ m).1 false todo)) := by
          simp only [act, a, hd]
        obtain ⟨b1, b2⟩ := busy_step g2 hb' e (by rw [goto_same]; rfl)
        by_cases hkk : k1 = k
        · have := H (m' + 1) (by omega)
          rw [b2] at this
          change ((run σ (.init schemes timeout junk interval second) m').s.reg.connections.filter
                  fun x => x.1 ≠ k1).lookup k = some c at this
          rw [hkk, lookup_del] at this
          cases this
        · refine ih (m' + 1) (by omega) b1 ?_ (.inl ⟨todo, by rw [b2, goto_same], b.resolve_left hkk⟩)
          rw [b2, goto_same]
          rw [a] at hr
          simp [left] at hr ⊢; omega
  have hs : (run σ (.init schemes timeout junk interval second) (m + 1)).cl = .busy ∧
      (run σ (.init schemes timeout junk interval second) (m + 1)).s.pc 0 =
        .loop (σ m).1 false (run σ (.init schemes timeout junk interval second) m).s.reg.connections := by
    have hf' := (link (schemes := schemes) (timeout := timeout) (junk := junk) (interval := interval)
        (second := second) σ m).clF (by rw [h4]; simp)
    rw [run_cleans h2]
    simp only [cleaner, h4, act, hf', if_true, Option.map_some, Option.getD_some, true_and]
    exact goto_same _ _ _
  exact key _ (m + 1) (by omega) hs.1 (le_refl _) (.inl ⟨_, hs.2, lookup_mem (H m h1)⟩)

/-- C108: if moreover no thread ever enters a connection for a key that has one, then the connection has been closed
    when it goes. -/
theorem C108_closed (hτ : σ.Clock) (hp : σ.Peaceful) (hf : σ.Fair)
    (hr : NoRace σ (.init schemes timeout junk interval second)) {n c : Nat} {k : Key}
    (hk : (run σ (.init schemes timeout junk interval second) n).s.reg.connections.lookup k = some c)
    (hu : Unused σ (.init schemes timeout junk interval second) n c) :
    ∃ m, n ≤ m ∧ (run σ (.init schemes timeout junk interval second) m).s.reg.connections.lookup k = none ∧
      1 ≤ ((run σ (.init schemes timeout junk interval second) m).s.reg.conn c).closed := by
  classical
  have hex := C108_gone hτ hp hf hk hu
  obtain ⟨g1, g2⟩ := Nat.find_spec hex
  have hmin := fun m h => Nat.find_min (H := hex) (m := m) h
  generalize Nat.find hex = M at g1 g2 hmin
  have hM : M ≠ n := by rintro rfl; exact g2 hk
  obtain ⟨m, rfl⟩ : ∃ m, M = m + 1 := ⟨M - 1, by omega⟩
  have hm : (run σ (.init schemes timeout junk interval second) m).s.reg.connections.lookup k = some c := by
    by_contra h
    exact hmin m (by omega) ⟨by omega, h⟩
  have hki := (kinv_run (schemes := schemes) (timeout := timeout) (junk := junk) (interval := interval)
    (second := second) hp m).1
  have hl := link (schemes := schemes) (timeout := timeout) (junk := junk) (interval := interval)
          (second := second) σ m
  refine ⟨m + 1, g1, ?_⟩
  cases he : (σ m).2 with
  | shutdown out => exact absurd ⟨out, he⟩ (hp m).1
  | other t a =>
    exfalso
    apply g2
    simp only [run, turn, he]
    split
    · rename_i s' e
      rcases (act_calm e (by rintro now f rfl; exact (hp m).2 _ _ _ he) (hki.others _ (by omega))).2 with h | ⟨k', c', h1, h2⟩
      · simp only [h]; exact hm
      · simp only [h2]
        rw [lookup_dictSet, if_neg]
        · exact hm
        · rintro rfl
          have := hr m t a _ _ he h1
          rw [hm] at this; cases this
    · exact hm
  | cleaner out =>
    by_cases hb : (run σ (.init schemes timeout junk interval second) m).cl = .busy
    · obtain ⟨s', e, -⟩ := step_cleaning (hl.cl hb) (σ m).1 out
      have hs : (run σ (.init schemes timeout junk interval second) (m + 1)).s = s' := by
        rw [run_cleans he]
        simp only [cleaner, hb, e, Option.map_some, Option.getD_some]
      rw [hs] at g2 ⊢
      rcases (hki.clean (hl.cl hb) e).2.2 with h | ⟨now, f, k', todo, h1, h2⟩
      · rw [h] at g2; exact absurd hm g2
      · by_cases hkk : k' = k
        · rw [hkk] at h1 h2
          rw [h2]
          refine ⟨lookup_del, ?_⟩
          obtain ⟨c0, b1, b2⟩ := (hki.del _ _ _ _ h1).2.2.1.2 hr
          rw [hm] at b1
          cases b1
          exact b2.trans ((act_conn e).2.2 c ((tinv_run σ m).dict _ _ (lookup_mem hm)).1).1
        · exfalso
          apply g2
          rw [h2]
          have hn : (((run σ (.init schemes timeout junk interval second) m).s.reg.connections.filter
              fun x => x.1 ≠ k').map Prod.fst).Nodup := hki.nodup.sublist ((List.filter_sublist).map _)
          apply lookup_of_mem hn
          rw [List.mem_filter]
          exact ⟨lookup_mem hm, by simpa using fun h => hkk h.symm⟩
    · exfalso
      apply g2
      rw [run_cleans he]
      unfold cleaner
      split
      · rename_i hc
        have hf := hl.clF hb
        simp only [act, hf, if_true, Option.map_some, Option.getD_some]
        exact hm
      · rename_i hc; exact absurd hc hb
      · exact hm
      · exact hm
      · exact hm
      · split <;> exact hm
      · exact hm
      · exact hm

end

end Verif.Reg.Cleaner
