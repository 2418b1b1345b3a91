import Verif.Props.Cleaner
/-!
# C107: `shutdown`
-/
namespace Verif.Reg.Cleaner
open Threads

section
variable {schemes : List (Option Str)} {timeout : Int} {junk : Nat → Conn} {interval second : Int} {σ : Sched}

theorem run_false {s : State} {n : Nat} (h : (run σ s n).run = false) (d : Nat) : (run σ s (n + d)).run = false := by
  induction d with
  | zero => exact h
  | succ d ih =>
    rw [← Nat.add_assoc]
    by_cases hs : σ.shuts (n + d)
    · obtain ⟨out, ho⟩ := hs
      rw [run_shuts ho]
      unfold shutdown
      split
      · rfl
      · cases act 1 (.cleanup (σ (n + d)).1 true) (run σ s (n + d)).s <;> exact ih
      · cases act 1 (.step (σ (n + d)).1 out) (run σ s (n + d)).s <;> exact ih
      · exact ih
      · split <;> exact ih
      · exact ih
      · exact ih
    · rw [(run_stays' hs _).2.2]; exact ih

theorem over_stays {n : Nat} (h : (run σ (.init schemes timeout junk interval second) n).cl.over = true) (d : Nat) :
    (run σ (.init schemes timeout junk interval second) (n + d)).cl.over = true := by
  induction d with
  | zero => exact h
  | succ d ih =>
    rw [← Nat.add_assoc]
    by_cases hc : σ.cleans (n + d)
    · obtain ⟨out, ho⟩ := hc
      obtain ⟨-, -, -, -, -, -, c7, c8⟩ := cleans_cl (link (schemes := schemes) (timeout := timeout) (junk := junk)
        (interval := interval) (second := second) σ (n + d)) (σ (n + d)).1 out
      rw [run_cleans ho]
      cases hcl : (run σ (.init schemes timeout junk interval second) (n + d)).cl <;> rw [hcl] at ih <;>
        simp [Cl.over] at ih
      · rw [c7 hcl]; rfl
      · rw [c8 _ hcl]; rfl
    · rw [(run_stays hc _).1]; exact ih

/-- the cleaner's first look at the clock after fs.py:152 comes before `clean_interval` is over -/
def Timely (σ : Sched) (s : State) : Prop :=
  ∀ n t0, σ.cleans n → (run σ s n).cl = .test true t0 → (σ n).1 - t0 < s.interval

/-- when `run_clean_thread` is false the cleaner stops -/
theorem stops (hf : σ.Fair) (ht : Timely σ (.init schemes timeout junk interval second)) {n : Nat}
    (h : (run σ (.init schemes timeout junk interval second) n).run = false) :
    ∃ m, n ≤ m ∧ (run σ (.init schemes timeout junk interval second) m).cl.over = true := by
  have hrun : ∀ m, n ≤ m → (run σ (.init schemes timeout junk interval second) m).run = false := by
    intro m hm
    obtain ⟨d, rfl⟩ : ∃ d, m = n + d := ⟨m - n, by omega⟩
    exact run_false h d
  have one : ∀ n, ∃ m, n ≤ m ∧ ∃ out, (σ m).2 = .cleaner out ∧
      (run σ (.init schemes timeout junk interval second) m).cl =
        (run σ (.init schemes timeout junk interval second) n).cl ∧
      ∀ t0 till, (run σ (.init schemes timeout junk interval second) n).cl = .sleep t0 till → till ≤ (σ m).1 := by
    intro n
    obtain ⟨m, h1, ⟨out, h2⟩, h3, -, h4⟩ := next_turn hf (.init schemes timeout junk interval second) n
    exact ⟨m, h1, out, h2, h3, h4⟩
  have spec := fun m out => cleans_cl (link (schemes := schemes) (timeout := timeout) (junk := junk)
    (interval := interval) (second := second) σ m) (σ m).1 out
  have flag : ∀ {x t0}, n ≤ x → (run σ (.init schemes timeout junk interval second) x).cl = .flag t0 →
      ∃ m, n ≤ m ∧ (run σ (.init schemes timeout junk interval second) m).cl.over = true := by
    intro x t0 hx hc
    obtain ⟨m, h1, out, h2, h3, -⟩ := one x
    have := (spec m out).2.2.2.2.1 _ (h3.trans hc)
    rw [hrun m (by omega), ← run_cleans h2] at this
    exact ⟨m + 1, by omega, by rw [this]; rfl⟩
  have test : ∀ {x t0}, n ≤ x → (run σ (.init schemes timeout junk interval second) x).cl = .test true t0 →
      ∃ m, n ≤ m ∧ (run σ (.init schemes timeout junk interval second) m).cl.over = true := by
    intro x t0 hx hc
    obtain ⟨m, h1, out, h2, h3, -⟩ := one x
    have := (spec m out).2.2.2.1 _ _ (h3.trans hc)
    have hlt := ht m t0 ⟨out, h2⟩ (h3.trans hc)
    rw [(run_const σ _ m).1, if_pos hlt, ← run_cleans h2] at this
    exact flag (x := m + 1) (by omega) this
  have stamp : ∀ {x}, n ≤ x → (run σ (.init schemes timeout junk interval second) x).cl = .stamp →
      ∃ m, n ≤ m ∧ (run σ (.init schemes timeout junk interval second) m).cl.over = true := by
    intro x hx hc
    obtain ⟨m, h1, out, h2, h3, -⟩ := one x
    have := (spec m out).2.2.1 (h3.trans hc)
    rw [← run_cleans h2] at this
    exact test (x := m + 1) (by omega) this
  have busy : ∀ {x}, n ≤ x → (run σ (.init schemes timeout junk interval second) x).cl = .busy →
      ∃ m, n ≤ m ∧ (run σ (.init schemes timeout junk interval second) m).cl.over = true := by
    intro x hx hc
    obtain ⟨m, h1, h2 | ⟨e, h2⟩⟩ := busy_ends hf hc
    · exact stamp (x := m) (by omega) h2
    · exact ⟨m, by omega, by rw [h2]; rfl⟩
  have top : ∀ {x}, n ≤ x → (run σ (.init schemes timeout junk interval second) x).cl = .top →
      ∃ m, n ≤ m ∧ (run σ (.init schemes timeout junk interval second) m).cl.over = true := by
    intro x hx hc
    obtain ⟨m, h1, out, h2, h3, -⟩ := one x
    have := (spec m out).1 (h3.trans hc)
    rw [← run_cleans h2] at this
    exact busy (x := m + 1) (by omega) this
  have test' : ∀ {x b t0}, n ≤ x → (run σ (.init schemes timeout junk interval second) x).cl = .test b t0 →
      ∃ m, n ≤ m ∧ (run σ (.init schemes timeout junk interval second) m).cl.over = true := by
    intro x b t0 hx hc
    obtain ⟨m, h1, out, h2, h3, -⟩ := one x
    have := (spec m out).2.2.2.1 _ _ (h3.trans hc)
    rw [← run_cleans h2] at this
    split at this
    · exact flag (x := m + 1) (by omega) this
    · exact top (x := m + 1) (by omega) this
  cases hcl : (run σ (.init schemes timeout junk interval second) n).cl with
  | top => exact top (le_refl _) hcl
  | busy => exact busy (le_refl _) hcl
  | stamp => exact stamp (le_refl _) hcl
  | test b t0 => exact test' (le_refl _) hcl
  | flag t0 => exact flag (le_refl _) hcl
  | sleep t0 till =>
    obtain ⟨m, h1, out, h2, h3, h4⟩ := one n
    have := (spec m out).2.2.2.2.2.1 _ _ (h3.trans hcl)
    rw [if_pos (h4 _ _ hcl), ← run_cleans h2] at this
    exact test' (x := m + 1) (by omega) this
  | ended => exact ⟨n, le_refl _, by rw [hcl]; rfl⟩
  | dead e => exact ⟨n, le_refl _, by rw [hcl]; rfl⟩

/-- the thread calling `shutdown` gets turns again and again -/
def Sched.Fair' (σ : Sched) : Prop := ∀ n, ∃ m, n ≤ m ∧ σ.shuts m

theorem next_shut (hs : σ.Fair') (s : State) (n : Nat) :
    ∃ m, n ≤ m ∧ ∃ out, (σ m).2 = .shutdown out ∧ (run σ s m).sd = (run σ s n).sd := by
  obtain ⟨m, h1, ⟨out, h2⟩, h3⟩ := wait_turn (f := fun i => (run σ s i).sd) (hs n)
    (fun i _ hi e => (run_stays' hi s).1.trans e)
  exact ⟨m, h1, out, h2, h3⟩

theorem shuts_busy {s : State} (hl : Link s) (hb : s.sd = .busy) (now : Int) (out : Option PyErr) :
    ∃ s', act 1 (.step now out) s.s = some s' ∧ ((shutdown now out s).getD s).s = s' ∧
      (cleaning (s'.pc 1) = true ∧ ((shutdown now out s).getD s).sd = .busy ∨
       s'.pc 1 = .cleaned ∧ ((shutdown now out s).getD s).sd = .alive ∨
       s'.pc 1 = .crashed .keyError ∧ ((shutdown now out s).getD s).sd = .raised .keyError) := by
  obtain ⟨s', e, hs'⟩ := step_cleaning (hl.sd hb) now out
  refine ⟨s', e, ?_, ?_⟩
  · simp only [shutdown, hb, e, Option.map_some, Option.getD_some]
  · simp only [shutdown, hb, e, Option.map_some, Option.getD_some]
    rcases hs' with a | a | ⟨x, a⟩
    · refine .inl ⟨a, ?_⟩
      cases hp : s'.pc 1 <;> rw [hp] at a <;> simp [cleaning] at a
    · exact .inr (.inl ⟨a, by simp [a]⟩)
    · have := step_crash (hl.sd hb) e a
      subst this
      exact .inr (.inr ⟨a, by simp [a]⟩)

/-- C107: if the cleaner's first look at the clock after its clean-ups is in time, then `shutdown` comes to an end:
    it returns, and then the cleaner thread is no longer alive, or it raises KeyError. -/
theorem C107_returns (hf : σ.Fair) (hs : σ.Fair') (ht : Timely σ (.init schemes timeout junk interval second)) :
    ∃ n, (run σ (.init schemes timeout junk interval second) n).sd = .done ∧
        (run σ (.init schemes timeout junk interval second) n).cl.over = true ∨
      (run σ (.init schemes timeout junk interval second) n).sd = .raised .keyError := by
  suffices h : ∃ n, (run σ (.init schemes timeout junk interval second) n).sd = .done ∨
      (run σ (.init schemes timeout junk interval second) n).sd = .raised .keyError by
    obtain ⟨n, h | h⟩ := h
    · exact ⟨n, .inl ⟨h, (link σ n).done h⟩⟩
    · exact ⟨n, .inr h⟩
  obtain ⟨m0, -, o0, g0, e0⟩ := next_shut hs (.init schemes timeout junk interval second) 0
  have f1 : (run σ (.init schemes timeout junk interval second) (m0 + 1)).sd = .force ∧
      (run σ (.init schemes timeout junk interval second) (m0 + 1)).run = false := by
    have e : (run σ (.init schemes timeout junk interval second) m0).sd = .idle := e0
    rw [run_shuts g0]
    simp [shutdown, e]
  obtain ⟨n1, hn1, ho1⟩ := stops hf ht f1.2
  obtain ⟨m1, h1, o1, g1, e1⟩ := next_shut hs (.init schemes timeout junk interval second) (m0 + 1)
  have f2 : (run σ (.init schemes timeout junk interval second) (m1 + 1)).sd = .busy := by
    have e := e1.trans f1.1
    have hfree := (link (schemes := schemes) (timeout := timeout) (junk := junk) (interval := interval)
      (second := second) σ m1).sdF (by rw [e]; simp)
    rw [run_shuts g1]
    simp [shutdown, e, act, hfree]
  obtain ⟨m2, h2, hb2, ⟨o2, g2⟩, hc2⟩ := cleaning_ends (t := 1)
    (S := fun n => (run σ (.init schemes timeout junk interval second) n).s)
    (B := fun n => (run σ (.init schemes timeout junk interval second) n).sd = .busy) (turn := σ.shuts) hs
    (fun n hb => (link σ n).sd hb)
    (fun n hb ⟨out, ho⟩ => by
      obtain ⟨s', e, a, b⟩ := shuts_busy (link (schemes := schemes) (timeout := timeout) (junk := junk)
        (interval := interval) (second := second) σ n) hb (σ n).1 out
      rw [← run_shuts ho] at a b
      refine ⟨(σ n).1, out, by rw [a]; exact e, ?_⟩
      intro hcl
      rw [a] at hcl
      rcases b with b | b | b
      · exact b.2
      · rw [b.1] at hcl; cases hcl
      · rw [b.1] at hcl; cases hcl)
    (fun n hb hc => ⟨(run_stays' hc _).1.trans hb, (run_stays' hc _).2.1⟩) (m1 + 1) f2
  obtain ⟨s', e, a, b⟩ := shuts_busy (link (schemes := schemes) (timeout := timeout) (junk := junk)
        (interval := interval) (second := second) σ m2) hb2 (σ m2).1 o2
  rw [← run_shuts g2] at a b
  rw [a] at hc2
  rcases b with b | b | b
  · rw [hc2] at b; cases b.1
  · -- fs.py:174
    obtain ⟨m3, h3, o3, g3, e3⟩ := next_shut hs (.init schemes timeout junk interval second) (m2 + 1)
    have e := e3.trans b.2
    by_cases ho3 : (run σ (.init schemes timeout junk interval second) m3).cl.over = true
    · refine ⟨m3 + 1, .inl ?_⟩
      rw [run_shuts g3]
      simp [shutdown, e, ho3]
    · have f3 : (run σ (.init schemes timeout junk interval second) (m3 + 1)).sd = .join := by
        rw [run_shuts g3]
        simp [shutdown, e, ho3]
      -- fs.py:175
      obtain ⟨m4, h4, ⟨⟨o4, g4⟩, ho4⟩, e4⟩ := wait_turn (n := m3 + 1)
        (f := fun i => (run σ (.init schemes timeout junk interval second) i).sd)
        (p := fun m => σ.shuts m ∧ (run σ (.init schemes timeout junk interval second) m).cl.over = true) (by
          obtain ⟨m4, h4, g4⟩ := hs (max (m3 + 1) n1)
          refine ⟨m4, by omega, g4, ?_⟩
          obtain ⟨d, rfl⟩ : ∃ d, m4 = n1 + d := ⟨m4 - n1, by omega⟩
          exact over_stays ho1 d) (by
          intro i _ hi ei
          by_cases hsh : σ.shuts i
          · obtain ⟨o, g⟩ := hsh
            have hno : ¬ (run σ (.init schemes timeout junk interval second) i).cl.over = true :=
              fun h => hi ⟨⟨o, g⟩, h⟩
            rw [← ei, run_shuts g]
            simp [shutdown, ei.trans f3, hno]
          · exact (run_stays' hsh _).1.trans ei)
      refine ⟨m4 + 1, .inl ?_⟩
      rw [run_shuts g4]
      simp [shutdown, e4.trans f3, ho4]
  · exact ⟨m2 + 1, .inr b.2⟩

/-- C107: when the `cleanup(True)` of `shutdown` has ended without raising, every connection that was in the registry
    when it began has been closed, whatever the cleaner and the other threads do meanwhile. -/
theorem C107_closes {m n : Nat} (hmn : m < n) (hm : σ.shuts m)
    (hd : (run σ (.init schemes timeout junk interval second) m).sd = .force)
    (hn : (run σ (.init schemes timeout junk interval second) n).sd ≠ .busy)
    (hr : ∀ e, (run σ (.init schemes timeout junk interval second) n).sd ≠ .raised e) {k : Key} {c : Nat}
    (hk : (k, c) ∈ (run σ (.init schemes timeout junk interval second) m).s.reg.connections) :
    1 ≤ ((run σ (.init schemes timeout junk interval second) n).s.reg.conn c).closed := by
  have hc := ((tinv_run (schemes := schemes) (timeout := timeout) (junk := junk) (interval := interval)
      (second := second) σ m).dict _ _ hk).1
  have key : ∀ d, (let s := run σ (.init schemes timeout junk interval second) (m + 1 + d)
      s.sd ≠ .idle ∧ s.sd ≠ .force ∧ (s.sd = .busy → 1 ≤ (s.s.reg.conn c).closed ∨
        ∃ now todo, s.s.pc 1 = .loop now true todo ∧ (k, c) ∈ todo ∨
          ∃ k', s.s.pc 1 = .del now true k' todo ∧ (k, c) ∈ todo) ∧
      (s.sd ≠ .busy → (∀ e, s.sd ≠ .raised e) → 1 ≤ (s.s.reg.conn c).closed)) := by
    intro d
    induction d with
    | zero =>
      obtain ⟨out, ho⟩ := hm
      have hf := (link (schemes := schemes) (timeout := timeout) (junk := junk) (interval := interval)
        (second := second) σ m).sdF (by rw [hd]; simp)
      rw [Nat.add_zero, run_shuts ho]
      simp only [shutdown, hd, act, hf, if_true, Option.map_some, Option.getD_some]
      refine ⟨by simp, by simp, fun _ => .inr ⟨_, _, .inl ⟨goto_same _ _ _, hk⟩⟩, by simp⟩
    | succ d ih =>
      obtain ⟨i1, i2, i3, i4⟩ := ih
      have hmono := conn_mono σ (.init schemes timeout junk interval second) m (1 + d) hc
      rw [← Nat.add_assoc] at hmono
      have hcl : ((run σ (.init schemes timeout junk interval second) (m + 1 + d)).s.reg.conn c).closed ≤
          ((run σ (.init schemes timeout junk interval second) (m + 1 + d + 1)).s.reg.conn c).closed :=
        (conn_mono σ (.init schemes timeout junk interval second) (m + 1 + d) 1 hmono.1).2
      rw [← Nat.add_assoc]
      by_cases hsh : σ.shuts (m + 1 + d)
      · obtain ⟨out, ho⟩ := hsh
        by_cases hb : (run σ (.init schemes timeout junk interval second) (m + 1 + d)).sd = .busy
        · obtain ⟨s', e, a, b⟩ := shuts_busy (link (schemes := schemes) (timeout := timeout) (junk := junk)
            (interval := interval) (second := second) σ (m + 1 + d)) hb (σ (m + 1 + d)).1 out
          rw [← run_shuts ho] at a b
          have ni : (run σ (.init schemes timeout junk interval second) (m + 1 + d + 1)).sd ≠ .idle ∧
              (run σ (.init schemes timeout junk interval second) (m + 1 + d + 1)).sd ≠ .force := by
            rcases b with b | b | b <;> rw [b.2] <;> simp
          refine ⟨ni.1, ni.2, ?_⟩
          rcases i3 hb with h | ⟨now, todo, ⟨h1, h2⟩ | ⟨k', h1, h2⟩⟩
          · exact ⟨fun _ => .inl (h.trans hcl), fun _ _ => h.trans hcl⟩
          · cases todo with
            | nil => cases h2
            | cons x todo =>
              obtain ⟨k1, c1⟩ := x
              have ho' : (run σ (.init schemes timeout junk interval second) (m + 1 + d)).s.reg.tooOld now true c1
                  = true := by simp [Registry.tooOld]
              simp only [act, h1, if_pos ho', Option.some.injEq] at e
              rw [← a] at e
              have hp : (run σ (.init schemes timeout junk interval second) (m + 1 + d + 1)).s.pc 1 =
                  .del now true k1 todo := by rw [← e, goto_same]
              have hbusy : (run σ (.init schemes timeout junk interval second) (m + 1 + d + 1)).sd = .busy := by
                rw [← a, hp] at b
                rcases b with b | b | b
                · exact b.2
                · cases b.1
                · cases b.1
              refine ⟨fun _ => ?_, fun h => absurd hbusy h⟩
              rcases List.mem_cons.1 h2 with h2 | h2
              · cases h2
                left
                rw [← e]
                simp [State.goto, close]
              · exact .inr ⟨now, todo, .inr ⟨k1, hp, h2⟩⟩
          · cases hdd : dictDel (run σ (.init schemes timeout junk interval second) (m + 1 + d)).s.reg.connections k' with
            | none =>
              simp only [act, h1, hdd, Option.some.injEq] at e
              have hp : s'.pc 1 = .crashed .keyError := by rw [← e, goto_same]
              rw [hp] at b
              rcases b with b | b | b
              · cases b.1
              · cases b.1
              · exact ⟨fun h => (by rw [b.2] at h; cases h), fun _ h => absurd b.2 (h _)⟩
            | some dd =>
              simp only [act, h1, hdd, Option.some.injEq] at e
              rw [← a] at e
              have hp : (run σ (.init schemes timeout junk interval second) (m + 1 + d + 1)).s.pc 1 =
                  .loop now true todo := by rw [← e, goto_same]
              have hbusy : (run σ (.init schemes timeout junk interval second) (m + 1 + d + 1)).sd = .busy := by
                rw [← a, hp] at b
                rcases b with b | b | b
                · exact b.2
                · cases b.1
                · cases b.1
              exact ⟨fun _ => .inr ⟨now, todo, .inl ⟨hp, h2⟩⟩, fun h => absurd hbusy h⟩
        · -- after the clean-up
          have e : (run σ (.init schemes timeout junk interval second) (m + 1 + d + 1)).s =
              (run σ (.init schemes timeout junk interval second) (m + 1 + d)).s ∧
              (run σ (.init schemes timeout junk interval second) (m + 1 + d + 1)).sd ≠ .idle ∧
              (run σ (.init schemes timeout junk interval second) (m + 1 + d + 1)).sd ≠ .force ∧
              (run σ (.init schemes timeout junk interval second) (m + 1 + d + 1)).sd ≠ .busy ∧
              ((∀ e, (run σ (.init schemes timeout junk interval second) (m + 1 + d + 1)).sd ≠ .raised e) →
                ∀ e, (run σ (.init schemes timeout junk interval second) (m + 1 + d)).sd ≠ .raised e) := by
            rw [run_shuts ho]
            unfold shutdown
            split
            · rename_i h; exact absurd h i1
            · rename_i h; exact absurd h i2
            · rename_i h; exact absurd h hb
            · rename_i h
              simp only [Option.getD_some]
              split <;> simp [h]
            · rename_i h
              split <;> simp [h]
            · rename_i h; simp [h]
            · rename_i x h; simp [h]
          refine ⟨e.2.1, e.2.2.1, fun h => absurd h e.2.2.2.1, fun _ h => ?_⟩
          rw [e.1]
          exact i4 hb (e.2.2.2.2 h)
      · obtain ⟨e1, e2, -⟩ := run_stays' hsh (.init schemes timeout junk interval second)
        simp only
        rw [e1, e2]
        refine ⟨i1, i2, fun h => ?_, fun h h' => (i4 h h').trans hcl⟩
        rcases i3 h with h | h
        · exact .inl (h.trans hcl)
        · exact .inr h
  obtain ⟨d, rfl⟩ : ∃ d, n = m + 1 + d := ⟨n - (m + 1), by omega⟩
  exact (key d).2.2.2 hn hr

/-- C107 needs the cleaner to be in time.  With a `clean_interval` that is not positive the cleaner never looks at
    `run_clean_thread`: it never returns, and `shutdown` can return only if the cleaner has died of a KeyError. -/
theorem C107_hang (hτ : σ.Clock) (hi : interval ≤ 0) (n : Nat) :
    (run σ (.init schemes timeout junk interval second) n).cl ≠ .ended ∧
    ((run σ (.init schemes timeout junk interval second) n).sd = .done →
      ∃ e, (run σ (.init schemes timeout junk interval second) n).cl = .dead e) := by
  have key : ∀ n, (let s := run σ (.init schemes timeout junk interval second) n
      s.cl ≠ .ended ∧ (∀ t0, s.cl ≠ .flag t0) ∧ (∀ t0 till, s.cl ≠ .sleep t0 till) ∧
      ∀ b t0, s.cl = .test b t0 → t0 ≤ (σ n).1) := by
    intro n
    induction n with
    | zero => simp [run, State.init]
    | succ n ih =>
      obtain ⟨i1, i2, i3, i4⟩ := ih
      have hm : (σ n).1 ≤ (σ (n + 1)).1 := hτ (Nat.le_succ n)
      by_cases hc : σ.cleans n
      · obtain ⟨out, ho⟩ := hc
        obtain ⟨c1, c2, c3, c4, c5, c6, c7, c8⟩ := cleans_cl (link (schemes := schemes) (timeout := timeout)
          (junk := junk) (interval := interval) (second := second) σ n) (σ n).1 out
        simp only
        rw [run_cleans ho]
        cases hcl : (run σ (.init schemes timeout junk interval second) n).cl with
        | top => rw [c1 hcl]; simp
        | busy => rcases c2 hcl with h | h | ⟨e, h⟩ <;> rw [h] <;> simp
        | stamp => rw [c3 hcl]; simpa using hm
        | test b t0 =>
          have := i4 _ _ hcl
          have hint : (run σ (.init schemes timeout junk interval second) n).interval = interval :=
            (run_const σ _ n).1
          rw [c4 _ _ hcl, hint, if_neg (by omega)]
          simp
        | flag t0 => exact absurd hcl (i2 _)
        | sleep t0 till => exact absurd hcl (i3 _ _)
        | ended => exact absurd hcl i1
        | dead e => rw [c8 _ hcl]; simp
      · simp only
        rw [(run_stays hc _).1]
        exact ⟨i1, i2, i3, fun b t0 h => (i4 b t0 h).trans hm⟩
  refine ⟨(key n).1, fun h => ?_⟩
  have := (link σ n).done h
  cases hcl : (run σ (.init schemes timeout junk interval second) n).cl <;> rw [hcl] at this <;>
    simp [Cl.over] at this
  · exact absurd hcl (key n).1
  · exact ⟨_, rfl⟩

/-- only the cleaner and the thread calling `shutdown` run: the registry stays empty and nothing raises -/
theorem lonely_run (hq : ∀ n, σ.cleans n ∨ σ.shuts n) (n : Nat) :
    let s := run σ (.init schemes timeout junk interval second) n
    s.s.reg.connections = [] ∧ (cleaning (s.s.pc 0) = true → ∃ now f, s.s.pc 0 = .loop now f []) ∧
    (cleaning (s.s.pc 1) = true → ∃ now f, s.s.pc 1 = .loop now f []) ∧
    (∀ e, s.cl ≠ .dead e) ∧ ∀ e, s.sd ≠ .raised e := by
  induction n with
  | zero => simp [run, State.init, Threads.State.init, cleaning]
  | succ n ih =>
    obtain ⟨i1, i2, i3, i4, i5⟩ := ih
    have hl := link (schemes := schemes) (timeout := timeout) (junk := junk) (interval := interval)
      (second := second) σ n
    rcases hq n with hc | hc
    · have hns : ¬ σ.shuts n := by
        rintro ⟨o, h⟩; obtain ⟨o', h'⟩ := hc; rw [h] at h'; cases h'
      obtain ⟨e1, e2, -⟩ := run_stays' hns (.init schemes timeout junk interval second)
      simp only
      rw [e1, e2]
      obtain ⟨out, ho⟩ := hc
      rw [run_cleans ho]
      unfold cleaner
      split
      · rename_i h
        have hf := hl.clF (by rw [h]; simp)
        simp only [act, hf, if_true, Option.map_some, Option.getD_some]
        refine ⟨i1, fun _ => ⟨(σ n).1, false, ?_⟩, i3, by simp, i5⟩
        rw [goto_same, i1]
      · rename_i h
        obtain ⟨now, f, hp⟩ := i2 (hl.cl h)
        simp only [act, hp, Option.map_some, Option.getD_some, goto_same]
        exact ⟨i1, by simp [cleaning], i3, by simp, i5⟩
      · exact ⟨i1, i2, i3, by simp, i5⟩
      · refine ⟨i1, i2, i3, ?_, i5⟩
        intro e; simp only [Option.getD_some]; split <;> simp
      · refine ⟨i1, i2, i3, ?_, i5⟩
        intro e; simp only [Option.getD_some]; split <;> simp
      · split
        · exact ⟨i1, i2, i3, by simp, i5⟩
        · exact ⟨i1, i2, i3, i4, i5⟩
      · exact ⟨i1, i2, i3, i4, i5⟩
      · exact ⟨i1, i2, i3, i4, i5⟩
    · have hnc : ¬ σ.cleans n := by
        rintro ⟨o, h⟩; obtain ⟨o', h'⟩ := hc; rw [h] at h'; cases h'
      obtain ⟨e1, e2⟩ := run_stays hnc (.init schemes timeout junk interval second)
      simp only
      rw [e1, e2]
      obtain ⟨out, ho⟩ := hc
      rw [run_shuts ho]
      unfold shutdown
      split
      · exact ⟨i1, i2, i3, i4, by simp⟩
      · rename_i h
        have hf := hl.sdF (by rw [h]; simp)
        simp only [act, hf, if_true, Option.map_some, Option.getD_some]
        refine ⟨i1, i2, fun _ => ⟨(σ n).1, true, ?_⟩, i4, by simp⟩
        rw [goto_same, i1]
      · rename_i h
        obtain ⟨now, f, hp⟩ := i3 (hl.sd h)
        simp only [act, hp, Option.map_some, Option.getD_some, goto_same]
        exact ⟨i1, i2, by simp [cleaning], i4, by simp⟩
      · refine ⟨i1, i2, i3, i4, ?_⟩
        intro e; simp only [Option.getD_some]; split <;> simp
      · split
        · exact ⟨i1, i2, i3, i4, by simp⟩
        · exact ⟨i1, i2, i3, i4, i5⟩
      · exact ⟨i1, i2, i3, i4, i5⟩
      · exact ⟨i1, i2, i3, i4, i5⟩

/-- C107 without its condition is refuted: a registry with a `clean_interval` that is not positive and that nobody
    uses at all.  `shutdown` never comes to an end, however the two threads are scheduled. -/
theorem C107_hang_refuted (hτ : σ.Clock) (hi : interval ≤ 0) (hq : ∀ n, σ.cleans n ∨ σ.shuts n) (n : Nat) :
    (run σ (.init schemes timeout junk interval second) n).sd ≠ .done ∧
    ∀ e, (run σ (.init schemes timeout junk interval second) n).sd ≠ .raised e := by
  have h := lonely_run (schemes := schemes) (timeout := timeout) (junk := junk) (interval := interval)
    (second := second) hq n
  refine ⟨fun hd => ?_, h.2.2.2.2⟩
  obtain ⟨e, he⟩ := (C107_hang hτ hi n).2 hd
  exact h.2.2.2.1 e he

end

/-! ## Races, and cases that meet the hypotheses -/

/-- a registry in which `ssh` is registered; times are in seconds -/
def fresh (interval : Int) : State := .init [some cl!"ssh"] 6 (fun _ => ⟨k0, 0, 0⟩) interval 1

/-- the listed turns, then the cleaner runs alone, one turn a second from second 100 on -/
def Sched.of (l : List (Int × Event)) : Sched := fun n => l.getD n (100 + n, .cleaner none)

/-- other thread `t` asks for `k0` and then makes `n` steps at second 0 -/
def asks (t n : Nat) : List (Int × Event) := (0, .other t (.get k0)) :: List.replicate n (0, .other t (.step 0 none))

/-- `n` turns at the second `now` -/
def rounds (now : Int) (n : Nat) (e : Event) : List (Int × Event) := List.replicate n (now, e)

theorem of_clock {l : List (Int × Event)} (h : (l.map Prod.fst).Pairwise (· ≤ ·)) (h' : ∀ e ∈ l, e.1 ≤ 100) :
    (Sched.of l).Clock := by
  intro i j hij
  simp only [Sched.of]
  by_cases hj : j < l.length
  · have hi : i < l.length := by omega
    rw [List.getD_eq_getElem?_getD, List.getD_eq_getElem?_getD, List.getElem?_eq_getElem hi,
      List.getElem?_eq_getElem hj]
    simp only [Option.getD_some]
    rcases Nat.lt_or_ge i j with hlt | hge
    · have := List.pairwise_iff_getElem.1 h i j (by simpa using hi) (by simpa using hj) hlt
      simpa using this
    · obtain rfl : i = j := by omega
      exact le_refl _
  · rw [show l.getD j _ = _ from List.getD_eq_getElem?_getD, List.getElem?_eq_none (by omega)]
    simp only [Option.getD_none]
    by_cases hi : i < l.length
    · rw [List.getD_eq_getElem?_getD, List.getElem?_eq_getElem hi]
      simp only [Option.getD_some]
      have := h' _ (List.getElem_mem hi)
      omega
    · rw [List.getD_eq_getElem?_getD, List.getElem?_eq_none (by omega)]
      simp only [Option.getD_none]
      omega

theorem of_fair (l : List (Int × Event)) : (Sched.of l).Fair := by
  intro n T
  refine ⟨n + l.length + T.toNat, by omega, ?_⟩
  have : (Sched.of l) (n + l.length + T.toNat) = (100 + ((n + l.length + T.toNat : Nat) : Int), .cleaner none) := by
    simp only [Sched.of]
    rw [List.getD_eq_getElem?_getD, List.getElem?_eq_none (by omega)]
    rfl
  rw [Sched.cleans, this]
  exact ⟨⟨none, rfl⟩, by simp only; omega⟩

theorem of_tail {l : List (Int × Event)} {n : Nat} (h : l.length ≤ n) : (Sched.of l n).2 = .cleaner none := by
  simp only [Sched.of]
  rw [List.getD_eq_getElem?_getD, List.getElem?_eq_none h]
  rfl

/-- `shutdown` closes the connection that the cleaner is about to delete -/
def race1 : List (Int × Event) := asks 0 6 ++ rounds 10 2 (.cleaner none) ++ rounds 10 3 (.shutdown none) ++
  rounds 10 1 (.cleaner none) ++ rounds 10 1 (.shutdown none)

/-- C107: `shutdown` can raise KeyError, when it meets the cleaner in its clean-up (the cleaner is then still alive,
    `shutdown` has not waited for it, and the connection has been closed twice). -/
theorem C107_raises : (Sched.of race1).Clock ∧ (run (.of race1) (fresh 300) 14).sd = .raised .keyError ∧
    (run (.of race1) (fresh 300) 14).cl = .busy ∧
    ((run (.of race1) (fresh 300) 14).s.reg.conn 0).closed = 2 :=
  ⟨of_clock (by decide +kernel) (by decide +kernel), by decide +kernel, by decide +kernel, by decide +kernel⟩

/-- the same, but `shutdown` deletes first -/
def race2 : List (Int × Event) := asks 0 6 ++ rounds 10 2 (.cleaner none) ++ rounds 10 4 (.shutdown none) ++
  rounds 10 1 (.cleaner none) ++ rounds 10 2 (.shutdown none)

/-- The other outcome of the same race: the cleaner thread dies of a KeyError, and `shutdown` returns. -/
theorem C107_cleaner_dies : (Sched.of race2).Clock ∧ (run (.of race2) (fresh 300) 16).sd = .done ∧
    (run (.of race2) (fresh 300) 16).cl = .dead .keyError :=
  ⟨of_clock (by decide +kernel) (by decide +kernel), by decide +kernel, by decide +kernel⟩

/-- another thread calls `cleanup` while the cleaner cleans up -/
def race3 : List (Int × Event) := asks 0 6 ++ rounds 10 2 (.cleaner none) ++
  [(10, .other 1 (.cleanup 10 false))] ++ rounds 10 2 (.other 1 (.step 10 none)) ++ rounds 10 1 (.cleaner none)

/-- C106 needs that nobody else cleans up: otherwise the cleaner thread can die without `shutdown` being called. -/
theorem C106_dies : (Sched.of race3).Clock ∧ (∀ n, ¬ (Sched.of race3).shuts n) ∧
    (run (.of race3) (fresh 300) 13).cl = .dead .keyError := by
  refine ⟨of_clock (by decide +kernel) (by decide +kernel), ?_, by decide +kernel⟩
  rintro n ⟨out, h⟩
  by_cases hn : race3.length ≤ n
  · rw [of_tail hn] at h; cases h
  · have : ∀ n < race3.length, ((Sched.of race3 n).2 matches .shutdown _) = false := by decide +kernel
    have := this n (by omega)
    rw [h] at this; cases this

/-- two threads ask for the same key at once, and the cleaner comes between -/
def race4 : List (Int × Event) := asks 1 1 ++ asks 0 6 ++ rounds 10 2 (.cleaner none) ++
  rounds 10 3 (.other 1 (.step 10 none)) ++ rounds 10 1 (.cleaner none)

/-- C108 needs its last hypothesis: a connection that was just made (and never used) can go without being closed,
    although nobody but the cleaner cleans up. -/
theorem C108_leak : (Sched.of race4).Clock ∧ (Sched.of race4).Peaceful ∧ (Sched.of race4).Fair ∧
    (run (.of race4) (fresh 300) 14).s.reg.connections.lookup k0 = some 1 ∧
    (run (.of race4) (fresh 300) 15).s.reg.connections.lookup k0 = none ∧
    ((run (.of race4) (fresh 300) 15).s.reg.conn 1).closed = 0 := by
  refine ⟨of_clock (by decide +kernel) (by decide +kernel), ?_, of_fair _, by decide +kernel, by decide +kernel,
    by decide +kernel⟩
  intro n
  by_cases hn : race4.length ≤ n
  · simp [Sched.shuts, of_tail hn]
  · have h : ∀ n < race4.length, ((Sched.of race4 n).2 matches .shutdown _ | .other _ (.cleanup _ _)) = false := by
      decide +kernel
    have h := h n (by omega)
    refine ⟨?_, ?_⟩
    · rintro ⟨out, e⟩; rw [e] at h; cases h
    · intro t now f e; rw [e] at h; cases h

/-- C106_interval, C106_pause: the cleaner alone, a turn a second, `clean_interval` 3 -/
example : (run (fun n => ((n : Int), .cleaner none)) (fresh 3) 0).cl = .top ∧
    (run (fun n => ((n : Int), .cleaner none)) (fresh 3) 7).cl = .top ∧
    (run (fun n => ((n : Int), .cleaner none)) (fresh 300) 4).cl = .flag 2 ∧
    (run (fun n => ((n : Int), .cleaner none)) (fresh 300) 7).cl = .flag 2 := by decide +kernel
example : Sched.Clock fun n => ((n : Int), .cleaner none) := fun i j h => by simpa using h

/-- C107_returns: the cleaner and `shutdown` take turns -/
def both : Sched := fun n => (n, if n % 2 = 0 then .cleaner none else .shutdown none)

example : both.Fair ∧ both.Fair' ∧ Timely both (fresh 300) := by
  refine ⟨fun n T => ⟨2 * (n + T.toNat), by omega, ⟨none, ?_⟩, ?_⟩, fun n => ⟨2 * n + 1, by omega, none, ?_⟩, ?_⟩
  · simp [both]
  · simp only [both]; omega
  · simp [both]
  · intro n t0 _ h
    by_cases hn : n < 9
    · have : ∀ n < 9, (match (run both (fresh 300) n).cl with
          | .test true t0 => decide ((both n).1 - t0 < 300)
          | _ => true) = true := by decide +kernel
      have := this n hn
      rw [h] at this
      exact of_decide_eq_true this
    · have h9 : (run both (fresh 300) 9).cl.over = true := by decide +kernel
      obtain ⟨d, rfl⟩ : ∃ d, n = 9 + d := ⟨n - 9, by omega⟩
      have := over_stays h9 d
      unfold fresh at h
      rw [h] at this; cases this
example : (run both (fresh 300) 10).sd = .done ∧ (run both (fresh 300) 10).cl = .ended := by decide +kernel

/-- C107_closes: a connection, then `shutdown` -/
example : (run (.of (asks 0 6 ++ rounds 10 5 (.shutdown none))) (fresh 300) 8).sd = .force ∧
    (run (.of (asks 0 6 ++ rounds 10 5 (.shutdown none))) (fresh 300) 12).sd = .alive ∧
    (k0, 0) ∈ (run (.of (asks 0 6 ++ rounds 10 5 (.shutdown none))) (fresh 300) 8).s.reg.connections := by
  decide +kernel

/-- C107_hang, C107_hang_refuted: `both` with a `clean_interval` of 0 -/
example : both.Clock ∧ ∀ n, both.cleans n ∨ both.shuts n := by
  refine ⟨fun i j h => by simpa [both] using h, fun n => ?_⟩
  by_cases h : n % 2 = 0
  · exact .inl ⟨none, by simp [both, h]⟩
  · exact .inr ⟨none, by simp [both, h]⟩

/-- C108: a connection is made and never used -/
example : (Sched.of (asks 0 6)).Clock ∧ (Sched.of (asks 0 6)).Peaceful ∧ (Sched.of (asks 0 6)).Fair ∧
    NoRace (.of (asks 0 6)) (fresh 300) ∧ Unused (.of (asks 0 6)) (fresh 300) 7 0 ∧
    (run (.of (asks 0 6)) (fresh 300) 7).s.reg.connections.lookup k0 = some 0 := by
  refine ⟨of_clock (by decide +kernel) (by decide +kernel), ?_, of_fair _, ?_, ?_, by decide +kernel⟩
  · intro n
    by_cases hn : 7 ≤ n
    · simp [Sched.shuts, of_tail (l := asks 0 6) hn]
    · have h : ∀ n < 7, ((Sched.of (asks 0 6) n).2 matches .shutdown _ | .other _ (.cleanup _ _)) = false := by
        decide +kernel
      have h := h n (by omega)
      refine ⟨?_, ?_⟩
      · rintro ⟨out, e⟩; rw [e] at h; cases h
      · intro t now f e; rw [e] at h; cases h
  · intro n t a k c e h
    by_cases hn : 7 ≤ n
    · rw [of_tail (l := asks 0 6) hn] at e; cases e
    · have h0 : ∀ n < 7, (match (Sched.of (asks 0 6) n).2 with | .other t _ => t == 0 | _ => false) = true := by
        decide +kernel
      have h0 := h0 n (by omega)
      rw [e] at h0
      obtain rfl : t = 0 := by simpa using h0
      have h1 : ∀ n < 7, (match (run (.of (asks 0 6)) (fresh 300) n).s.pc 2 with
          | .store k _ => ((run (.of (asks 0 6)) (fresh 300) n).s.reg.connections.lookup k).isNone
          | _ => true) = true := by decide +kernel
      have h1 := h1 n (by omega)
      rw [h] at h1
      simpa using h1
  · intro m t now k hm e
    rw [of_tail (l := asks 0 6) hm] at e; cases e

end Verif.Reg.Cleaner
