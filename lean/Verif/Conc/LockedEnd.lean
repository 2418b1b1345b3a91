import Verif.Conc.LockedWp
/-!
# Threads that do their work in `with p.lock(...)` come to their end
-/
namespace Verif.Conc
open Mem Mem.M Spec Prog

/-- where a thread may be after its next step -/
inductive Pc.Next : Pc → Pc → Prop
  | enter {a b k q} : Next (.entering a b k q) (.idle (.locked a b k))
  | entering {a b k} {β : Type} {x : M β} {f r} : Next (.entering a b k (f r)) (.entering a b k (.act x f))
  | opened {a b k h r} : Next (.opened a b k h) (.entering a b k (.ret r))
  | refused {a b k e r} : Next (.idle (k e)) (.entering a b k (.ret r))
  | found {a b k h l} : Next (.waiting a b k l) (.opened a b k h)
  | missed {a b k h e} : Next (.idle (k e)) (.opened a b k h)
  | acquire {a b k l q} : Next (.inside a b k l q) (.waiting a b k l)
  | taken {a b k l e} : Next (.idle (k e)) (.waiting a b k l)
  | inside {a b k l} {β : Type} {x : M β} {f r} : Next (.inside a b k l (f r)) (.inside a b k l (.act x f))
  | cleanup {a b k l log q r} : Next (.leaving k log q) (.inside a b k l (.ret r))
  | leave {a b k l e r} : Next (.idle (k e)) (.inside a b k l (.ret r))
  | leaving {k log} {β : Type} {x : M β} {f r} : Next (.leaving k log (f r)) (.leaving k log (.act x f))
  | left {k log e r} : Next (.idle (k e)) (.leaving k log (.ret r))

theorem acc_leaving {k : Except PyErr Log → Task} (hk : ∀ r, Acc Pc.Next (.idle (k r))) (log : Log) (q : Prog Unit) :
    Acc Pc.Next (.leaving k log q) := by
  induction q with
  | ret r => exact ⟨_, fun _ h => by cases h; exact hk _⟩
  | act x f ih => exact ⟨_, fun _ h => by cases h; exact ih _⟩

theorem acc_inside {k : Except PyErr Log → Task} (hk : ∀ r, Acc Pc.Next (.idle (k r))) (a : Lock.Args) (b : Script) (l : LockId) (q : Prog Log) :
    Acc Pc.Next (.inside a b k l q) := by
  induction q with
  | ret r =>
    refine ⟨_, fun _ h => ?_⟩
    cases h with
    | cleanup => exact acc_leaving hk _ _
    | leave => exact hk _
  | act x f ih => exact ⟨_, fun _ h => by cases h; exact ih _⟩

theorem acc_waiting {k : Except PyErr Log → Task} (hk : ∀ r, Acc Pc.Next (.idle (k r))) (a : Lock.Args) (b : Script) (l : LockId) :
    Acc Pc.Next (.waiting a b k l) := by
  refine ⟨_, fun _ h => ?_⟩
  cases h with
  | acquire => exact acc_inside hk _ _ _ _
  | taken => exact hk _

theorem acc_opened {k : Except PyErr Log → Task} (hk : ∀ r, Acc Pc.Next (.idle (k r))) (a : Lock.Args) (b : Script) (x : Handle) :
    Acc Pc.Next (.opened a b k x) := by
  refine ⟨_, fun _ h => ?_⟩
  cases h with
  | found => exact acc_waiting hk _ _ _
  | missed => exact hk _

theorem acc_entering {k : Except PyErr Log → Task} (hk : ∀ r, Acc Pc.Next (.idle (k r))) (a : Lock.Args) (b : Script) (q : Prog Handle) :
    Acc Pc.Next (.entering a b k q) := by
  induction q with
  | ret r =>
    refine ⟨_, fun _ h => ?_⟩
    cases h with
    | opened => exact acc_opened hk _ _ _
    | refused => exact hk _
  | act x f ih => exact ⟨_, fun _ h => by cases h; exact ih _⟩

theorem acc_idle (t : Task) : Acc Pc.Next (.idle t) := by
  induction t with
  | done => exact ⟨_, fun _ h => by cases h⟩
  | locked a b k ih => exact ⟨_, fun _ h => by cases h; exact acc_entering ih _ _ _⟩

/-- a thread makes finitely many steps -/
theorem acc_pc (p : Pc) : Acc Pc.Next p := by
  cases p with
  | idle t => exact acc_idle t
  | entering a b k q => exact acc_entering (fun _ => acc_idle _) _ _ _
  | opened a b k h => exact acc_opened (fun _ => acc_idle _) _ _ _
  | waiting a b k l => exact acc_waiting (fun _ => acc_idle _) _ _ _
  | inside a b k l q => exact acc_inside (fun _ => acc_idle _) _ _ _ _
  | leaving k log q => exact acc_leaving (fun _ => acc_idle _) _ _

/-- one of the first `n` threads makes a step -/
def Stepped (n : Nat) (p' p : Nat → Pc) : Prop := ∃ t, t < n ∧ Pc.Next (p' t) (p t) ∧ ∀ i, i ≠ t → p' i = p i

theorem acc_all (n : Nat) : ∀ p, Acc (Stepped n) p := by
  induction n with
  | zero => exact fun p => ⟨_, fun _ ⟨t, h, _⟩ => absurd h (by omega)⟩
  | succ n ih =>
    have key : ∀ x, Acc Pc.Next x → ∀ p : Nat → Pc, p n = x → Acc (Stepped (n + 1)) p := by
      intro x hx
      induction hx with
      | intro x _ ih1 =>
        intro p
        induction ih p with
        | intro p _ ih2 =>
          intro hp
          refine ⟨_, fun p' ⟨t, h1, h2, h3⟩ => ?_⟩
          by_cases ht : t = n
          · subst ht
            exact ih1 _ (hp ▸ h2) p' rfl
          · exact ih2 p' ⟨t, by omega, h2, h3⟩ ((h3 n (Ne.symm ht)).trans hp)
    exact fun p => key _ (acc_pc _) p rfl

/-- a step that is none, or one of these -/
theorem Hall.step_next (s : Hall) (t : Nat) : s.step t = s ∨ Pc.Next ((s.step t).pc t) (s.pc t) ∧ ∀ i, i ≠ t → (s.step t).pc i = s.pc i := by
  have go : ∀ {w : World} {p : Pc}, Pc.Next p (s.pc t) → Pc.Next ((s.goto t w p).pc t) (s.pc t) ∧ ∀ i, i ≠ t → (s.goto t w p).pc i = s.pc i := by
    intro w p h
    refine ⟨by simpa [Hall.goto] using h, fun i hi => by simp [Hall.goto, hi]⟩
  unfold Hall.step
  split
  · exact .inl rfl
  · rename_i e; exact .inr (go (w := s.world) (by rw [e]; exact .enter))
  · rename_i e; exact .inr (go (by rw [e]; exact .entering))
  · rename_i e; exact .inr (go (w := s.world) (by rw [e]; exact .opened))
  · rename_i e; exact .inr (go (w := s.world) (by rw [e]; exact .refused))
  · rename_i e
    split
    · exact .inr (go (w := s.world) (by rw [e]; exact .found))
    · exact .inr (go (w := s.world) (by rw [e]; exact .missed))
  · rename_i e
    split
    · split
      · exact .inr (go (w := s.world) (by rw [e]; exact .taken))
      · exact .inl rfl
    · exact .inr (go (by rw [e]; exact .acquire))
  · rename_i e; exact .inr (go (by rw [e]; exact .inside))
  · rename_i e
    split
    · exact .inr (go (w := s.world) (by rw [e]; exact .leave))
    · exact .inr (go (w := s.world) (by rw [e]; exact .leave))
    · refine .inr (go (w := s.world) ?_)
      rw [e]
      split
      · exact .cleanup
      · exact .leave
  · rename_i e; exact .inr (go (by rw [e]; exact .leaving))
  · rename_i e; exact .inr (go (w := s.world) (by rw [e]; exact .left))
  · rename_i e; exact .inr (go (w := s.world) (by rw [e]; exact .left))

/-- only a thread that is at its end or waits for a lock that is held makes no step -/
theorem Hall.step_self {s : Hall} {t : Nat} (h : s.step t = s) :
    s.pc t = .idle .done ∨ ∃ a b k l, s.pc t = .waiting a b k l ∧ s.world.held l = true := by
  have irr : ¬ Pc.Next (s.pc t) (s.pc t) := fun hn => by
    have : ∀ p, Acc Pc.Next p → ¬ Pc.Next p p := fun p hp => by
      induction hp with
      | intro p _ ih => exact fun hx => ih p hx hx
    exact this _ (acc_pc _) hn
  have go : ∀ {w : World} {p : Pc}, Pc.Next p (s.pc t) → (s.goto t w p).pc t = s.pc t → False := by
    intro w p hn he
    simp only [Hall.goto, if_true] at he
    rw [he] at hn
    exact irr hn
  cases e : s.pc t with
  | idle tk =>
    cases tk with
    | done => exact .inl rfl
    | locked a b k =>
      rw [Hall.step, e] at h
      exact (go (w := s.world) (by rw [e]; exact .enter) (congrArg (fun x => x.pc t) h)).elim
  | entering a b k q =>
    rw [Hall.step, e] at h
    cases q with
    | act x f => exact (go (by rw [e]; exact .entering) (congrArg (fun x => x.pc t) h)).elim
    | ret r =>
      cases r with
      | ok y => exact (go (w := s.world) (by rw [e]; exact .opened) (congrArg (fun x => x.pc t) h)).elim
      | error y => exact (go (w := s.world) (by rw [e]; exact .refused) (congrArg (fun x => x.pc t) h)).elim
  | opened a b k x =>
    rw [Hall.step, e] at h
    dsimp only at h
    split at h
    · exact (go (w := s.world) (by rw [e]; exact .found) (congrArg (fun x => x.pc t) h)).elim
    · exact (go (w := s.world) (by rw [e]; exact .missed) (congrArg (fun x => x.pc t) h)).elim
  | waiting a b k l =>
    rw [Hall.step, e] at h
    dsimp only at h
    split at h
    · rename_i hh
      exact .inr ⟨a, b, k, l, rfl, hh⟩
    · exact (go (by rw [e]; exact .acquire) (congrArg (fun x => x.pc t) h)).elim
  | inside a b k l q =>
    rw [Hall.step, e] at h
    cases q with
    | act x f => exact (go (by rw [e]; exact .inside) (congrArg (fun x => x.pc t) h)).elim
    | ret r =>
      dsimp only at h
      split at h
      · exact (go (w := s.world) (by rw [e]; exact .leave) (congrArg (fun x => x.pc t) h)).elim
      · exact (go (w := s.world) (by rw [e]; exact .leave) (congrArg (fun x => x.pc t) h)).elim
      · refine (go (w := s.world) ?_ (congrArg (fun x => x.pc t) h)).elim
        rw [e]
        split
        · exact .cleanup
        · exact .leave
  | leaving k log q =>
    rw [Hall.step, e] at h
    cases q with
    | act x f => exact (go (by rw [e]; exact .leaving) (congrArg (fun x => x.pc t) h)).elim
    | ret r =>
      cases r with
      | ok y => exact (go (w := s.world) (by rw [e]; exact .left) (congrArg (fun x => x.pc t) h)).elim
      | error y => exact (go (w := s.world) (by rw [e]; exact .left) (congrArg (fun x => x.pc t) h)).elim

/-- the state before turn `n` of an endless schedule -/
def Hall.till (s : Hall) (σ : Nat → Nat) : Nat → Hall
  | 0 => s
  | n + 1 => (s.till σ n).step (σ n)

variable {G : Gate} {F : Frame} {w0 : World}

theorem Gate.Inv.till [Sub G.T F] [Sub G.work F] (hc : G.loc.1 = G.r0 → ¬ Cmp G.q0 G.loc.2) (hloc : ¬ G.work G.loc) (hne : G.loc.2 ≠ []) {s : Hall}
    (h : ∃ C v, G.Inv F w0 s C v) (σ : Nat → Nat) (n : Nat) : ∃ C v, G.Inv F w0 (s.till σ n) C v := by
  induction n with
  | zero => exact h
  | succ n ih =>
    obtain ⟨C, v, h⟩ := ih
    exact h.step hc hloc hne _

/-- Every thread comes to its end if every one has turns again and again. -/
theorem gate_end [Sub G.T F] [Sub G.work F] (hc : G.loc.1 = G.r0 → ¬ Cmp G.q0 G.loc.2) (hloc : ¬ G.work G.loc) (hne : G.loc.2 ≠ [])
    (hfree : w0.held (w0.gen, G.path) = false) {s : Hall} (h : ∃ C v, G.Inv F w0 s C v) {N : Nat} (hN : ∀ t, N ≤ t → s.pc t = .idle .done)
    {σ : Nat → Nat} (hσ : ∀ t, t < N → ∀ n, ∃ m, n ≤ m ∧ σ m = t) :
    ∃ n, ∀ m, n ≤ m → ∀ t, (s.till σ m).pc t = .idle .done := by
  have done : ∀ m, (∀ t, (s.till σ m).pc t = .idle .done) → s.till σ (m + 1) = s.till σ m := by
    intro m hm
    show (s.till σ m).step (σ m) = _
    rw [Hall.step, hm]
  have key : ∀ p, Acc (Stepped N) p → ∀ n, (s.till σ n).pc = p → (∀ t, N ≤ t → (s.till σ n).pc t = .idle .done) →
      ∃ n, ∀ t, (s.till σ n).pc t = .idle .done := by
    intro p hp
    induction hp with
    | intro p _ ih =>
      intro n hn hN
      by_cases hall : ∀ t, (s.till σ n).pc t = .idle .done
      · exact ⟨n, hall⟩
      · -- some thread can make a step
        obtain ⟨C, v, hi⟩ := Gate.Inv.till hc hloc hne h σ n
        obtain ⟨t, ht⟩ : ∃ t, (s.till σ n).step t ≠ s.till σ n := by
          by_contra hno
          have hno : ∀ t, (s.till σ n).step t = s.till σ n := by simpa using hno
          obtain ⟨t, ht⟩ : ∃ t, (s.till σ n).pc t ≠ .idle .done := by simpa using hall
          rcases Hall.step_self (hno t) with h1 | ⟨a, b, k, l, h1, h2⟩
          · exact ht h1
          · have h3 := hi.pc t
            rw [h1] at h3
            obtain ⟨-, -, rfl⟩ := h3
            obtain ⟨t', h4⟩ := hi.free hfree h2
            rcases Hall.step_self (hno t') with h5 | ⟨_, _, _, _, h5, -⟩
            · rw [h5] at h4; exact h4
            · rw [h5] at h4; exact h4
        have htN : t < N := by
          by_contra hx
          apply ht
          rw [Hall.step, hN t (by omega)]
        obtain ⟨m, hm, hmt⟩ := hσ t htN n
        -- the first turn that is a step
        have stay : ∀ d, (∃ j, n ≤ j ∧ j < n + d ∧ s.till σ j = s.till σ n ∧ s.till σ (j + 1) ≠ s.till σ j) ∨ s.till σ (n + d) = s.till σ n := by
          intro d
          induction d with
          | zero => exact .inr rfl
          | succ d ihd =>
            rcases ihd with ⟨j, h1, h2, h3, h4⟩ | h1
            · exact .inl ⟨j, h1, by omega, h3, h4⟩
            · by_cases h2 : s.till σ (n + d + 1) = s.till σ (n + d)
              · exact .inr (h2.trans h1)
              · exact .inl ⟨n + d, by omega, by omega, h1, h2⟩
        obtain ⟨j, hj, hj1, hj2⟩ : ∃ j, n ≤ j ∧ s.till σ j = s.till σ n ∧ s.till σ (j + 1) ≠ s.till σ j := by
          rcases stay (m - n) with ⟨j, h1, -, h3, h4⟩ | h1
          · exact ⟨j, h1, h3, h4⟩
          · rw [show n + (m - n) = m by omega] at h1
            refine ⟨m, hm, h1, ?_⟩
            show (s.till σ m).step (σ m) ≠ _
            rw [h1, hmt]
            exact ht
        have hst : s.till σ (j + 1) = (s.till σ n).step (σ j) := by rw [← hj1]; rfl
        rw [hj1, hst] at hj2
        rcases Hall.step_next (s.till σ n) (σ j) with h1 | ⟨h1, h2⟩
        · exact absurd h1 hj2
        · have hlt : σ j < N := by
            by_contra hx
            apply hj2
            rw [Hall.step, hN _ (by omega)]
          refine ih _ ?_ (j + 1) rfl fun i hi => ?_
          · rw [hst, ← hn]
            exact ⟨σ j, hlt, h1, h2⟩
          · rw [hst, h2 i (by omega)]
            exact hN i hi
  obtain ⟨n, hn⟩ := key _ (acc_all N _) 0 rfl hN
  refine ⟨n, fun m hm => ?_⟩
  obtain ⟨d, rfl⟩ := Nat.exists_eq_add_of_le hm
  clear hm
  induction d with
  | zero => exact hn
  | succ d ih => intro t; rw [← Nat.add_assoc, done _ ih]; exact ih t

end Verif.Conc
