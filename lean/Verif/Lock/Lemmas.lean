import Verif.Lock.Threads
/-! # The invariant of the lock statement -/
namespace Verif.Lock
open Mem Mem.M

theorem file_lt {w : World} (hw : Mem.Inv w) {i : Nat} {f : FileObj} (h : w.node i = .file f) : i < w.next := by
  by_contra hn
  have := hw.fresh i (by omega)
  rw [h] at this
  cases this

/-- a file opened for writing carries the lock its path has now -/
theorem openWrite_lock {w w1 : World} (hw : Mem.Inv w) {r : Nat} (hr : IsRoot w r) {u : Uri} {b : Bool} {h : Handle}
    (ho : openWrite r u b w = (.ok h, w1)) :
    ∃ f, w1.node h.id = .file f ∧ f.lock = (w.gen, f.path) ∧ w1.gen = w.gen ∧ w1.held = w.held := by
  rcases openWrite_cases hw hr u b with ⟨e, h1⟩ | ⟨i, f, a, h1⟩ | ⟨p, init, n, q, nd, d, -, -, -, a, b', c, e, h1⟩
  · rw [h1] at ho; simp at ho
  · rw [h1] at ho
    simp only [Prod.mk.injEq, Except.ok.injEq] at ho
    obtain ⟨rfl, rfl⟩ := ho
    exact ⟨_, by simp [World.resetAt, World.setNode]; rfl, rfl, rfl, rfl⟩
  · rw [h1] at ho
    simp only [Prod.mk.injEq, Except.ok.injEq] at ho
    obtain ⟨rfl, rfl⟩ := ho
    have hne : w.next ≠ nd := by omega
    exact ⟨_, by simp [World.addChild, World.freshFile, hne]; rfl, rfl, rfl, rfl⟩

/-- what thread `p` knows about its file; `g` is the number of file systems at the start -/
def PcOk (g : Nat) (w : World) : Pc → Prop
  | .opened _ h => ∃ f, w.node h.id = .file f ∧ f.lock.2 = f.path ∧ g ≤ f.lock.1 ∧ f.lock.1 ≤ w.gen
  | .waiting _ h l => ∃ f, w.node h.id = .file f ∧ l.2 = f.path ∧ g ≤ l.1 ∧ l.1 ≤ w.gen
  | .inside _ h l => w.held l = true ∧ ∃ f, w.node h.id = .file f ∧ l.2 = f.path ∧ g ≤ l.1 ∧ l.1 ≤ w.gen
  | _ => True

/-- files keep their path, locks are only renewed -/
theorem stays_file {w w' : World} (hw : Mem.Inv w) (h : Stays w w') {i : Nat} {f : FileObj} (hf : w.node i = .file f) :
    ∃ f', w'.node i = .file f' ∧ f'.path = f.path ∧
      (f'.lock = f.lock ∨ f'.lock.2 = f.path ∧ w.gen ≤ f'.lock.1 ∧ f'.lock.1 ≤ w'.gen) := by
  have := h.type i (file_lt hw hf)
  rw [hf] at this
  cases hn : w'.node i with
  | file f' => rw [hn] at this; exact ⟨f', rfl, this.1, this.2⟩
  | dir d => rw [hn] at this; exact this.elim
  | link d => rw [hn] at this; exact this.elim

theorem PcOk.stays {g : Nat} {w w' : World} (hw : Mem.Inv w) (h : Stays w w') {p : Pc}
    (hh : ∀ a x l, p = .inside a x l → w'.held l = w.held l) (hg : g ≤ w.gen) (hp : PcOk g w p) : PcOk g w' p := by
  cases p with
  | opened a x =>
    obtain ⟨f, h1, h2, h3, h4⟩ := hp
    obtain ⟨f', a1, a2, a3⟩ := stays_file hw h h1
    refine ⟨f', a1, ?_⟩
    rcases a3 with a3 | ⟨a3, a4, a5⟩
    · rw [a3, a2]; exact ⟨h2, h3, Nat.le_trans h4 h.gen⟩
    · exact ⟨a3.trans a2.symm, Nat.le_trans hg a4, a5⟩
  | waiting a x l =>
    obtain ⟨f, h1, h2, h3, h4⟩ := hp
    obtain ⟨f', a1, a2, -⟩ := stays_file hw h h1
    exact ⟨f', a1, h2.trans a2.symm, h3, Nat.le_trans h4 h.gen⟩
  | inside a x l =>
    obtain ⟨h0, f, h1, h2, h3, h4⟩ := hp
    obtain ⟨f', a1, a2, -⟩ := stays_file hw h h1
    exact ⟨(hh a x l rfl).trans h0, f', a1, h2.trans a2.symm, h3, Nat.le_trans h4 h.gen⟩
  | _ => trivial

/-- the invariant of every execution that starts with `g` file systems created -/
structure Good (g : Nat) (s : State) : Prop where
  inv : Mem.Inv s.w
  gen : g ≤ s.w.gen
  pcs : ∀ t, PcOk g s.w (s.pc t)
  one : ∀ t t' a a' h h' l, s.pc t = .inside a h l → s.pc t' = .inside a' h' l → t = t'

theorem good_start {w : World} (hw : Mem.Inv w) : Good w.gen (.start w) :=
  ⟨hw, Nat.le_refl _, fun _ => trivial, fun _ _ _ _ _ _ _ h => by simp [State.start] at h⟩

/-- A step of thread `t` that leaves the locks of the threads inside alone. -/
theorem Good.move {g : Nat} {s : State} (h : Good g s) {w' : World} {t : Nat} {p : Pc} (hi : Mem.Inv w')
    (hst : Stays s.w w') (hh : ∀ i a x l, i ≠ t → s.pc i = .inside a x l → w'.held l = s.w.held l)
    (hp : PcOk g w' p)
    (hone : ∀ a x l, p = .inside a x l → ∀ t' a' x', s.pc t' = .inside a' x' l → t' = t) :
    Good g (State.goto ⟨w', s.pc⟩ t p) := by
  refine ⟨hi, Nat.le_trans h.gen hst.gen, ?_, ?_⟩
  · intro i
    simp only [State.goto]
    split
    · exact hp
    · rename_i hne; exact (h.pcs i).stays h.inv hst (fun a x l e => hh i a x l hne e) h.gen
  · intro i j a a' x x' l h1 h2
    simp only [State.goto] at h1 h2
    split at h1 <;> split at h2
    · omega
    · rename_i hi' hj; rw [hi']; exact (hone a x l h1 j a' x' h2).symm
    · rename_i hi' hj; rw [hj]; exact hone a' x' l h2 i a x h1
    · exact h.one i j a a' x x' l h1 h2

theorem held_other {w : World} {l k : LockId} (b : Bool) (h : k ≠ l) :
    (fun k => if k = l then b else w.held k) k = w.held k := by simp [h]

theorem act_good {g : Nat} {s s' : State} (h : Good g s) {t : Nat} {x : Act} (ha : act t x s = some s') : Good g s' := by
  unfold act at ha
  split at ha
  · -- enter
    rename_i a
    split at ha
    swap
    · cases ha
    have hP : Pres (withConn a.path .lock fun r => open_ r a.path (some cl!"w")) :=
      .withConn fun r => keeps_open r a.path _
    have hC : Calm (withConn a.path .lock fun r => open_ r a.path (some cl!"w")) :=
      .withConn fun r => calm_open r a.path _
    have hp := hP s.w h.inv
    have hc := hC s.w
    split at ha
    · rename_i hd w e
      obtain rfl := Option.some.inj ha
      rw [e] at hp hc
      refine h.move hp.1 hp.2.stays (fun _ _ _ l _ _ => by rw [hc.1]) ?_ (by simp)
      -- the lock of the file just opened
      obtain ⟨h1, h2, h3⟩ := getConnection_pres a.path s.w h.inv
      unfold withConn at e
      obtain ⟨r, w1, e1, e2⟩ := bind_inv e
      rw [e1] at h1 h2 h3
      obtain ⟨_, w2, e3, e4⟩ := bind_inv e2
      have : w2 = w1 := by
        unfold preCallHook at e3
        obtain ⟨_, w3, e5, e6⟩ := bind_inv e3
        simp only [lift_apply, Prod.mk.injEq] at e5
        simp only [query_apply, Prod.mk.injEq] at e6
        rw [← e6.2, ← e5.2]
      subst this
      have e5 : openWrite r a.path false w2 = (.ok hd, w) := e4
      obtain ⟨f, f1, f2, f3, -⟩ := openWrite_lock h1 (h3 r rfl) e5
      refine ⟨f, f1, by rw [f2], ?_, ?_⟩
      · rw [f2]; exact Nat.le_trans h.gen h2.stays.gen
      · rw [f2, f3]
    · rename_i er w e
      obtain rfl := Option.some.inj ha
      rw [e] at hp hc
      exact h.move hp.1 hp.2.stays (fun _ _ _ l _ _ => by rw [hc.1]) trivial (by simp)
  · -- opened
    rename_i a hd e
    have hp := h.pcs t
    rw [e] at hp
    obtain ⟨f, h1, h2, h3, h4⟩ := hp
    rw [h1] at ha
    obtain rfl := Option.some.inj ha
    exact h.move h.inv (Ext.rfl' _).stays (fun _ _ _ _ _ _ => rfl) ⟨f, h1, h2, h3, h4⟩ (by simp)
  · -- waiting
    rename_i a hd l e
    have hp := h.pcs t
    rw [e] at hp
    split at ha
    · split at ha
      · obtain rfl := Option.some.inj ha
        exact h.move h.inv (Ext.rfl' _).stays (fun _ _ _ _ _ _ => rfl) trivial (by simp)
      · cases ha
    · rename_i hf
      obtain rfl := Option.some.inj ha
      have hA := pres_acquire l s.w h.inv
      have hw : (acquire l s.w).2 = { s.w with held := fun k => if k = l then true else s.w.held k } := by
        unfold acquire; rw [if_neg hf]
      have hne : ∀ i a' x' l', s.pc i = .inside a' x' l' → l' ≠ l := by
        rintro i a' x' l' e1 rfl
        have := h.pcs i
        rw [e1] at this
        exact hf this.1
      refine h.move hA.1 hA.2.stays ?_ ?_ ?_
      · intro i a' x' l' _ e1
        rw [hw]
        exact held_other true (hne i a' x' l' e1)
      · obtain ⟨f, h1, h2⟩ := hp
        rw [hw]
        exact ⟨by simp, f, h1, h2⟩
      · rintro a' x' l' e1 t' a2 x2 e2
        cases e1
        exact absurd rfl (hne t' a2 x2 l e2)
  · -- leave
    rename_i a hd l e
    have hp := h.pcs t
    rw [e] at hp
    have hR := pres_release l s.w h.inv
    have hw : release l s.w = (.ok (), { s.w with held := fun k => if k = l then false else s.w.held k }) := by
      unfold release; rw [if_pos hp.1]
    rw [hw] at ha hR
    obtain rfl := Option.some.inj ha
    refine h.move hR.1 hR.2.stays ?_ ?_ ?_
    · intro i a' x' l' hi e1
      refine held_other false ?_
      rintro rfl
      exact hi (h.one i t a' a x' hd l' e1 e)
    · split <;> trivial
    · intro a' x' l' e1
      split at e1 <;> cases e1
  · -- removing
    rename_i a e
    have hp := Gen.pres_uRemove 0 a.path false s.w h.inv
    have hc := Gen.calm_uRemove 0 a.path false s.w
    split at ha
    all_goals
      rename_i w e1
      obtain rfl := Option.some.inj ha
      rw [e1] at hp hc
      exact h.move hp.1 hp.2.stays (fun _ _ _ l _ _ => by rw [hc.1]) trivial (by simp)
  · -- another call
    rename_i _ _ o
    split at ha
    · cases ha
    · rename_i ho
      obtain rfl := Option.some.inj ha
      have hk := o.keeps h.inv
      have hc := o.calm (by simpa using ho) s.w
      refine ⟨hk.1, Nat.le_trans h.gen hk.2.gen, fun i => ?_, h.one⟩
      exact (h.pcs i).stays h.inv hk.2 (fun a x l _ => by rw [hc.1]) h.gen
  · cases ha

theorem runs_good {g : Nat} {s s' : State} (h : Good g s) {l : List (Nat × Act)} (hr : runs l s = some s') :
    Good g s' := by
  induction l generalizing s with
  | nil => obtain rfl := Option.some.inj hr; exact h
  | cons a l ih =>
    obtain ⟨t, x⟩ := a
    rw [runs, Option.bind_eq_some_iff] at hr
    obtain ⟨s1, h1, h2⟩ := hr
    exact ih (act_good h h1) h2

end Verif.Lock
