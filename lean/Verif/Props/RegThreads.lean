import Verif.Reg.Threads
import Verif.Props.Registry
/-!
# C57: the registry used by many threads, in every interleaving
-/
namespace Verif.Reg.Threads

/-- the key for which a thread is inside the `with` block of fs.py:77-79 -/
def Pc.inside : Pc → Option Key
  | .factory k | .store k _ | .unlock k _ => some k
  | _ => none

/-- a connection object that exists and was created for this key -/
def MadeFor (s : State) (k : Key) (c : Nat) : Prop := c < s.reg.next ∧ (s.reg.conn c).key = k

/-- What holds in every interleaving. -/
structure TInv (s : State) : Prop where
  lock : ∀ x t, s.lock x = some t ↔ ∃ k, (s.pc t).inside = some k ∧ k.base.scheme = x
  dict : ∀ k c, (k, c) ∈ s.reg.connections → MadeFor s k c
  store : ∀ t k c, s.pc t = .store k c → MadeFor s k c
  got : ∀ t k c, s.pc t = .got k c → MadeFor s k c

theorem tinv_init (schemes : List (Option Str)) (timeout : Int) (junk : Nat → Conn) :
    TInv (.init schemes timeout junk) :=
  ⟨by simp [State.init, Pc.inside], by simp [State.init], by simp [State.init], by simp [State.init]⟩

theorem goto_same (s : State) (t : Nat) (p : Pc) : (s.goto t p).pc t = p := by simp [State.goto]
theorem goto_other (s : State) {t i : Nat} (p : Pc) (h : i ≠ t) : (s.goto t p).pc i = s.pc i := by simp [State.goto, h]

/-- A step of one thread keeps the invariant if it handles the lock properly and keeps the keys. -/
theorem TInv.next {s s' : State} (h : TInv s) {t : Nat} {p : Pc} (hpc : ∀ i, i ≠ t → s'.pc i = s.pc i) (hp : s'.pc t = p)
    (hlock : (s'.lock = s.lock ∧ p.inside = (s.pc t).inside) ∨
      (∃ k, p.inside = some k ∧ (s.pc t).inside = none ∧ s.lock k.base.scheme = none ∧
        s'.lock = fun x => if x = k.base.scheme then some t else s.lock x) ∨
      (∃ k, p.inside = none ∧ (s.pc t).inside = some k ∧
        s'.lock = fun x => if x = k.base.scheme then none else s.lock x))
    (hmade : ∀ k c, MadeFor s k c → MadeFor s' k c)
    (hdict : ∀ k c, (k, c) ∈ s'.reg.connections → (k, c) ∈ s.reg.connections ∨ MadeFor s' k c)
    (hstore : ∀ k c, p = .store k c → MadeFor s' k c) (hgot : ∀ k c, p = .got k c → MadeFor s' k c) : TInv s' := by
  refine ⟨?_, ?_, ?_, ?_⟩
  · intro x i
    rcases hlock with ⟨h1, h2⟩ | ⟨k, h1, h2, h3, h4⟩ | ⟨k, h1, h2, h3⟩
    · rw [h1, h.lock]
      by_cases hi : i = t
      · subst hi; rw [hp, h2]
      · rw [hpc i hi]
    · rw [h4]
      simp only
      by_cases hx : x = k.base.scheme
      · rw [if_pos hx, hx]
        constructor
        · intro hi; cases hi; exact ⟨k, by rw [hp, h1], rfl⟩
        · rintro ⟨k', h5, h6⟩
          by_cases hi : i = t
          · rw [hi]
          · rw [hpc i hi] at h5
            have := (h.lock k.base.scheme i).2 ⟨k', h5, h6⟩
            rw [h3] at this; cases this
      · rw [if_neg hx, h.lock]
        by_cases hi : i = t
        · subst hi
          rw [hp, h1, h2]
          constructor
          · rintro ⟨k', h5, -⟩; cases h5
          · rintro ⟨k', h5, h6⟩; cases h5; exact absurd h6.symm hx
        · rw [hpc i hi]
    · rw [h3]
      simp only
      by_cases hx : x = k.base.scheme
      · rw [if_pos hx]
        constructor
        · intro h; cases h
        · rintro ⟨k', h5, h6⟩
          by_cases hi : i = t
          · subst hi; rw [hp, h1] at h5; cases h5
          · rw [hpc i hi] at h5
            have h7 := (h.lock x i).2 ⟨k', h5, h6⟩
            have h8 := (h.lock x t).2 ⟨k, h2, hx.symm⟩
            rw [h7] at h8; exact absurd (Option.some.inj h8) hi
      · rw [if_neg hx, h.lock]
        by_cases hi : i = t
        · subst hi
          rw [hp, h1, h2]
          constructor
          · rintro ⟨k', h5, h6⟩; cases h5; exact absurd h6.symm hx
          · rintro ⟨k', h5, -⟩; cases h5
        · rw [hpc i hi]
  · intro k c hc
    rcases hdict k c hc with h1 | h1
    · exact hmade _ _ (h.dict _ _ h1)
    · exact h1
  · intro i k c hi
    by_cases ht : i = t
    · subst ht; rw [hp] at hi; exact hstore _ _ hi
    · rw [hpc i ht] at hi; exact hmade _ _ (h.store _ _ _ hi)
  · intro i k c hi
    by_cases ht : i = t
    · subst ht; rw [hp] at hi; exact hgot _ _ hi
    · rw [hpc i ht] at hi; exact hmade _ _ (h.got _ _ _ hi)

theorem Pc.free_inside {p : Pc} (h : p.free = true) : p.inside = none := by
  cases p <;> first | rfl | simp [Pc.free] at h

/-- a step that touches nothing but the thread's own place -/
theorem TInv.move {s : State} (h : TInv s) {t : Nat} {p : Pc} (hp : p.inside = (s.pc t).inside)
    (hs : ∀ k c, p = .store k c → MadeFor s k c) (hg : ∀ k c, p = .got k c → MadeFor s k c) : TInv (s.goto t p) :=
  h.next (fun _ hi => goto_other s p hi) (goto_same s t p) (.inl ⟨rfl, hp⟩) (fun _ _ h => h) (fun _ _ h => .inl h)
    (fun k c e => hs k c e) (fun k c e => hg k c e)

theorem TInv.act {s s' : State} (h : TInv s) {t : Nat} {a : Act} (ha : act t a s = some s') : TInv s' := by
  unfold Threads.act at ha
  split at ha
  · -- get
    rename_i k
    split at ha
    · rename_i hf
      split at ha <;> cases ha
      · exact h.move (by rw [Pc.free_inside hf]; rfl) (by simp) (by simp)
      · exact h.move (by rw [Pc.free_inside hf]; rfl) (by simp) (by simp)
    · cases ha
  · -- cleanup
    split at ha
    · rename_i hf
      cases ha
      exact h.move (by rw [Pc.free_inside hf]; rfl) (by simp) (by simp)
    · cases ha
  · -- use
    rename_i now k c hpc
    cases ha
    have hm : ∀ k' c', MadeFor s k' c' → MadeFor ({ s with reg := touch c now s.reg }.goto t (.got k c)) k' c' := by
      rintro k' c' ⟨h1, h2⟩
      refine ⟨h1, ?_⟩
      by_cases hc : c' = c
      · subst hc; simpa [State.goto, touch] using h2
      · simpa [State.goto, touch, hc] using h2
    refine h.next (fun _ hi => goto_other _ _ hi) (goto_same _ t _) (.inl ⟨rfl, by rw [hpc]⟩) hm (fun _ _ h => .inl h)
      (by simp) ?_
    intro k' c' e
    cases e
    exact hm _ _ (h.got _ _ _ hpc)
  · -- check
    rename_i k hpc
    split at ha <;> cases ha
    · exact h.move (by rw [hpc]; rfl) (by simp) (by simp)
    · exact h.move (by rw [hpc]; rfl) (by simp) (by simp)
  · -- wait
    rename_i k hpc
    split at ha
    · rename_i hfree
      cases ha
      exact h.next (fun _ hi => goto_other _ _ hi) (goto_same _ t _)
        (.inr (.inl ⟨k, rfl, by rw [hpc]; rfl, hfree, rfl⟩)) (fun _ _ h => h) (fun _ _ h => .inl h) (by simp) (by simp)
    · cases ha
  · -- factory returns
    rename_i now k hpc
    cases ha
    have hm : ∀ k' c', MadeFor s k' c' →
        MadeFor ({ s with reg := s.reg.make k now }.goto t (.store k s.reg.next)) k' c' := by
      rintro k' c' ⟨h1, h2⟩
      refine ⟨Nat.lt_succ_of_lt h1, ?_⟩
      simpa [State.goto, Registry.make, Nat.ne_of_lt h1] using h2
    refine h.next (fun _ hi => goto_other _ _ hi) (goto_same _ t _) (.inl ⟨rfl, by rw [hpc]; rfl⟩) hm
      (fun _ _ h => .inl h) ?_ (by simp)
    intro k' c' e
    cases e
    exact ⟨Nat.lt_succ_self _, by simp [State.goto, Registry.make]⟩
  · -- factory raises
    rename_i e k hpc
    cases ha
    exact h.move (by rw [hpc]; rfl) (by simp) (by simp)
  · -- store
    rename_i k c hpc
    cases ha
    refine h.next (fun _ hi => goto_other _ _ hi) (goto_same _ t _) (.inl ⟨rfl, by rw [hpc]; rfl⟩) (fun _ _ h => h)
      ?_ (by simp) (by simp)
    intro k' c' hc
    rcases mem_dictSet hc with hc | hc
    · cases hc; exact .inr (h.store _ _ _ hpc)
    · exact .inl hc
  · -- unlock
    rename_i k e hpc
    cases ha
    refine h.next (fun _ hi => goto_other _ _ hi) (goto_same _ t _) (.inr (.inr ⟨k, ?_, by rw [hpc]; rfl, rfl⟩))
      (fun _ _ h => h) (fun _ _ h => .inl h) ?_ ?_
    · cases e <;> rfl
    · cases e <;> simp
    · cases e <;> simp
  · -- fetch
    rename_i k hpc
    split at ha
    · rename_i c hl
      cases ha
      refine h.move (by rw [hpc]; rfl) (by simp) ?_
      intro k' c' e
      cases e
      exact h.dict _ _ (lookup_mem hl)
    · cases ha
      exact h.move (by rw [hpc]; rfl) (by simp) (by simp)
  · -- the loop is done
    rename_i now force hpc
    cases ha
    exact h.move (by rw [hpc]; rfl) (by simp) (by simp)
  · -- the loop goes on
    rename_i out now force k c todo hpc
    split at ha
    · cases ha
      have hm : ∀ k' c', MadeFor s k' c' →
          MadeFor ({ s with reg := (close c (fun _ => out) s.reg).2 }.goto t (.del now force k todo)) k' c' := by
        rintro k' c' ⟨h1, h2⟩
        refine ⟨h1, ?_⟩
        by_cases hc : c' = c
        · subst hc; simpa [State.goto, close] using h2
        · simpa [State.goto, close, hc] using h2
      exact h.next (fun _ hi => goto_other _ _ hi) (goto_same _ t _) (.inl ⟨rfl, by rw [hpc]; rfl⟩) hm
        (fun _ _ h => .inl h) (by simp) (by simp)
    · cases ha
      exact h.move (by rw [hpc]; rfl) (by simp) (by simp)
  · -- del
    rename_i now force k todo hpc
    split at ha
    · rename_i d hd
      cases ha
      refine h.next (fun _ hi => goto_other _ _ hi) (goto_same _ t _) (.inl ⟨rfl, by rw [hpc]; rfl⟩) (fun _ _ h => h)
        ?_ (by simp) (by simp)
      intro k' c' hc
      unfold dictDel at hd
      split at hd
      · cases hd; exact .inl (List.mem_of_mem_filter hc)
      · cases hd
    · cases ha
      exact h.move (by rw [hpc]; rfl) (by simp) (by simp)
  · cases ha

theorem TInv.runs {l : List (Nat × Act)} {s s' : State} (h : TInv s) (hr : runs l s = some s') : TInv s' := by
  induction l generalizing s with
  | nil => cases hr; exact h
  | cons e l ih =>
    obtain ⟨t, a⟩ := e
    simp only [Threads.runs, Option.bind_eq_some_iff] at hr
    obtain ⟨s1, h1, h2⟩ := hr
    exact ih (h.act h1) h2

theorem Reachable.tinv {s : State} (h : Reachable s) : TInv s := by
  obtain ⟨l, x, y, z, hr⟩ := h
  exact (tinv_init x y z).runs hr

/-- C57, first half: in every interleaving, a connection that a `get_connection` call has returned is one that a
    factory made when called for exactly the requested key. -/
theorem C57_created {s : State} (h : Reachable s) {t : Nat} {k : Key} {c : Nat} (hg : s.pc t = .got k c) :
    MadeFor s k c := h.tinv.got t k c hg

/-- C57, second half: in every interleaving, no two threads are inside a factory of the same scheme (more
    generally: inside the `with` block of `create` for the same scheme). -/
theorem C57_exclusive {s : State} (h : Reachable s) {t t' : Nat} {k k' : Key} (h1 : (s.pc t).inside = some k)
    (h2 : (s.pc t').inside = some k') (hk : k.base.scheme = k'.base.scheme) : t = t' := by
  have a := (h.tinv.lock k.base.scheme t).2 ⟨k, h1, rfl⟩
  have b := (h.tinv.lock k.base.scheme t').2 ⟨k', h2, hk.symm⟩
  rw [a] at b
  exact Option.some.inj b

/-- C57: no deadlock.  A thread in a call can make its next step, unless it waits for a creation lock; and then
    another thread is inside the `with` block for that scheme, and that one can make its next step (whatever the
    factory does then). -/
theorem C57_progress {s : State} (h : Reachable s) {t : Nat} (hf : (s.pc t).free = false) (now : Int)
    (out : Option PyErr) :
    (act t (.step now out) s).isSome = true ∨
    ∃ k t', s.pc t = .wait k ∧ t' ≠ t ∧ (∃ k', (s.pc t').inside = some k' ∧ k'.base.scheme = k.base.scheme) ∧
      (act t' (.step now out) s).isSome = true := by
  have hin : ∀ t' k', (s.pc t').inside = some k' → (act t' (.step now out) s).isSome = true := by
    intro t' k' h
    cases hp : s.pc t' <;> rw [hp] at h <;> simp only [Pc.inside] at h <;>
      first
      | (cases h; done)
      | (cases out <;> simp [act, hp])
  cases hp : s.pc t with
  | start => rw [hp] at hf; simp [Pc.free] at hf
  | got k c => rw [hp] at hf; simp [Pc.free] at hf
  | failed k e => rw [hp] at hf; simp [Pc.free] at hf
  | cleaned => rw [hp] at hf; simp [Pc.free] at hf
  | crashed e => rw [hp] at hf; simp [Pc.free] at hf
  | factory k => exact .inl (hin t k (by rw [hp]; rfl))
  | store k c => exact .inl (hin t k (by rw [hp]; rfl))
  | unlock k e => exact .inl (hin t k (by rw [hp]; rfl))
  | check k =>
    left
    by_cases hl : (s.reg.connections.lookup k).isSome = true <;> simp [act, hp, hl]
  | fetch k =>
    left
    cases hl : s.reg.connections.lookup k <;> simp [act, hp, hl]
  | del now' force k todo =>
    left
    cases hl : dictDel s.reg.connections k <;> simp [act, hp, hl]
  | loop now' force todo =>
    left
    cases todo with
    | nil => simp [act, hp]
    | cons e todo =>
      obtain ⟨k, c⟩ := e
      by_cases ho : s.reg.tooOld now' force c = true <;> simp [act, hp, ho]
  | wait k =>
    cases hl : s.lock k.base.scheme with
    | none => left; simp [act, hp, hl]
    | some t' =>
      right
      obtain ⟨k', h1, h2⟩ := (h.tinv.lock _ _).1 hl
      refine ⟨k, t', rfl, ?_, ⟨k', h1, h2⟩, hin t' k' h1⟩
      rintro rfl
      rw [hp] at h1
      cases h1

/-! ## Without clean-ups -/

/-- no clean-up is begun -/
def Act.quiet : Act → Bool
  | .cleanup _ _ => false
  | _ => true

/-- what holds as long as no clean-up is begun: keys stay in the dictionary -/
structure QInv (s : State) : Prop where
  fetch : ∀ t k, s.pc t = .fetch k ∨ s.pc t = .unlock k none → (s.reg.connections.lookup k).isSome = true
  loop : ∀ t now force todo, s.pc t ≠ .loop now force todo
  del : ∀ t now force k todo, s.pc t ≠ .del now force k todo

theorem QInv.next {s s' : State} (h : QInv s) {t : Nat} {p : Pc} (hpc : ∀ i, i ≠ t → s'.pc i = s.pc i) (hp : s'.pc t = p)
    (hk : ∀ k, (s.reg.connections.lookup k).isSome = true → (s'.reg.connections.lookup k).isSome = true)
    (h1 : ∀ k, p = .fetch k ∨ p = .unlock k none → (s'.reg.connections.lookup k).isSome = true)
    (h2 : ∀ now force todo, p ≠ .loop now force todo) (h3 : ∀ now force k todo, p ≠ .del now force k todo) : QInv s' := by
  refine ⟨?_, ?_, ?_⟩
  · intro i k hi
    by_cases ht : i = t
    · subst ht; rw [hp] at hi; exact h1 k hi
    · rw [hpc i ht] at hi; exact hk _ (h.fetch _ _ hi)
  · intro i now force todo hi
    by_cases ht : i = t
    · subst ht; rw [hp] at hi; exact h2 _ _ _ hi
    · rw [hpc i ht] at hi; exact h.loop _ _ _ _ hi
  · intro i now force k todo hi
    by_cases ht : i = t
    · subst ht; rw [hp] at hi; exact h3 _ _ _ _ hi
    · rw [hpc i ht] at hi; exact h.del _ _ _ _ _ hi

theorem QInv.act {s s' : State} (h : QInv s) {t : Nat} {a : Act} (hq : a.quiet = true)
    (ha : act t a s = some s') : QInv s' := by
  unfold Threads.act at ha
  split at ha
  · split at ha
    · split at ha <;> cases ha <;>
        exact h.next (fun _ hi => goto_other _ _ hi) (goto_same _ t _) (fun _ h => h) (by simp) (by simp) (by simp)
    · cases ha
  · simp [Act.quiet] at hq
  · cases ha
    exact h.next (fun _ hi => goto_other _ _ hi) (goto_same _ t _) (fun _ h => h) (by simp) (by simp) (by simp)
  · split at ha
    · rename_i hl
      cases ha
      refine h.next (fun _ hi => goto_other _ _ hi) (goto_same _ t _) (fun _ h => h) ?_ (by simp) (by simp)
      rintro k' (e | e) <;> cases e
      exact hl
    · cases ha
      exact h.next (fun _ hi => goto_other _ _ hi) (goto_same _ t _) (fun _ h => h) (by simp) (by simp) (by simp)
  · split at ha
    · cases ha
      exact h.next (fun _ hi => goto_other _ _ hi) (goto_same _ t _) (fun _ h => h) (by simp) (by simp) (by simp)
    · cases ha
  · cases ha
    exact h.next (fun _ hi => goto_other _ _ hi) (goto_same _ t _) (fun _ h => h) (by simp) (by simp) (by simp)
  · cases ha
    exact h.next (fun _ hi => goto_other _ _ hi) (goto_same _ t _) (fun _ h => h) (by simp) (by simp) (by simp)
  · rename_i k c hpc
    cases ha
    refine h.next (fun _ hi => goto_other _ _ hi) (goto_same _ t _) ?_ ?_ (by simp) (by simp)
    · intro k' hk'
      show ((dictSet s.reg.connections k c).lookup k').isSome = true
      rw [lookup_dictSet]; split
      · rfl
      · exact hk'
    · rintro k' (e | e) <;> cases e
      show ((dictSet s.reg.connections k c).lookup k).isSome = true
      rw [lookup_dictSet, if_pos rfl]; rfl
  · rename_i k e hpc
    cases ha
    refine h.next (fun _ hi => goto_other _ _ hi) (goto_same _ t _) (fun _ h => h) ?_ ?_ ?_
    · intro k' hk'
      cases e with
      | none =>
        rcases hk' with e | e <;> cases e
        exact h.fetch t k (.inr hpc)
      | some e => rcases hk' with e | e <;> cases e
    · cases e <;> simp
    · cases e <;> simp
  · split at ha <;> cases ha <;>
      exact h.next (fun _ hi => goto_other _ _ hi) (goto_same _ t _) (fun _ h => h) (by simp) (by simp) (by simp)
  · rename_i hpc; exact absurd hpc (h.loop _ _ _ _)
  · rename_i hpc; exact absurd hpc (h.loop _ _ _ _)
  · rename_i hpc; exact absurd hpc (h.del _ _ _ _ _)
  · cases ha

theorem QInv.runs {l : List (Nat × Act)} {s s' : State} (h : QInv s) (hq : ∀ e ∈ l, e.2.quiet = true)
    (hr : runs l s = some s') : QInv s' := by
  induction l generalizing s with
  | nil => cases hr; exact h
  | cons e l ih =>
    obtain ⟨t, a⟩ := e
    simp only [Threads.runs, Option.bind_eq_some_iff] at hr
    obtain ⟨s1, h1, h2⟩ := hr
    exact ih (h.act (hq _ List.mem_cons_self) h1) (fun e he => hq e (List.mem_cons_of_mem _ he)) h2

/-- C57: as long as no clean-up runs, the last line of `get_connection` never raises KeyError, in any
    interleaving: the call returns a connection made for its key. -/
theorem C57_quiet_returns {l : List (Nat × Act)} {schemes : List (Option Str)} {timeout : Int} {junk : Nat → Conn}
    {s : State} (hr : runs l (.init schemes timeout junk) = some s) (hq : ∀ e ∈ l, e.2.quiet = true)
    {t : Nat} {k : Key} (hf : s.pc t = .fetch k) (now : Int) (out : Option PyErr) :
    ∃ c, act t (.step now out) s = some (s.goto t (.got k c)) ∧ MadeFor s k c := by
  have h1 : QInv s := QInv.runs
    (s := .init schemes timeout junk) ⟨by simp [State.init], by simp [State.init], by simp [State.init]⟩ hq hr
  obtain ⟨c, hc⟩ := Option.isSome_iff_exists.1 (h1.fetch t k (.inl hf))
  refine ⟨c, by simp [act, hf, hc], ?_⟩
  exact (Reachable.tinv ⟨l, _, _, _, hr⟩).dict _ _ (lookup_mem hc)

/-! ## The steps add up to the calls -/

/-- where a thread is after `get_connection` -/
def Pc.ofResult (k : Key) : Except PyErr Nat → Pc
  | .ok c => .got k c
  | .error e => .failed k e

theorem goto_goto (s : State) (t : Nat) (p q : Pc) : (s.goto t p).goto t q = s.goto t q := by
  simp only [State.goto, State.mk.injEq, true_and]
  funext i
  by_cases h : i = t <;> simp [h]

theorem goto_with_reg (s : State) (t : Nat) (p : Pc) (r : Registry) :
    ({ s.goto t p with reg := r } : State) = ({ s with reg := r } : State).goto t p := rfl

/-- A call of `get_connection` that no other thread interrupts, in the step semantics, is the call of the
    one-thread model. -/
theorem get_uninterrupted {s : State} {t : Nat} (hf : (s.pc t).free = true) {k : Key}
    (hl : s.lock k.base.scheme = none) (now : Int) (out : Option PyErr) :
    ∃ n, runs ((t, .get k) :: List.replicate n (t, .step now out)) s =
      some ({ s with reg := (getConnection k now out s.reg).2 }.goto t (.ofResult k (getConnection k now out s.reg).1)) := by
  have hlk : ∀ (x : Option Nat), (fun y => if y = k.base.scheme then none else
      if y = k.base.scheme then x else s.lock y) = s.lock := by
    intro x; funext y
    by_cases h : y = k.base.scheme
    · simp [h, hl]
    · simp [h]
  by_cases hk : k.base.scheme ∈ s.reg.schemes
  · cases hc : s.reg.connections.lookup k with
    | some c =>
      refine ⟨2, ?_⟩
      rw [getConnection_known hk hc]
      simp [runs, List.replicate, act, State.goto, hf, hk, hc, Pc.ofResult]
      funext i; by_cases h : i = t <;> simp [h]
    | none =>
      cases out with
      | some e =>
        refine ⟨4, ?_⟩
        rw [getConnection_raises hk hc]
        simp [runs, List.replicate, act, State.goto, hf, hk, hc, hl, Pc.ofResult, hlk]
        funext i; by_cases h : i = t <;> simp [h]
      | none =>
        refine ⟨6, ?_⟩
        rw [getConnection_fresh hk hc]
        simp [runs, List.replicate, act, State.goto, hf, hk, hc, hl, Pc.ofResult, hlk, Registry.make, lookup_dictSet]
        funext i; by_cases h : i = t <;> simp [h]
  · refine ⟨0, ?_⟩
    rw [getConnection_unknown hk]
    simp [runs, act, hf, hk, State.goto, Pc.ofResult]

/-- The same for `cleanup`, here with every `close` ending in the same way (it does not matter how). -/
theorem cleanup_uninterrupted {s : State} {t : Nat} (hf : (s.pc t).free = true) (now : Int) (force : Bool)
    (out : Option PyErr) :
    ∃ n, runs ((t, .cleanup now force) :: List.replicate n (t, .step now out)) s =
      some ({ s with reg := (cleanup now force (fun _ => out) s.reg).2 }.goto t
        (match (cleanup now force (fun _ => out) s.reg).1 with | .ok () => .cleaned | .error e => .crashed e)) := by
  have hloop : ∀ (todo : List (Key × Nat)) (s : State), s.pc t = .loop now force todo →
      ∃ n, runs (List.replicate n (t, .step now out)) s =
        some ({ s with reg := (cleanupLoop now force (fun _ => out) todo s.reg).2 }.goto t
          (match (cleanupLoop now force (fun _ => out) todo s.reg).1 with
            | .ok () => .cleaned | .error e => .crashed e)) := by
    intro todo
    induction todo with
    | nil =>
      intro s hp
      refine ⟨1, ?_⟩
      simp [runs, List.replicate, act, hp, cleanupLoop]
    | cons e todo ih =>
      intro s hp
      obtain ⟨k, c⟩ := e
      by_cases ho : s.reg.tooOld now force c = true
      · have h1 : act t (.step now out) s =
            some ({ s with reg := (close c (fun _ => out) s.reg).2 }.goto t (.del now force k todo)) := by
          simp [act, hp, ho]
        cases hd : dictDel (close c (fun _ => out) s.reg).2.connections k with
        | none =>
          refine ⟨2, ?_⟩
          rw [cleanupLoop_cons, if_pos ho, hd]
          simp only [List.replicate, runs, h1, Option.bind_some]
          simp [act, State.goto, hd]
          funext i; by_cases h : i = t <;> simp [h]
        | some d =>
          obtain ⟨n, hn⟩ := ih ({ s with reg := { (close c (fun _ => out) s.reg).2 with connections := d } }.goto t
            (.loop now force todo)) (goto_same _ _ _)
          refine ⟨n + 2, ?_⟩
          rw [cleanupLoop_cons, if_pos ho, hd]
          simp only [List.replicate, runs, h1, Option.bind_some]
          have h2 : act t (.step now out) ({ s with reg := (close c (fun _ => out) s.reg).2 }.goto t (.del now force k todo))
              = some ({ s with reg := { (close c (fun _ => out) s.reg).2 with connections := d } }.goto t
                  (.loop now force todo)) := by
            simp only [act, goto_same]
            simp only [State.goto, hd]
            congr 2
            funext i; by_cases h : i = t <;> simp [h]
          rw [h2, Option.bind_some, hn, goto_with_reg, goto_goto]
          rfl
      · have h1 : act t (.step now out) s = some (s.goto t (.loop now force todo)) := by simp [act, hp, ho]
        obtain ⟨n, hn⟩ := ih (s.goto t (.loop now force todo)) (goto_same _ _ _)
        refine ⟨n + 1, ?_⟩
        rw [cleanupLoop_cons, if_neg ho]
        simp only [List.replicate, runs, h1, Option.bind_some]
        rw [hn, goto_with_reg, goto_goto]
        rfl
  obtain ⟨n, hn⟩ := hloop s.reg.connections (s.goto t (.loop now force s.reg.connections)) (goto_same _ _ _)
  refine ⟨n, ?_⟩
  rw [runs, show act t (.cleanup now force) s = some (s.goto t (.loop now force s.reg.connections)) by simp [act, hf],
    Option.bind_some, hn, goto_with_reg, goto_goto]
  rfl

/-! ## What does not hold -/

/-- a key for the schedules below -/
def k0 : Key := key! cl!"ssh" cl!"a" []

/-- thread `t` makes `n` steps -/
def go (t n : Nat) : List (Nat × Act) := List.replicate n (t, .step 0 none)

/-- nothing yet, and `ssh` is registered -/
def start : State := .init [some cl!"ssh"] 6 fun _ => ⟨k0, 0, 0⟩

/-- The state reached by a schedule (`start` if impossible) -/
def after (l : List (Nat × Act)) : State := (runs l start).getD start

/-- C57 says nothing more because: two threads can ask for the same key, without any clean-up, and get different
    connections (both look before either creates); the first connection is lost without being closed. -/
theorem C57_same_refuted : ∃ l s, runs l start = some s ∧ (∀ e ∈ l, e.2.quiet = true) ∧
    s.pc 0 = .got k0 0 ∧ s.pc 1 = .got k0 1 ∧ s.reg.connections.map Prod.snd = [1] ∧ (s.reg.conn 0).closed = 0 := by
  refine ⟨[(0, .get k0), (1, .get k0)] ++ go 0 1 ++ go 1 1 ++ go 0 5 ++ go 1 5,
    after ([(0, .get k0), (1, .get k0)] ++ go 0 1 ++ go 1 1 ++ go 0 5 ++ go 1 5), ?_, ?_, ?_, ?_, ?_, ?_⟩
  · have : (runs ([(0, .get k0), (1, .get k0)] ++ go 0 1 ++ go 1 1 ++ go 0 5 ++ go 1 5) start).isSome = true := by
      decide +kernel
    obtain ⟨s, hs⟩ := Option.isSome_iff_exists.1 this
    rw [after, hs]; rfl
  all_goals decide +kernel

/-- A clean-up at the wrong moment makes `get_connection` raise KeyError. -/
theorem C57_keyError : ∃ l s, runs l start = some s ∧ s.pc 0 = .failed k0 .keyError := by
  refine ⟨[(0, .get k0)] ++ go 0 5 ++ [(1, .cleanup 0 true)] ++ go 1 3 ++ go 0 1,
    after ([(0, .get k0)] ++ go 0 5 ++ [(1, .cleanup 0 true)] ++ go 1 3 ++ go 0 1), ?_, ?_⟩
  · have : (runs ([(0, .get k0)] ++ go 0 5 ++ [(1, .cleanup 0 true)] ++ go 1 3 ++ go 0 1) start).isSome = true := by
      decide +kernel
    obtain ⟨s, hs⟩ := Option.isSome_iff_exists.1 this
    rw [after, hs]; rfl
  · decide +kernel

/-- Two clean-ups at the same time: one raises KeyError, and the connection is closed twice.  (One of the two may
    be the cleaner thread, which then ends: fs.py:151 is outside the `try`.) -/
theorem C57_cleanup_twice : ∃ l s, runs l start = some s ∧ s.pc 1 = .cleaned ∧ s.pc 2 = .crashed .keyError ∧
    (s.reg.conn 0).closed = 2 := by
  refine ⟨[(0, .get k0)] ++ go 0 6 ++ [(1, .cleanup 0 true), (2, .cleanup 0 true)] ++ go 1 3 ++ go 2 2,
    after ([(0, .get k0)] ++ go 0 6 ++ [(1, .cleanup 0 true), (2, .cleanup 0 true)] ++ go 1 3 ++ go 2 2), ?_, ?_, ?_, ?_⟩
  · have : (runs ([(0, .get k0)] ++ go 0 6 ++ [(1, .cleanup 0 true), (2, .cleanup 0 true)] ++ go 1 3 ++ go 2 2)
        start).isSome = true := by decide +kernel
    obtain ⟨s, hs⟩ := Option.isSome_iff_exists.1 this
    rw [after, hs]; rfl
  all_goals decide +kernel

/-- A connection can be closed between being returned and being used. -/
theorem C57_closed : ∃ l s, runs l start = some s ∧ s.pc 0 = .got k0 0 ∧ (s.reg.conn 0).closed = 1 := by
  refine ⟨[(0, .get k0)] ++ go 0 6 ++ [(1, .cleanup 0 true)] ++ go 1 1,
    after ([(0, .get k0)] ++ go 0 6 ++ [(1, .cleanup 0 true)] ++ go 1 1), ?_, ?_, ?_⟩
  · have : (runs ([(0, .get k0)] ++ go 0 6 ++ [(1, .cleanup 0 true)] ++ go 1 1) start).isSome = true := by
      decide +kernel
    obtain ⟨s, hs⟩ := Option.isSome_iff_exists.1 this
    rw [after, hs]; rfl
  all_goals decide +kernel

/-- one thread in the factory, the other waiting -/
example : (after ([(0, .get k0), (1, .get k0)] ++ go 0 2 ++ go 1 1)).pc 0 = .factory k0 ∧
    (after ([(0, .get k0), (1, .get k0)] ++ go 0 2 ++ go 1 1)).pc 1 = .wait k0 := by decide +kernel
example : (act 1 (.step 0 none) (after ([(0, .get k0), (1, .get k0)] ++ go 0 2 ++ go 1 1))).isNone = true := by
  decide +kernel
example : (after ([(0, .get k0)] ++ go 0 5)).pc 0 = .fetch k0 ∧
    ∀ e ∈ [(0, .get k0)] ++ go 0 5, e.2.quiet = true := by decide +kernel

end Verif.Reg.Threads
