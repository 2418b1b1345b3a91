import Verif.Reg.Lemmas
import Verif.Py.DictLemmas
/-!
# C54, C55, C56: the connection registry, one thread
-/
namespace Verif.Reg

/-! ## C54: one connection per key -/

/-- no clean-up -/
def Op.quiet : Op → Bool
  | .cleanup _ _ _ => false
  | _ => true

theorem quiet_lookup {s : Registry} {k : Key} {c : Nat} (h : s.connections.lookup k = some c) {o : Op}
    (ho : o.quiet = true) : (o.run s).connections.lookup k = some c := by
  cases o with
  | register x => exact h
  | touch i now => exact h
  | cleanup now force fails => simp [Op.quiet] at ho
  | get k' now out =>
    by_cases hk : k'.base.scheme ∈ s.schemes
    · cases hl : s.connections.lookup k' with
      | some c => simp only [Op.run, getConnection_known hk hl]; exact h
      | none =>
        cases out with
        | some e => simp only [Op.run, getConnection_raises hk hl]; exact h
        | none =>
          simp only [Op.run, getConnection_fresh hk hl]
          rw [lookup_dictSet, if_neg]
          · exact h
          · rintro rfl; rw [h] at hl; cases hl
    · simp only [Op.run, getConnection_unknown hk]; exact h

theorem quiet_runAll {s : Registry} {k : Key} {c : Nat} (h : s.connections.lookup k = some c) {os : List Op}
    (ho : ∀ o ∈ os, o.quiet = true) : (runAll os s).connections.lookup k = some c := by
  induction os generalizing s with
  | nil => exact h
  | cons o os ih =>
    exact ih (quiet_lookup h (ho o List.mem_cons_self)) (fun o h => ho o (List.mem_cons_of_mem _ h))

/-- C54, first half: once `get_connection` has returned a connection for a key, it keeps returning that very
    object for that key, whatever happens in between short of a clean-up; it does not call a factory (the
    registry is unchanged, and `out`, the way a factory call would end, does not matter). -/
theorem C54_same {s s1 : Registry} (hs : Reachable s) {k : Key} {now : Int} {out : Option PyErr} {c : Nat}
    (h : getConnection k now out s = (.ok c, s1)) {os : List Op} (ho : ∀ o ∈ os, o.quiet = true)
    (now' : Int) (out' : Option PyErr) :
    getConnection k now' out' (runAll os s1) = (.ok c, runAll os s1) := by
  obtain ⟨h1, -, -, h2⟩ := getConnection_ok hs.inv h
  have h3 : Inv s1 := by have := Op.inv (.get k now out) hs.inv; simpa [Op.run, h] using this
  exact getConnection_known ((runAll_inv os h3).2.schemes _ h2) (quiet_runAll h1 ho) now' out'

/-- C54, second half: different keys never get the same object, clean-ups or not. -/
theorem C54_different {s s1 s2 : Registry} (hs : Reachable s) {k k' : Key} {now now' : Int} {out out' : Option PyErr}
    {c c' : Nat} (h : getConnection k now out s = (.ok c, s1)) (os : List Op)
    (h' : getConnection k' now' out' (runAll os s1) = (.ok c', s2)) (hk : k ≠ k') : c ≠ c' := by
  have h3 : Inv s1 := by have := Op.inv (.get k now out) hs.inv; simpa [Op.run, h] using this
  have h4 := runAll_inv os h3
  obtain ⟨-, a, b, -⟩ := getConnection_ok hs.inv h
  obtain ⟨-, a', -, -⟩ := getConnection_ok h4.1 h'
  have k1 := h4.2.trans (b := runAll os s1) (c := s2)
    (by have := Op.keeps (.get k' now' out') h4.1; simpa [Op.run, h'] using this)
  rintro rfl
  exact hk (a.symm.trans ((k1.key c b).symm.trans a'))

/-- C54: the key is made of the scheme, host, port, user, password and connector, and of the extras as a set of
    items: two URIs share a connection iff these agree, whatever the order of the extras. -/
theorem C54_key {u v : Uri} (hu : u.allExtras.WF) (hv : v.allExtras.WF) :
    keyOf u = keyOf v ↔ u.key = v.key ∧ ∀ x, u.allExtras.get? x = v.allExtras.get? x := by
  have : ∀ {d e : Dict}, d.WF → e.WF → (d.toFinset = e.toFinset ↔ ∀ x, d.get? x = e.get? x) := by
    intro d e hd he
    rw [Finset.ext_iff]
    constructor
    · intro h x
      apply Option.ext
      intro v
      constructor
      · intro hx
        exact Dict.get?_of_mem he (List.mem_toFinset.1 ((h (x, v)).1 (List.mem_toFinset.2 (Dict.get?_some_mem hx))))
      · intro hx
        exact Dict.get?_of_mem hd (List.mem_toFinset.1 ((h (x, v)).2 (List.mem_toFinset.2 (Dict.get?_some_mem hx))))
    · rintro h ⟨x, v⟩
      rw [List.mem_toFinset, List.mem_toFinset]
      constructor
      · intro hx; exact Dict.get?_some_mem ((h x).symm.trans (Dict.get?_of_mem hd hx))
      · intro hx; exact Dict.get?_some_mem ((h x).trans (Dict.get?_of_mem he hx))
  rw [keyOf, keyOf, Key.mk.injEq, this hu hv]

/-- The key used in the model of the memory file system is compared in the same way. -/
theorem C54_mem_key {u v : Uri} (hu : u.allExtras.WF) (hv : v.allExtras.WF) :
    keyOf u = keyOf v ↔ (Mem.connKey u).same (Mem.connKey v) = true := by
  rw [C54_key hu hv, Mem.ConnKey.same]
  rw [Bool.and_eq_true, decide_eq_true_iff]
  exact and_congr_right fun _ => (Dict.eq_iff hu hv).symm

/-- a key for the examples -/
def key! (scheme host : Str) (extras : List (Str × Str)) : Key :=
  ⟨⟨some scheme, some host, 0, none, none, []⟩, extras.toFinset⟩

/-- a registry with three connections, made at times 0, 5, 9; one factory call failed -/
def sampleOps : List Op :=
  [.register (some cl!"ssh"), .register (some cl!"http"), .get (key! cl!"ssh" cl!"a" []) 0 none,
   .get (key! cl!"http" cl!"a" []) 1 (some .typeError), .get (key! cl!"ssh" cl!"b" []) 5 none,
   .get (key! cl!"ssh" cl!"a" [(cl!"x", cl!"1"), (cl!"y", cl!"2")]) 9 none]

/-- see above -/
def sample : Registry := runAll sampleOps (init 6 fun _ => ⟨key! [] [] [], 0, 0⟩)

theorem sample_reachable : Reachable sample := ⟨_, _, _, rfl⟩

example : sample.connections.map Prod.snd = [0, 1, 2] := by decide +kernel
example : (getConnection (key! cl!"ssh" cl!"a" [(cl!"y", cl!"2"), (cl!"x", cl!"1")]) 20 none sample).1 = .ok 2 := by
  rw [show key! cl!"ssh" cl!"a" [(cl!"y", cl!"2"), (cl!"x", cl!"1")] =
    key! cl!"ssh" cl!"a" [(cl!"x", cl!"1"), (cl!"y", cl!"2")] by
      unfold key!; congr 1; ext x; simp [or_comm]]
  decide +kernel
/-- the hypotheses of `C54_same` are met, with something in between -/
example : getConnection (key! cl!"ssh" cl!"b" []) 30 (some .typeError)
      (runAll [.get (key! cl!"http" cl!"b" []) 21 none, .touch 1 22] sample) =
    (.ok 1, runAll [.get (key! cl!"http" cl!"b" []) 21 none, .touch 1 22] sample) :=
  C54_same (s := sample) sample_reachable (s1 := sample) (now := 0) (out := none)
    (getConnection_known (by decide +kernel) (by decide +kernel) _ _) (by decide) _ _
/-- after a clean-up a new object is made -/
example : (getConnection (key! cl!"ssh" cl!"b" []) 30 none
    (runAll [.cleanup 20 false fun _ => none] sample)).1 = .ok 3 := by decide +kernel

/-- C54: a connection dropped by a clean-up is never returned again: what `get_connection` gives later for the
    same key, if anything, is a new object. -/
theorem C54_after_cleanup {s s1 s2 : Registry} (hs : Reachable s) {k : Key} {c c' : Nat}
    (hc : s.connections.lookup k = some c) {now : Int} {force : Bool} {fails : Nat → Option PyErr}
    (hd : (cleanup now force fails s).2.connections.lookup k = none) (os : List Op)
    (h1 : s1 = runAll os (cleanup now force fails s).2) {k' : Key} {now' : Int} {out' : Option PyErr}
    (h : getConnection k' now' out' s1 = (.ok c', s2)) : c' ≠ c := by
  -- gone connections stay gone
  have hs' := hs.inv
  have hgone : ∀ (s : Registry), Inv s → c < s.next → (∀ k, (k, c) ∉ s.connections) → ∀ o : Op,
      c < (o.run s).next ∧ ∀ k, (k, c) ∉ (o.run s).connections := by
    intro s hs hn hg o
    refine ⟨Nat.lt_of_lt_of_le hn (o.keeps hs).next, ?_⟩
    cases o with
    | register x => exact hg
    | touch i now => exact hg
    | cleanup now force fails =>
      intro k; simp only [Op.run]; rw [cleanup_eq hs]
      exact fun h => hg k (List.mem_of_mem_filter h)
    | get k' now out =>
      by_cases hk : k'.base.scheme ∈ s.schemes
      · cases hl : s.connections.lookup k' with
        | some c => simp only [Op.run, getConnection_known hk hl]; exact hg
        | none =>
          cases out with
          | some e => simp only [Op.run, getConnection_raises hk hl]; exact hg
          | none =>
            simp only [Op.run, getConnection_fresh hk hl]
            intro k h
            rcases mem_dictSet h with h | h
            · cases h; omega
            · exact hg k h
      · simp only [Op.run, getConnection_unknown hk]; exact hg
  have hall : ∀ (os : List Op) (s : Registry), Inv s → c < s.next → (∀ k, (k, c) ∉ s.connections) →
      c < (runAll os s).next ∧ ∀ k, (k, c) ∉ (runAll os s).connections := by
    intro os
    induction os with
    | nil => intro s _ a b; exact ⟨a, b⟩
    | cons o os ih => intro s hi a b; exact ih _ (o.inv hi) (hgone s hi a b o).1 (hgone s hi a b o).2
  have hm := lookup_mem hc
  have hci := inv_cleanup hs' now force fails
  have hck := Op.keeps (.cleanup now force fails) hs'
  have h0 : ∀ k', (k', c) ∉ (cleanup now force fails s).2.connections := by
    intro k' hk'
    have h2 := hci.key _ _ hk'
    have h3 := hck.key c (hs'.old _ _ hm)
    have h4 := hs'.key _ _ hm
    simp only [Op.run] at h3
    rw [h3, h4] at h2
    subst h2
    rw [lookup_of_mem hci.nodup hk'] at hd
    cases hd
  have h5 := hall os _ hci (Nat.lt_of_lt_of_le (hs'.old _ _ hm) hck.next) h0
  rw [← h1] at h5
  have h6 : Inv s1 := by rw [h1]; exact (runAll_inv os hci).1
  have h7 := hgone s1 h6 h5.1 h5.2 (.get k' now' out')
  simp only [Op.run, h] at h7
  rintro rfl
  exact h7.2 _ (lookup_mem (getConnection_ok h6 h).1)

/-! ## C55: unknown schemes -/

theorem schemes_runAll {os : List Op} {s : Registry} {x : Option Str} (hs : Inv s) (h : x ∉ s.schemes)
    (ho : ∀ o ∈ os, ∀ y, o = .register y → y ≠ x) : x ∉ (runAll os s).schemes := by
  induction os generalizing s with
  | nil => exact h
  | cons o os ih =>
    refine ih (o.inv hs) ?_ (fun o h => ho o (List.mem_cons_of_mem _ h))
    cases o with
    | register y =>
      have := ho _ List.mem_cons_self y rfl
      simp only [Op.run, register, List.mem_cons, not_or]
      exact ⟨Ne.symm this, h⟩
    | touch i now => exact h
    | cleanup now force fails => simp only [Op.run]; rw [cleanup_eq hs]; exact h
    | get k now out =>
      by_cases hk : k.base.scheme ∈ s.schemes
      · cases hl : s.connections.lookup k with
        | some c => simp only [Op.run, getConnection_known hk hl]; exact h
        | none =>
          cases out with
          | some e => simp only [Op.run, getConnection_raises hk hl]; exact h
          | none => simp only [Op.run, getConnection_fresh hk hl]; exact h
      · simp only [Op.run, getConnection_unknown hk]; exact h

/-- C55: whatever was done with the registry, if the scheme was never registered then `get_connection` raises
    NoSchemeError and the registry is unchanged. -/
theorem C55_unknown {os : List Op} {t : Int} {junk : Nat → Conn} {k : Key}
    (ho : ∀ o ∈ os, ∀ y, o = .register y → y ≠ k.base.scheme) (now : Int) (out : Option PyErr) :
    getConnection k now out (runAll os (init t junk)) = (.error .noScheme, runAll os (init t junk)) :=
  getConnection_unknown (schemes_runAll (inv_init t junk) (by simp [init]) ho) now out

/-- C55: and only then: for a registered scheme NoSchemeError comes from the factory or not at all. -/
theorem C55_only {os : List Op} {t : Int} {junk : Nat → Conn} {k : Key} {s : Registry}
    (hs : s = runAll os (init t junk)) (hr : .register k.base.scheme ∈ os) (now : Int) {out : Option PyErr}
    (hout : out ≠ some .noScheme) : (getConnection k now out s).1 ≠ .error .noScheme := by
  have hmem : k.base.scheme ∈ s.schemes := by
    subst hs
    obtain ⟨a, b, rfl⟩ := List.append_of_mem hr
    have happ : ∀ (a b : List Op) (s : Registry), runAll (a ++ b) s = runAll b (runAll a s) := by
      intro a b
      induction a with
      | nil => intro s; rfl
      | cons o a ih => intro s; exact ih _
    rw [happ]
    have h1 := runAll_inv a (inv_init t junk)
    exact (runAll_inv b (Op.inv (.register k.base.scheme) h1.1)).2.schemes _ List.mem_cons_self
  cases hl : s.connections.lookup k with
  | some c => rw [getConnection_known hmem hl]; simp
  | none =>
    cases out with
    | some e => rw [getConnection_raises hmem hl]; intro h; cases h; exact hout rfl
    | none => rw [getConnection_fresh hmem hl]; simp

example : getConnection (key! cl!"svn" cl!"a" []) 0 none sample = (.error .noScheme, sample) :=
  C55_unknown (os := sampleOps) (by
    intro o ho y hy
    subst hy
    simp only [sampleOps, List.mem_cons, List.not_mem_nil, reduceCtorEq, or_false, Op.register.injEq] at ho
    rcases ho with rfl | rfl <;> decide) _ _

/-! ## C56: cleanup -/

/-- a registered connection that cleanup must drop: idle longer than the timeout, or any if forced -/
def Stale (s : Registry) (now : Int) (force : Bool) (c : Nat) : Prop :=
  (∃ k, (k, c) ∈ s.connections) ∧ (force = true ∨ s.timeout < now - (s.conn c).lastUsed)

/-- C56: cleanup never raises, forgets exactly the stale connections (the others keep their keys and their
    order), calls `close` once on exactly those, and does nothing else.  Which `close` calls raise does not
    matter. -/
theorem C56_cleanup {s : Registry} (hs : Reachable s) (now : Int) (force : Bool) (fails : Nat → Option PyErr) :
    (cleanup now force fails s).1 = .ok () ∧
    (∀ k c, (k, c) ∈ (cleanup now force fails s).2.connections ↔ (k, c) ∈ s.connections ∧ ¬ Stale s now force c) ∧
    (cleanup now force fails s).2.connections.Sublist s.connections ∧
    (∀ c, Stale s now force c → (cleanup now force fails s).2.conn c =
      { s.conn c with closed := (s.conn c).closed + 1 }) ∧
    (∀ c, ¬ Stale s now force c → (cleanup now force fails s).2.conn c = s.conn c) ∧
    (cleanup now force fails s).2.schemes = s.schemes ∧ (cleanup now force fails s).2.next = s.next ∧
    (cleanup now force fails s).2.timeout = s.timeout := by
  have hst : ∀ c, (s.connections.any (fun e => decide (e.2 = c)) && s.tooOld now force c) = true ↔ Stale s now force c := by
    intro c
    simp only [Bool.and_eq_true, List.any_eq_true, decide_eq_true_eq, Registry.tooOld, Bool.or_eq_true, Stale]
    constructor
    · rintro ⟨⟨⟨k, c'⟩, h, h'⟩, h2⟩
      simp only at h'
      subst h'
      exact ⟨⟨k, h⟩, h2.symm.imp_right id⟩
    · rintro ⟨⟨k, h⟩, h2⟩
      exact ⟨⟨(k, c), h, rfl⟩, h2.symm⟩
  rw [cleanup_eq hs.inv]
  refine ⟨rfl, ?_, List.filter_sublist, ?_, ?_, rfl, rfl, rfl⟩
  · intro k c
    simp only [List.mem_filter]
    constructor
    · rintro ⟨h1, h2⟩
      refine ⟨h1, ?_⟩
      rw [← hst]
      simp at h2
      simp [h2]
    · rintro ⟨h1, h2⟩
      refine ⟨h1, ?_⟩
      rw [← hst] at h2
      have : s.connections.any (fun e => decide (e.2 = c)) = true := List.any_eq_true.2 ⟨_, h1, by simp⟩
      rw [this] at h2
      simpa using h2
  · intro c h
    simp only [if_pos ((hst c).2 h)]
  · intro c h
    simp only [if_neg (fun h' => h ((hst c).1 h'))]

/-- C56: in the whole life of a registry no connection is closed twice, and none that is still handed out has
    been closed. -/
theorem C56_once {s : Registry} (hs : Reachable s) :
    (∀ c, c < s.next → (s.conn c).closed ≤ 1) ∧ ∀ k c, (k, c) ∈ s.connections → (s.conn c).closed = 0 :=
  ⟨hs.inv.once, hs.inv.opened⟩

/-- C56: a connection that `get_connection` returns is open. -/
theorem C56_open {s s' : Registry} (hs : Reachable s) {k : Key} {now : Int} {out : Option PyErr} {c : Nat}
    (h : getConnection k now out s = (.ok c, s')) : (s'.conn c).closed = 0 := by
  have h3 : Inv s' := by have := Op.inv (.get k now out) hs.inv; simpa [Op.run, h] using this
  exact h3.opened _ _ (lookup_mem (getConnection_ok hs.inv h).1)

/-- C56: `shutdown` closes everything. -/
theorem C56_shutdown {s : Registry} (hs : Reachable s) (now : Int) (fails : Nat → Option PyErr) :
    (shutdown now fails s).1 = .ok () ∧ (shutdown now fails s).2.connections = [] ∧
    ∀ k c, (k, c) ∈ s.connections → ((shutdown now fails s).2.conn c).closed = 1 := by
  obtain ⟨h1, h2, -, h3, -⟩ := C56_cleanup hs now true fails
  refine ⟨h1, ?_, ?_⟩
  · apply List.eq_nil_iff_forall_not_mem.2
    rintro ⟨k, c⟩ h
    have := (h2 k c).1 h
    exact this.2 ⟨⟨k, this.1⟩, .inl rfl⟩
  · intro k c h
    have := h3 c ⟨⟨k, h⟩, .inl rfl⟩
    unfold shutdown
    rw [this]
    simp [hs.inv.opened _ _ h]

/-- nothing but its use changes when a connection was last used -/
theorem lastUsed_run {s : Registry} (hs : Inv s) {c : Nat} (hc : c < s.next) {o : Op} (ho : ∀ now, o ≠ .touch c now) :
    ((o.run s).conn c).lastUsed = (s.conn c).lastUsed := by
  cases o with
  | register x => rfl
  | touch i now =>
    have : c ≠ i := by rintro rfl; exact ho now rfl
    simp only [Op.run, touch, if_neg this]
  | cleanup now force fails =>
    simp only [Op.run]
    rw [cleanup_eq hs now force fails]
    dsimp only
    split <;> rfl
  | get k' now out =>
    by_cases hk : k'.base.scheme ∈ s.schemes
    · cases hl : s.connections.lookup k' with
      | some c => simp only [Op.run, getConnection_known hk hl]
      | none =>
        cases out with
        | some e => simp only [Op.run, getConnection_raises hk hl]
        | none =>
          simp only [Op.run, getConnection_fresh hk hl, Registry.make]
          rw [if_neg (by omega)]
    · simp only [Op.run, getConnection_unknown hk]

theorem lastUsed_runAll {c : Nat} : ∀ {os : List Op} {s : Registry}, Inv s → c < s.next → (∀ o ∈ os, ∀ now, o ≠ .touch c now) →
    ((runAll os s).conn c).lastUsed = (s.conn c).lastUsed
  | [], _, _, _, _ => rfl
  | o :: os, s, hs, hc, ho => by
    rw [runAll, lastUsed_runAll (o.inv hs) (Nat.lt_of_lt_of_le hc (o.keeps hs).next) fun o' h => ho o' (List.mem_cons_of_mem _ h)]
    exact lastUsed_run hs hc (ho o List.mem_cons_self)

/-- C56: a connection used at time `t` survives all clean-ups up to `t + timeout`, whatever else is done (short of forcing
    its end): it stays registered, the same object, and open. -/
theorem C56_in_use {s : Registry} (hs : Reachable s) {k : Key} {c : Nat} (hc : s.connections.lookup k = some c) (t : Int)
    {os : List Op} (h1 : ∀ now force fails, .cleanup now force fails ∈ os → force = false ∧ now ≤ t + s.timeout)
    (h2 : ∀ now, .touch c now ∈ os → t ≤ now) :
    (runAll os (touch c t s)).connections.lookup k = some c ∧ ((runAll os (touch c t s)).conn c).closed = 0 := by
  suffices H : ∀ (os : List Op) (s' : Registry), Inv s' → s'.timeout = s.timeout → s'.connections.lookup k = some c →
      t ≤ (s'.conn c).lastUsed → (∀ now force fails, .cleanup now force fails ∈ os → force = false ∧ now ≤ t + s.timeout) →
      (∀ now, .touch c now ∈ os → t ≤ now) →
      (runAll os s').connections.lookup k = some c ∧ ((runAll os s').conn c).closed = 0 by
    exact H os (touch c t s) (Op.inv (.touch c t) hs.inv) rfl hc (by simp [touch]) h1 h2
  intro os
  induction os with
  | nil => intro s' hi _ hl _ _ _; exact ⟨hl, hi.opened _ _ (lookup_mem hl)⟩
  | cons o os ih =>
    intro s' hi ht hl hu h1 h2
    have hlt : c < s'.next := hi.old _ _ (lookup_mem hl)
    have hl' : (o.run s').connections.lookup k = some c := by
      by_cases hq : o.quiet = true
      · exact quiet_lookup hl hq
      · cases o with
        | cleanup now force fails =>
          obtain ⟨hf, hn⟩ := h1 now force fails List.mem_cons_self
          have hr := Op.inv (.cleanup now force fails) hi
          refine lookup_of_mem hr.nodup ?_
          simp only [Op.run]
          rw [cleanup_eq hi now force fails]
          refine List.mem_filter.2 ⟨lookup_mem hl, ?_⟩
          subst hf
          simp only [Registry.tooOld, Bool.or_false, Bool.not_eq_true', decide_eq_false_iff_not, gt_iff_lt, not_lt]
          omega
        | _ => simp [Op.quiet] at hq
    refine ih (o.run s') (o.inv hi) ((o.keeps hi).timeout.trans ht) hl' ?_ (fun a b d h => h1 a b d (List.mem_cons_of_mem _ h))
      (fun a h => h2 a (List.mem_cons_of_mem _ h))
    by_cases hto : ∃ now, o = .touch c now
    · obtain ⟨now, rfl⟩ := hto
      simpa [Op.run, touch] using h2 now List.mem_cons_self
    · rw [lastUsed_run hi hlt (fun now h => hto ⟨now, h⟩)]
      exact hu

/-- C56: and not used again it is closed by the first clean-up after that. -/
theorem C56_idle {s : Registry} (hs : Reachable s) {k : Key} {c : Nat} (hc : s.connections.lookup k = some c) (t : Int)
    {os : List Op} (ho : ∀ o ∈ os, ∀ now, o ≠ .touch c now) {now : Int} (hn : t + s.timeout < now) (fails : Nat → Option PyErr) :
    ∀ k', (k', c) ∉ (cleanup now false fails (runAll os (touch c t s))).2.connections := by
  intro k' hm
  have hi : Inv (touch c t s) := Op.inv (.touch c t) hs.inv
  have hlt : c < s.next := hs.inv.old _ _ (lookup_mem hc)
  have h1 : ((runAll os (touch c t s)).conn c).lastUsed = t := by
    rw [lastUsed_runAll hi hlt ho]
    simp [touch]
  have h2 := runAll_inv os hi
  rw [cleanup_eq h2.1 now false fails] at hm
  have h3 := (List.mem_filter.1 hm).2
  simp only [Registry.tooOld, Bool.or_false, Bool.not_eq_true', decide_eq_false_iff_not, gt_iff_lt, not_lt, h1] at h3
  rw [h2.2.timeout] at h3
  have : (touch c t s).timeout = s.timeout := rfl
  omega

/-- a connection is as new as the call that made it -/
theorem C56_new {s s' : Registry} {k : Key} {now : Int} {out : Option PyErr} {c : Nat} (hn : s.connections.lookup k = none)
    (h : getConnection k now out s = (.ok c, s')) : (s'.conn c).lastUsed = now := by
  by_cases hk : k.base.scheme ∈ s.schemes
  · cases out with
    | some e => rw [getConnection_raises hk hn] at h; simp at h
    | none =>
      rw [getConnection_fresh hk hn] at h
      simp only [Prod.mk.injEq, Except.ok.injEq] at h
      obtain ⟨rfl, rfl⟩ := h
      simp [Registry.make]
  · rw [getConnection_unknown hk] at h; simp at h

/-- connection 0, used at time 8, outlives a clean-up at time 10 (the timeout is 6), and not one at time 20 -/
example : (runAll [.cleanup 10 false fun _ => none] (touch 0 8 sample)).connections.lookup (key! cl!"ssh" cl!"a" []) = some 0 :=
  (C56_in_use ⟨sampleOps, _, _, rfl⟩ (by decide +kernel) 8 (by
    intro now force fails h
    simp only [List.mem_singleton, Op.cleanup.injEq] at h
    obtain ⟨rfl, rfl, -⟩ := h
    exact ⟨rfl, by decide +kernel⟩) (by simp)).1
example : ∀ k', (k', 0) ∉ (cleanup 20 false (fun _ => none) (runAll [.cleanup 10 false fun _ => none] (touch 0 8 sample))).2.connections :=
  C56_idle (k := key! cl!"ssh" cl!"a" []) ⟨sampleOps, _, _, rfl⟩ (by decide +kernel) 8 (by simp) (by decide +kernel) _
example : ((getConnection (key! cl!"ssh" cl!"z" []) 7 none sample).2.conn 3).lastUsed = 7 :=
  C56_new (s := sample) (k := key! cl!"ssh" cl!"z" []) (out := none) (by decide +kernel)
    (Prod.ext (by decide +kernel) rfl : getConnection _ _ _ sample = (.ok 3, _))

/-- at time 10 only connection 0 is stale, though closing it raises -/
example : (cleanup 10 false (fun c => if c = 0 then some .typeError else none) sample).2.connections.map Prod.snd = [1, 2] ∧
    ((cleanup 10 false (fun c => if c = 0 then some .typeError else none) sample).2.conn 0).closed = 1 := by decide +kernel
example : Stale sample 10 false 0 ∧ ¬ Stale sample 10 false 1 := by
  refine ⟨⟨⟨key! cl!"ssh" cl!"a" [], by decide +kernel⟩, .inr (by decide +kernel)⟩, ?_⟩
  rintro ⟨-, h | h⟩
  · cases h
  · revert h; decide +kernel

end Verif.Reg
