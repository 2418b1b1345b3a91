import Verif.Conc.LockedEnd
import Verif.Props.Homes
/-!
# Threads that do their work under a lock (C109, C110)
-/
namespace Verif.Props
open Verif.Mem Verif.Spec Verif.Conc Verif.Gen

/-! ## What the statements speak of -/

/-- The threads do all their work in `with` statements on one lock file, at `ts` in the file system `r`; the work is at or below `q` in
    the file system `r0`, and the lock file is neither there nor on the way there.  If operations on whole trees are part of it, all names
    are fine and the directory that contains `q` is there. -/
structure Guarded (w : World) (r0 : Nat) (q : List Str) (r : Nat) (ts : List Str) (p : Str) (tasks : Nat → Task) : Prop where
  root : IsRoot w r0
  ne : ts ≠ []
  lock : ∀ t a b, (tasks t).Has a b → Names a.path ts ∧ stripPath a.path = .ok p ∧ w.connOf (connKey a.path) = some r
  apart : r = r0 → ¬ ts <+: q ∧ ¬ q <+: ts
  path : ∀ i f, phys w r ts = some i → w.node i = .file f → f.path = p
  body : (∀ t a b c, (tasks t).Has a b → b.Makes c → Inside w r0 q c) ∨
    ∃ d n, q = d ++ [n] ∧ (∃ m tm, view w r0 d = some (.dir m tm)) ∧ FineNames w ∧ FineAll ts ∧
      ∀ t a b c, (tasks t).Has a b → b.Makes c → AtHome w ⟨r0, d, n⟩ c

/-! ## From there to gates -/

variable {w : World} {r0 : Nat} {q : List Str} {r : Nat} {ts : List Str} {p : Str} {tasks : Nat → Task}

/-- what is needed of a gate -/
structure Opens (w : World) (r0 : Nat) (q : List Str) (r : Nat) (ts : List Str) (p : Str) (tasks : Nat → Task) (F : Frame) (G : Gate) : Prop where
  sub : Sub G.T F
  sub' : Sub G.work F
  r0 : G.r0 = r0
  q0 : G.q0 = q
  loc : G.loc = (r, ts)
  path : G.path = p
  aside : ∀ p', p' <+: ts → ¬ G.work (r, p')
  apart : G.loc.1 = G.r0 → ¬ Cmp G.q0 G.loc.2
  away : ¬ G.work G.loc
  ne : G.loc.2 ≠ []
  start : ∃ C v, G.Inv F w (Hall.start w tasks) C v

theorem Guarded.paths (hw : Reachable w) (h : Guarded w r0 q r ts p tasks) (W : Loc → Prop) : (Gate.mk r0 q W (r, ts) p).Paths ⟨w, placeOf w⟩ := by
  intro i f _ ha hn
  have ha : placeOf w i = (r, ts) := ha
  have := placeOf_phys hw.inv i
  rw [ha] at this
  exact h.path i f this hn

theorem Guarded.cmp (h : Guarded w r0 q r ts p tasks) : r = r0 → ¬ Cmp q ts := fun e hc => hc.elim (h.apart e).1 (h.apart e).2

theorem Guarded.opens (hw : Reachable w) (hl : NoLinks w) (h : Guarded w r0 q r ts p tasks) : ∃ F G, Opens w r0 q r ts p tasks F G := by
  have own : ∀ {t a b} {W : Loc → Prop}, (tasks t).Has a b → ∀ r', w.connOf (connKey a.path) = some r' → Owns (Gate.mk r0 q W (r, ts) p).T r' a.path := by
    intro t a b W hm r' hr'
    obtain ⟨h1, -, h3⟩ := h.lock t a b hm
    rw [h3, Option.some.injEq] at hr'
    subst hr'
    exact h1.owns rfl
  rcases h.body with hb | ⟨d, n, hq, hd, hf, hts, hb⟩
  · refine ⟨.any, ⟨r0, q, Below r0 q, (r, ts), p⟩, inferInstance, inferInstance, rfl, rfl, rfl, rfl,
      fun p' hp hx => (h.apart hx.1).2 (hx.2.trans hp), h.cmp, fun hx => (h.apart hx.1).2 hx.2, h.ne,
      gate_start hw.inv hl (fun _ _ _ _ _ _ => trivial) (fun _ _ _ hx => False.elim hx) (h.paths hw _) fun t a b hm => ?_⟩
    exact ⟨(h.lock t a b hm).2.1, own hm, fun c hc => (hb t a b c hm hc).private, fun c hc => (hb t a b c hm hc).private.within,
      fun c hc => (hb t a b c hm hc).sited⟩
  · subst hq
    let home : Nat → Option Home := fun t => if t = 0 then some ⟨r0, d, n⟩ else none
    have hh : Homes w home fun _ => .done := by
      refine ⟨fun t c hm => (by cases hm), fun t H ht => ?_, fun t t' H H' hne ht ht' => ?_⟩
      · by_cases e : t = 0
        · simp only [home, e, if_true, Option.some.injEq] at ht
          subst ht
          exact ⟨h.root, hd⟩
        · simp [home, e] at ht
      · by_cases e : t = 0
        · by_cases e' : t' = 0
          · omega
          · simp [home, e'] at ht'
        · simp [home, e] at ht
    have h0 : home 0 = some ⟨r0, d, n⟩ := rfl
    have := hh.sub 0
    have hsub : Sub (Gate.mk r0 (d ++ [n]) (homeLocs home 0) (r, ts) p).T (homeFrame w home) := by
      refine ⟨?_, ?_⟩
      · rintro _ rfl q' n' e
        exact hts n' (by rw [show ts = q' ++ [n'] from e]; simp)
      · rintro _ rfl q' i ⟨t', H', ht', hr', hq', -⟩ hp
        by_cases e : t' = 0
        · subst e
          rw [h0, Option.some.injEq] at ht'
          subst ht'
          exact (h.apart hr').1 ((hp.trans hq').trans (List.prefix_append _ _))
        · simp [home, e] at ht'
    refine ⟨homeFrame w home, ⟨r0, d ++ [n], homeLocs home 0, (r, ts), p⟩, hsub, this, rfl, rfl, rfl, rfl, ?_, h.cmp, ?_, h.ne,
      gate_start hw.inv hl hf.frame hh.keep (h.paths hw _) fun t a b hm => ?_⟩
    · rintro p' hp ⟨H, hH, hx, hx', -⟩
      rw [h0, Option.some.injEq] at hH
      subst hH
      exact (h.apart hx).2 (hx'.trans hp)
    · rintro ⟨H, hH, hx, hx', -⟩
      rw [h0, Option.some.injEq] at hH
      subst hH
      exact (h.apart hx).2 hx'
    · exact ⟨(h.lock t a b hm).2.1, own hm, fun c hc => (hb t a b c hm hc).private hh h0, fun c hc => (hb t a b c hm hc).within hh h0,
        fun c hc => (hb t a b c hm hc).sited⟩

/-- what is left of a thread's task is part of the task -/
def Part (tk : Task) : Pc → Prop
  | .idle t => ∀ a b, t.Has a b → tk.Has a b
  | .entering a b k _ => tk.Has a b ∧ ∀ r a b, (k r).Has a b → tk.Has a b
  | .opened a b k _ => tk.Has a b ∧ ∀ r a b, (k r).Has a b → tk.Has a b
  | .waiting a b k _ => tk.Has a b ∧ ∀ r a b, (k r).Has a b → tk.Has a b
  | .inside a b k _ _ => tk.Has a b ∧ ∀ r a b, (k r).Has a b → tk.Has a b
  | .leaving k _ _ => ∀ r a b, (k r).Has a b → tk.Has a b

theorem Part.next {tk : Task} {p p' : Pc} (h : Part tk p) (hn : Pc.Next p' p) : Part tk p' := by
  cases hn with
  | enter => exact ⟨h _ _ .here, fun r a b hx => h a b (.later r hx)⟩
  | entering => exact h
  | opened => exact h
  | refused => exact h.2 _
  | found => exact h
  | missed => exact h.2 _
  | acquire => exact h
  | taken => exact h.2 _
  | inside => exact h
  | cleanup => exact h.2
  | leave => exact h.2 _
  | leaving => exact h
  | left => exact h _

theorem left_step (s : Hall) (t : Nat) : (s.step t).left = s.left ∨
    ∃ a b k l log, s.pc t = .inside a b k l (.ret (.ok log)) ∧ (s.step t).left = s.left ++ [(t, b, log)] := by
  unfold Hall.step
  split
  · exact .inl rfl
  · exact .inl rfl
  · exact .inl rfl
  · exact .inl rfl
  · exact .inl rfl
  · split <;> exact .inl rfl
  · split
    · split <;> exact .inl rfl
    · exact .inl rfl
  · exact .inl rfl
  · rename_i e
    split
    · exact .inl rfl
    · exact .inl rfl
    · exact .inr ⟨_, _, _, _, _, e, rfl⟩
  · exact .inl rfl
  · exact .inl rfl
  · exact .inl rfl

theorem left_has (sched : List Nat) : ∀ s : Hall, (∀ t, Part (tasks t) (s.pc t)) → (∀ x ∈ s.left, ∃ a, (tasks x.1).Has a x.2.1) →
    ∀ x ∈ (s.run sched).left, ∃ a, (tasks x.1).Has a x.2.1 := by
  induction sched with
  | nil => exact fun _ _ h => h
  | cons t sched ih =>
    intro s hp hx
    refine ih (s.step t) (fun i => ?_) ?_
    · rcases s.step_next t with e | ⟨h1, h2⟩
      · rw [e]; exact hp i
      · by_cases hi : i = t
        · subst hi; exact (hp i).next h1
        · rw [h2 i hi]; exact hp i
    · rcases left_step s t with e | ⟨a, b, k, l, log, h1, e⟩
      · rw [e]; exact hx
      · rw [e]
        intro x hm
        rcases List.mem_append.1 hm with hm | hm
        · exact hx x hm
        · rw [List.mem_singleton.1 hm]
          have := hp t
          rw [h1] at this
          exact ⟨a, this.1⟩

/-! ## C109 -/

/-- At any time at most one thread is in the body of a statement. -/
theorem C109_exclusive (hw : Reachable w) (hl : NoLinks w) (h : Guarded w r0 q r ts p tasks) (sched : List Nat) {t t' : Nat}
    (ht : (((Hall.start w tasks).run sched).pc t).In) (ht' : (((Hall.start w tasks).run sched).pc t').In) : t = t' := by
  obtain ⟨F, G, hG⟩ := h.opens hw hl
  have := hG.sub
  have := hG.sub'
  obtain ⟨C, v, hi⟩ := hG.start
  obtain ⟨C, v, hi⟩ := hi.run hG.apart hG.away hG.ne sched
  exact hi.alone t t' ht ht'

/-- However the accesses interleave, the bodies left so far, which are those of the threads' statements, have got the answers they get
    when they run one after the other, without interruption, in the order in which they have been left; and whenever no thread is in a
    body, the objects at the place of the work are (up to times) those left by running them so. -/
theorem C109_serial (hw : Reachable w) (hl : NoLinks w) (h : Guarded w r0 q r ts p tasks) (sched : List Nat) :
    let s := (Hall.start w tasks).run sched
    let one := oneByOne w (s.left.map fun x => x.2.1)
    (∀ x ∈ s.left, ∃ a, (tasks x.1).Has a x.2.1) ∧ one.1 = s.left.map (fun x => x.2.2) ∧
      ((∀ t, ¬ (s.pc t).In) → ∀ q', q <+: q' → SameObj (view s.world r0 q') (view one.2 r0 q')) := by
  obtain ⟨F, G, hG⟩ := h.opens hw hl
  have := hG.sub
  have := hG.sub'
  obtain ⟨C, v, hi⟩ := hG.start
  obtain ⟨C, v, hi⟩ := hi.run hG.apart hG.away hG.ne sched
  refine ⟨left_has sched _ (fun t a b hx => hx) (fun x hx => by simp [Hall.start] at hx), by rw [hi.turn], fun ho q' hq => ?_⟩
  simp only [hi.turn]
  rw [← hi.world, ← hi.out ho, ← hG.r0]
  refine hi.sim.view ?_ (.inr (hG.q0 ▸ hq))
  obtain ⟨k, hk⟩ := h.root
  exact ⟨k, by rw [hi.conns, hG.r0]; exact hk⟩

/-! ## C110 -/

/-- No thread waits for ever: if the lock is free at the beginning, finitely many threads have statements to make, and each of them
    has turns again and again, then all come to their end. -/
theorem C110_end (hw : Reachable w) (hl : NoLinks w) (h : Guarded w r0 q r ts p tasks) (hfree : w.held (w.gen, p) = false) {N : Nat}
    (hN : ∀ t, N ≤ t → tasks t = .done) {σ : Nat → Nat} (hσ : ∀ t, t < N → ∀ n, ∃ m, n ≤ m ∧ σ m = t) :
    ∃ n, ∀ m, n ≤ m → ∀ t, ((Hall.start w tasks).till σ m).pc t = .idle .done := by
  obtain ⟨F, G, hG⟩ := h.opens hw hl
  have := hG.sub
  have := hG.sub'
  exact gate_end hG.apart hG.away hG.ne (by rw [hG.path]; exact hfree) hG.start (fun t ht => congrArg Pc.idle (hN t ht)) hσ

/-! ## Examples -/

/-- read the file `/a/f`, and write what it contains and an "x" to it -/
def bump : Script := .call (.open_ (mu cl!"/a/f") (some cl!"r")) fun _ => .call (.read 0 (-1)) fun
  | .ok (.data (.str d)) => line [.open_ (mu cl!"/a/f") (some cl!"w"), .write 1 (.str (d ++ cl!"x"))]
  | _ => .done

/-- the first two threads do this under the lock, the first twice -/
def bumps : Nat → Task
  | 0 => .locked ⟨mu cl!"/l", false, false⟩ bump fun _ => .locked ⟨mu cl!"/l", false, false⟩ bump fun _ => .done
  | 1 => .locked ⟨mu cl!"/l", false, false⟩ bump fun _ => .done
  | _ => .done

theorem bumps_has {t : Nat} {a : Lock.Args} {b : Script} (h : (bumps t).Has a b) : a = ⟨mu cl!"/l", false, false⟩ ∧ b = bump := by
  match t, h with
  | 0, h =>
    rcases h with _ | ⟨_, _ | ⟨_, h⟩⟩
    · exact ⟨rfl, rfl⟩
    · exact ⟨rfl, rfl⟩
    · cases h
  | 1, h =>
    rcases h with _ | ⟨_, h⟩
    · exact ⟨rfl, rfl⟩
    · cases h
  | n + 2, h => cases h

theorem bump_makes {c : Call} (h : bump.Makes c) :
    (∃ o, c = .open_ (mu cl!"/a/f") o) ∨ (∃ k n, c = .read k n) ∨ ∃ k d, c = .write k d := by
  cases h with
  | here => exact .inl ⟨_, rfl⟩
  | later r h =>
    cases h with
    | here => exact .inr (.inl ⟨_, _, rfl⟩)
    | later r h =>
      dsimp only at h
      split at h
      · have := makes_line h
        simp only [List.mem_cons, List.not_mem_nil, or_false] at this
        rcases this with rfl | rfl
        · exact .inl ⟨_, rfl⟩
        · exact .inr (.inr ⟨_, _, rfl⟩)
      · cases h

theorem bumps_guarded : Guarded plain 0 [cl!"a"] 0 [cl!"l"] cl!"l" bumps where
  root := plain_root
  ne := by simp
  lock t a b h := by
    obtain ⟨rfl, rfl⟩ := bumps_has h
    exact ⟨by decide +kernel, by decide +kernel, by decide +kernel⟩
  apart _ := by decide
  path i f h := by
    have : phys plain 0 [cl!"l"] = none := by decide +kernel
    rw [this] at h
    cases h
  body := by
    refine .inl fun t a b c h hm => ?_
    obtain ⟨rfl, rfl⟩ := bumps_has h
    have hn : Names (mu cl!"/a/f") [cl!"a", cl!"f"] := by decide +kernel
    have hk : (mu cl!"/a/f").scheme = some cl!"memory" ∧ plain.connOf (connKey (mu cl!"/a/f")) = some 0 := by decide +kernel
    rcases bump_makes hm with ⟨o, rfl⟩ | ⟨k, n, rfl⟩ | ⟨k, d, rfl⟩
    all_goals refine ⟨by simp, by simp, by simp, by simp, fun u us hu => ?_⟩
    all_goals simp only [Call.uris, List.cons.injEq, reduceCtorEq] at hu
    obtain ⟨rfl, rfl⟩ := hu
    exact ⟨hk.1, hk.2, fun v hv => .inr ⟨_, (List.mem_singleton.1 hv) ▸ hn, by decide⟩⟩

/-- `C109_exclusive` and `C109_serial` for two threads that read, add and write: as soon as the three bodies have been left, there are
    three more letters -/
example (sched : List Nat) (h : ((Hall.start plain bumps).run sched).left.length = 3)
    (ho : ∀ t, ¬ (((Hall.start plain bumps).run sched).pc t).In) :
    ∃ t, view ((Hall.start plain bumps).run sched).world 0 [cl!"a", cl!"f"] = some (.file [104, 105, 120, 120, 120] 0 t) := by
  obtain ⟨h1, -, h3⟩ := C109_serial plain_reachable plain_noLinks bumps_guarded sched
  have h4 := h3 ho [cl!"a", cl!"f"] (by decide)
  have h5 : ((Hall.start plain bumps).run sched).left.map (fun x => x.2.1) = List.replicate 3 bump := by
    rw [List.eq_replicate_iff]
    refine ⟨by rw [List.length_map, h], fun b hb => ?_⟩
    obtain ⟨x, hx, rfl⟩ := List.mem_map.1 hb
    obtain ⟨a, ha⟩ := h1 x hx
    exact (bumps_has ha).2
  rw [h5] at h4
  have h6 : view (oneByOne plain (List.replicate 3 bump)).2 0 [cl!"a", cl!"f"] = some (.file [104, 105, 120, 120, 120] 0 10) := by decide +kernel
  rw [h6] at h4
  revert h4
  cases hv : view ((Hall.start plain bumps).run sched).world 0 [cl!"a", cl!"f"] with
  | none => exact False.elim
  | some o =>
    cases o with
    | file b m t => rintro ⟨rfl, rfl⟩; exact ⟨t, rfl⟩
    | dir m t => exact False.elim
    | link u m t => exact False.elim

/-- such a schedule -/
example : ((Hall.start plain bumps).run ((List.range 150).flatMap fun _ => [0, 1])).left.length = 3 := by decide +kernel

/-- `C110_end` for them -/
example : ∃ n, ∀ m, n ≤ m → ∀ t, ((Hall.start plain bumps).till (· % 2) m).pc t = .idle .done :=
  C110_end plain_reachable plain_noLinks bumps_guarded (by decide +kernel) (N := 2) (fun t ht => by
      match t, ht with
      | n + 2, _ => rfl)
    fun t ht n => ⟨2 * n + t, by omega, by omega⟩

/-- Without the lock an addition gets lost. -/
theorem C109_lost : ∃ sched, let s := (Pool.start plain fun | 0 => bump | 1 => bump | _ => .done).run sched
    (s.log 0 = some [.ok (.fd 0), .ok (.data (.str cl!"hi")), .ok (.fd 1), .ok .unit]) ∧
    (s.log 1 = some [.ok (.fd 0), .ok (.data (.str cl!"hi")), .ok (.fd 1), .ok .unit]) ∧
    ∃ t, view s.world 0 [cl!"a", cl!"f"] = some (.file [104, 105, 120] 0 t) :=
  ⟨List.replicate 12 1 ++ List.replicate 100 0 ++ List.replicate 100 1, by decide +kernel, by decide +kernel, 8, by decide +kernel⟩

/-- two threads that remove the lock file when they leave -/
def cleanups (t : Nat) : Task := if t < 2 then .locked ⟨mu cl!"/l", false, true⟩ .done fun _ => .done else .done

/-- Two threads that remove the lock file when they leave: the second does not get into its body but gets AttributeError, since the lock
    file is removed while `__enter__` opens it. -/
theorem C109_cleanup_race : ∃ sched, let s := (Hall.start plain cleanups).run sched
    s.outs = [(0, .ok []), (1, .error .attributeError)] ∧ s.left.map (fun x => x.1) = [0] :=
  ⟨List.replicate 5 0 ++ List.replicate 4 1 ++ List.replicate 100 0 ++ List.replicate 100 1, by decide +kernel, by decide +kernel⟩

end Verif.Props
