import Verif.Conc.Each
import Verif.Conc.Calls
/-!
# Bodies of `with p.lock(...)` on the same lock file do not see each other
-/
namespace Verif.Conc
open Mem Mem.M Spec Prog

/-- a lock is acquired or released -/
theorem lock_step {L : Prop} {F : Frame} {T : Loc → Prop} {s : Sit} (h : Good L F s) {held : LockId → Bool} :
    Good L F ⟨{ s.w with held := held }, places s.w { s.w with held := held } s.at_⟩ ∧
      Rely L T s ⟨{ s.w with held := held }, places s.w { s.w with held := held } s.at_⟩ :=
  ⟨good_same h (h.inv.congr rfl rfl rfl) rfl (fun _ => rfl) (fun _ d _ hd => ⟨d, hd⟩) h.noLink,
    .of_node rfl rfl rfl rfl rfl, rfl, rfl, rfl, fun _ hi => places_old hi, fun _ _ _ _ => .rfl' _, fun _ _ _ _ _ => rfl, fun _ _ _ _ => rfl⟩

/-- the scripts one after the other, each without interruption: the outcomes of their calls, and the state at the end -/
def oneByOne : World → List Script → List Log × World
  | w, [] => ([], w)
  | w, b :: bs => ((b.seq [] [] w).1 :: (oneByOne (b.seq [] [] w).2 bs).1, (oneByOne (b.seq [] [] w).2 bs).2)

theorem oneByOne_snoc (b : Script) (bs : List Script) : ∀ w : World,
    oneByOne w (bs ++ [b]) = ((oneByOne w bs).1 ++ [(b.seq [] [] (oneByOne w bs).2).1], (b.seq [] [] (oneByOne w bs).2).2) := by
  induction bs with
  | nil => exact fun _ => rfl
  | cons c bs ih =>
    intro w
    simp only [List.cons_append, oneByOne, ih]

/-- where the work is (`r0` and `q0`, and more exactly `work`), where the lock file is, and what its path is -/
structure Gate where
  r0 : Nat
  q0 : List Str
  work : Loc → Prop
  loc : Loc
  path : Str

/-- the places of the lock file -/
def Gate.T (G : Gate) (l : Loc) : Prop := l = G.loc

/-- a statement whose lock file is that of `G` and whose body keeps to the place of the work -/
structure Gate.Fit (G : Gate) (F : Frame) (w : World) (a : Lock.Args) (b : Script) : Prop where
  path : stripPath a.path = .ok G.path
  owns : ∀ r, w.connOf (connKey a.path) = some r → Owns G.T r a.path
  priv : ∀ c, b.Makes c → c.Private w F G.r0 G.q0
  within : ∀ c, b.Makes c → c.Within w F G.work
  sited : ∀ c, b.Makes c → c.Sited w

/-- all statements of the task are so -/
def Gate.Ok (G : Gate) (F : Frame) (w : World) (t : Task) : Prop := ∀ a b, t.Has a b → G.Fit F w a b

variable {G : Gate} {F : Frame} {w0 : World}

/-- the files at the place of the lock file -/
def Gate.Paths (G : Gate) (s : Sit) : Prop := ∀ i f, i < s.w.next → s.at_ i = G.loc → s.w.node i = .file f → f.path = G.path

theorem Gate.Paths.old {T : Loc → Prop} {s s' : Sit} (h : G.Paths s) (hr : Rely False T s s') {i : Nat} {f : FileObj} (hi : i < s.w.next)
    (ha : s'.at_ i = G.loc) (hn : s'.w.node i = .file f) : f.path = G.path := by
  have ht := hr.ext.stays.type i hi
  rw [hr.same i hi] at ha
  cases e : s.w.node i with
  | file g => rw [e, hn] at ht; exact ht.1.trans (h i g hi ha e)
  | dir g => rw [e, hn] at ht; exact ht.elim
  | link g => rw [e, hn] at ht; exact ht.elim

/-- no new files are made -/
theorem Gate.Paths.same {T : Loc → Prop} {s s' : Sit} (h : G.Paths s) (hr : Rely False T s s') (hn : s'.w.next = s.w.next) : G.Paths s' :=
  fun _ _ hi ha hf => h.old hr (hn ▸ hi) ha hf

/-- new files are made with the path -/
theorem Gate.Paths.only {T : Loc → Prop} {s : Sit} {α : Type} {a : M α} {β : Type} {k : Except PyErr α → Prog β} (hg : Good False F s) (h : G.Paths s)
    (ho : Each (Titled G.path) (Prog.act a k)) (hr : Rely False T s (s.after a)) : G.Paths (s.after a) := by
  intro i f hi ha hn
  by_cases ho' : i < s.w.next
  · exact h.old hr ho' ha hn
  · rcases (ho s.w hg.inv).1 i f hn with ⟨g, hg'⟩ | hp
    · rw [hg.inv.fresh i (by omega)] at hg'; cases hg'
    · exact hp

/-- new objects are elsewhere -/
theorem Gate.Paths.apart {T : Loc → Prop} (hT : ¬ T G.loc) (hne : G.loc.2 ≠ []) {s : Sit} {α : Type} {a : M α} (hg : Good False F s)
    (hg' : Good False F (s.after a)) (h : G.Paths s) (hr : Guar False T s (s.after a)) : G.Paths (s.after a) := by
  intro i f hi ha hn
  by_cases ho : i < s.w.next
  · exact h.old hr.toRely ho ha hn
  · exfalso
    by_cases he : ∃ j n, (n, i) ∈ (a s.w).2.entries j
    · obtain ⟨j, n, hm⟩ := he
      have hj : j < s.w.next := by
        by_contra hj
        have := hr.bare j (by omega)
        rw [show (s.after a).w.entries j = (a s.w).2.entries j from rfl] at this
        rw [this] at hm
        simp at hm
      have hp : (s.after a).at_ i = (s.at_ j).snoc n := places_new hg'.inv ho hm
      have hl := hr.entry id j n hj (by rw [← hp, ha]; exact hT)
      have hm' : ((s.after a).w.entries j).lookup n = some i := mem_lookup (hg'.inv.nodup j) hm
      rw [hl] at hm'
      exact ho (hg.inv.child _ _ _ (lookup_mem hm')).2
    · have : (s.after a).at_ i = (0, []) := by
        show places _ _ _ _ = _
        rw [places, if_neg ho, dif_neg he]
      rw [this] at ha
      exact hne (by rw [← ha])

/-! ## Where the threads are -/

/-- what is known about a thread -/
def Gate.At (G : Gate) (F : Frame) (w0 : World) (C : Ctx) (v : World) : Pc → Prop
  | .idle t => G.Ok F w0 t
  | .entering a b k q => G.Fit F w0 a b ∧ (∀ r, G.Ok F w0 (k r)) ∧
      Wp False F G.T q (fun x s => ∀ h, x = .ok h → OwnH False G.T s h ∧ Carries s h.id) C.s ∧ Each (Titled G.path) q
  | .opened a b k h => G.Fit F w0 a b ∧ (∀ r, G.Ok F w0 (k r)) ∧ OwnH False G.T C.s h ∧ Carries C.s h.id
  | .waiting a b k l => G.Fit F w0 a b ∧ (∀ r, G.Ok F w0 (k r)) ∧ l = (w0.gen, G.path)
  | .inside a b k l q => G.Fit F w0 a b ∧ (∀ r, G.Ok F w0 (k r)) ∧ l = (w0.gen, G.path) ∧ C.s.w.held l = true ∧
      Wp False F G.work q (fun _ _ => True) C.s ∧
      ∃ q', Rel F G.r0 G.q0 q q' (Same Eq_) C ∧ q'.run C.v = (b.prog [] []).run v
  | .leaving k _ q => (∀ r, G.Ok F w0 (k r)) ∧ Wp False F G.T q (fun _ _ => True) C.s ∧ Each (Titled G.path) q

theorem Gate.At.out {C C' : Ctx} {v v' : World} (hr : Rely False Any_ C.s C'.s) {p : Pc} (hp : ¬ p.In) (h : G.At F w0 C v p) : G.At F w0 C' v' p := by
  cases p with
  | idle t => exact h
  | entering a b k q => exact ⟨h.1, h.2.1, h.2.2.1.stable hr, h.2.2.2⟩
  | opened a b k x =>
    obtain ⟨h1, h2, h3, h4⟩ := h
    refine ⟨h1, h2, h3.stable hr, h4.stable hr ?_⟩
    obtain ⟨l, -, h5⟩ := h3
    exact h5.1
  | waiting a b k l => exact h
  | inside a b k l q => exact absurd trivial hp
  | leaving k log q => exact ⟨h.1, h.2.1.stable hr, h.2.2⟩

theorem Gate.At.stable {C C' : Ctx} {v : World} (hl : Le C C') (hv : C'.v = C.v) (hh : ∀ l, C.s.w.held l = true → C'.s.w.held l = true) {p : Pc}
    (h : G.At F w0 C v p) : G.At F w0 C' v p := by
  by_cases hp : p.In
  · cases p with
    | inside a b k l q =>
      obtain ⟨h1, h2, h3, h4, h5, q', h6, h7⟩ := h
      exact ⟨h1, h2, h3, hh _ h4, h5.stable hl.rely, q', h6.stable hl, by rw [hv]; exact h7⟩
    | _ => exact hp.elim
  · exact h.out hl.rely hp

/-- what holds all along -/
structure Gate.Inv (G : Gate) (F : Frame) (w0 : World) (s : Hall) (C : Ctx) (v : Sit) : Prop where
  world : C.s.w = s.world
  sim : Sim F G.r0 G.q0 C
  conns : C.s.w.conns = w0.conns
  gen : C.s.w.gen = w0.gen
  turn : oneByOne w0 (s.left.map fun x => x.2.1) = (s.left.map fun x => x.2.2, v.w)
  vgood : Good False F v
  vconns : v.w.conns = w0.conns
  paths : G.Paths C.s
  pc : ∀ t, G.At F w0 C v.w (s.pc t)
  alone : ∀ t t', (s.pc t).In → (s.pc t').In → t = t'
  out : (∀ t, ¬ (s.pc t).In) → C.v = v.w
  free : w0.held (w0.gen, G.path) = false → s.world.held (w0.gen, G.path) = true → ∃ t, (s.pc t).In

/-- thread `t` changes places only, and is neither then nor before in a body -/
theorem Gate.Inv.move {s : Hall} {C : Ctx} {v : Sit} (h : G.Inv F w0 s C v) {t : Nat} {p : Pc} (h1 : ¬ (s.pc t).In) (h2 : ¬ p.In)
    {C' : Ctx} (hl : Le C C') (hv : C'.v = C.v) (hs : Sim F G.r0 G.q0 C') (hh : C'.s.w.held = C.s.w.held) (hp : G.Paths C'.s)
    (h3 : G.At F w0 C' v.w p) : G.Inv F w0 (s.goto t C'.s.w p) C' v where
  world := rfl
  sim := hs
  conns := hl.rely.conns.trans h.conns
  gen := hl.rely.gen.trans h.gen
  turn := h.turn
  vgood := h.vgood
  vconns := h.vconns
  paths := hp
  pc i := by
    simp only [Hall.goto]
    split
    · exact h3
    · exact (h.pc i).stable hl hv fun l hx => by rw [hh]; exact hx
  alone i j hi hj := by
    simp only [Hall.goto] at hi hj
    split at hi
    · exact absurd hi h2
    · split at hj
      · exact absurd hj h2
      · exact h.alone i j hi hj
  out hx := by
    rw [hv]
    refine h.out fun i hi => ?_
    by_cases e : i = t
    · subst e; exact h1 hi
    · refine hx i ?_
      simp only [Hall.goto, if_neg e]
      exact hi
  free hf hx := by
    have hx : C'.s.w.held _ = true := hx
    rw [hh, h.world] at hx
    obtain ⟨i, hi⟩ := h.free hf hx
    refine ⟨i, ?_⟩
    have e : i ≠ t := fun e => h1 (e ▸ hi)
    simp only [Hall.goto, if_neg e]
    exact hi

/-- as `move`, when the state stays -/
theorem Gate.Inv.stay {s : Hall} {C : Ctx} {v : Sit} (h : G.Inv F w0 s C v) {t : Nat} {p : Pc} (h1 : ¬ (s.pc t).In) (h2 : ¬ p.In)
    (h3 : G.At F w0 C v.w p) : G.Inv F w0 (s.goto t s.world p) C v := by
  rw [← h.world]
  exact h.move h1 h2 (.rfl' _) rfl h.sim rfl h.paths h3

/-- what has been written down does not matter -/
theorem Gate.Inv.outs {s : Hall} {C : Ctx} {v : Sit} (h : G.Inv F w0 s C v) (o : List (Nat × Except PyErr Log)) : G.Inv F w0 { s with outs := o } C v :=
  ⟨h.world, h.sim, h.conns, h.gen, h.turn, h.vgood, h.vconns, h.paths, h.pc, h.alone, h.out, h.free⟩

/-- a statement ends -/
theorem Gate.Inv.close {s : Hall} {C : Ctx} {v : Sit} (h : G.Inv F w0 s C v) {t : Nat} (h1 : ¬ (s.pc t).In) {k : Except PyErr Log → Task}
    {r : Except PyErr Log} (h3 : G.Ok F w0 (k r)) : G.Inv F w0 (s.close t s.world k r) C v :=
  (h.stay h1 (p := .idle (k r)) id h3).outs _

theorem wp_enter [Sub G.T F] {a : Lock.Args} {s : Sit} (ho : ∀ r, s.w.connOf (connKey a.path) = some r → Owns G.T r a.path) :
    Wp False F G.T (cEnter a) (fun x s => ∀ h, x = .ok h → OwnH False G.T s h ∧ Carries s h.id) s :=
  wp_conn (fun _ _ _ h => by simp at h) fun r s' _ _ hr hc => wp_openWrite_ hr fun _ => ho r hc

/-- every step keeps it -/
theorem Gate.Inv.step [Sub G.T F] [Sub G.work F] (hc : G.loc.1 = G.r0 → ¬ Cmp G.q0 G.loc.2) (hloc : ¬ G.work G.loc) (hne : G.loc.2 ≠ []) {s : Hall} {C : Ctx} {v : Sit} (h : G.Inv F w0 s C v) (t : Nat) :
    ∃ C' v', G.Inv F w0 (s.step t) C' v' := by
  have hapart : ∀ l, G.T l → l.1 = G.r0 → ¬ Cmp G.q0 l.2 := by
    rintro _ rfl; exact hc
  have hpc := h.pc t
  unfold Hall.step
  cases e : s.pc t with
  | idle tk =>
    rw [e] at hpc
    cases tk with
    | done => exact ⟨C, v, h⟩
    | locked a b k =>
      have hf := hpc a b .here
      refine ⟨C, v, h.stay (by rw [e]; exact id) id ⟨hf, fun r a' b' hx => hpc a' b' (.later r hx), wp_enter fun r hr => hf.owns r (by rw [← connOf_congr h.conns]; exact hr), each_enter fun d n p w hp _ => ?_⟩⟩
      rw [hf.path] at hp; injection hp with hp; exact hp ▸ titled_newFile _ _ _ _
  | entering a b k q =>
    rw [e] at hpc
    obtain ⟨h1, h2, h3, h4⟩ := hpc
    cases q with
    | ret r =>
      cases r with
      | ok x => exact ⟨C, v, h.stay (by rw [e]; exact id) id ⟨h1, h2, h3 C.s h.sim.good (.rfl' _ _ _) x rfl⟩⟩
      | error e' => exact ⟨C, v, h.close (by rw [e]; exact id) (h2 _)⟩
    | act x f =>
      obtain ⟨g1, g2, g3⟩ := h3 C.s h.sim.good (.rfl' _ _ _)
      obtain ⟨s1, l1⟩ := h.sim.others hapart g1 g2.toRely
      have ho := (h4 C.s.w h.sim.good.inv).2
      simp only [← h.world]
      exact ⟨_, v, h.move (by rw [e]; exact id) id l1 rfl s1 g2.held (h.paths.only h.sim.good h4 g2.toRely) ⟨h1, h2, g3, ho⟩⟩
  | opened a b k x =>
    rw [e] at hpc
    obtain ⟨h1, h2, ⟨l, h3, h4⟩, f, h5, h6⟩ := hpc
    have hl : l = G.loc := h3 id
    subst hl
    simp only [← h.world, h5]
    have hp := h.paths x.id f h4.1 (h4.2 id) h5
    rw [h.world]
    refine ⟨C, v, h.stay (by rw [e]; exact id) id ⟨h1, h2, ?_⟩⟩
    rw [h6, hp, h.gen]
  | waiting a b k l =>
    rw [e] at hpc
    obtain ⟨h1, h2, rfl⟩ := hpc
    dsimp only
    split
    · split
      · exact ⟨C, v, h.close (by rw [e]; exact id) (h2 _)⟩
      · exact ⟨C, v, h⟩
    · rename_i hh
      have hout : ∀ i, ¬ (s.pc i).In := by
        intro i hi
        have hx := h.pc i
        cases e' : s.pc i with
        | inside a' b' k' l' q' =>
          rw [e'] at hx
          obtain ⟨-, -, rfl, hx, -⟩ := hx
          rw [h.world] at hx
          exact hh hx
        | _ => rw [e'] at hi; exact hi
      have hv := h.out hout
      obtain ⟨g1, g2⟩ := lock_step (F := F) (T := fun _ => False) (held := fun k => if k = (w0.gen, G.path) then true else C.s.w.held k) h.sim.good
      obtain ⟨s1, l1⟩ := h.sim.others (fun _ hx => hx.elim) g1 g2
      have hcs : ∀ c, b.Makes c → c.Private C.s.w F G.r0 G.q0 := fun c hm => (h1.priv c hm).congr h.conns
      have hw : (acquire (w0.gen, G.path) s.world).2 = { C.s.w with held := fun k => if k = (w0.gen, G.path) then true else C.s.w.held k } := by
        rw [acquire, if_neg hh, h.world]
      rw [hw]
      refine ⟨_, v, rfl, s1, l1.rely.conns.trans h.conns, l1.rely.gen.trans h.gen, h.turn, h.vgood, h.vconns, h.paths.same g2 rfl, ?_, ?_, ?_, ?_⟩
      · intro i
        simp only [Hall.goto]
        split
        · refine ⟨h1, h2, rfl, ?_, ?_, b.prog [] [], ?_, ?_⟩
          · simp
          · exact wp_script (fun _ c hm => ((h1.within c hm).congr h.conns).congr l1.rely.conns) fun h hh => by simp at hh
          · exact rel_script s1 (fun c hm => (hcs c hm).congr l1.rely.conns) .nil
          · show _ = _; rw [hv]
        · exact (h.pc i).out l1.rely (hout i)
      · intro i j hi hj
        simp only [Hall.goto] at hi hj
        split at hi
        · split at hj
          · omega
          · exact absurd hj (hout j)
        · exact absurd hi (hout i)
      · intro hx
        exact absurd (by simp only [Hall.goto, if_true]; trivial) (hx t)
      · intro _ _
        exact ⟨t, by simp only [Hall.goto, if_true]; trivial⟩
  | inside a b k l q =>
    have hin : (s.pc t).In := by rw [e]; trivial
    have hothers : ∀ i, i ≠ t → ¬ (s.pc i).In := fun i hi hx => hi (h.alone i t hx hin)
    rw [e] at hpc
    obtain ⟨h1, h2, rfl, h4, h5, q', h6, h7⟩ := hpc
    cases q with
    | act x f =>
      cases q' with
      | ret r' => exact h6.elim
      | act x' f' =>
        obtain ⟨g1, g2, g3⟩ := h5 C.s h.sim.good (.rfl' _ _ _)
        obtain ⟨ρ', s1, l1, r1⟩ := h6 C h.sim (.rfl' _) g1 g2.any
        simp only [← h.world]
        refine ⟨⟨C.s.after x, (x' C.v).2, ρ'⟩, v, rfl, s1, l1.rely.conns.trans h.conns, l1.rely.gen.trans h.gen, h.turn, h.vgood, h.vconns,
          h.paths.apart hloc hne h.sim.good g1 g2, ?_, ?_, ?_, ?_⟩
        · intro i
          simp only [Hall.goto]
          split
          · exact ⟨h1, h2, rfl, by show (C.s.after x).w.held _ = _; rw [g2.held]; exact h4, g3, _, r1, h7⟩
          · exact (h.pc i).out l1.rely (hothers i ‹_›)
        · intro i j hi hj
          simp only [Hall.goto] at hi hj
          split at hi
          · split at hj
            · omega
            · exact absurd hj (hothers j ‹_›)
          · exact absurd hi (hothers i ‹_›)
        · intro hx
          exact absurd (by simp only [Hall.goto, if_true]; trivial) (hx t)
        · intro _ _
          exact ⟨t, by simp only [Hall.goto, if_true]; trivial⟩
    | ret r =>
      cases q' with
      | act x' f' => exact h6.elim
      | ret r' =>
        have hsame := h6 C h.sim (.rfl' _)
        have hrun := run_script (F := F) (T := G.work) (sc := b) (log := []) (hs := []) h.vgood (fun _ hx => by simp at hx)
          fun c hm => ⟨(h1.sited c hm).congr h.vconns, fun hx => hx.elim, fun _ => (h1.within c hm).congr h.vconns⟩
        have hwp := wp_script (F := F) (T := G.work) (L := False) (sc := b) (log := []) (hs := []) (s := v)
          (fun _ c hm => (h1.within c hm).congr h.vconns) (fun _ hx => by simp at hx)
        obtain ⟨at', g1, g2, -⟩ := hwp.run h.vgood
        rw [hrun] at h7 g1 g2
        have h7 : (r', C.v) = _ := h7
        injection h7 with h8 h9
        subst h8
        cases r with
        | error e' => exact hsame.elim
        | ok log =>
          have hlog : _ = log := hsame
          have hrel : release (w0.gen, G.path) s.world =
              (.ok (), { C.s.w with held := fun k => if k = (w0.gen, G.path) then false else C.s.w.held k }) := by
            rw [release, ← h.world, if_pos h4]
          simp only [hrel]
          obtain ⟨g3, g4⟩ := lock_step (F := F) (T := fun _ => False) (held := fun k => if k = (w0.gen, G.path) then false else C.s.w.held k) h.sim.good
          obtain ⟨s1, l1⟩ := h.sim.others (fun _ hx => hx.elim) g3 g4
          have hpo : ∀ i, ¬ ((if i = t then (if a.cleanup = true then Pc.leaving k log (cRemove a.path) else .idle (k (.ok log))) else s.pc i)).In := by
            intro i
            split
            · split <;> exact id
            · exact hothers i ‹_›
          refine ⟨_, ⟨_, at'⟩, rfl, s1, l1.rely.conns.trans h.conns, l1.rely.gen.trans h.gen, ?_, g1, g2.conns.trans h.vconns, h.paths.same g4 rfl, ?_, ?_, ?_, ?_⟩
          · simp only [List.map_append, List.map_cons, List.map_nil]
            rw [oneByOne_snoc, h.turn, hlog]
          · intro i
            simp only [Hall.goto]
            split
            · split
              · exact ⟨h2, wp_remove fun _ r hr => h1.owns r (by rw [← connOf_congr h.conns]; exact hr), each_remove (fun _ _ _ _ => titled_del _ _ _) _⟩
              · exact h2 _
            · exact (h.pc i).out l1.rely (hothers i ‹_›)
          · intro i j hi hj
            exact absurd hi (hpo i)
          · exact fun _ => h9
          · intro _ hx
            simp [Hall.goto] at hx
  | leaving k log q =>
    rw [e] at hpc
    obtain ⟨h1, h2, h3⟩ := hpc
    cases q with
    | ret r =>
      cases r with
      | ok x => exact ⟨C, v, h.close (by rw [e]; exact id) (h1 _)⟩
      | error e' => exact ⟨C, v, h.close (by rw [e]; exact id) (h1 _)⟩
    | act x f =>
      obtain ⟨g1, g2, g3⟩ := h2 C.s h.sim.good (.rfl' _ _ _)
      obtain ⟨s1, l1⟩ := h.sim.others hapart g1 g2.toRely
      have ho := (h3 C.s.w h.sim.good.inv).2
      simp only [← h.world]
      exact ⟨_, v, h.move (by rw [e]; exact id) id l1 rfl s1 g2.held (h.paths.only h.sim.good h3 g2.toRely) ⟨h1, g3, ho⟩⟩

theorem Gate.Inv.run [Sub G.T F] [Sub G.work F] (hc : G.loc.1 = G.r0 → ¬ Cmp G.q0 G.loc.2) (hloc : ¬ G.work G.loc) (hne : G.loc.2 ≠ []) (sched : List Nat) : ∀ {s : Hall} {C : Ctx} {v : Sit},
    G.Inv F w0 s C v → ∃ C' v', G.Inv F w0 (s.run sched) C' v' := by
  induction sched with
  | nil => exact fun h => ⟨_, _, h⟩
  | cons t sched ih =>
    intro s C v h
    obtain ⟨C1, v1, h1⟩ := h.step hc hloc hne t
    exact ih h1

/-- at the beginning -/
theorem gate_start (hw : Mem.Inv w0) (hl : ∀ i o, w0.node i ≠ .link o)
    (hf : ∀ r q n i, IsRoot w0 r → phys w0 r (q ++ [n]) = some i → F.fine (r, q ++ [n]))
    (hk : ∀ r q i, F.keep r q i → IsRoot w0 r ∧ phys w0 r q = some i ∧ ∃ d, w0.node i = .dir d)
    (hp : G.Paths ⟨w0, placeOf w0⟩) {tasks : Nat → Task} (ht : ∀ t, G.Ok F w0 (tasks t)) :
    ∃ C v, G.Inv F w0 (Hall.start w0 tasks) C v := by
  have hg : Good False F ⟨w0, placeOf w0⟩ := good_start hw (fun _ => hl) (fun _ => hf) fun _ => hk
  refine ⟨_, ⟨w0, placeOf w0⟩, rfl, sim_start hw hl hg, rfl, rfl, rfl, hg, rfl, hp, ht, fun _ _ h => h.elim, fun _ => rfl, fun h1 h2 => ?_⟩
  have h2 : w0.held _ = true := h2
  rw [h1] at h2
  cases h2

end Verif.Conc
