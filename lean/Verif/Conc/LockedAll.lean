import Verif.Conc.Door
/-!
# Every statement comes to its body
-/
namespace Verif.Conc
open Mem Mem.M Spec Prog

variable {F : Frame} {D : Door} {G : Gate} {w0 : World}

theorem Good.at_phys {L : Prop} {s : Sit} (h : Good L F s) {r : Nat} (hr : IsRoot s.w r) (q : List Str) :
    ∀ {i : Nat}, phys s.w r q = some i → s.at_ i = (r, q) := by
  induction q using List.reverseRecOn with
  | nil =>
    intro i hi
    simp only [phys, Option.some.injEq] at hi
    rw [← hi]; exact h.root r hr
  | append_singleton q n ih =>
    intro i hi
    rw [phys_snoc] at hi
    cases hc : phys s.w r q with
    | none => rw [hc] at hi; cases hi
    | some c =>
      rw [hc, Option.bind_some] at hi
      rw [h.entry c n i (lookup_mem hi), ih hc]
      rfl

/-- a step leaves the objects at the steps that are not its business -/
theorem phys_rely {T : Loc → Prop} {s s' : Sit} (g : Good False F s) (hr : Rely False T s s') {r : Nat} (h : IsRoot s.w r) {ts : List Str}
    (hT : ∀ p, p <+: ts → ¬ T (r, p)) : ∀ p, p <+: ts → phys s'.w r p = phys s.w r p := by
  intro p
  induction p using List.reverseRecOn with
  | nil => exact fun _ => rfl
  | append_singleton p n ih =>
    intro hp
    rw [phys_snoc, phys_snoc, ih ((List.prefix_append p [n]).trans hp)]
    cases h1 : phys s.w r p with
    | none => rfl
    | some i =>
      rw [Option.bind_some, Option.bind_some]
      refine hr.entry id i n (phys_lt g.inv h h1) ?_
      rw [g.at_phys h p h1]
      exact hT _ hp

/-- a step that leaves the directory, and leaves the entry or puts a file there -/
theorem Door.Ready.step {T : Loc → Prop} {s s' : Sit} (g : Good False F s) (g' : Good False F s') (hr : Rely False T s s') (h : D.Ready s.w)
    (hT : ∀ p, p <+: D.ds → ¬ T (D.r, p))
    (hs : phys s'.w D.r (D.ds ++ [D.n]) = phys s.w D.r (D.ds ++ [D.n]) ∨
      ∃ c f, phys s'.w D.r (D.ds ++ [D.n]) = some c ∧ s'.w.node c = .file f) : D.Ready s'.w ∧ D.Firm s.w s'.w := by
  have hd := phys_rely g hr h.root hT
  refine ⟨⟨g'.inv, g'.noLink id, hr.ext.isRoot h.root, hr.conns.trans h.conns, hr.hooks.trans h.hooks, fun p hp => ?_, fun j hj => ?_⟩, hr.ext, hd, fun hn => ?_⟩
  · obtain ⟨i, d, h1, h2⟩ := h.dirs p hp
    have ht := hr.ext.stays.type i (phys_lt g.inv h.root h1)
    rw [h2] at ht
    cases e : s'.w.node i with
    | dir d' => exact ⟨i, d', (hd p hp).trans h1, e⟩
    | file d' => rw [e] at ht; exact ht.elim
    | link d' => rw [e] at ht; exact ht.elim
  · rcases hs with hs | ⟨c, f, h1, h2⟩
    · rw [hs] at hj
      exact (IsFile.ext hr.ext (show IsFile s.w j from ⟨phys_lt g.inv h.root hj, h.spot j hj⟩)).2
    · rw [h1, Option.some.injEq] at hj
      exact ⟨f, hj ▸ h2⟩
  · rcases hs with hs | ⟨c, f, h1, -⟩
    · rw [hs]; exact hn
    · rw [h1]; simp

theorem Grows.spot {s s' : Sit} (h : D.Ready s.w) (hd : ∀ i, phys s.w D.r D.ds = some i → phys s'.w D.r D.ds = some i) (hg : Grows s.w s'.w) :
    phys s'.w D.r (D.ds ++ [D.n]) = phys s.w D.r (D.ds ++ [D.n]) ∨
      ∃ c f, phys s'.w D.r (D.ds ++ [D.n]) = some c ∧ s'.w.node c = .file f := by
  obtain ⟨i, d, h1, -⟩ := h.dirs _ (List.prefix_refl _)
  rw [phys_snoc, phys_snoc, hd i h1, h1, Option.bind_some, Option.bind_some]
  exact hg i D.n

/-! ## Tasks -/

/-- a statement for the lock file that waits and does not remove it -/
structure Door.Fits (D : Door) (a : Lock.Args) : Prop where
  extras : ∀ kv ∈ a.path.allExtras, kv.1 ∉ reservedNames
  scheme : a.path.scheme = some cl!"memory"
  conn : D.w0.connOf (connKey a.path) = some D.r
  path : ∃ p, stripPath a.path = .ok p ∧ splitC '/' p = D.ds ++ [D.n]
  wait : a.failOnLock = false
  leave : a.cleanup = false

/-- all statements of the task are so -/
def Door.Calm (D : Door) (t : Task) : Prop := ∀ a b, t.Has a b → D.Fits a

/-- the statements with these bodies, whose calls have these outcomes, lead from one task to the other -/
inductive Ran : Task → List (Script × Log) → Task → Prop
  | here {t : Task} : Ran t [] t
  | step {a : Lock.Args} {b : Script} {k : Except PyErr Log → Task} {log : Log} {l : List (Script × Log)} {t : Task} :
      Ran (k (.ok log)) l t → Ran (.locked a b k) ((b, log) :: l) t

theorem Ran.snoc {t : Task} {l : List (Script × Log)} {a : Lock.Args} {b : Script} {k : Except PyErr Log → Task} (log : Log)
    (h : Ran t l (.locked a b k)) : Ran t (l ++ [(b, log)]) (k (.ok log)) := by
  generalize ht : Task.locked a b k = t' at h
  induction h with
  | here => subst ht; exact .step .here
  | step _ ih => exact .step (ih ht)

/-- what is known about a thread -/
def Door.At (D : Door) (w : World) : Pc → Prop
  | .idle t => D.Calm t
  | .entering a _ k q => D.Fits a ∧ (∀ r, D.Calm (k r)) ∧ Will D q (fun x w => ∃ h, x = .ok h ∧ IsFile w h.id) w ∧ Each Grows q
  | .opened a _ k h => D.Fits a ∧ (∀ r, D.Calm (k r)) ∧ IsFile w h.id
  | .waiting a _ k _ => D.Fits a ∧ ∀ r, D.Calm (k r)
  | .inside a _ k _ _ => D.Fits a ∧ ∀ r, D.Calm (k r)
  | .leaving .. => False

theorem Door.At.stable {w w' : World} (hf : D.Firm w w') {p : Pc} (h : D.At w p) : D.At w' p := by
  cases p with
  | idle t => exact h
  | entering a b k q => exact ⟨h.1, h.2.1, h.2.2.1.stable hf, h.2.2.2⟩
  | opened a b k x => exact ⟨h.1, h.2.1, h.2.2.ext hf.ext⟩
  | waiting a b k l => exact h
  | inside a b k l q => exact h
  | leaving k log q => exact h

/-- the statement the thread is in, and what follows it -/
def Pc.rest : Pc → Task
  | .idle t => t
  | .entering a b k _ => .locked a b k
  | .opened a b k _ => .locked a b k
  | .waiting a b k _ => .locked a b k
  | .inside a b k _ _ => .locked a b k
  | .leaving .. => .done

/-- the bodies that thread `t` has left -/
def Hall.of (s : Hall) (t : Nat) : List (Script × Log) := (s.left.filter fun x => x.1 = t).map fun x => x.2

/-- what holds all along -/
structure Door.All (D : Door) (tasks : Nat → Task) (s : Hall) : Prop where
  ready : D.Ready s.world
  pc : ∀ t, D.At s.world (s.pc t)
  outs : s.outs = s.left.map fun x => (x.1, .ok x.2.2)
  runs : ∀ t, Ran (tasks t) (s.of t) (s.pc t).rest

variable {tasks : Nat → Task}

theorem Door.All.move {s : Hall} (h : D.All tasks s) {t : Nat} {w : World} {p : Pc} (h1 : D.Ready w) (h2 : D.Firm s.world w) (h3 : D.At w p)
    (h4 : p.rest = (s.pc t).rest) : D.All tasks (s.goto t w p) where
  ready := h1
  pc i := by
    simp only [Hall.goto]
    split
    · exact h3
    · exact (h.pc i).stable h2
  outs := h.outs
  runs i := by
    simp only [Hall.goto]
    split
    · rename_i e; rw [h4, ← e]; exact h.runs i
    · exact h.runs i

theorem Door.All.stay {s : Hall} (h : D.All tasks s) {t : Nat} {p : Pc} (h3 : D.At s.world p) (h4 : p.rest = (s.pc t).rest) :
    D.All tasks (s.goto t s.world p) := h.move h.ready (.rfl' _) h3 h4

theorem Ready.held {w : World} (h : D.Ready w) (held : LockId → Bool) : D.Ready { w with held := held } ∧ D.Firm w { w with held := held } := by
  have hp : ∀ i p, phys { w with held := held } i p = phys w i p := fun i p => phys_congr (w := w) (w' := { w with held := held }) (fun _ => rfl) i p
  refine ⟨⟨h.inv.congr rfl rfl rfl, h.noLink, h.root, h.conns, h.hooks, fun p hq => ?_, fun j hj => ?_⟩,
    .of_node rfl rfl rfl rfl rfl, fun p _ => hp _ _, fun hn => ?_⟩
  · obtain ⟨i, d, h1, h2⟩ := h.dirs p hq
    exact ⟨i, d, (hp _ _).trans h1, h2⟩
  · exact h.spot j ((hp _ _).symm.trans hj)
  · rw [hp]; exact hn

/-- the calls of a body have outcomes, and it has none but these -/
theorem Gate.Inv.body [Sub G.work F] {s : Hall} {C : Ctx} {v : Sit} (h : G.Inv F w0 s C v) {t : Nat} {a : Lock.Args} {b : Script} {k : Except PyErr Log → Task}
    {l : LockId} {r : Except PyErr Log} (e : s.pc t = .inside a b k l (.ret r)) : (∃ log, r = .ok log) ∧ s.world.held l = true := by
  have hpc := h.pc t
  rw [e] at hpc
  obtain ⟨h1, -, -, h4, -, q', h6, h7⟩ := hpc
  cases q' with
  | act x' f' => exact h6.elim
  | ret r' =>
    have hsame := h6 C h.sim (.rfl' _)
    have hrun := run_script (F := F) (T := G.work) (sc := b) (log := []) (hs := []) h.vgood (fun _ hx => by simp at hx)
      fun c hm => ⟨(h1.sited c hm).congr h.vconns, fun hx => hx.elim, fun _ => (h1.within c hm).congr h.vconns⟩
    rw [hrun] at h7
    have h7 : (r', C.v) = _ := h7
    injection h7 with h8 h9
    subst h8
    refine ⟨?_, by rw [← h.world]; exact h4⟩
    cases r with
    | ok log => exact ⟨log, rfl⟩
    | error e' => exact hsame.elim

theorem Door.All.step [Sub G.T F] [Sub G.work F] (hD : D.w0 = w0) (hk : w0.hooks D.r = []) (hloc : G.loc = (D.r, D.ds ++ [D.n])) (hw : ∀ p, p <+: D.ds ++ [D.n] → ¬ G.work (D.r, p))
    {s : Hall} {C : Ctx} {v : Sit} (h : G.Inv F w0 s C v) (ha : D.All tasks s) (t : Nat) : D.All tasks (s.step t) := by
  have hpc := ha.pc t
  have hg := h.pc t
  unfold Hall.step
  cases e : s.pc t with
  | idle tk =>
    rw [e] at hpc
    cases tk with
    | done => exact ha
    | locked a b k =>
      have hf := hpc a b .here
      obtain ⟨p, hp1, hp2⟩ := hf.path
      exact ha.stay ⟨hf, fun r a' b' hx => hpc a' b' (.later r hx), will_enter hf.extras hf.scheme hf.conn (hD ▸ hk) hp1 hp2,
        each_enter fun d n p w _ hi => grows_newFile d n p w hi⟩ (by rw [e]; rfl)
  | entering a b k q =>
    rw [e] at hpc hg
    obtain ⟨h1, h2, h3, h4⟩ := hpc
    cases q with
    | ret r =>
      obtain ⟨x, rfl, hx⟩ := h3 s.world ha.ready (.rfl' _)
      exact ha.stay ⟨h1, h2, hx⟩ (by rw [e]; rfl)
    | act x f =>
      obtain ⟨g1, g2, -⟩ := hg.2.2.1 C.s h.sim.good (.rfl' _ _ _)
      have hr := ha.ready
      have hx := h4 s.world hr.inv
      have h3 := h3 s.world hr (.rfl' _)
      rw [← h.world] at hr hx h3
      have hT : ∀ p, p <+: D.ds → ¬ G.T (D.r, p) := by
        intro p hp hx
        have hx : (D.r, p) = _ := hx
        rw [hloc, Prod.mk.injEq] at hx
        have := hp.length_le
        rw [hx.2, List.length_append, List.length_singleton] at this
        omega
      have hd := phys_rely h.sim.good g2.toRely hr.root hT
      have key := hr.step h.sim.good g1 g2.toRely hT (Grows.spot hr (fun i hi => (hd _ (List.prefix_refl _)).trans hi) hx.1)
      have hm := ha.move (t := t) (w := (x C.s.w).2) (p := .entering a b k (f (x C.s.w).1)) key.1 (by rw [← h.world]; exact key.2) ⟨h1, h2, h3, hx.2⟩ (by rw [e]; rfl)
      rw [h.world] at hm
      exact hm
  | opened a b k x =>
    rw [e] at hpc
    obtain ⟨h1, h2, -, f, hf⟩ := hpc
    simp only [hf]
    exact ha.stay ⟨h1, h2⟩ (by rw [e]; rfl)
  | waiting a b k l =>
    rw [e] at hpc
    dsimp only
    split
    · rw [hpc.1.wait]
      exact ha
    · rename_i hh
      rw [acquire, if_neg hh]
      have := Ready.held ha.ready fun k => if k = l then true else s.world.held k
      exact ha.move this.1 this.2 hpc (by rw [e]; rfl)
  | inside a b k l q =>
    rw [e] at hpc hg
    cases q with
    | act x f =>
      obtain ⟨-, -, -, -, h5, -⟩ := hg
      obtain ⟨g1, g2, -⟩ := h5 C.s h.sim.good (.rfl' _ _ _)
      have hr := ha.ready
      rw [← h.world] at hr
      have hphys := phys_rely h.sim.good g2.toRely hr.root hw
      have key := hr.step h.sim.good g1 g2.toRely (fun p hp => hw p (hp.trans (List.prefix_append _ _))) (.inl (hphys _ (List.prefix_refl _)))
      have hm := ha.move (t := t) (w := (x C.s.w).2) (p := .inside a b k l (f (x C.s.w).1)) key.1 (by rw [← h.world]; exact key.2) hpc (by rw [e]; rfl)
      rw [h.world] at hm
      exact hm
    | ret r =>
      obtain ⟨⟨log, rfl⟩, hh⟩ := h.body e
      dsimp only
      rw [show release l s.world = (.ok (), { s.world with held := fun k => if k = l then false else s.world.held k }) by rw [release, if_pos hh]]
      have hr := Ready.held ha.ready fun k => if k = l then false else s.world.held k
      simp only [hpc.1.leave]
      refine ⟨hr.1, fun i => ?_, ?_, fun i => ?_⟩
      · simp only [Hall.goto]
        split
        · exact hpc.2 _
        · exact (ha.pc i).stable hr.2
      · simp [ha.outs]
      · have hi := ha.runs i
        simp only [Hall.goto, Hall.of, List.filter_append, List.map_append]
        by_cases hit : i = t
        · subst hit
          rw [e] at hi
          simpa [Hall.of, Pc.rest] using hi.snoc log
        · simpa [Hall.of, hit, Ne.symm hit] using hi
  | leaving k log q =>
    rw [e] at hpc
    exact hpc.elim

end Verif.Conc
