import Verif.Lock.Lemmas
import Verif.Props.MemOps
import Verif.Props.MemData
/-!
# C59, C60: `with p.lock(...)` on memory files
-/
namespace Verif.Props
open Mem Mem.M Spec Gen Lock

/-! ## C59 Mutual exclusion -/

/-- In every interleaving of any number of threads, in which other calls of any kind may happen (new file systems,
    clean-ups, opening the file without locking, …): a lock has at most one thread inside, and it is held. -/
theorem C59_lock {w : World} (hw : Mem.Reachable w) {l : List (Nat × Act)} {s : State}
    (hr : runs l (.start w) = some s) {t : Nat} {a : Args} {h : Handle} {k : LockId}
    (ht : s.pc t = .inside a h k) :
    s.w.held k = true ∧ ∀ t' a' h', s.pc t' = .inside a' h' k → t' = t := by
  have hg := runs_good (good_start hw.inv) hr
  have := hg.pcs t
  rw [ht] at this
  exact ⟨this.1, fun t' a' h' e => hg.one t' t a' a h' h k e ht⟩

/-- Threads that are inside at once are on different memory files, and these were created at different paths,
    provided no memory file system has been created meanwhile. -/
theorem C59_exclusive {w : World} (hw : Mem.Reachable w) {l : List (Nat × Act)} {s : State}
    (hr : runs l (.start w) = some s) (hgen : s.w.gen = w.gen) {t t' : Nat} {a a' : Args} {h h' : Handle} {k k' : LockId}
    (ht : s.pc t = .inside a h k) (ht' : s.pc t' = .inside a' h' k') (hne : t ≠ t') :
    h.id ≠ h'.id ∧ ∃ f f', s.w.node h.id = .file f ∧ s.w.node h'.id = .file f' ∧ f.path ≠ f'.path := by
  have hg := runs_good (good_start hw.inv) hr
  have h1 := hg.pcs t
  have h2 := hg.pcs t'
  rw [ht] at h1
  rw [ht'] at h2
  obtain ⟨-, f, a1, a2, a3, a4⟩ := h1
  obtain ⟨-, f', b1, b2, b3, b4⟩ := h2
  have hp : f.path ≠ f'.path := by
    intro e
    have : k = k' := Prod.ext (by omega) (by rw [a2, b2, e])
    subst this
    exact hne (hg.one t t' a a' h h' k ht ht')
  refine ⟨?_, f, f', a1, b1, hp⟩
  intro e
  rw [e, b1] at a1
  cases a1
  exact hp rfl

/-- `fail_on_lock` raises instead of waiting exactly when the lock is held; without it the thread waits exactly
    then; otherwise it gets in. -/
theorem C59_fail {s : State} {t : Nat} {a : Args} {h : Handle} {k : LockId} (ht : s.pc t = .waiting a h k) :
    (s.w.held k = true → a.failOnLock = true → act t .step s = some (s.goto t (.failed .lockObtain))) ∧
    (s.w.held k = true → a.failOnLock = false → act t .step s = none) ∧
    (s.w.held k = false → ∃ s', act t .step s = some s' ∧ s'.pc t = .inside a h k) := by
  refine ⟨?_, ?_, ?_⟩
  · intro h1 h2; simp [act, ht, h1, h2]
  · intro h1 h2; simp [act, ht, h1, h2]
  · intro h1; exact ⟨_, by simp [act, ht, h1]; rfl, by simp [State.goto]⟩

/-- The same for `with p.lock(fail_on_lock=True)` run at one go, from any state: after the file has been opened
    (and emptied) it raises LockFileObtainException iff the lock that belongs to the file's path is held, and else
    the statement is entered with that lock held. -/
theorem C59_enter {w w1 : World} (hw : Mem.Reachable w) {u : Uri} {r : Nat} {init : List Str} {n : Str} {hd : Handle}
    (hu : Serves w u r) (hs : stepsOf u = some (init ++ [n])) (c : Bool) (ho : uOpen u (some cl!"w") w = (.ok hd, w1)) :
    ∃ f, w1.node hd.id = .file f ∧
      (w.held (w.gen, f.path) = true → uLockEnter u true c w = (.error .lockObtain, w1) ∧
        uLockEnter u false c w = (.error .hang, w1)) ∧
      (w.held (w.gen, f.path) = false → ∀ fail, uLockEnter u fail c w = (.ok ⟨u, c, (w.gen, f.path), hd⟩,
        { w1 with held := fun k => if k = (w.gen, f.path) then true else w.held k })) := by
  rw [uOpen_w hu hs (by decide) (by decide)] at ho
  have ho' : openWrite r u false w = (.ok hd, w1) := ho
  obtain ⟨f, h1, h2, h3, h4⟩ := openWrite_lock hw.inv hu.isRoot ho'
  have e1 : open_ r u (some cl!"w") w = (.ok hd, w1) := ho'
  have e2 : withFile hd.id (fun f => (pure f.lock : M LockId)) w1 = (.ok (w.gen, f.path), w1) := by
    unfold withFile; rw [h1]; simp [h2]
  refine ⟨f, h1, ?_, ?_⟩
  · intro hh
    rw [← h4] at hh
    refine ⟨?_, ?_⟩ <;>
    · unfold uLockEnter
      rw [withConn_serves hu hs]
      unfold lockEnter
      rw [bind_ok e1, bind_ok e2]
      simp [bind_apply, tryAcquire, acquire, hh]
  · intro hh fail
    rw [← h4] at hh ⊢
    unfold uLockEnter
    rw [withConn_serves hu hs]
    unfold lockEnter
    rw [bind_ok e1, bind_ok e2]
    cases fail <;> simp [bind_apply, tryAcquire, acquire, hh]

/-- what the threads 0 and 1 are doing -/
def two (s : Option State) : Option (Pc × Pc) := s.map fun s => (s.pc 0, s.pc 1)

/-- /a/f, created under that path -/
def lockF (fail : Bool) : Args := ⟨mu cl!"/a/f", fail, false⟩

/-- one thread inside, another one refused -/
example : two (runs [(0, .enter (lockF false)), (0, .step), (0, .step), (1, .enter (lockF true)), (1, .step), (1, .step)]
    (.start sample)) = some (.inside (lockF false) ⟨3, false, false⟩ (1, cl!"a/f"), .failed .lockObtain) := by
  decide +kernel
/-- waiting, and getting in when the first has left -/
example : two (runs [(0, .enter (lockF false)), (0, .step), (0, .step), (1, .enter (lockF false)), (1, .step), (1, .step)]
      (.start sample)) = none ∧
    two (runs [(0, .enter (lockF false)), (0, .step), (0, .step), (1, .enter (lockF false)), (1, .step), (0, .leave),
      (1, .step)] (.start sample)) =
        some (.out, .inside (lockF false) ⟨3, false, false⟩ (1, cl!"a/f")) := by decide +kernel
/-- two threads inside at once, on different files -/
example : two (runs [(0, .enter (lockF false)), (0, .step), (0, .step), (1, .enter ⟨mu cl!"/new", true, true⟩),
      (1, .step), (1, .step)] (.start sample)) = some (.inside (lockF false) ⟨3, false, false⟩ (1, cl!"a/f"),
        .inside ⟨mu cl!"/new", true, true⟩ ⟨8, false, false⟩ (1, cl!"new")) := by decide +kernel

/-- The proviso is needed: if somebody uses a further memory file system for the first time (which clears the
    table of locks, memory.py:311) while a thread is inside, a second thread gets in, on the same file. -/
theorem C59_new_file_system_refuted : ∃ w l s a a' k k', Mem.Reachable w ∧ runs l (.start w) = some s ∧
    s.pc 0 = .inside a ⟨3, false, false⟩ k ∧ s.pc 1 = .inside a' ⟨3, false, false⟩ k' := by
  let l : List (Nat × Act) := [(0, .enter (lockF false)), (0, .step), (0, .step),
    (2, .call (.exists_ { mu cl!"/" with extras := [(cl!"x", cl!"1")] })), (1, .enter (lockF false)), (1, .step), (1, .step)]
  have h : two (runs l (.start sample)) = some (.inside (lockF false) ⟨3, false, false⟩ (1, cl!"a/f"),
      .inside (lockF false) ⟨3, false, false⟩ (2, cl!"a/f")) := by decide +kernel
  cases hs : runs l (.start sample) with
  | none => rw [hs] at h; cases h
  | some s =>
    rw [hs] at h
    simp only [two, Option.map_some, Option.some.injEq, Prod.mk.injEq] at h
    exact ⟨sample, l, s, _, _, _, _, sample_reachable, hs, h.1, h.2⟩

/-- what is in the file with number 3 -/
def data3 (s : Option State) : Option Bytes := s.bind fun s => match s.w.node 3 with
  | .file f => some f.data
  | _ => none

/-- Nor does the lock protect the content: thread 0 is inside and has written "hi"; thread 1 is refused, but has
    already emptied the file (memory.py:268). -/
theorem C59_content_refuted :
    let before := runs [(0, .enter (lockF false)), (0, .step), (0, .step),
      (0, .call (.write ⟨3, false, false⟩ (.bytes [104, 105])))] (.start sample)
    let after := before.bind (runs [(1, .enter (lockF true)), (1, .step), (1, .step)])
    data3 before = some [104, 105] ∧
    two after = some (.inside (lockF false) ⟨3, false, false⟩ (1, cl!"a/f"), .failed .lockObtain) ∧
    data3 after = some [] := by
  decide +kernel

/-- With `cleanup` a thread that leaves may remove the file from under the next one, which is inside already:
    the file is removed after the lock is released (memory.py:279-281). -/
theorem C59_cleanup_refuted :
    let a : Args := ⟨mu cl!"/a/f", false, true⟩
    let s := runs [(0, .enter a), (0, .step), (0, .step), (1, .enter a), (1, .step), (0, .leave), (1, .step), (0, .step)]
      (.start sample)
    two s = some (.out, .inside a ⟨3, false, false⟩ (1, cl!"a/f")) ∧
    s.map (fun s => view s.w 0 [cl!"a", cl!"f"]) = some none := by
  decide +kernel

/-- The two models of the statement agree: its steps, made by one thread without anybody else's in between, are
    `uLockEnter` and `lockExit`. -/
theorem lock_alone {w : World} (hw : Mem.Reachable w) {u : Uri} {r : Nat} {init : List Str} {n : Str} {hd : Handle}
    {w1 : World} (hu : Serves w u r) (hs : stepsOf u = some (init ++ [n])) (a : Args) (ha : a.path = u)
    (ho : uOpen u (some cl!"w") w = (.ok hd, w1)) (t : Nat) :
    (∀ g w2, uLockEnter u a.failOnLock a.cleanup w = (.ok g, w2) →
      runs [(t, .enter a), (t, .step), (t, .step)] (.start w) =
        some (State.goto (.start w2) t (.inside a g.handle g.lock))) ∧
    (∀ w2, uLockEnter u a.failOnLock a.cleanup w = (.error .lockObtain, w2) →
      runs [(t, .enter a), (t, .step), (t, .step)] (.start w) = some (State.goto (.start w2) t (.failed .lockObtain))) ∧
    (∀ w2, uLockEnter u a.failOnLock a.cleanup w = (.error .hang, w2) →
      runs [(t, .enter a), (t, .step), (t, .step)] (.start w) = none) := by
  have e0 : withConn a.path .lock (fun r => open_ r a.path (some cl!"w")) w = (.ok hd, w1) := by
    rw [ha, withConn_serves hu hs]
    rw [uOpen_w hu hs (by decide) (by decide)] at ho
    exact ho
  have hlk : ∃ f, w1.node hd.id = .file f ∧ f.lock = (w.gen, f.path) ∧ w1.held = w.held := by
    rw [uOpen_w hu hs (by decide) (by decide)] at ho
    obtain ⟨f, h1, h2, -, h4⟩ := openWrite_lock hw.inv hu.isRoot ho
    exact ⟨f, h1, h2, h4⟩
  obtain ⟨f, f1, f2, f3⟩ := hlk
  obtain ⟨f', g1, g2, g3⟩ := C59_enter hw hu hs a.cleanup ho
  rw [f1] at g1
  cases g1
  have s1 : act t (.enter a) (.start w) = some (State.goto ⟨w1, fun _ => .out⟩ t (.opened a hd)) := by
    simp [act, State.start, Pc.free, e0]
  have s2 : act t .step (State.goto ⟨w1, fun _ => .out⟩ t (.opened a hd)) =
      some (State.goto ⟨w1, fun _ => .out⟩ t (.waiting a hd (w.gen, f.path))) := by
    simp only [act, State.goto, if_true, f1, f2]
    congr 2
    funext i
    split <;> rfl
  have s3 : runs [(t, .enter a), (t, .step), (t, .step)] (.start w) =
      act t .step (State.goto ⟨w1, fun _ => .out⟩ t (.waiting a hd (w.gen, f.path))) := by
    simp only [runs, s1, Option.bind_some, s2]
    cases act t .step (State.goto ⟨w1, fun _ => .out⟩ t (.waiting a hd (w.gen, f.path))) <;> rfl
  rw [s3]
  have hpc : (State.goto ⟨w1, fun _ => .out⟩ t (.waiting a hd (w.gen, f.path))).pc t = .waiting a hd (w.gen, f.path) := by
    simp [State.goto]
  have k := C59_fail hpc
  have hw1 : (State.goto ⟨w1, fun _ => .out⟩ t (.waiting a hd (w.gen, f.path))).w = w1 := rfl
  rw [hw1, f3] at k
  cases hh : w.held (w.gen, f.path) with
  | true =>
    obtain ⟨g4, g5⟩ := g2 hh
    cases hf : a.failOnLock with
    | true =>
      rw [g4, k.1 hh hf]
      refine ⟨by simp, ?_, by simp⟩
      intro w2 e
      obtain rfl := (Prod.mk.inj e).2
      congr 1
      simp only [State.goto, State.start]
      congr 1
      funext i
      split <;> rfl
    | false =>
      rw [g5, k.2.1 hh hf]
      exact ⟨by simp, by simp, fun _ _ => rfl⟩
  | false =>
    rw [g3 hh]
    refine ⟨?_, by simp, by simp⟩
    intro g w2 e
    simp only [Prod.mk.injEq, Except.ok.injEq] at e
    obtain ⟨rfl, rfl⟩ := e
    simp only [act, State.goto, if_true, f3, hh, Bool.false_eq_true, if_false, acquire, State.start]
    congr 2
    funext i
    split <;> rfl

/-! ## C60 What is left afterwards -/

/-- entering, taken apart -/
theorem lockEnter_inv {w w1 : World} (hw : Mem.Reachable w) {u : Uri} {r : Nat} {init : List Str} {n : Str} {g : LockGuard}
    {fail c : Bool} (hu : Serves w u r) (hs : stepsOf u = some (init ++ [n])) (he : uLockEnter u fail c w = (.ok g, w1)) :
    ∃ w0 k, uOpen u (some cl!"w") w = (.ok g.handle, w0) ∧ g.path = u ∧ g.cleanup = c ∧ g.lock = k ∧ w.held k = false ∧
      w1 = { w0 with held := fun j => if j = k then true else w.held j } := by
  cases ho : uOpen u (some cl!"w") w with
  | mk x w0 =>
    cases x with
    | error e =>
      exfalso
      rw [uOpen_w hu hs (by decide) (by decide)] at ho
      have e1 : open_ r u (some cl!"w") w = (.error e, w0) := ho
      unfold uLockEnter at he
      rw [withConn_serves hu hs] at he
      unfold lockEnter at he
      rw [bind_error e1] at he
      simp at he
    | ok hd =>
      obtain ⟨f, h1, h2, h3⟩ := C59_enter hw hu hs c ho
      cases hh : w.held (w.gen, f.path) with
      | true => cases fail <;> simp [h2 hh] at he
      | false =>
        rw [h3 hh fail] at he
        simp only [Prod.mk.injEq, Except.ok.injEq] at he
        obtain ⟨rfl, rfl⟩ := he
        exact ⟨w0, (w.gen, f.path), rfl, rfl, rfl, rfl, hh, rfl⟩

/-- common part: writing in the body, then releasing the lock -/
theorem lock_written {w w1 : World} (hw : Mem.Reachable w) {u : Uri} {r : Nat} {init : List Str} {n : Str} {g : LockGuard}
    {fail c : Bool} {l : List PyData} {bs : List Bytes} (hu : Serves w u r) (hs : stepsOf u = some (init ++ [n]))
    (he : uLockEnter u fail c w = (.ok g, w1)) (hl : l.map g.handle.encode = bs.map Except.ok) :
    ∃ w2 w3 q t, l.forM g.handle.write w1 = (.ok (), w2) ∧ release g.lock w2 = (.ok (), w3) ∧
      Goes (view w3 r) maxDepth [] (init ++ [n]) (.found q) ∧ (view w r).Keeps (view w3 r) ∧
      Becomes w w3 r ((view w r).set q (.file bs.flatten 0 t)) := by
  obtain ⟨w0, k, ho, -, -, hk, hf, rfl⟩ := lockEnter_inv hw hu hs he
  rw [uOpen_w hu hs (by decide) (by decide)] at ho
  obtain ⟨q, f, h1, h2, h3, h4⟩ := openWrite_inv hw.inv hu hs ho
  have hn : ∀ x : LockId → Bool, view { w0 with held := x } r = view w0 r := fun x =>
    view_congr (w := w0) (w' := { w0 with held := x }) rfl r
  have hi1 : Mem.Inv { w0 with held := fun j => if j = k then true else w.held j } := h2.becomes.inv.congr rfl rfl rfl
  have hu1 : Serves { w0 with held := fun j => if j = k then true else w.held j } u r :=
    (h2.becomes.serves hu).congr (List.prefix_refl _) rfl
  obtain ⟨w2, f', a1, a2, a3, a4, -, -, a7⟩ := writes_at hi1 hu1 (f := f) hl h2.node
    (by rw [h2.pos, h2.data]; rfl) (q := q) (by
      rw [phys_congr (w := w0) (w' := { w0 with held := fun j => if j = k then true else w.held j }) (fun _ => rfl)]
      exact h2.phys)
  rw [h2.data, List.nil_append, hn] at a7
  have hm : f.mode = 0 := by
    have := view_of_phys h2.phys
    rw [h2.becomes.view, NS.set_get, h2.node] at this
    simp only [objOf, Option.some.injEq, Obj.file.injEq] at this
    exact this.2.1.symm
  have hheld : w2.held g.lock = true := by rw [a7.held, hk]; simp
  have hback : (fun j => if j = g.lock then false else w2.held j) = w.held := by
    funext j
    rw [a7.held, hk]
    by_cases hj : j = k
    · simp [hj, hf]
    · simp [hj]
  have hrel : release g.lock w2 = (.ok (), { w2 with held := w.held }) := by
    unfold release; rw [if_pos hheld, hback]
  have hv : ∀ r', view { w2 with held := w.held } r' = view w2 r' := fun r' =>
    view_congr (w := w2) (w' := { w2 with held := w.held }) rfl r'
  have hkk : (view w0 r).SameKinds (view w2 r) := by
    rw [a7.view]
    exact NS.set_sameKinds (o := .file [] 0 f.mtime) (by rw [h2.becomes.view, NS.set_get]) rfl
  refine ⟨w2, _, q, f'.mtime, a1, hrel, ?_, ?_, ?_⟩
  · rw [hv]; exact h4.sameKinds hkk
  · rw [hv]
    intro p o hp
    obtain ⟨o1, e1, e2⟩ := h3 p o hp
    obtain ⟨o2, e3, e4⟩ := hkk.keeps p o1 e1
    exact ⟨o2, e3, e4.trans e2⟩
  · refine ⟨a7.inv.congr rfl rfl rfl, Nat.le_trans h2.becomes.next a7.next, a7.clock.trans h2.becomes.clock,
      a7.conns.trans h2.becomes.conns, a7.hooks.trans h2.becomes.hooks, rfl, a7.gen.trans h2.becomes.gen, ?_, ?_⟩
    · rw [hv, a7.view, h2.becomes.view, NS.set_set, hm]
    · intro r' hr' hne
      rw [hv, a7.other r' (h2.becomes.isRoot hr') hne]
      rw [view_congr (w := w0) (w' := { w0 with held := fun j => if j = k then true else w.held j }) rfl r']
      exact h2.becomes.other r' hr' hne

/-- After `with p.lock() as f: f.write(...)…` the file that `p` leads to holds what was written, the lock is
    free again, and nothing else has changed. -/
theorem C60_kept {w w1 : World} (hw : Mem.Reachable w) {u : Uri} {r : Nat} {init : List Str} {n : Str} {g : LockGuard}
    {fail : Bool} {l : List PyData} {bs : List Bytes} (depth : Nat) (hu : Serves w u r) (hs : stepsOf u = some (init ++ [n]))
    (he : uLockEnter u fail false w = (.ok g, w1)) (hl : l.map g.handle.encode = bs.map Except.ok) :
    ∃ w2 w3 q t, l.forM g.handle.write w1 = (.ok (), w2) ∧ lockExit depth g w2 = (.ok (), w3) ∧
      Goes (view w3 r) maxDepth [] (init ++ [n]) (.found q) ∧ Becomes w w3 r ((view w r).set q (.file bs.flatten 0 t)) := by
  obtain ⟨w2, w3, q, t, h1, h2, h3, -, h5⟩ := lock_written hw hu hs he hl
  obtain ⟨-, -, -, -, hc, -⟩ := lockEnter_inv hw hu hs he
  refine ⟨w2, w3, q, t, h1, ?_, h3, h5⟩
  unfold lockExit
  rw [bind_ok h2, hc]
  rfl

/-- After `with p.lock(cleanup=True) as f: f.write(...)…` there is nothing at `p` any more, the lock is free
    again, and nothing else has changed; the file may have existed before or not.  `p` may lead through links,
    but may not be one. -/
theorem C60_removed {w w1 : World} (hw : Mem.Reachable w) {u : Uri} {r : Nat} {init q : List Str} {n : Str} {g : LockGuard}
    {fail : Bool} {l : List PyData} {bs : List Bytes} (depth : Nat) (hu : Serves w u r) (hs : stepsOf u = some (init ++ [n]))
    (hne : [] ∉ init ++ [n]) (hlast : u.last = n) (hg : Goes (view w r) maxDepth [] init (.found q))
    (hd : (view w r).isDir q) (hn : n ∉ init ∨ Plain (view w r) (init ++ [n]))
    (hnl : ∀ o, view w r (q ++ [n]) = some o → o.isLink = false)
    (he : uLockEnter u fail true w = (.ok g, w1)) (hl : l.map g.handle.encode = bs.map Except.ok) :
    ∃ w2 w3, l.forM g.handle.write w1 = (.ok (), w2) ∧ lockExit depth g w2 = (.ok (), w3) ∧
      Becomes w w3 r ((view w r).erase (q ++ [n])) ∧ view w3 r (q ++ [n]) = none := by
  obtain ⟨w2, w3, q', t, h1, h2, h3, h4, h5⟩ := lock_written hw hu hs he hl
  obtain ⟨-, -, -, hp, hc, -⟩ := lockEnter_inv hw hu hs he
  have hg3 := hg.keeps h4
  have hd3 := h4.isDir hd
  have hq : q' = q ++ [n] := by
    cases ho : view w r (q ++ [n]) with
    | none =>
      by_contra hne'
      have : view w3 r (q ++ [n]) = none := by rw [h5.view, NS.set_ne _ _ (Ne.symm hne'), ho]
      have := h3.det (hg3.snoc_missing hd3 this)
      cases this
    | some o =>
      obtain ⟨o', e1, e2⟩ := h4 _ _ ho
      have : o'.isLink = false := by
        have := hnl o ho
        cases o <;> cases o' <;> simp_all [Obj.kind, Obj.isLink]
      have := h3.det (hg3.snoc hd3 e1 this)
      simpa using this
  subst hq
  have hn3 : n ∉ init ∨ Plain (view w3 r) (init ++ [n]) := hn.imp_right fun hp a b c e => h4.isDir (hp a b c e)
  obtain ⟨w4, e1, e2⟩ := uRemove_leaf h5.inv (h5.serves hu) depth false hs hne hlast hg3 hn3
    (o := .file bs.flatten 0 t) (by rw [h5.view, NS.set_get]) rfl
  have hv : (view w3 r).erase (q ++ [n]) = (view w r).erase (q ++ [n]) := by
    rw [h5.view]
    funext p
    simp only [NS.erase, NS.set]
    split <;> rfl
  rw [hv] at e2
  refine ⟨w2, w4, h1, ?_, h5.trans e2, by rw [e2.view]; simp [NS.erase]⟩
  unfold lockExit
  rw [bind_ok h2, hc, hp]
  exact e1

/-- the same whatever the body did, and however it ended, as long as the lock is still held and there is still
    a file (or a link) at the path -/
theorem C60_leave {w : World} (hw : Mem.Reachable w) {r : Nat} {init q : List Str} {n : Str} {g : LockGuard} {o : Obj}
    (depth : Nat) (hu : Serves w g.path r) (hs : stepsOf g.path = some (init ++ [n]))
    (hne : [] ∉ init ++ [n]) (hlast : g.path.last = n) (hg : Goes (view w r) maxDepth [] init (.found q))
    (hn : n ∉ init ∨ Plain (view w r) (init ++ [n])) (ho : view w r (q ++ [n]) = some o) (hd : o.isDir = false)
    (hh : w.held g.lock = true) (hc : g.cleanup = true) :
    ∃ w', lockExit depth g w = (.ok (), w') ∧ w'.held g.lock = false ∧ view w' r = (view w r).erase (q ++ [n]) ∧
      ∀ r', IsRoot w r' → r' ≠ r → view w' r' = view w r' := by
  have hrel : release g.lock w = (.ok (), { w with held := fun k => if k = g.lock then false else w.held k }) := by
    unfold release; rw [if_pos hh]
  have hv : ∀ r', view { w with held := fun k => if k = g.lock then false else w.held k } r' = view w r' := fun r' =>
    view_congr (w := w) (w' := { w with held := fun k => if k = g.lock then false else w.held k }) rfl r'
  have hi : Mem.Inv { w with held := fun k => if k = g.lock then false else w.held k } := hw.inv.congr rfl rfl rfl
  have hu' : Serves { w with held := fun k => if k = g.lock then false else w.held k } g.path r :=
    hu.congr (List.prefix_refl _) rfl
  obtain ⟨w', e1, e2⟩ := uRemove_leaf hi hu' depth false hs hne hlast (by rw [hv]; exact hg)
    (by rw [hv]; exact hn) (o := o) (by rw [hv]; exact ho) hd
  refine ⟨w', ?_, ?_, ?_, ?_⟩
  · unfold lockExit
    rw [bind_ok hrel, hc]
    exact e1
  · rw [e2.held]; simp
  · rw [e2.view, hv]
  · intro r' hr' hne'
    rw [e2.other r' hr' hne', hv]

/-- Leaving when the lock is not held any more (a second time) raises RuntimeError; nothing is removed or changed. -/
theorem C60_twice (w : World) (depth : Nat) (g : LockGuard) :
    (w.held g.lock = false → lockExit depth g w = (.error .runtimeError, w)) ∧
    (w.held g.lock = true → g.cleanup = false → ∃ w', lockExit depth g w = (.ok (), w') ∧ lockExit depth g w' = (.error .runtimeError, w')) := by
  have key : ∀ w : World, w.held g.lock = false → lockExit depth g w = (.error .runtimeError, w) := by
    intro w h
    unfold lockExit
    exact bind_error (by unfold release; rw [if_neg (by simp [h])])
  refine ⟨key w, fun h hc => ⟨{ w with held := fun k => if k = g.lock then false else w.held k }, ?_, key _ (by simp)⟩⟩
  unfold lockExit
  rw [bind_ok (by unfold release; rw [if_pos h]), hc]
  rfl

example : ((do let g ← uLockEnter (mu cl!"/a/f") true false; lockExit 0 g; lockExit 0 g : M Unit) sample).1 = .error .runtimeError := by
  decide +kernel

/-- If the path is a link, only the link is removed: the file that was locked and written stays. -/
theorem C60_link_refuted : ∃ w u, Mem.Reachable w ∧ Serves w u 0 ∧
    Goes (view w 0) maxDepth [] [cl!"m"] (.found [cl!"a", cl!"f"]) ∧ stepsOf u = some [cl!"m"] ∧
    let w' := ((do let g ← uLockEnter u true true; g.handle.write (.bytes [120]); lockExit 0 g : M Unit) w).2
    view w' 0 [cl!"a", cl!"f"] = some (.file [120] 0 10) ∧ view w' 0 [cl!"m"] = none :=
  ⟨sample, mu cl!"/m", sample_reachable, sample_serves _, by decide +kernel, by decide +kernel, by decide +kernel⟩

example : (uLockEnter (mu cl!"/l/new") true true sample).1 =
      .ok ⟨mu cl!"/l/new", true, (1, cl!"l/new"), ⟨8, false, false⟩⟩ ∧
    stepsOf (mu cl!"/l/new") = some ([cl!"l"] ++ [cl!"new"]) ∧ (mu cl!"/l/new").last = cl!"new" ∧
    Goes (view sample 0) maxDepth [] [cl!"l"] (.found [cl!"a"]) ∧
    [PyData.str cl!"é", .bytes [1]].map (Handle.encode ⟨8, false, false⟩) = [[195, 169], [1]].map Except.ok := by
  decide +kernel
example : let m : M Unit := do
      let g ← uLockEnter (mu cl!"/l/new") true false
      g.handle.write (.str cl!"hi")
      lockExit 0 g
    view (m sample).2 0 [cl!"a", cl!"new"] = some (.file [104, 105] 0 10) := by decide +kernel

end Verif.Props
