import Verif.Conc.LockedAll
import Verif.Props.LockedWork
/-!
# Threads that do all their work under a lock get it done (C111)
-/
namespace Verif.Props
open Verif.Mem Verif.Spec Verif.Conc Verif.Gen

/-! ## What the statements speak of -/

/-- The statements wait for the lock and leave the lock file where it is; the file is, or will be, in a directory that is there, and no
    directory has its name; no hooks of the file system are called. -/
structure Waits (w : World) (r : Nat) (ds : List Str) (n : Str) (tasks : Nat → Task) : Prop where
  root : IsRoot w r
  hooks : w.hooks r = []
  dir : ∃ m tm, view w r ds = some (.dir m tm)
  free : ∀ m tm, view w r (ds ++ [n]) ≠ some (.dir m tm)
  args : ∀ t a b, (tasks t).Has a b → a.path.scheme = some cl!"memory" ∧ (∀ kv ∈ a.path.allExtras, kv.1 ∉ reservedNames) ∧
    a.failOnLock = false ∧ a.cleanup = false

variable {w : World} {r0 : Nat} {q : List Str} {r : Nat} {ds : List Str} {n : Str} {p : Str} {tasks : Nat → Task}

theorem Waits.all (hw : Reachable w) (hl : NoLinks w) (h : Guarded w r0 q r (ds ++ [n]) p tasks) (hp : Waits w r ds n tasks) :
    (Door.mk w r ds n).All tasks (Hall.start w tasks) where
  ready := by
    refine ⟨hw.inv, hl, hp.root, rfl, rfl, ?_, fun j hj => ?_⟩
    · obtain ⟨m, tm, hv⟩ := hp.dir
      exact phys_way hv
    · cases e : w.node j with
      | file f => exact ⟨f, e⟩
      | link o => exact (hl j o e).elim
      | dir d =>
        exact (hp.free d.mode d.mtime (by
          show (phys w r (ds ++ [n])).map _ = _
          rw [show phys w r (ds ++ [n]) = some j from hj, Option.map_some, e]; rfl)).elim
  pc t := by
    intro a b hm
    obtain ⟨h1, h2, h3, h4⟩ := hp.args t a b hm
    obtain ⟨h5, h6, h7⟩ := h.lock t a b hm
    have he := strip_steps h5.2.2.1 h6
    refine ⟨h2, h1, h7, ⟨p, h6, ?_⟩, h3, h4⟩
    by_cases hn : p = []
    · rw [if_pos hn] at he; exact absurd he.symm h5.1
    · rw [if_neg hn] at he; exact he
  outs := rfl
  runs t := .here

theorem Waits.run (hw : Reachable w) (hl : NoLinks w) (h : Guarded w r0 q r (ds ++ [n]) p tasks) (hp : Waits w r ds n tasks) (sched : List Nat) :
    (Door.mk w r ds n).All tasks ((Hall.start w tasks).run sched) := by
  obtain ⟨F, G, hG⟩ := h.opens hw hl
  have := hG.sub
  have := hG.sub'
  suffices ∀ (sched : List Nat) (s : Hall), (∃ C v, G.Inv F w s C v) → (Door.mk w r ds n).All tasks s → (Door.mk w r ds n).All tasks (s.run sched) from
    this sched _ hG.start (hp.all hw hl h)
  intro sched
  induction sched with
  | nil => exact fun _ _ h => h
  | cons t sched ih =>
    rintro s ⟨C, v, hi⟩ ha
    exact ih (s.step t) (hi.step hG.apart hG.away hG.ne t) (ha.step rfl hp.hooks hG.loc hG.aside hi t)

/-! ## C111 -/

/-- No statement raises: what the statements come to is what their bodies, which have been left in this order, have come to; and the
    statements each thread has left are the first ones of its task. -/
theorem C111_no_error (hw : Reachable w) (hl : NoLinks w) (h : Guarded w r0 q r (ds ++ [n]) p tasks) (hp : Waits w r ds n tasks) (sched : List Nat) :
    let s := (Hall.start w tasks).run sched
    s.outs = s.left.map (fun x => (x.1, .ok x.2.2)) ∧ ∀ t, ∃ rest, Ran (tasks t) (s.of t) rest := by
  have := hp.run hw hl h sched
  exact ⟨this.outs, fun t => ⟨_, this.runs t⟩⟩

theorem till_run (s : Hall) (σ : Nat → Nat) (m : Nat) : s.till σ m = s.run ((List.range m).map σ) := by
  induction m with
  | zero => rfl
  | succ m ih => rw [List.range_succ, List.map_append, Hall.till, ih, Hall.run, Hall.run, List.foldl_append]; rfl

/-- If the lock is free at the beginning, finitely many threads have statements to make, and each of them has turns again and again, then
    the time comes when every thread has made all statements of its task, each body once; and then the objects at the place of the work
    are (up to times) those left by running the bodies one after the other, without interruption, in the order in which they have been
    left, which is also where their answers are from. -/
theorem C111_all (hw : Reachable w) (hl : NoLinks w) (h : Guarded w r0 q r (ds ++ [n]) p tasks) (hp : Waits w r ds n tasks)
    (hfree : w.held (w.gen, p) = false) {N : Nat} (hN : ∀ t, N ≤ t → tasks t = .done) {σ : Nat → Nat}
    (hσ : ∀ t, t < N → ∀ n, ∃ m, n ≤ m ∧ σ m = t) :
    ∃ k, ∀ m, k ≤ m →
      let s := (Hall.start w tasks).till σ m
      let one := oneByOne w (s.left.map fun x => x.2.1)
      (∀ t, Ran (tasks t) (s.of t) .done) ∧ one.1 = s.left.map (fun x => x.2.2) ∧
        ∀ q', q <+: q' → SameObj (view s.world r0 q') (view one.2 r0 q') := by
  obtain ⟨k, hk⟩ := C110_end hw hl h hfree hN hσ
  refine ⟨k, fun m hm => ?_⟩
  have hk := hk m hm
  obtain ⟨-, h1, h2⟩ := C109_serial hw hl h ((List.range m).map σ)
  have h3 := hp.run hw hl h ((List.range m).map σ)
  rw [← till_run] at h1 h2 h3
  refine ⟨fun t => ?_, h1, h2 fun t ht => ?_⟩
  · have := h3.runs t
    rw [hk t] at this
    exact this
  · rw [hk t] at ht
    exact ht

/-! ## Examples -/

theorem bumps_waits : Waits plain 0 [] cl!"l" bumps where
  root := plain_root
  hooks := by decide +kernel
  dir := ⟨0, 0, by decide +kernel⟩
  free m tm h := by
    have : view plain 0 ([] ++ [cl!"l"]) = none := by decide +kernel
    rw [this] at h
    cases h
  args t a b h := by
    obtain ⟨rfl, rfl⟩ := bumps_has h
    exact ⟨rfl, by decide, rfl, rfl⟩

theorem ran_done {l : List (Script × Log)} (h : Ran .done l .done) : l.length = 0 := by
  cases h
  rfl

theorem bumps_ran {t : Nat} {l : List (Script × Log)} (h : Ran (bumps t) l .done) : l.length = if t = 0 then 2 else if t = 1 then 1 else 0 := by
  match t, h with
  | 0, h =>
    rcases h with _ | ⟨_ | h⟩
    simp [ran_done h]
  | 1, h =>
    rcases h with _ | h
    simp [ran_done h]
  | n + 2, h => simpa using ran_done h

/-- `C111_all`: two threads that read, add and write under the lock, one of them twice, add three letters, whenever they have their
    turns -/
example {σ : Nat → Nat} (hσ : ∀ t, t < 2 → ∀ n, ∃ m, n ≤ m ∧ σ m = t) : ∃ k, ∀ m, k ≤ m →
    ∃ t, view ((Hall.start plain bumps).till σ m).world 0 [cl!"a", cl!"f"] = some (.file [104, 105, 120, 120, 120] 0 t) := by
  obtain ⟨k, hk⟩ := C111_all plain_reachable plain_noLinks bumps_guarded bumps_waits (by decide +kernel) (N := 2) (fun t ht => by
      match t, ht with
      | n + 2, _ => rfl) hσ
  refine ⟨k, fun m hm => ?_⟩
  obtain ⟨h1, -, h3⟩ := hk m hm
  have h4 := h3 [cl!"a", cl!"f"] (by decide)
  obtain ⟨h0, -, -⟩ := C109_serial plain_reachable plain_noLinks bumps_guarded ((List.range m).map σ)
  rw [← till_run] at h0
  have hlen : ((Hall.start plain bumps).till σ m).left.length = 3 := by
    have e0 := bumps_ran (h1 0)
    have e1 := bumps_ran (h1 1)
    simp only [Hall.of, List.length_map, if_true, Nat.one_ne_zero, if_false] at e0 e1
    rw [List.length_eq_length_filter_add fun x => decide (x.1 = 0), e0]
    suffices he : ∀ x ∈ ((Hall.start plain bumps).till σ m).left, (!decide (x.1 = 0)) = decide (x.1 = 1) by rw [List.filter_congr he, e1]
    intro x hx
    obtain ⟨a, ha⟩ := h0 x hx
    have : x.1 < 2 := by
      by_contra hc
      obtain ⟨d, hd⟩ := Nat.exists_eq_add_of_le (show 2 ≤ x.1 by omega)
      rw [hd, Nat.add_comm] at ha
      cases ha
    have : x.1 = 0 ∨ x.1 = 1 := by omega
    rcases this with e | e <;> simp [e]
  have h5 : ((Hall.start plain bumps).till σ m).left.map (fun x => x.2.1) = List.replicate 3 bump := by
    rw [List.eq_replicate_iff]
    refine ⟨by rw [List.length_map, hlen], fun b hb => ?_⟩
    obtain ⟨x, hx, rfl⟩ := List.mem_map.1 hb
    obtain ⟨a, ha⟩ := h0 x hx
    exact (bumps_has ha).2
  rw [h5] at h4
  have h6 : view (oneByOne plain (List.replicate 3 bump)).2 0 [cl!"a", cl!"f"] = some (.file [104, 105, 120, 120, 120] 0 10) := by decide +kernel
  rw [h6] at h4
  revert h4
  cases hv : view ((Hall.start plain bumps).till σ m).world 0 [cl!"a", cl!"f"] with
  | none => exact False.elim
  | some o =>
    cases o with
    | file b m t => rintro ⟨rfl, rfl⟩; exact ⟨t, rfl⟩
    | dir m t => exact False.elim
    | link u m t => exact False.elim

/-- `C111_no_error` for them -/
example (sched : List Nat) : ∀ x ∈ ((Hall.start plain bumps).run sched).outs, ∃ log, x.2 = .ok log := by
  intro x hx
  rw [(C111_no_error plain_reachable plain_noLinks bumps_guarded bumps_waits sched).1] at hx
  obtain ⟨y, -, rfl⟩ := List.mem_map.1 hx
  exact ⟨_, rfl⟩

/-- one statement -/
def once (a : Lock.Args) : Nat → Task
  | 0 => .locked a .done fun _ => .done
  | 1 => .locked a .done fun _ => .done
  | _ => .done

/-- Of two threads that do not wait, one gets LockFileObtainException when it comes while the other is in its body. -/
theorem C111_nowait : ∃ sched, ((Hall.start plain (once ⟨mu cl!"/l", true, false⟩)).run sched).outs = [(1, .error .lockObtain), (0, .ok [])] :=
  ⟨List.replicate 8 0 ++ List.replicate 100 1 ++ List.replicate 100 0, by decide +kernel⟩

/-- A lock file in a directory that is not there, and one that is a directory. -/
theorem C111_nofile : ((Hall.start plain (once ⟨mu cl!"/x/l", false, false⟩)).run (List.replicate 100 0)).outs = [(0, .error (.os .ENOENT))] ∧
    ((Hall.start plain (once ⟨mu cl!"/a", false, false⟩)).run (List.replicate 100 0)).outs = [(0, .error (.os .EISDIR))] :=
  ⟨by decide +kernel, by decide +kernel⟩

end Verif.Props
