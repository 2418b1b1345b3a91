import Verif.Props.Several
import Verif.Props.Homes
import Mathlib.Tactic.IntervalCases
/-!
# C119, threads that take their locks in an order
-/
namespace Verif.Props
open Mem Mem.M Spec Lock

/-- at each of these URIs there is a file, reached through directories only, that was created under this path -/
def LocksAt (names : Uri → Option Str) (w : World) : Prop :=
  ∀ u p, names u = some p → ∃ r init n i f, Serves w u r ∧ stepsOf u = some (init ++ [n]) ∧ phys w r (init ++ [n]) = some i ∧
    w.node i = .file f ∧ f.path = p

/-- The lock files of the plan's statements are those with a name, the statements leave them where they are, and so do the other calls;
    a statement that waits for its lock has one that comes, in the order, after those (before `lo`) of the statements it is in. -/
def Plan.Sorted (names : Uri → Option Str) (rank : Str → Nat) : Nat → Plan → Prop
  | _, .done => True
  | _, .raise _ => True
  | lo, .call o _ k => (∀ w, Mem.Inv w → LocksAt names w → LocksAt names (o.run w)) ∧ ∀ w, Plan.Sorted names rank lo (k w)
  | lo, .locked a b k => a.cleanup = false ∧ ∃ p, names a.path = some p ∧ (a.failOnLock = false → lo ≤ rank p) ∧
      (∀ h, Plan.Sorted names rank (max lo (rank p + 1)) (b h)) ∧ ∀ r, Plan.Sorted names rank lo (k r)

variable {names : Uri → Option Str} {rank : Str → Nat}

/-- the same for what follows the statements the thread is in; their locks come before `lo` -/
def StackOk (names : Uri → Option Str) (rank : Str → Nat) : Nat → List Frame → Prop
  | _, [] => True
  | lo, f :: st => f.args.cleanup = false ∧ rank f.lock.2 < lo ∧ ∃ lo', lo' ≤ lo ∧ StackOk names rank lo' st ∧ ∀ r, Plan.Sorted names rank lo' (f.k r)

theorem StackOk.lt {lo : Nat} {st : List Frame} (h : StackOk names rank lo st) : ∀ f ∈ st, rank f.lock.2 < lo := by
  induction st generalizing lo with
  | nil => simp
  | cons g st ih =>
    obtain ⟨-, h1, lo', h2, h3, -⟩ := h
    intro f hf
    rcases List.mem_cons.1 hf with rfl | hf
    · exact h1
    · exact Nat.lt_of_lt_of_le (ih h3 f hf) h2

/-- where a thread may be -/
def HereOk (names : Uri → Option Str) (rank : Str → Nat) (w : World) (lo : Nat) : At → Prop
  | .runs p => Plan.Sorted names rank lo p
  | .opened a h b k => a.cleanup = false ∧ ∃ f, w.node h.id = .file f ∧ f.lock.2 = f.path ∧ (a.failOnLock = false → lo ≤ rank f.path) ∧
      (∀ h, Plan.Sorted names rank (max lo (rank f.path + 1)) (b h)) ∧ ∀ r, Plan.Sorted names rank lo (k r)
  | .waiting a _ l b k => a.cleanup = false ∧ (a.failOnLock = false → lo ≤ rank l.2) ∧
      (∀ h, Plan.Sorted names rank (max lo (rank l.2 + 1)) (b h)) ∧ ∀ r, Plan.Sorted names rank lo (k r)
  | .removing _ _ _ => False

/-- a thread that takes its locks in the order of their ranks, where it stands and in the statements around that -/
def ThreadOk (names : Uri → Option Str) (rank : Str → Nat) (w : World) (x : Thread) : Prop :=
  ∃ lo, StackOk names rank lo x.stack ∧ HereOk names rank w lo x.here

theorem ThreadOk.climbs {w : World} {x : Thread} (h : ThreadOk names rank w x) : Climbs (fun l => rank l.2) x := by
  obtain ⟨lo, h1, h2⟩ := h
  rintro l l' ⟨a, hd, b, k, e, hf⟩ ⟨f, f1, rfl⟩
  rw [e] at h2
  exact Nat.lt_of_lt_of_le (h1.lt f f1) (h2.2.1 hf)

theorem ThreadOk.stays {w w' : World} (hw : Mem.Inv w) (hs : Stays w w') {x : Thread} (h : ThreadOk names rank w x) : ThreadOk names rank w' x := by
  obtain ⟨lo, h1, h2⟩ := h
  refine ⟨lo, h1, ?_⟩
  obtain ⟨x, st⟩ := x
  cases x with
  | opened a hd b k =>
    obtain ⟨h3, f, h4, h5, h6⟩ := h2
    obtain ⟨f', a1, a2, a3⟩ := stays_file hw hs h4
    refine ⟨h3, f', a1, ?_, by rw [a2]; exact h6⟩
    rcases a3 with a3 | ⟨a3, -, -⟩
    · rw [a3, a2]; exact h5
    · rw [a3, a2]
  | runs p => exact h2
  | waiting a hd l b k => exact h2
  | removing a r k => exact h2

theorem LocksAt.congr {w w' : World} (h : LocksAt names w) (hs : ∀ u r, Serves w u r → Serves w' u r) (hp : ∀ r q, phys w' r q = phys w r q)
    (hn : ∀ i f, w.node i = .file f → ∃ f', w'.node i = .file f' ∧ f'.path = f.path) : LocksAt names w' := by
  intro u p hu
  obtain ⟨r, init, n, i, f, h1, h2, h3, h4, h5⟩ := h u p hu
  obtain ⟨f', a1, a2⟩ := hn i f h4
  exact ⟨r, init, n, i, f', hs u r h1, h2, by rw [hp]; exact h3, a1, a2.trans h5⟩

theorem LocksAt.held {w : World} (h : LocksAt names w) (x : LockId → Bool) : LocksAt names { w with held := x } := by
  refine h.congr (fun u r hs => ⟨hs.1, hs.2, hs.3, hs.4⟩) (fun r q => ?_) fun i f hf => ⟨f, hf, rfl⟩
  exact phys_congr (w := w) (w' := { w with held := x }) (fun _ => rfl) r q

theorem LocksAt.reset {w : World} (h : LocksAt names w) {i : Nat} {f : FileObj} (hf : w.node i = .file f) : LocksAt names (w.resetAt i f) := by
  refine h.congr (fun u r hs => hs.congr (List.prefix_refl _) rfl) (fun r q => ?_) fun j g hg => ?_
  · refine phys_congr (fun j => ?_) r q
    by_cases c : j = i
    · subst c; simp [World.entries, World.resetAt, World.setNode, hf]
    · simp [World.entries, World.resetAt, World.setNode, c]
  · by_cases c : j = i
    · subst c
      rw [hf] at hg; cases hg
      exact ⟨{ f with data := [], pos := 0, mtime := w.clock w.tick, ctime := w.clock w.tick, mode := 0, lock := (w.gen, f.path) },
        by simp [World.resetAt, World.setNode], rfl⟩
    · exact ⟨g, by simp [World.resetAt, World.setNode, c, hg], rfl⟩

/-- what opening a lock file does -/
theorem LocksAt.open {w : World} (hw : Mem.Inv w) (h : LocksAt names w) {u : Uri} {p : Str} (hu : names u = some p) :
    ∃ i f, w.node i = .file f ∧ f.path = p ∧
      withConn u .lock (fun r => open_ r u (some cl!"w")) w = (.ok ⟨i, false, false⟩, w.resetAt i f) := by
  obtain ⟨r, init, n, i, f, h1, h2, h3, h4, h5⟩ := h u p hu
  refine ⟨i, f, h4, h5, ?_⟩
  have hv : view w r (init ++ [n]) = some (objOf (w.node i)) := view_of_phys h3
  have hpl := Gen.plain_of_view hv
  obtain ⟨q, s1, s2, s3⟩ := stepsOf_snoc h2
  obtain ⟨j, j1, j2⟩ := openWrite_found hw h1.isRoot (b := false) s1 s3 (Plain.goes_init hpl) hv (Plain.goes hpl hv (by rw [h4]; rfl))
  rw [h3] at j1
  cases j1
  rw [h4] at j2
  rw [withConn_serves h1 h2]
  exact j2

/-- what holds of the threads in every interleaving -/
structure Lined (names : Uri → Option Str) (rank : Str → Nat) (s : Crowd) : Prop where
  inv : Mem.Inv s.w
  locks : LocksAt names s.w
  th : ∀ t, ThreadOk names rank s.w (s.th t)

theorem Lined.goto {s : Crowd} (h : Lined names rank s) {t : Nat} {w : World} {x : Thread} (hi : Mem.Inv w) (hs : Stays s.w w) (hl : LocksAt names w)
    (hx : ThreadOk names rank w x) : Lined names rank (s.goto t w x) := by
  refine ⟨hi, hl, fun i => ?_⟩
  unfold Crowd.goto
  dsimp only
  split
  · exact hx
  · exact (h.th i).stays h.inv hs

theorem Lined.leave {s : Crowd} (h : Lined names rank s) {t : Nat} {f : Frame} {st : List Frame} (hs : (s.th t).stack = f :: st) (r : Option PyErr) :
    Lined names rank (s.leave t f st r) := by
  obtain ⟨lo, h1, -⟩ := h.th t
  rw [hs] at h1
  obtain ⟨a1, a2, lo', a3, a4, a5⟩ := h1
  unfold Crowd.leave release
  by_cases c : s.w.held f.lock = true
  · rw [if_pos c, a1]
    exact h.goto (h.inv.congr rfl rfl rfl) (.same rfl (fun _ => rfl) rfl rfl fun _ => .rfl' _ _ _) (h.locks.held _) ⟨lo', a4, a5 _⟩
  · rw [if_neg c]
    exact h.goto h.inv (Ext.rfl' _).stays h.locks ⟨lo', a4, a5 _⟩

theorem Lined.step {s s' : Crowd} (h : Lined names rank s) {t : Nat} (e : s.step t = some s') : Lined names rank s' := by
  have ht := h.th t
  obtain ⟨x, st, hx⟩ : ∃ x st, s.th t = ⟨x, st⟩ := ⟨_, _, rfl⟩
  unfold Crowd.step at e
  rw [hx] at e ht
  dsimp only at e
  split at e
  · cases e
  · cases e
  · cases e; exact h.leave (by rw [hx]) _
  · cases e; exact h.leave (by rw [hx]) _
  · rename_i o ho k
    cases e
    obtain ⟨lo, h1, h2⟩ := ht
    exact h.goto (o.inv h.inv) (o.keeps h.inv).2 (h2.1 _ h.inv h.locks) ⟨lo, h1, h2.2 _⟩
  · rename_i a b k
    obtain ⟨lo, h1, h2, p, h3, h4, h5, h6⟩ := ht
    obtain ⟨i, f, f1, f2, f3⟩ := h.locks.open h.inv h3
    rw [f3] at e
    cases e
    refine h.goto (h.inv.resetAt f1) (Ext.resetAt f1).stays (h.locks.reset f1) ⟨lo, h1, h2, { f with data := [], pos := 0, mtime := s.w.clock s.w.tick, ctime := s.w.clock s.w.tick, mode := 0, lock := (s.w.gen, f.path) }, ?_, rfl, ?_⟩
    · simp [World.resetAt, World.setNode]
    · dsimp only
      rw [f2]
      exact ⟨h4, h5, h6⟩
  · rename_i a hd b k
    obtain ⟨lo, h1, h2, f, f1, f2, f3, f4, f5⟩ := ht
    rw [f1] at e
    cases e
    refine h.goto h.inv (Ext.rfl' _).stays h.locks ⟨lo, h1, h2, ?_⟩
    rw [f2]
    exact ⟨f3, f4, f5⟩
  · rename_i a hd l b k
    obtain ⟨lo, h1, h2, h3, h4, h5⟩ := ht
    split at e
    · split at e
      · cases e; exact h.goto h.inv (Ext.rfl' _).stays h.locks ⟨lo, h1, h5 _⟩
      · cases e
    · rename_i c
      cases e
      have hacq : (acquire l s.w).2 = { s.w with held := fun k => if k = l then true else s.w.held k } := by
        unfold acquire; rw [if_neg c]
      rw [hacq]
      refine h.goto (h.inv.congr rfl rfl rfl) (.same rfl (fun _ => rfl) rfl rfl fun _ => .rfl' _ _ _) (h.locks.held _)
        ⟨max lo (rank l.2 + 1), ⟨h2, by show rank l.2 < _; omega, lo, by omega, h1, h5⟩, h4 _⟩
  · obtain ⟨lo, -, h2⟩ := ht
    exact h2.elim

theorem Lined.till {s : Crowd} (h : Lined names rank s) (σ : Nat → Nat) (n : Nat) : Lined names rank (s.till σ n) := by
  induction n with
  | zero => exact h
  | succ n ih =>
    show Lined names rank (((s.till σ n).step (σ n)).getD (s.till σ n))
    cases e : (s.till σ n).step (σ n) with
    | none => exact ih
    | some s' => exact ih.step e

/-- If the lock files are there and stay there, and every statement that waits for its lock has one that comes, in some order of the paths
    the lock files were created under, after those of the statements around it, then finitely many threads, each with turns again and
    again, all come to their end; no lock is held then. -/
theorem C119_sorted {w : World} (hw : Mem.Reachable w) (hh : ∀ l, w.held l = false) (hl : LocksAt names w) {plans : Nat → Plan} {N : Nat}
    (hN : ∀ t, N ≤ t → plans t = .done) {σ : Nat → Nat} (hσ : ∀ t, t < N → ∀ m, ∃ n, m ≤ n ∧ σ n = t)
    (hs : ∀ t, Plan.Sorted names rank 0 (plans t)) :
    ∃ m, ∀ n, m ≤ n → (∀ t, (((Crowd.start w plans).till σ n).th t).Over) ∧ ∀ l, ((Crowd.start w plans).till σ n).w.held l = false := by
  refine C119_end (rank := fun l => rank l.2) hh hN hσ fun n t => ?_
  have h0 : Lined names rank (.start w plans) := ⟨hw.inv, hl, fun t => ⟨0, trivial, hs t⟩⟩
  exact ((h0.till σ n).th t).climbs

/-! ## Calls that leave the lock files where they are -/

/-- an operation on an open file -/
def Op.onFile : Op → Bool
  | .write _ _ => true
  | .read _ _ => true
  | .seek _ _ _ => true
  | .tell _ => true
  | .size _ => true
  | .truncate _ _ => true
  | .close _ => true
  | .readline _ => true
  | .next _ => true
  | _ => false

/-- only what is in files changes -/
structure Inks (w w' : World) : Prop where
  conns : w'.conns = w.conns
  hooks : w'.hooks = w.hooks
  entries : ∀ i, w'.entries i = w.entries i
  file : ∀ i f, w.node i = .file f → ∃ f', w'.node i = .file f' ∧ f'.path = f.path

theorem Inks.rfl' (w : World) : Inks w w := ⟨rfl, rfl, fun _ => rfl, fun _ f h => ⟨f, h, rfl⟩⟩

theorem Inks.setFile {w : World} {i n : Nat} {f f' : FileObj} (h : w.node i = .file f) (hp : f'.path = f.path) :
    Inks w { w.setNode i (.file f') with tick := n } := by
  refine ⟨rfl, rfl, fun j => ?_, fun j g hg => ?_⟩
  · by_cases c : j = i
    · subst c; simp [World.entries, World.setNode, h]
    · simp [World.entries, World.setNode, c]
  · by_cases c : j = i
    · subst c
      cases h.symm.trans hg
      exact ⟨f', by simp [World.setNode], hp⟩
    · exact ⟨g, by simp [World.setNode, c, hg], rfl⟩

theorem LocksAt.inks {w w' : World} (h : LocksAt names w) (hi : Inks w w') : LocksAt names w' :=
  h.congr (fun _ _ hs => hs.congr (by rw [hi.conns]) (by rw [hi.hooks])) (fun r q => phys_congr hi.entries r q) hi.file

theorem inks_withFile {α : Type} {i : Nat} {g : FileObj → M α} {w : World} (h : ∀ f, w.node i = .file f → Inks w (g f w).2) :
    Inks w (withFile i g w).2 := by
  unfold withFile
  split
  · rename_i o e; exact h o e
  · exact .rfl' w

theorem inks_bind {α β : Type} {m : M α} {f : α → M β} {w : World} (h : Inks w (m w).2) (h' : ∀ a v, (f a v).2 = v) :
    Inks w ((m >>= f) w).2 := by
  rw [bind_apply]
  cases e : m w with
  | mk x v =>
    rw [e] at h
    cases x with
    | error e => exact h
    | ok a => dsimp only; rw [h']; exact h

theorem Op.inks {o : Op} (ho : Op.onFile o = true) (w : World) : Inks w (o.run w) := by
  cases o with
  | write h d =>
    show Inks w (h.write d w).2
    unfold Handle.write
    rw [bind_apply, lift_apply]
    cases h.encode d with
    | error e => exact .rfl' w
    | ok b => exact inks_withFile fun f hf => .setFile hf rfl
  | read h n =>
    show Inks w (h.read n w).2
    unfold Handle.read
    split
    · exact inks_bind (inks_withFile fun f hf => .setFile (n := w.tick) hf rfl) fun _ _ => rfl
    · exact .rfl' w
  | seek h t wh =>
    refine inks_withFile fun f hf => ?_
    rw [bind_apply, lift_apply]
    cases BytesIO.seek f.data f.pos t wh with
    | error e => exact .rfl' w
    | ok p => exact .setFile (n := w.tick) hf rfl
  | tell h => exact inks_withFile fun f hf => .rfl' w
  | size h => exact inks_withFile fun f hf => .rfl' w
  | truncate h n =>
    refine inks_withFile fun f hf => ?_
    rw [bind_apply, lift_apply]
    cases BytesIO.truncate f.data f.pos n with
    | error e => exact .rfl' w
    | ok p => exact .setFile (n := w.tick) hf rfl
  | close h => exact inks_withFile fun f hf => .setFile (n := w.tick) hf rfl
  | readline h => exact inks_bind (inks_withFile fun f hf => .setFile (n := w.tick) hf rfl) fun _ _ => rfl
  | next h =>
    refine inks_bind (inks_withFile fun f hf => .setFile (n := w.tick) hf rfl) fun b v => ?_
    by_cases c : b = []
    · rw [if_pos c]; rfl
    · rw [if_neg c, bind_apply, lift_apply]
      cases h.decode b <;> rfl
  | _ => cases ho

/-- The operations on open files leave the lock files where they are. -/
theorem C119_onFile {o : Op} (ho : Op.onFile o = true) : ∀ w, Mem.Inv w → LocksAt names w → LocksAt names (o.run w) :=
  fun w _ h => h.inks (Op.inks ho w)

/-! ## Examples -/

/-- an exception goes on -/
def pass : Option PyErr → Plan
  | none => .done
  | some e => .raise e

/-- two files to be locked, /x and /y, and /x in a second memory file system -/
def desk : World := runAll [.open_ (mu cl!"/x") (some cl!"w"), .open_ (mu cl!"/y") (some cl!"w"), .open_ { mu cl!"/x" with extras := [(cl!"n", cl!"2")] } (some cl!"w")]
  (World.init fun n => n)

theorem desk_reachable : Mem.Reachable desk := ⟨_, _, rfl⟩

theorem held_none {w : World} (hw : w.held = fun _ => false) (l : LockId) : w.held l = false := by rw [hw]

theorem desk_free (l : LockId) : desk.held l = false := by
  have : ∀ (ops : List Op) (w : World), (∀ o ∈ ops, o.locks = false) → (runAll ops w).held = w.held := by
    intro ops
    induction ops with
    | nil => exact fun _ _ => rfl
    | cons o ops ih =>
      intro w h
      exact (ih (o.run w) fun o ho => h o (by simp [ho])).trans (o.calm (h o (by simp)) w).1
  have h := congrFun (this [.open_ (mu cl!"/x") (some cl!"w"), .open_ (mu cl!"/y") (some cl!"w"), .open_ { mu cl!"/x" with extras := [(cl!"n", cl!"2")] } (some cl!"w")]
    (World.init fun n => n) (by simp [Op.locks])) l
  exact h

/-- `with /x.lock(...)`, or /y, waiting or not -/
def lx (fail : Bool) : Args := ⟨mu cl!"/x", fail, false⟩
@[inherit_doc lx] def ly (fail : Bool) : Args := ⟨mu cl!"/y", fail, false⟩

/-- each thread does what it does under both locks -/
def both (a b : Args) : Plan := .locked a (fun h => .call (.write h (.str cl!"in")) rfl fun _ => .locked b (fun _ => .done) pass) pass

/-- the paths under which the two files were created -/
def deskNames (u : Uri) : Option Str := if u = mu cl!"/x" then some cl!"x" else if u = mu cl!"/y" then some cl!"y" else none

/-- x before y -/
def deskRank (p : Str) : Nat := if p = cl!"x" then 0 else 1

/-- the file that node `i` is -/
def fileOf (w : World) (i : Nat) : FileObj := match w.node i with
  | .file f => f
  | _ => ⟨[], 0, 0, 0, 0, [], (0, [])⟩

theorem desk_names : LocksAt deskNames desk := by
  intro u p h
  unfold deskNames at h
  split at h
  · rename_i hu; subst hu; cases h
    refine ⟨0, [], cl!"x", 1, fileOf desk 1, serves_of_noHooks (by decide +kernel) (by decide +kernel) (by decide +kernel) (by decide +kernel),
      by decide +kernel, by decide +kernel, ?_, by decide +kernel⟩
    have : ∀ n, (match n with | Node.file _ => true | _ => false) = true → ∀ w : World, w.node 1 = n → w.node 1 = .file (fileOf w 1) := by
      intro n hn w hw
      unfold fileOf
      cases n <;> simp_all
    exact this _ (by decide +kernel) desk rfl
  · split at h
    · rename_i hu; subst hu; cases h
      refine ⟨0, [], cl!"y", 2, fileOf desk 2, serves_of_noHooks (by decide +kernel) (by decide +kernel) (by decide +kernel) (by decide +kernel),
        by decide +kernel, by decide +kernel, ?_, by decide +kernel⟩
      have : ∀ n, (match n with | Node.file _ => true | _ => false) = true → ∀ w : World, w.node 2 = n → w.node 2 = .file (fileOf w 2) := by
        intro n hn w hw
        unfold fileOf
        cases n <;> simp_all
      exact this _ (by decide +kernel) desk rfl
    · cases h

/-- Threads that all take /x before /y, writing into /x in between, come to their end, however many they are; the one in the middle does
    not wait for /y. -/
example (N : Nat) (σ : Nat → Nat) (hσ : ∀ t, t < N → ∀ m, ∃ n, m ≤ n ∧ σ n = t) :
    let s := Crowd.start desk fun t => if t < N then both (lx false) (ly (t == 1)) else .done
    ∃ m, ∀ n, m ≤ n → (∀ t, ((s.till σ n).th t).Over) ∧ ∀ l, (s.till σ n).w.held l = false := by
  have pok : ∀ lo r, Plan.Sorted deskNames deskRank lo (pass r) := fun lo r => by cases r <;> exact trivial
  refine C119_sorted (names := deskNames) (rank := deskRank) (N := N) desk_reachable desk_free desk_names (fun t ht => if_neg (by omega)) hσ fun t => ?_
  split
  · refine ⟨rfl, cl!"x", by decide +kernel, fun _ => Nat.zero_le _, fun h => ⟨C119_onFile rfl, fun w => ⟨rfl, cl!"y", ?_, fun _ => ?_, fun _ => trivial, fun _ => pok _ _⟩⟩, fun _ => pok _ _⟩
    · show deskNames (mu cl!"/y") = _; decide +kernel
    · decide +kernel
  · trivial

/-- what the threads 0 and 1 do in the end -/
def pair (p0 p1 : Plan) (t : Nat) : Plan := if t = 0 then p0 else if t = 1 then p1 else .done

/-- nobody can make a step -/
theorem stuck_of {w : World} {p0 p1 : Plan} {sched : List Nat} (h0 : (((Crowd.start w (pair p0 p1)).run sched).step 0).isNone = true)
    (h1 : (((Crowd.start w (pair p0 p1)).run sched).step 1).isNone = true) (t : Nat) : ((Crowd.start w (pair p0 p1)).run sched).step t = none := by
  by_cases c : t < 2
  · interval_cases t
    · exact Option.isNone_iff_eq_none.1 h0
    · exact Option.isNone_iff_eq_none.1 h1
  · exact (C119_step _ _).2 (.inl (over_run (over_start (N := 2) (fun t ht => by simp [pair, show t ≠ 0 by omega, show t ≠ 1 by omega]) (by omega)) sched))

theorem busy_of {x : Thread} (h : x.stack.isEmpty = false) : ¬ x.Over := by
  rintro ⟨h1, -⟩
  rw [h1] at h; cases h

/-- Two threads that take two locks in opposite orders may wait for each other for ever. -/
theorem C119_crossed_refuted : ∃ w p0 p1 sched, Mem.Reachable w ∧ (∀ l, w.held l = false) ∧
    let s := (Crowd.start w (pair p0 p1)).run sched
    (∀ t, s.step t = none) ∧ ¬ (s.th 0).Over ∧ ¬ (s.th 1).Over ∧ Blocks s 0 1 ∧ Blocks s 1 0 := by
  have h : let s := (Crowd.start desk (pair (both (lx false) (ly false)) (both (ly false) (lx false)))).run [0, 0, 0, 1, 1, 1, 0, 0, 0, 1, 1, 1]
      (∀ t, s.step t = none) ∧ ¬ (s.th 0).Over ∧ ¬ (s.th 1).Over :=
    ⟨stuck_of (by decide +kernel) (by decide +kernel), busy_of (by decide +kernel), busy_of (by decide +kernel)⟩
  refine ⟨desk, both (lx false) (ly false), both (ly false) (lx false), [0, 0, 0, 1, 1, 1, 0, 0, 0, 1, 1, 1], desk_reachable, desk_free, h.1, h.2.1, h.2.2, ?_⟩
  generalize hs : (Crowd.start desk (pair (both (lx false) (ly false)) (both (ly false) (lx false)))).run [0, 0, 0, 1, 1, 1, 0, 0, 0, 1, 1, 1] = s at h
  have wants : ∀ t : Nat, ∀ l, (match (s.th t).here with | .waiting _ _ l' _ _ => some l' | _ => none) = some l → (∀ t, s.step t = none) → ¬ (s.th t).Over → (s.th t).Wants l := by
    intro t l hl h1 h2
    obtain ⟨l', a, -⟩ := ((C119_step s t).1 (h1 t)).resolve_left h2
    obtain ⟨x, y, z, k, e, f⟩ := a
    rw [e] at hl
    cases hl
    exact ⟨x, y, z, k, e, f⟩
  have has : ∀ t : Nat, ∀ l, (s.th t).stack.map (·.lock) = [l] → (s.th t).Has l := by
    intro t l hl
    have : l ∈ (s.th t).stack.map (·.lock) := by rw [hl]; simp
    obtain ⟨f, f1, f2⟩ := List.mem_map.1 this
    exact ⟨f, f1, f2⟩
  exact ⟨⟨(2, cl!"y"), wants 0 _ (by rw [← hs]; decide +kernel) h.1 h.2.1, has 1 _ (by rw [← hs]; decide +kernel)⟩,
    ⟨(2, cl!"x"), wants 1 _ (by rw [← hs]; decide +kernel) h.1 h.2.2, has 0 _ (by rw [← hs]; decide +kernel)⟩⟩

/-- The locks are not reentrant: a thread that takes, inside, the lock it has waits for itself, for ever. -/
theorem C119_again_refuted : ∃ w p0 sched, Mem.Reachable w ∧ (∀ l, w.held l = false) ∧
    let s := (Crowd.start w (pair p0 .done)).run sched
    (∀ t, s.step t = none) ∧ ¬ (s.th 0).Over :=
  ⟨desk, both (lx false) (lx false), [0, 0, 0, 0, 0, 0], desk_reachable, desk_free, stuck_of (by decide +kernel) (by decide +kernel), busy_of (by decide +kernel)⟩

/-- /x in the second file system -/
def lx2 : Args := ⟨{ mu cl!"/x" with extras := [(cl!"n", cl!"2")] }, false, false⟩

/-- Files with the same path in two memory file systems have one lock (memory.py:28, the table belongs to the class): a thread that has
    locked the one and then locks the other waits for itself, for ever. -/
theorem C119_twin_refuted : ∃ w a a' sched, Mem.Reachable w ∧ (∀ l, w.held l = false) ∧ (w.connOf (connKey a.path)).isSome = true ∧
    (w.connOf (connKey a'.path)).isSome = true ∧ w.connOf (connKey a.path) ≠ w.connOf (connKey a'.path) ∧
    let s := (Crowd.start w (pair (both a a') .done)).run sched
    (∀ t, s.step t = none) ∧ ¬ (s.th 0).Over :=
  ⟨desk, lx false, lx2, [0, 0, 0, 0, 0, 0], desk_reachable, desk_free, by decide +kernel, by decide +kernel, by decide +kernel,
    stuck_of (by decide +kernel) (by decide +kernel), busy_of (by decide +kernel)⟩

/-- how a thread has ended -/
def ending (x : Thread) : Option (Option PyErr) :=
  match x.here, x.stack with
  | .runs .done, [] => some none
  | .runs (.raise e), [] => some (some e)
  | _, _ => none

/-- with `fail_on_lock` the inner statement raises instead, and the outer one is left by that exception and gives its lock back -/
example : let s := (Crowd.start desk (pair (both (lx false) (lx true)) .done)).run [0, 0, 0, 0, 0, 0, 0, 0]
    ending (s.th 0) = some (some .lockObtain) ∧ s.w.held (2, cl!"x") = false := by decide +kernel

/-- opposite orders, but one thread comes first -/
example : let s := (Crowd.start desk (pair (both (lx false) (ly false)) (both (ly false) (lx false)))).run [0, 0, 0, 1, 1, 0, 0, 0, 0, 1, 0, 0, 0, 1, 1, 1, 1, 1, 1, 1, 1, 1]
    ending (s.th 0) = some none ∧ ending (s.th 1) = some none := by decide +kernel

/-- two threads inside, each with its lock (`C119_locks`); both can go on (`C119_order`) -/
example : let s := (Crowd.start desk (pair (both (lx false) (ly false)) (both (ly false) (lx false)))).run [0, 0, 0, 1, 1, 1]
    (s.th 0).stack.map (·.lock) = [(2, cl!"x")] ∧ (s.th 1).stack.map (·.lock) = [(2, cl!"y")] ∧ s.w.held (2, cl!"x") = true ∧
    s.w.held (2, cl!"y") = true ∧ (s.step 0).isSome = true ∧ (s.step 1).isSome = true := by decide +kernel

/-- the hypotheses of `C119_circle` can be met: the state of `C119_crossed_refuted`, two threads in a circle -/
example : ∃ s : Crowd, (∀ t, s.step t = none) ∧ ∃ t, Relation.TransGen (Blocks s) t t := by
  obtain ⟨w, p0, p1, sched, -, -, h1, -, -, h2, h3⟩ := C119_crossed_refuted
  exact ⟨_, h1, 0, .tail (.single h2) h3⟩

end Verif.Props
