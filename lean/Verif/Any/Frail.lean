import Verif.Any.Sys
/-!
# Backends whose calls fail

Every call of a backend may raise, at any moment and any number of times: the disk is full, a permission is missing, the
user interrupts the program, the process is killed.  The algorithms of fs.py:198-214, 519-801 and 896-1026 have no `try`
statement, so what they leave behind when a call raises is also what a crash during that call leaves behind.
-/
namespace Verif.Any
open Mem (Meth)

/-- a failing call of a backend: the exception, whether what was called for has been done all the same, and for `write`
    how many of the bytes have been written -/
structure Fault where
  exc : PyErr
  done : Bool
  part : Nat

/-- a state, which of the calls of backends fail (by their number), and the number of calls made so far -/
structure Frail (σ : Type) where
  st : σ
  plan : Nat → Option Fault
  now : Nat

variable {σ : Type}

/-- a call of a backend (the calls in fs.py:198-214, 519-801, 896-1026): as the plan says -/
def fr {α : Type} (m : OM σ α) : OM (Frail σ) α := fun f =>
  match f.plan f.now with
  | none => ((m f.st).1, ⟨(m f.st).2, f.plan, f.now + 1⟩)
  | some x => (.error x.exc, ⟨if x.done then (m f.st).2 else f.st, f.plan, f.now + 1⟩)

/-- something that cannot fail by itself -/
def still {α : Type} (m : OM σ α) : OM (Frail σ) α := fun f => ((m f.st).1, { f with st := (m f.st).2 })

/-- the backends `O` with failing calls; `pumpF` is `shutil.copyfileobj(infs, outfs, 8192)` (fs.py:927, 969) with failing
    calls of `read` and `write` -/
@[reducible] def frailOps (O : Ops σ) (pumpF : O.Hd → O.Hd → OM (Frail σ) Unit) : Ops (Frail σ) where
  Conn := O.Conn
  Hd := O.Hd
  conn u := fr (O.conn u)
  hook c u m := fr (O.hook c u m)
  exists_ c u := fr (O.exists_ c u)
  isfile c u := fr (O.isfile c u)
  isdir c u := fr (O.isdir c u)
  islink c u := fr (O.islink c u)
  readlink c u := fr (O.readlink c u)
  symlink c t u := fr (O.symlink c t u)
  listdir c u := fr (O.listdir c u)
  mkdir c u := fr (O.mkdir c u)
  removefile c u := fr (O.removefile c u)
  removedir c u := fr (O.removedir c u)
  copystat c u v := fr (O.copystat c u v)
  openR c u := fr (O.openR c u)
  openW c u := fr (O.openW c u)
  pump := pumpF
  blocks h := fr (O.blocks h)
  moveSelf c u v := (O.moveSelf c u v).map fr

/-- `write` (fs.py:927, 969 through `shutil.copyfileobj`): if it fails, only some of the bytes are written -/
def frWrite (outf : Hd) (b : Mem.PyData) : OM (Frail Sys) Unit := fun f =>
  match f.plan f.now with
  | none => ((hWrite outf b f.st).1, ⟨(hWrite outf b f.st).2, f.plan, f.now + 1⟩)
  | some x =>
    match b with
    | .bytes l => (.error x.exc, ⟨(hWrite outf (.bytes (l.take x.part)) f.st).2, f.plan, f.now + 1⟩)
    | .str _ => (.error x.exc, ⟨f.st, f.plan, f.now + 1⟩)

/-- `shutil.copyfileobj(infs, outfs, 8192)` (fs.py:927, 969), at most `n` rounds.  Leaving the `with` statements closes
    both files; what a failing `close` would lose of a local file is covered by failing writes. -/
def frPumpLoop (inf outf : Hd) : Nat → OM (Frail Sys) Unit
  | 0 => OM.raise .hang
  | n + 1 => do
    let b ← fr (hRead 8192 inf)
    if Gen.isEmptyData b then pure ()
    else
      frWrite outf b
      frPumpLoop inf outf n

/-- `shutil.copyfileobj(infs, outfs, 8192)` (fs.py:927, 969) -/
def frPump (inf outf : Hd) : OM (Frail Sys) Unit := do
  let n ← still (hSize inf)
  frPumpLoop inf outf (n + 1)

/-- memory and local files with failing calls: memory.py and localfs.py:78-185 -/
@[reducible] def frailSys : Ops (Frail Sys) := frailOps sysOps frPump

/-! ## What is known of a computation with failing calls -/

/-- If `m` returns, then no call failed, and `m'`, where no call can fail, returns the same.  If `m` raises, then what the
    last call made raised, the first one that failed, unless `m'` raises it too. -/
def Sim {α : Type} (m : OM (Frail σ) α) (m' : OM σ α) : Prop := ∀ f : Frail σ,
  ((m f).2.plan = f.plan ∧ f.now ≤ (m f).2.now) ∧
  (∀ a, (m f).1 = .ok a → m' f.st = (.ok a, (m f).2.st) ∧ ∀ i, f.now ≤ i → i < (m f).2.now → f.plan i = none) ∧
  (∀ e, (m f).1 = .error e →
    (∃ i x, (m f).2.now = i + 1 ∧ f.now ≤ i ∧ f.plan i = some x ∧ x.exc = e ∧ ∀ j, f.now ≤ j → j < i → f.plan j = none) ∨
    m' f.st = (.error e, (m f).2.st))

section
variable {α β : Type}

theorem sim_fr (m : OM σ α) : Sim (fr m) m := by
  intro f
  unfold fr
  cases h : f.plan f.now with
  | none =>
    refine ⟨⟨rfl, Nat.le_succ _⟩, fun a ha => ⟨Prod.ext ha rfl, fun i h1 h2 => ?_⟩, fun e he => .inr (Prod.ext he rfl)⟩
    have : i = f.now := by dsimp only at h2; omega
    rw [this, h]
  | some x =>
    refine ⟨⟨rfl, Nat.le_succ _⟩, fun a ha => by simp at ha, fun e he => .inl ⟨_, x, rfl, Nat.le_refl _, h, by simpa using he, fun j h1 h2 => by omega⟩⟩

theorem sim_still (m : OM σ α) : Sim (still m) m := fun f =>
  ⟨⟨rfl, Nat.le_refl _⟩, fun _ ha => ⟨Prod.ext ha rfl, fun i h1 h2 => by have : i < f.now := h2; omega⟩, fun _ he => .inr (Prod.ext he rfl)⟩

theorem sim_lift (x : Except PyErr α) : Sim (σ := σ) (OM.lift x) (OM.lift x) := sim_still (OM.lift x)
theorem sim_pure (a : α) : Sim (σ := σ) (pure a) (pure a) := sim_still (pure a)
theorem sim_raise (e : PyErr) : Sim (σ := σ) (α := α) (OM.raise e) (OM.raise e) := sim_still (OM.raise e)

theorem sim_bind {m : OM (Frail σ) α} {m' : OM σ α} {g : α → OM (Frail σ) β} {g' : α → OM σ β} (h : Sim m m')
    (hg : ∀ a, Sim (g a) (g' a)) : Sim (m >>= g) (m' >>= g') := by
  intro f
  obtain ⟨⟨h1, h1'⟩, h2, h3⟩ := h f
  have key : (m >>= g) f = OM.bnd m g f := rfl
  have key' : (m' >>= g') f.st = OM.bnd m' g' f.st := rfl
  rw [key, key']
  unfold OM.bnd
  cases hm : m f with
  | mk x f1 =>
    rw [hm] at h1 h1' h2 h3
    cases x with
    | error e =>
      refine ⟨⟨h1, h1'⟩, fun a ha => (by cases ha), fun e' he => ?_⟩
      cases he
      rcases h3 e rfl with h4 | h4
      · exact .inl h4
      · rw [h4]; exact .inr rfl
    | ok a =>
      obtain ⟨h4, h5⟩ := h2 a rfl
      rw [h4]
      obtain ⟨⟨k1, k1'⟩, k2, k3⟩ := hg a f1
      dsimp only at h1 h1' h5 ⊢
      rw [h1] at k1 k2 k3
      refine ⟨⟨k1, h1'.trans k1'⟩, fun b hb => ⟨(k2 b hb).1, fun i h6 h7 => ?_⟩, fun e he => ?_⟩
      · by_cases hi : i < f1.now
        · exact h5 i h6 hi
        · exact (k2 b hb).2 i (Nat.le_of_not_lt hi) h7
      · rcases k3 e he with ⟨i, x, a1, a2, a3, a4, a5⟩ | h6
        · refine .inl ⟨i, x, a1, h1'.trans a2, a3, a4, fun j b1 b2 => ?_⟩
          by_cases hj : j < f1.now
          · exact h5 j b1 hj
          · exact a5 j (Nat.le_of_not_lt hj) b2
        · exact .inr h6

theorem sim_ite {c : Prop} [Decidable c] {m n : OM (Frail σ) α} {m' n' : OM σ α} (h : Sim m m') (h' : Sim n n') :
    Sim (if c then m else n) (if c then m' else n') := by
  split
  · exact h
  · exact h'
end

section
variable {O : Ops σ} {pumpF : O.Hd → O.Hd → OM (Frail σ) Unit} {α τ : Type}
local notation "F" => frailOps O pumpF

theorem sim_withConn (u : Uri) (m : Meth) {f : O.Conn → OM (Frail σ) α} {g : O.Conn → OM σ α}
    (h : ∀ c, Sim (f c) (g c)) : Sim (withConn (F) u m f) (withConn O u m g) :=
  sim_bind (sim_fr _) fun _ => sim_bind (sim_fr _) fun _ => h _

theorem sim_exists (u : Uri) : Sim (uExists (F) u) (uExists O u) := sim_withConn u _ fun _ => sim_fr _
theorem sim_isfile (u : Uri) : Sim (uIsfile (F) u) (uIsfile O u) := sim_withConn u _ fun _ => sim_fr _
theorem sim_isdir (u : Uri) : Sim (uIsdir (F) u) (uIsdir O u) := sim_withConn u _ fun _ => sim_fr _
theorem sim_islink (u : Uri) : Sim (uIslink (F) u) (uIslink O u) := sim_withConn u _ fun _ => sim_fr _
theorem sim_listdir (u : Uri) : Sim (uListdir (F) u) (uListdir O u) := sim_withConn u _ fun _ => sim_fr _
theorem sim_mkdir (u : Uri) : Sim (uMkdir (F) u) (uMkdir O u) := sim_withConn u _ fun _ => sim_fr _
theorem sim_openR (u : Uri) : Sim (uOpenR (F) u) (uOpenR O u) := sim_withConn u _ fun _ => sim_fr _
theorem sim_openW (u : Uri) : Sim (uOpenW (F) u) (uOpenW O u) := sim_withConn u _ fun _ => sim_fr _

theorem sim_makedirs (depth : Nat) : ∀ u, Sim (makedirs (F) depth u) (makedirs O depth u) := by
  induction depth with
  | zero => intro u; exact sim_raise _
  | succ n ih =>
    intro u
    unfold makedirs
    refine sim_bind (sim_isdir _) fun b => sim_ite (sim_pure _) (sim_bind (sim_lift _) ?_)
    rintro ⟨pth, tail⟩
    refine sim_bind (sim_isdir _) fun d => ?_
    have : Sim (if tail ≠ [] then uMkdir (F) u else pure ()) (if tail ≠ [] then uMkdir O u else pure ()) :=
      sim_ite (sim_mkdir _) (sim_pure _)
    cases d
    · exact sim_bind (ih pth) fun _ => this
    · exact this

theorem sim_uMakedirs (depth : Nat) (u : Uri) : Sim (uMakedirs (F) depth u) (uMakedirs O depth u) :=
  sim_withConn _ _ fun _ => sim_makedirs depth u

theorem sim_classify (c : O.Conn) (top : Uri) (l : List Str) : Sim (classify (F) c top l) (classify O c top l) := by
  induction l with
  | nil => exact sim_pure _
  | cons n l ih =>
    simp only [classify]
    refine sim_bind (sim_lift _) fun p => sim_bind (sim_fr _) fun d => sim_bind ih ?_
    rintro ⟨a, b⟩
    exact sim_pure _

theorem sim_walkDirs (fl : Bool) {visit : Uri → τ → OM (Frail σ) τ} {visit' : Uri → τ → OM σ τ}
    (hv : ∀ u t, Sim (visit u t) (visit' u t)) (top : Uri) (l : List Str) :
    ∀ t, Sim (walkDirs (F) fl visit top l t) (walkDirs O fl visit' top l t) := by
  induction l with
  | nil => intro t; exact sim_pure _
  | cons n l ih =>
    intro t
    simp only [walkDirs]
    refine sim_bind (sim_lift _) fun p => sim_bind (sim_islink _) fun b => sim_ite ?_ ?_
    · exact sim_bind (hv _ _) fun t => ih t
    · exact sim_bind (sim_pure _) fun t => ih t

theorem sim_walk (c : O.Conn) (td fl : Bool) {body : τ → Uri → List Str → List Str → OM (Frail σ) (τ × List Str)}
    {body' : τ → Uri → List Str → List Str → OM σ (τ × List Str)} (hb : ∀ t u d f, Sim (body t u d f) (body' t u d f))
    (depth : Nat) : ∀ u t, Sim (walk (F) c td fl body depth u t) (walk O c td fl body' depth u t) := by
  induction depth with
  | zero => intro u t; exact sim_raise _
  | succ n ih =>
    intro u t
    simp only [walk]
    refine sim_bind (sim_fr _) fun names => sim_bind (sim_classify _ _ _) ?_
    rintro ⟨dirs, files⟩
    refine sim_ite ?_ ?_
    · refine sim_bind (hb _ _ _ _) ?_
      rintro ⟨t, dirs⟩
      exact sim_walkDirs _ ih _ _ _
    · refine sim_bind (sim_walkDirs _ ih _ _ _) fun t => sim_bind (hb _ _ _ _) ?_
      rintro ⟨t, _⟩
      exact sim_pure _

theorem sim_forM {f : Str → OM (Frail σ) Unit} {g : Str → OM σ Unit} (h : ∀ x, Sim (f x) (g x)) :
    ∀ l : List Str, Sim (l.forM f) (l.forM g)
  | [] => sim_pure _
  | x :: l => by
    rw [List.forM_eq_forM, List.forM_cons, List.forM_eq_forM, List.forM_cons]
    exact sim_bind (h x) fun _ => sim_forM h l

theorem sim_removeBody (c : O.Conn) (top : Uri) (ds fs : List Str) : Sim (removeBody (F) c top ds fs) (removeBody O c top ds fs) :=
  sim_bind (sim_forM (fun _ => sim_bind (sim_lift _) fun _ => sim_fr _) _) fun _ =>
    sim_forM (fun _ => sim_bind (sim_lift _) fun _ => sim_bind (sim_fr _) fun _ => sim_ite (sim_fr _) (sim_fr _)) _

theorem sim_removeDirRec (depth : Nat) (c : O.Conn) (u : Uri) : Sim (removeDirRec (F) depth c u) (removeDirRec O depth c u) :=
  sim_bind (sim_walk _ _ _ (fun _ _ _ _ => sim_bind (sim_removeBody _ _ _ _) fun _ => sim_pure _) _ _ _) fun _ =>
    sim_bind (sim_fr _) fun _ => sim_ite (sim_fr _) (sim_fr _)

theorem sim_uRemove (depth : Nat) (u : Uri) (rec : Bool) : Sim (uRemove (F) depth u rec) (uRemove O depth u rec) := by
  refine sim_withConn _ _ fun c => sim_bind (sim_fr _) fun b => sim_ite (sim_fr _) ?_
  refine sim_bind (sim_fr _) fun b => sim_ite (sim_raise _) ?_
  refine sim_bind (sim_fr _) fun b => sim_ite (sim_ite (sim_removeDirRec _ _ _) (sim_fr _)) ?_
  exact sim_bind (sim_fr _) fun b => sim_ite (sim_fr _) (sim_pure _)

variable (hp : ∀ a b, Sim (pumpF a b) (O.pump a b))
include hp

theorem sim_copyContent (u v : Uri) : Sim (copyContent (F) u v) (copyContent O u v) :=
  sim_bind (sim_openR _) fun _ => sim_bind (sim_openW _) fun _ => hp _ _

omit hp in
theorem sim_copyLink (c : O.Conn) (u v : Uri) : Sim (copyLink (F) c u v) (copyLink O c u v) := by
  unfold copyLink
  have h1 : Sim (fr (O.readlink c u) >>= fun t => fr (O.symlink c t v)) (O.readlink c u >>= fun t => O.symlink c t v) :=
    sim_bind (sim_fr _) fun _ => sim_fr _
  have h2 : Sim (uIsfile (F) v >>= fun b => if b = true then fr (O.removefile c v) >>= fun _ => fr (O.readlink c u) >>= fun t => fr (O.symlink c t v)
      else fr (O.readlink c u) >>= fun t => fr (O.symlink c t v))
      (uIsfile O v >>= fun b => if b = true then O.removefile c v >>= fun _ => O.readlink c u >>= fun t => O.symlink c t v
      else O.readlink c u >>= fun t => O.symlink c t v) :=
    sim_bind (sim_isfile _) fun _ => sim_ite (sim_bind (sim_fr _) fun _ => h1) h1
  exact sim_bind (sim_fr _) fun b => sim_ite (sim_bind (sim_raise _) fun _ => h2) h2

theorem sim_copyOne (c : O.Conn) (u v : Uri) (fl : Bool) : Sim (copyOne (F) c u v fl) (copyOne O c u v fl) :=
  sim_bind (sim_islink _) fun _ => sim_ite (sim_copyLink _ _ _) <|
    sim_bind (sim_copyContent hp _ _) fun _ => sim_ite (sim_fr _) (sim_pure _)

omit hp in
theorem sim_copyDirs (depth : Nat) (c : O.Conn) (ig : List Str) (fl : Bool) (top base : Uri) (l : List Str) :
    ∀ ds, Sim (copyDirs (F) depth c ig fl top base l ds) (copyDirs O depth c ig fl top base l ds) := by
  induction l with
  | nil => intro ds; exact sim_pure _
  | cons n l ih =>
    intro ds
    simp only [copyDirs]
    refine sim_ite (ih _) (sim_bind (sim_lift _) fun _ => sim_bind (sim_lift _) fun _ => sim_bind (sim_islink _) fun _ => ?_)
    refine sim_ite ?_ ?_
    · exact sim_bind (sim_copyLink _ _ _) fun _ => ih _
    · exact sim_bind (sim_uMakedirs _ _) fun _ => ih _

theorem sim_copyFiles (c : O.Conn) (fl : Bool) (top base : Uri) (l : List Str) :
    Sim (copyFiles (F) c fl top base l) (copyFiles O c fl top base l) := by
  induction l with
  | nil => exact sim_pure _
  | cons n l ih =>
    exact sim_bind (sim_lift _) fun _ => sim_bind (sim_lift _) fun _ => sim_bind (sim_copyOne hp _ _ _ _) fun _ => ih

theorem sim_copyBody (depth : Nat) (c : O.Conn) (ig : List Str) (fl : Bool) (len : Nat) (droot top : Uri) (ds fs : List Str) :
    Sim (copyBody (F) depth c ig fl len droot top ds fs) (copyBody O depth c ig fl len droot top ds fs) := by
  have key : ∀ dbase, Sim (copyDirs (F) depth c ig fl top dbase ds ds >>= fun ds' => copyFiles (F) c fl top dbase fs >>= fun _ => pure ds')
      (copyDirs O depth c ig fl top dbase ds ds >>= fun ds' => copyFiles O c fl top dbase fs >>= fun _ => pure ds') := fun dbase =>
    sim_bind (sim_copyDirs _ _ _ _ _ _ _ _) fun _ => sim_bind (sim_copyFiles hp _ _ _ _ _) fun _ => sim_pure _
  unfold copyBody
  dsimp only
  refine sim_ite ?_ ?_
  · exact sim_bind (sim_lift _) fun x => key x
  · exact sim_bind (sim_pure _) fun x => key x

theorem sim_copyWalk (depth : Nat) (c : O.Conn) (ig : List Str) (fl : Bool) (u v : Uri) :
    Sim (copyWalk (F) depth c ig fl u v) (copyWalk O depth c ig fl u v) :=
  sim_withConn _ _ fun _ => sim_walk _ _ _ (fun _ _ _ _ =>
    sim_bind (sim_copyBody hp _ _ _ _ _ _ _ _ _) fun _ => sim_pure _) _ _ _

theorem sim_uCopy (depth : Nat) (u v : Uri) (rec : Bool) (ig : List Str) (fl : Bool) :
    Sim (uCopy (F) depth u v rec ig fl) (uCopy O depth u v rec ig fl) := by
  refine sim_withConn _ _ fun c => ?_
  unfold copy
  refine sim_bind (sim_exists _) fun b => ?_
  have h1 : ∀ dest, Sim (copyOne (F) c u dest fl) (copyOne O c u dest fl) := fun _ => sim_copyOne hp _ _ _ _
  have h2 : ∀ dest, Sim (copyLink (F) c u dest) (copyLink O c u dest) := fun _ => sim_copyLink _ _ _
  have h3 : ∀ dest, Sim (copyWalk (F) depth c ig fl u dest) (copyWalk O depth c ig fl u dest) :=
    fun _ => sim_copyWalk hp _ _ _ _ _ _
  have h4 : ∀ dest, Sim (uMakedirs (F) depth dest) (uMakedirs O depth dest) := fun _ => sim_uMakedirs _ _
  have h5 : ∀ droot, Sim (uIslink (F) u >>= fun l => if (l && !fl) = true then copyLink (F) c u droot else
      uMakedirs (F) depth droot >>= fun _ => copyWalk (F) depth c ig fl u droot)
      (uIslink O u >>= fun l => if (l && !fl) = true then copyLink O c u droot else
      uMakedirs O depth droot >>= fun _ => copyWalk O depth c ig fl u droot) := fun droot =>
    sim_bind (sim_islink _) fun _ => sim_ite (h2 _) (sim_bind (h4 _) fun _ => h3 _)
  have h6 : Sim (uIsdir (F) v >>= fun d => if d = true then OM.lift (v.div u.last) >>= fun x => copyOne (F) c u x fl
      else pure v >>= fun x => copyOne (F) c u x fl) (uIsdir O v >>= fun d => if d = true then
      OM.lift (v.div u.last) >>= fun x => copyOne O c u x fl else pure v >>= fun x => copyOne O c u x fl) :=
    sim_bind (sim_isdir _) fun _ => sim_ite (sim_bind (sim_lift _) fun _ => h1 _) (sim_bind (sim_pure _) fun _ => h1 _)
  refine sim_ite (sim_bind (sim_raise _) fun _ => ?_) ?_ <;> refine sim_ite ?_ ?_
  all_goals first
    | refine sim_bind (sim_isfile _) fun b => sim_ite (sim_bind (sim_raise _) fun _ => h6) h6
    | refine sim_bind (sim_isdir _) fun b => sim_ite (sim_bind (sim_raise _) fun _ => ?_) ?_
  all_goals
    refine sim_bind (sim_isdir _) fun _ => ?_
    refine sim_ite ?_ ?_
    · exact sim_bind (sim_lift _) fun x => h5 x
    · exact sim_bind (sim_pure _) fun x => h5 x

theorem sim_uMove (depth : Nat) (u v : Uri) : Sim (uMove (F) depth u v) (uMove O depth u v) := by
  refine sim_withConn _ _ fun c => ?_
  have e : (F).moveSelf c u v = (O.moveSelf c u v).map fr := rfl
  rw [e]
  cases O.moveSelf c u v with
  | some m => exact sim_fr m
  | none =>
    refine sim_bind (sim_isfile _) fun b => sim_ite ?_ ?_ <;>
      exact sim_bind (sim_uCopy hp _ _ _ _ _ _) fun _ => sim_uRemove _ _ _

end

theorem sim_frWrite (outf : Hd) (b : Mem.PyData) : Sim (frWrite outf b) (hWrite outf b) := by
  intro f
  unfold frWrite
  cases h : f.plan f.now with
  | none =>
    refine ⟨⟨rfl, Nat.le_succ _⟩, fun a ha => ⟨Prod.ext ha rfl, fun i h1 h2 => ?_⟩, fun e he => .inr (Prod.ext he rfl)⟩
    have : i = f.now := by dsimp only at h2; omega
    rw [this, h]
  | some x =>
    cases b <;>
      exact ⟨⟨rfl, Nat.le_succ _⟩, fun a ha => by simp at ha, fun e he => .inl ⟨_, x, rfl, Nat.le_refl _, h, by simpa using he, fun j h1 h2 => by omega⟩⟩

theorem sim_frPumpLoop (inf outf : Hd) : ∀ n, Sim (frPumpLoop inf outf n) (pumpLoop inf outf n)
  | 0 => sim_raise _
  | n + 1 => sim_bind (sim_fr _) fun _ => sim_ite (sim_pure _) (sim_bind (sim_frWrite _ _) fun _ => sim_frPumpLoop inf outf n)

theorem sim_frPump (inf outf : Hd) : Sim (frPump inf outf) (sysOps.pump inf outf) :=
  sim_bind (sim_still _) fun _ => sim_frPumpLoop _ _ _

end Verif.Any
