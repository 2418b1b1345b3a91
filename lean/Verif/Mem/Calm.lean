import Verif.Mem.Reach
/-!
# Which operations touch the locks

Every operation but entering and leaving a lock, and `_manipulate(lock=…, unlock=…)`, leaves every
`threading.Lock` as it is.
-/
namespace Verif.Mem
open M

/-- `m` neither takes nor releases a lock; file systems are only added -/
def Calm {α : Type} (m : M α) : Prop := ∀ w, (m w).2.held = w.held ∧ w.gen ≤ (m w).2.gen

theorem Calm.ret {α : Type} (a : α) : Calm (pure a : M α) := fun _ => ⟨rfl, Nat.le_refl _⟩
theorem Calm.raise {α : Type} (e : PyErr) : Calm (raise e : M α) := fun _ => ⟨rfl, Nat.le_refl _⟩
theorem Calm.query {α : Type} (f : World → Except PyErr α) : Calm (query f) := fun _ => ⟨rfl, Nat.le_refl _⟩
theorem Calm.lift {α : Type} (x : Except PyErr α) : Calm (lift x) := fun _ => ⟨rfl, Nat.le_refl _⟩

theorem Calm.bind {α β : Type} {m : M α} {f : α → M β} (h : Calm m) (h' : ∀ a, Calm (f a)) : Calm (m >>= f) := by
  intro w
  rw [bind_apply]
  have h1 := h w
  cases hm : m w with
  | mk x w1 =>
    rw [hm] at h1
    cases x with
    | error e => exact h1
    | ok a => have := h' a w1; exact ⟨this.1.trans h1.1, Nat.le_trans h1.2 this.2⟩

theorem Calm.ite {α : Type} {c : Prop} [Decidable c] {m m' : M α} (h : Calm m) (h' : Calm m') :
    Calm (if c then m else m') := by split <;> assumption

theorem Calm.forM {α : Type} {f : α → M PUnit} (l : List α) (h : ∀ a, Calm (f a)) : Calm (l.forM f) := by
  induction l with
  | nil => exact .ret _
  | cons a l ih => exact (h a).bind fun _ => ih

theorem Calm.mapM {α β : Type} {f : α → M β} (l : List α) (h : ∀ a, Calm (f a)) : Calm (l.mapM f) := by
  induction l with
  | nil => rw [List.mapM_nil]; exact .ret _
  | cons a l ih => rw [List.mapM_cons]; exact (h a).bind fun _ => ih.bind fun _ => .ret _

/-- a computation chosen by looking at the state -/
theorem Calm.look {α : Type} {f : World → M α} (h : ∀ v, Calm (f v)) : Calm (fun w => f w w) := fun w => h w w

theorem calm_now : Calm now := fun _ => ⟨rfl, Nat.le_refl _⟩
theorem calm_setNode (i : Nat) (n : Node) : Calm (setNode i n) := fun _ => ⟨rfl, Nat.le_refl _⟩
theorem calm_newNode (n : Node) : Calm (newNode n) := fun _ => ⟨rfl, Nat.le_refl _⟩
theorem calm_newDir : Calm newDir := calm_now.bind fun _ => calm_newNode _
theorem calm_newLink (t : Uri) : Calm (newLink t) := calm_now.bind fun _ => calm_newNode _
theorem calm_newFile (p : Str) : Calm (newFile p) := calm_now.bind fun _ w => calm_newNode _ w

theorem calm_createChild (i : Nat) (n : Str) (c : Nat) : Calm (createChild i n c) := by
  intro w; unfold createChild; split <;> exact ⟨rfl, Nat.le_refl _⟩

theorem calm_delChild (i : Nat) (n : Str) : Calm (delChild i n) := by
  intro w; unfold delChild; split
  · split <;> exact ⟨rfl, Nat.le_refl _⟩
  · exact ⟨rfl, Nat.le_refl _⟩

theorem calm_getConnection (u : Uri) : Calm (getConnection u) := by
  intro w
  unfold getConnection
  split
  · exact ⟨rfl, Nat.le_refl _⟩
  split
  · split
    · exact ⟨rfl, Nat.le_refl _⟩
    · by_cases ht : truthy (connKey u).key.hostname = true
      · rw [createConn_host ht]; exact ⟨rfl, Nat.le_refl _⟩
      · rw [createConn_eq ht]; exact ⟨rfl, Nat.le_succ _⟩
  split <;> exact ⟨rfl, Nat.le_refl _⟩

theorem Calm.withConn {α : Type} {u : Uri} {m : Meth} {body : Nat → M α} (h : ∀ r, Calm (body r)) :
    Calm (withConn u m body) :=
  (calm_getConnection u).bind fun r => ((Calm.lift _).bind fun _ => .query _).bind fun _ => h r

theorem calm_query_conn {α : Type} (u : Uri) (m : Meth) (f : Nat → World → Except PyErr α) :
    Calm (Mem.withConn u m fun r => query (f r)) := .withConn fun _ => .query _

theorem calm_mkdir (r : Nat) (u : Uri) : Calm (mkdir r u) :=
  (Calm.lift _).bind fun _ => .ite ((Calm.query _).bind fun _ => .ite (.raise _)
    (calm_newDir.bind fun _ => calm_createChild _ _ _)) (.ret _)

theorem calm_symlink (r : Nat) (t u : Uri) : Calm (symlink r t u) :=
  (Calm.lift _).bind fun _ => .ite ((Calm.query _).bind fun _ => .ite (.raise _)
    ((calm_newLink t).bind fun _ => calm_createChild _ _ _)) (.ret _)

theorem calm_removefile (r : Nat) (u : Uri) : Calm (removefile r u) := by
  refine (Calm.lift _).bind fun p => (Calm.query _).bind fun x => ?_
  cases x.1 with
  | none => exact .ret _
  | some i => exact calm_delChild _ _

theorem calm_removedir (r : Nat) (u : Uri) : Calm (removedir r u) := by
  refine (Calm.lift _).bind fun p => (Calm.query _).bind fun x => ?_
  cases x.1 with
  | none => exact .ret _
  | some i =>
    refine (Calm.query _).bind fun c => ?_
    cases c with
    | none => exact .raise _
    | some c =>
      intro w
      dsimp only
      split
      · split
        · exact calm_delChild _ _ w
        · exact ⟨rfl, Nat.le_refl _⟩
      · exact ⟨rfl, Nat.le_refl _⟩

theorem calm_setInfo (r : Nat) (u : Uri) (s : SetInfo) (f : Bool) : Calm (setInfo r u s f) := by
  intro w
  rcases setInfo_cases (w := w) (r := r) u s f with ⟨e, h⟩ | ⟨i, a, h⟩ <;> rw [h] <;> exact ⟨rfl, Nat.le_refl _⟩

theorem calm_setExec (r : Nat) (u : Uri) (m : Int) : Calm (setExec r u m) :=
  (Calm.query _).bind fun _ => calm_setInfo r u _ true

theorem calm_copystat (r : Nat) (u v : Uri) : Calm (copystat r u v) := by
  intro w
  rcases copystat_cases (w := w) (r := r) u v with ⟨e, h⟩ | ⟨s, d, -, a, h⟩ <;> rw [h]
  · exact ⟨rfl, Nat.le_refl _⟩
  · rw [statFrom_eq]; exact ⟨rfl, Nat.le_refl _⟩

theorem calm_openWrite (r : Nat) (u : Uri) (b : Bool) : Calm (openWrite r u b) := by
  refine (Calm.lift _).bind fun p => (Calm.query _).bind fun x => .ite ?_ ?_
  · refine (Calm.query _).bind fun c => ?_
    cases c with
    | none => exact .raise _
    | some c =>
      intro w
      dsimp only
      split
      · exact ⟨rfl, Nat.le_refl _⟩
      · exact (Calm.bind (calm_now.bind fun _ w => calm_setNode _ _ w) fun _ => .ret _) w
      · exact ⟨rfl, Nat.le_refl _⟩
  · exact (calm_newFile _).bind fun _ => (calm_createChild _ _ _).bind fun _ => .ret _

theorem calm_openRead (r : Nat) (u : Uri) (b : Bool) : Calm (openRead r u b) := by
  intro w
  rcases openRead_cases (w := w) (r := r) u b with ⟨e, h⟩ | ⟨i, f, a, -, h⟩ <;> rw [h] <;> exact ⟨rfl, Nat.le_refl _⟩

theorem calm_openAppend (r : Nat) (u : Uri) (b : Bool) : Calm (openAppend r u b) := by
  intro w
  rcases openAppend_cases (w := w) (r := r) u b with ⟨e, h⟩ | ⟨i, f, a, -, h⟩ <;> rw [h] <;> exact ⟨rfl, Nat.le_refl _⟩

theorem calm_open (r : Nat) (u : Uri) (o : Option Str) : Calm (open_ r u o) := by
  unfold open_
  split
  · exact calm_openRead r u _
  · exact .ite (calm_openRead r u _) (.ite (calm_openWrite r u _) (.ite (calm_openAppend r u _) (.raise _)))

/-! ## Handles -/

theorem calm_withFile {α : Type} {i : Nat} {g : FileObj → M α} (h : ∀ f, Calm (g f)) : Calm (withFile i g) := by
  intro w
  unfold withFile
  cases hn : w.node i with
  | file f => exact h f w
  | dir f => exact ⟨rfl, Nat.le_refl _⟩
  | link f => exact ⟨rfl, Nat.le_refl _⟩

theorem calm_write (h : Handle) (d : PyData) : Calm (h.write d) :=
  (Calm.lift _).bind fun _ => calm_withFile fun _ => calm_now.bind fun _ => calm_setNode _ _

theorem calm_read (h : Handle) (n : Int) : Calm (h.read n) :=
  .ite ((calm_withFile fun _ => (calm_setNode _ _).bind fun _ => .ret _).bind fun _ => .lift _) (.raise _)

theorem calm_seek (h : Handle) (t wh : Int) : Calm (h.seek t wh) :=
  calm_withFile fun _ => (Calm.lift _).bind fun _ => calm_setNode _ _

theorem calm_tell (h : Handle) : Calm h.tell := calm_withFile fun _ => .ret _
theorem calm_size (h : Handle) : Calm h.size := calm_withFile fun _ => .ret _

theorem calm_truncate (h : Handle) (n : Option Int) : Calm (h.truncate n) :=
  calm_withFile fun _ => (Calm.lift _).bind fun _ => (calm_setNode _ _).bind fun _ => .ret _

theorem calm_close (h : Handle) : Calm h.close := calm_withFile fun _ => calm_setNode _ _

theorem calm_readline (h : Handle) : Calm h.readline :=
  (calm_withFile fun _ => (calm_setNode _ _).bind fun _ => .ret _).bind fun _ => .lift _

theorem calm_next (h : Handle) : Calm h.next :=
  (calm_withFile fun _ => (calm_setNode _ _).bind fun _ => .ret _).bind fun _ =>
    .ite (.ret _) ((Calm.lift _).bind fun _ => .ret _)

/-! ## API -/

theorem calm_uExists (u : Uri) : Calm (uExists u) := calm_query_conn _ _ _
theorem calm_uIsfile (u : Uri) : Calm (uIsfile u) := calm_query_conn _ _ _
theorem calm_uIsdir (u : Uri) : Calm (uIsdir u) := calm_query_conn _ _ _
theorem calm_uIslink (u : Uri) : Calm (uIslink u) := calm_query_conn _ _ _
theorem calm_uListdir (u : Uri) : Calm (uListdir u) := calm_query_conn _ _ _
theorem calm_uOpen (u : Uri) (o : Option Str) : Calm (uOpen u o) := .withConn fun r => calm_open r u o
theorem calm_uMkdir (u : Uri) : Calm (uMkdir u) := .withConn fun r => calm_mkdir r u

/-- `_manipulate` without `lock` and `unlock` -/
theorem calm_manipulate (r : Nat) (u : Uri) {a : Manip} (h1 : a.lock = false) (h2 : a.unlock = false) :
    Calm (manipulate r u a) := by
  unfold manipulate
  have h3 : Calm (match a.mtime with
      | none => pure PUnit.unit
      | some t => setInfo r u { mtime := some t } true) := by
    cases a.mtime with
    | none => exact .ret _
    | some t => exact calm_setInfo r u _ true
  have h4 : Calm (match a.callback with
      | none => pure PUnit.unit
      | some cb => do
        let p ← M.lift (stripPath u)
        (fun w => (.ok (), { w with hooks := fun j => if j = r then setHook (w.hooks r) p cb else w.hooks j }) : M PUnit)) := by
    cases a.callback with
    | none => exact .ret _
    | some cb => exact (Calm.lift _).bind fun p w => ⟨rfl, Nat.le_refl _⟩
  have := h3.bind fun _ => h4
  obtain ⟨l, ul, mt, cb⟩ := a
  dsimp at h1 h2
  subst h1 h2
  cases mt <;> cases cb <;> simpa using this

end Verif.Mem

namespace Verif.Gen
open Mem Mem.M

theorem calm_makedirs (n : Nat) (u : Uri) : Calm (makedirs n u) := by
  induction n generalizing u with
  | zero => exact .raise _
  | succ n ih =>
    rw [makedirs]
    refine (calm_uIsdir u).bind fun b => .ite (.ret _) ((Calm.lift _).bind fun x => ?_)
    obtain ⟨pth, tail⟩ := x
    refine (calm_uIsdir pth).bind fun b' => ?_
    cases b' with
    | true => exact Calm.ite (c := tail ≠ []) (calm_uMkdir u) (.ret _)
    | false => exact (ih pth).bind fun _ => Calm.ite (c := tail ≠ []) (calm_uMkdir u) (.ret _)

theorem calm_uMakedirs (n : Nat) (u : Uri) : Calm (uMakedirs n u) := .withConn fun _ => calm_makedirs n u

theorem calm_classify (r : Nat) (top : Uri) (l : List Str) : Calm (classify r top l) := by
  induction l with
  | nil => exact .ret _
  | cons x l ih =>
    rw [classify]
    exact (Calm.lift _).bind fun _ => (Calm.query _).bind fun _ => ih.bind fun _ => .ret _

theorem calm_walkDirs {σ : Type} {f : Bool} {visit : Uri → σ → M σ} (h : ∀ u s, Calm (visit u s))
    (top : Uri) (l : List Str) (s : σ) : Calm (walkDirs f visit top l s) := by
  induction l generalizing s with
  | nil => exact .ret _
  | cons x l ih =>
    rw [walkDirs]
    exact (Calm.lift _).bind fun p => (calm_uIslink p).bind fun b =>
      .ite ((h p s).bind fun s' => ih s') ((Calm.ret s).bind fun s' => ih s')

theorem calm_walk {q : Nat} {σ : Type} {td f : Bool}
    {body : σ → Uri → List Str → List Str → M (σ × List Str)} (h : ∀ s u d n, Calm (body s u d n))
    (n : Nat) (u : Uri) (s : σ) : Calm (walk q td f body n u s) := by
  induction n generalizing u s with
  | zero => exact .raise _
  | succ n ih =>
    rw [walk]
    refine (Calm.query _).bind fun names => (calm_classify q u _).bind fun x => .ite ?_ ?_
    · exact (h s u _ _).bind fun y => calm_walkDirs ih u _ _
    · exact (calm_walkDirs ih u _ _).bind fun s' => (h s' u _ _).bind fun y => .ret _

theorem calm_uWalk (n : Nat) (u : Uri) (td f : Bool) : Calm (uWalk n u td f) :=
  .withConn fun _ => calm_walk (fun _ _ _ _ => .ret _) n u _

theorem calm_uGlob (u : Uri) (m : Str → Bool) : Calm (uGlob u m) :=
  .withConn fun _ => (calm_uListdir u).bind fun _ => Calm.mapM _ fun _ => .lift _

theorem calm_removeBody (r : Nat) (top : Uri) (dirs files : List Str) : Calm (removeBody r top dirs files) :=
  (Calm.forM files fun _ => (Calm.lift _).bind fun p => calm_removefile r p).bind fun _ =>
    Calm.forM dirs fun _ => (Calm.lift _).bind fun p => (Calm.query _).bind fun _ =>
      .ite (calm_removefile r p) (calm_removedir r p)

theorem calm_removeDirRec (n r : Nat) (u : Uri) : Calm (removeDirRec n r u) :=
  (calm_walk (fun _ u d f => (calm_removeBody r u d f).bind fun _ => .ret _) n u ()).bind fun _ =>
    (Calm.query _).bind fun _ => .ite (calm_removefile r u) (calm_removedir r u)

theorem calm_uRemove (n : Nat) (u : Uri) (rec : Bool) : Calm (uRemove n u rec) :=
  .withConn fun r => (Calm.query _).bind fun _ => .ite (calm_removefile r u)
    ((Calm.query _).bind fun _ => .ite (.raise _)
      ((Calm.query _).bind fun _ => .ite (.ite (calm_removeDirRec n r u) (calm_removedir r u))
        ((Calm.query _).bind fun _ => .ite (calm_removefile r u) (.ret _))))

theorem calm_copyFileObj (a b : Handle) (n : Nat) : Calm (copyFileObj a b n) := by
  induction n with
  | zero => exact .raise _
  | succ n ih =>
    rw [copyFileObj]
    exact (calm_read a _).bind fun d => .ite (.ret _) ((calm_write b d).bind fun _ => ih)

theorem calm_copyContent (u v : Uri) : Calm (copyContent u v) :=
  (calm_uOpen u _).bind fun a => (calm_uOpen v _).bind fun b => (calm_size a).bind fun _ => calm_copyFileObj a b _

theorem calm_copyLink (r : Nat) (u v : Uri) : Calm (copyLink r u v) := by
  unfold copyLink
  refine (Calm.query _).bind fun b => ?_
  have h2 : Calm (do
      if ← uIsfile v then removefile r v
      let t ← M.query fun w => readlink w r u
      symlink r t v) := by
    refine (calm_uIsfile v).bind fun b' => ?_
    have h3 : Calm (do
        let t ← M.query fun w => readlink w r u
        symlink r t v) := (Calm.query _).bind fun t => calm_symlink r t v
    cases b' with
    | false => exact h3
    | true => exact (calm_removefile r v).bind fun _ => h3
  cases b with
  | true => exact h2
  | false => exact (Calm.raise _).bind fun _ => h2

theorem calm_copyOne (r : Nat) (u v : Uri) (f : Bool) : Calm (copyOne r u v f) :=
  (calm_uIslink u).bind fun _ => .ite (calm_copyLink r u v)
    ((calm_copyContent u v).bind fun _ => .ite (calm_copystat r u v) (.ret _))

theorem calm_copyDirs (n r : Nat) (ig : List Str) (f : Bool) (u v : Uri) (l m : List Str) :
    Calm (copyDirs n r ig f u v l m) := by
  induction l generalizing m with
  | nil => exact .ret _
  | cons x l ih =>
    rw [copyDirs]
    refine .ite (ih _) ?_
    exact (Calm.lift _).bind fun dd => (Calm.lift _).bind fun sp => (calm_uIslink sp).bind fun b =>
      .ite ((calm_copyLink r sp dd).bind fun _ => ih _) ((calm_uMakedirs n dd).bind fun _ => ih _)

theorem calm_copyFiles (r : Nat) (f : Bool) (u v : Uri) (l : List Str) : Calm (copyFiles r f u v l) := by
  induction l with
  | nil => exact .ret _
  | cons x l ih =>
    rw [copyFiles]
    exact (Calm.lift _).bind fun a => (Calm.lift _).bind fun b => (calm_copyOne r a b f).bind fun _ => ih

theorem calm_copyBody (n r : Nat) (ig : List Str) (f : Bool) (k : Nat) (d u : Uri) (l m : List Str) :
    Calm (copyBody n r ig f k d u l m) := by
  unfold copyBody
  have h : ∀ b, Calm (do
      let dirs' ← copyDirs n r ig f u b l l
      copyFiles r f u b m
      pure dirs') := fun b =>
    (calm_copyDirs n r ig f u b l l).bind fun _ => (calm_copyFiles r f u b m).bind fun _ => .ret _
  exact .ite ((Calm.lift _).bind h) ((Calm.ret _).bind h)

theorem calm_copyWalk (n r : Nat) (ig : List Str) (f : Bool) (u d : Uri) : Calm (copyWalk n r ig f u d) :=
  .withConn fun _ => calm_walk (fun _ u' l m => (calm_copyBody n r ig f _ d u' l m).bind fun _ => .ret _) n u ()

theorem calm_copy (n r : Nat) (u v : Uri) (rec : Bool) (ig : List Str) (f : Bool) : Calm (copy n r u v rec ig f) := by
  unfold copy
  have key : Calm (
      if !rec then do
        if !(← uIsfile u) then raise .assertionError
        let dest ← if ← uIsdir v then M.lift (v.div u.last) else pure v
        copyOne r u dest f
      else do
        if !(← uIsdir u) then raise .assertionError
        let droot ← if ← uIsdir v then M.lift (v.div u.last) else pure v
        if (← uIslink u) && !f then copyLink r u droot
        else
          uMakedirs n droot
          copyWalk n r ig f u droot : M Unit) := by
    refine .ite ?_ ?_
    · refine (calm_uIsfile u).bind fun b => ?_
      have h1 : Calm (do
          let dest ← if ← uIsdir v then M.lift (v.div u.last) else pure v
          copyOne r u dest f) :=
        (calm_uIsdir v).bind fun b => .ite ((Calm.lift _).bind fun d => calm_copyOne r u d f)
          ((Calm.ret _).bind fun d => calm_copyOne r u d f)
      cases b with
      | true => exact h1
      | false => exact (Calm.raise _).bind fun _ => h1
    · refine (calm_uIsdir u).bind fun b => ?_
      have h2 : ∀ d, Calm (do
          if (← uIslink u) && !f then copyLink r u d
          else
            uMakedirs n d
            copyWalk n r ig f u d) := fun d =>
        (calm_uIslink u).bind fun b => .ite (calm_copyLink r u d)
          ((calm_uMakedirs n d).bind fun _ => calm_copyWalk n r ig f u d)
      have h1 : Calm (do
          let droot ← if ← uIsdir v then M.lift (v.div u.last) else pure v
          if (← uIslink u) && !f then copyLink r u droot
          else
            uMakedirs n droot
            copyWalk n r ig f u droot) :=
        (calm_uIsdir v).bind fun b => .ite ((Calm.lift _).bind h2) ((Calm.ret _).bind h2)
      cases b with
      | true => exact h1
      | false => exact (Calm.raise _).bind fun _ => h1
  refine (calm_uExists u).bind fun b => ?_
  cases b with
  | true => exact key
  | false => exact (Calm.raise _).bind fun _ => key

theorem calm_uCopy (n : Nat) (u v : Uri) (rec : Bool) (ig : List Str) (f : Bool) : Calm (uCopy n u v rec ig f) :=
  .withConn fun r => calm_copy n r u v rec ig f

theorem calm_uMove (n : Nat) (u v : Uri) : Calm (uMove n u v) :=
  .withConn fun _ => (calm_uIsfile u).bind fun _ => .ite
    ((calm_uCopy n u v _ _ _).bind fun _ => calm_uRemove n u _)
    ((calm_uCopy n u v _ _ _).bind fun _ => calm_uRemove n u _)

theorem calm_md5Loop (h : Handle) (n : Nat) : Calm (md5Loop h n) := by
  induction n with
  | zero => exact .raise _
  | succ n ih =>
    rw [md5Loop]
    refine (calm_read h _).bind fun d => ?_
    cases d with
    | bytes b => exact .ite (.ret _) (ih.bind fun _ => .ret _)
    | str s => exact .raise _

theorem calm_uMd5 (u : Uri) : Calm (uMd5 u) :=
  .withConn fun _ => (calm_uOpen u _).bind fun h => (calm_size h).bind fun _ => calm_md5Loop h _

end Verif.Gen

namespace Verif.Mem
open Gen

/-- the operations that take or release locks -/
def Op.locks : Op → Bool
  | .lockEnter .. => true
  | .lockExit .. => true
  | .manipulate _ a => a.lock || a.unlock
  | _ => false

/-- every other operation leaves all locks alone -/
theorem Op.calm (o : Op) (ho : o.locks = false) (w : World) : (o.run w).held = w.held ∧ w.gen ≤ (o.run w).gen := by
  cases o with
  | exists_ u => exact calm_uExists u w
  | isfile u => exact calm_uIsfile u w
  | isdir u => exact calm_uIsdir u w
  | islink u => exact calm_uIslink u w
  | readlink u => exact calm_query_conn u .readlink (fun r w => Mem.readlink w r u) w
  | isexec u k => exact calm_query_conn u .isexec (fun r w => Mem.isexec w r u k) w
  | setExec u m => exact Calm.withConn (fun r => calm_setExec r u m) w
  | symlink t u => exact Calm.withConn (fun r => calm_symlink r t u) w
  | mtime u => exact calm_query_conn u .mtime (fun r w => Mem.mtime w r u) w
  | listdir u => exact calm_uListdir u w
  | info u f => exact calm_query_conn u .info (fun r w => Mem.info w r u f) w
  | setInfo u s f => exact Calm.withConn (fun r => calm_setInfo r u s f) w
  | copystat u v => exact Calm.withConn (fun r => calm_copystat r u v) w
  | open_ u o => exact calm_uOpen u o w
  | mkdir u => exact calm_uMkdir u w
  | manipulate u a =>
    simp only [Op.locks, Bool.or_eq_false_iff] at ho
    exact Calm.withConn (fun r => calm_manipulate r u ho.1 ho.2) w
  | makedirs n u => exact calm_uMakedirs n u w
  | walk n u td f => exact calm_uWalk n u td f w
  | glob u m => exact calm_uGlob u m w
  | remove n u rec => exact calm_uRemove n u rec w
  | copy n u v rec ig f => exact calm_uCopy n u v rec ig f w
  | move n u v => exact calm_uMove n u v w
  | md5 u => exact calm_uMd5 u w
  | lockEnter u a b => simp [Op.locks] at ho
  | lockExit n g => simp [Op.locks] at ho
  | write h d => exact calm_write h d w
  | read h n => exact calm_read h n w
  | seek h t wh => exact calm_seek h t wh w
  | tell h => exact calm_tell h w
  | size h => exact calm_size h w
  | truncate h n => exact calm_truncate h n w
  | close h => exact calm_close h w
  | readline h => exact calm_readline h w
  | next h => exact calm_next h w
  | forget rs => exact ⟨rfl, Nat.le_refl _⟩

end Verif.Mem
