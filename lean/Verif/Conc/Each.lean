import Verif.Conc.Locked
import Verif.Conc.Isolated
/-!
# What every access of a program does
-/
namespace Verif.Conc
open Mem Mem.M Spec Prog

/-- every access of the program changes the state as `R` says -/
def Each (R : World → World → Prop) {α : Type} : Prog α → Prop
  | .ret _ => True
  | .act a k => ∀ w, Mem.Inv w → R w (a w).2 ∧ Each R (k (a w).1)

/-- looking at things, and at the clock, and changing files is allowed -/
class Mild (R : World → World → Prop) : Prop where
  rfl' : ∀ w, R w w
  now : ∀ w, R w (Mem.now w).2
  file : ∀ {α : Type} (i : Nat) (g : FileObj → Except PyErr (α × FileObj)) (w : World), R w (aFile i g w).2

variable {R : World → World → Prop}

theorem Each.after {α β : Type} {p : Prog α} {f : Except PyErr α → Prog β} (h : Each R p) (hf : ∀ r, Each R (f r)) : Each R (p.after f) := by
  induction p with
  | ret r => exact hf r
  | act a k ih => exact fun w hw => ⟨(h w hw).1, ih _ (h w hw).2⟩

theorem Each.bind {α β : Type} {p : Prog α} {f : α → Prog β} (h : Each R p) (hf : ∀ a, Each R (f a)) : Each R (p >>= f) := by
  refine Each.after h fun r => ?_
  cases r with
  | ok a => exact hf a
  | error e => trivial

theorem Each.lift {α β : Type} {x : Except PyErr α} {f : α → Prog β} (hf : ∀ a, x = .ok a → Each R (f a)) : Each R (lift x >>= f) := by
  cases x with
  | ok a => exact hf a rfl
  | error e => trivial

theorem Each.pure {α : Type} (a : α) : Each R (pure a : Prog α) := trivial

theorem Each.raise {α : Type} (e : PyErr) : Each R (raise e : Prog α) := trivial


/-! ## Accesses -/

theorem Each.newFile {d : Nat} {n p : Str} (h : ∀ w, Mem.Inv w → R w (aNewFile d n p w).2) : Each R (call (aNewFile d n p)) := fun w hw => ⟨h w hw, trivial⟩

theorem Each.del {d : Nat} {n : Str} (h : ∀ w, Mem.Inv w → R w (delChild d n w).2) : Each R (call (delChild d n)) := fun w hw => ⟨h w hw, trivial⟩

variable [Mild R]

theorem Each.query {α : Type} (f : World → Except PyErr α) : Each R (call (query f)) := fun w _ => ⟨Mild.rfl' w, trivial⟩

theorem Each.now : Each R (call now) := fun w _ => ⟨Mild.now w, trivial⟩

theorem Each.file {α : Type} (i : Nat) (g : FileObj → Except PyErr (α × FileObj)) : Each R (call (aFile i g)) := fun w _ => ⟨Mild.file i g w, trivial⟩

/-! ## memory.py -/

theorem each_child {res : Uri → Prog (Option Nat)} (hr : ∀ t, Each R (res t)) (i : Nat) (n : Str) (b : Bool) : Each R (cChild res i n b) := by
  unfold cChild
  refine .bind (.query _) fun x => ?_
  split
  · refine .bind (.query _) fun j => .bind (.query _) fun tg => ?_
    split
    · split
      · refine .bind (hr _) fun o => ?_
        split
        · exact .pure _
        · refine .bind (.query _) fun tg => ?_
          split
          · exact .raise _
          · exact .pure _
      · exact .pure _
    · exact .pure _
  · exact .pure _

theorem each_prevLoop {res : Uri → Prog (Option Nat)} (hr : ∀ t, Each R (res t)) (follow throw : Bool) (last : Str) (steps : List Str) :
    ∀ prev cur, Each R (cPrevLoop res follow throw last steps prev cur) := by
  induction steps with
  | nil => exact fun _ _ => .pure _
  | cons n rest ih =>
    intro prev cur
    unfold cPrevLoop
    split
    · exact .raise _
    · refine .bind (.query _) fun x => ?_
      split
      · exact .bind (each_child hr _ _ _) fun _ => ih _ _
      · split
        · exact .raise _
        · exact .pure _

theorem each_forPathWith {res : Uri → Prog (Option Nat)} (hr : ∀ t, Each R (res t)) (root : Nat) (follow throw : Bool) (u : Uri) :
    Each R (cForPathWith root res follow throw u) := by
  unfold cForPathWith
  refine .lift fun p _ => ?_
  split
  · exact .bind (each_prevLoop hr _ _ _ _ _ _) fun _ => .pure _
  · exact .pure _

theorem each_resolve (root : Nat) (throw : Bool) (k : Nat) : ∀ t, Each R (cResolve root throw k t) := by
  induction k with
  | zero => exact fun _ => .raise _
  | succ k ih => exact fun t => each_forPathWith ih _ _ _ _

theorem each_prev (root : Nat) (follow throw : Bool) (steps : List Str) : Each R (cPrev root follow throw steps) :=
  each_prevLoop (each_resolve _ _ _) _ _ _ _ _ _

theorem each_forPath (root : Nat) (follow throw : Bool) (u : Uri) : Each R (cForPath root follow throw u) :=
  each_forPathWith (each_resolve _ _ _) _ _ _ _

omit [Mild R] in
theorem each_some (o : Option Nat) : Each R (cSome o) := by
  cases o <;> trivial

theorem each_parent (root : Nat) (p : Str) : Each R (cParent root p) :=
  .bind (.bind (each_prev _ _ _ _) fun _ => .pure _) fun _ => .bind (each_some _) fun _ => .bind (.query _) fun _ => .pure _

theorem each_reset (i : Nat) : Each R (cReset i) :=
  .bind (.file _ _) fun _ => .bind .now fun _ => .bind (.file _ _) fun _ => .bind (.file _ _) fun _ => .bind (.query _) fun _ => .file _ _

theorem each_openWrite {root : Nat} {u : Uri} {b : Bool} (hp : ∀ d n p w, stripPath u = .ok p → Mem.Inv w → R w (aNewFile d n p w).2) : Each R (cOpenWrite root u b) := by
  unfold cOpenWrite
  refine .lift fun p hu => .bind (each_parent _ _) fun x => ?_
  split
  · refine .bind (each_child (each_resolve _ _ _) _ _ _) fun c => ?_
    split
    · exact .raise _
    · refine .bind (.query _) fun tg => ?_
      split
      · exact .raise _
      · exact .bind (each_reset _) fun _ => .pure _
      · exact .raise _
  · exact .bind (.newFile fun w => hp _ _ p w hu) fun _ => .pure _

theorem each_conn {α : Type} {u : Uri} {m : Meth} {b : Nat → Prog α} (hb : ∀ r, Each R (b r)) : Each R (cConn u m b) := by
  unfold cConn
  refine .bind (.query _) fun r => .bind ?_ fun _ => hb r
  rw [preCallHook_query]
  exact .query _

theorem each_enter {a : Lock.Args} (hp : ∀ d n p w, stripPath a.path = .ok p → Mem.Inv w → R w (aNewFile d n p w).2) : Each R (cEnter a) :=
  each_conn fun _ => each_openWrite hp

theorem each_exists (r : Nat) (u : Uri) : Each R (cExists r u) := by
  unfold cExists
  refine .lift fun p _ => ?_
  split
  · refine .after (each_forPath _ _ _ _) fun x => ?_
    split
    · exact .pure _
    · exact .pure _
    · exact .pure _
    · exact .pure _
    · exact .raise _
  · exact .pure _

theorem each_isdir (r : Nat) (u : Uri) : Each R (cIsdir r u) := by
  unfold cIsdir
  refine .lift fun p _ => ?_
  split
  · refine .after (each_forPath _ _ _ _) fun x => ?_
    split
    · exact .pure _
    · refine .bind (.query _) fun tg => ?_
      split <;> exact .pure _
    · exact .pure _
    · exact .pure _
    · exact .raise _
  · exact .pure _

theorem each_isfile (r : Nat) (u : Uri) : Each R (cIsfile r u) := by
  unfold cIsfile
  refine .lift fun p _ => ?_
  split
  · refine .after (each_forPath _ _ _ _) fun x => ?_
    split
    · exact .pure _
    · refine .bind (.query _) fun tg => ?_
      split <;> exact .pure _
    · exact .pure _
    · exact .raise _
  · exact .pure _

theorem each_islink (r : Nat) (u : Uri) : Each R (cIslink r u) := by
  unfold cIslink
  refine .lift fun p _ => ?_
  split
  · refine .bind (each_forPath _ _ _ _) fun x => ?_
    split
    · exact .pure _
    · refine .bind (.query _) fun tg => ?_
      split <;> exact .pure _
  · exact .pure _

theorem each_removefile (hd : ∀ d n w, Mem.Inv w → R w (delChild d n w).2) (r : Nat) (u : Uri) : Each R (cRemovefile r u) := by
  unfold cRemovefile
  refine .lift fun p _ => .bind (each_prev _ _ _ _) fun x => ?_
  split
  · exact .pure _
  · exact .del (hd _ _)

theorem each_removedir (hd : ∀ d n w, Mem.Inv w → R w (delChild d n w).2) (r : Nat) (u : Uri) : Each R (cRemovedir r u) := by
  unfold cRemovedir
  refine .lift fun p _ => .bind (each_prev _ _ _ _) fun x => ?_
  split
  · exact .pure _
  · refine .bind (each_child (each_resolve _ _ _) _ _ _) fun _ => .bind (each_some _) fun c => .bind (.query _) fun b => ?_
    split
    · exact .del (hd _ _)
    · exact .raise _

theorem each_remove (hd : ∀ d n w, Mem.Inv w → R w (delChild d n w).2) (u : Uri) : Each R (cRemove u) := by
  refine each_conn fun r => .bind (each_islink _ _) fun x => ?_
  split
  · exact each_removefile hd _ _
  · refine .bind (each_exists _ _) fun x => ?_
    split
    · exact .raise _
    · refine .bind (each_isdir _ _) fun x => ?_
      split
      · exact each_removedir hd _ _
      · refine .bind (each_isfile _ _) fun x => ?_
        split
        · exact each_removefile hd _ _
        · exact .pure _

/-! ## The files that are made -/

/-- files that were none before have the path `p` -/
def Titled (p : Str) (w w' : World) : Prop := ∀ i f, w'.node i = .file f → (∃ g, w.node i = .file g) ∨ f.path = p

instance (p : Str) : Mild (Titled p) where
  rfl' _ _ g h := .inl ⟨g, h⟩
  now _ _ g h := .inl ⟨g, h⟩
  file i g w j f h := by
    rw [run_aFile] at h
    cases hn : w.node i with
    | dir d => simp only [hn] at h; exact .inl ⟨f, h⟩
    | link d => simp only [hn] at h; exact .inl ⟨f, h⟩
    | file o =>
      simp only [hn] at h
      cases he : g o with
      | error e => simp only [he] at h; exact .inl ⟨f, h⟩
      | ok x =>
        simp only [he] at h
        by_cases hj : j = i
        · subst hj; exact .inl ⟨o, hn⟩
        · refine .inl ⟨f, ?_⟩
          rw [← h]
          show _ = (if j = i then _ else w.node j)
          rw [if_neg hj]

theorem titled_del {p : Str} (d : Nat) (n : Str) (w : World) : Titled p w (delChild d n w).2 := by
  intro j f h
  unfold delChild at h
  cases hn : w.node d with
  | file o => simp only [hn] at h; exact .inl ⟨f, h⟩
  | link o => simp only [hn] at h; exact .inl ⟨f, h⟩
  | dir o =>
    simp only [hn] at h
    split at h
    · simp only [World.setNode] at h
      split at h
      · cases h
      · exact .inl ⟨f, h⟩
    · exact .inl ⟨f, h⟩

theorem run_aNewFile (d : Nat) (n p : Str) (w : World) : (aNewFile d n p w).2 = (createChild d n w.next (w.alloc (w.freshFile p))).2 := by
  unfold aNewFile
  rw [bind_ok (newFile_eq w p), bind_apply]
  cases hr : createChild d n w.next (w.alloc (w.freshFile p)) with
  | mk r w' =>
    have hr' := hr
    unfold World.freshFile at hr'
    rw [hr']
    cases r <;> rfl

theorem titled_newFile (d : Nat) (n p : Str) (w : World) : Titled p w (aNewFile d n p w).2 := by
  intro j f h
  rw [run_aNewFile] at h
  have key : (w.alloc (w.freshFile p)).node j = .file f := by
    unfold createChild at h
    cases hn : (w.alloc (w.freshFile p)).node d with
    | file o => simp only [hn] at h; exact h
    | link o => simp only [hn] at h; exact h
    | dir o =>
      simp only [hn, World.setNode] at h
      split at h
      · cases h
      · exact h
  simp only [World.alloc] at key
  split at key
  · right
    simp only [World.freshFile, Node.file.injEq] at key
    rw [← key]
  · exact .inl ⟨f, key⟩

/-! ## Nothing is removed -/

/-- entries stay, maybe with another object, and new ones are files -/
def Grows (w w' : World) : Prop := ∀ j n, ((w'.entries j).lookup n = (w.entries j).lookup n) ∨ ∃ c f, (w'.entries j).lookup n = some c ∧ w'.node c = .file f

theorem grows_node {w w' : World} (h : ∀ j, w'.entries j = w.entries j) : Grows w w' := fun j _ => .inl (by rw [h j])

instance : Mild Grows where
  rfl' _ := grows_node fun _ => rfl
  now _ := grows_node fun _ => rfl
  file i g w := by
    refine grows_node fun j => ?_
    rw [run_aFile]
    cases hn : w.node i with
    | dir d => rfl
    | link d => rfl
    | file o =>
      cases he : g o with
      | error e => simp [he]
      | ok x =>
        simp only [he]
        by_cases hj : j = i
        · subst hj
          simp [World.entries, hn, World.setNode]
        · simp [World.entries, World.setNode, hj]

theorem grows_newFile (d : Nat) (n p : Str) (w : World) (hw : Mem.Inv w) : Grows w (aNewFile d n p w).2 := by
  rw [run_aNewFile]
  have ha : ∀ j, (w.alloc (w.freshFile p)).entries j = w.entries j := by
    intro j
    by_cases hj : j = w.next
    · subst hj
      rw [Inv.bare hw (Nat.le_refl _)]
      simp [World.entries, World.alloc, World.freshFile]
    · simp [World.entries, World.alloc, hj]
  unfold createChild
  cases hn : (w.alloc (w.freshFile p)).node d with
  | file o => exact grows_node ha
  | link o => exact grows_node ha
  | dir o =>
    intro j m
    by_cases hj : j = d
    · subst hj
      have hne : j ≠ w.next := by
        rintro rfl
        simp [World.alloc, World.freshFile] at hn
      by_cases hm : m = n
      · subst hm
        refine .inr ⟨w.next, ?_⟩
        simp only [World.entries, World.setNode, if_true, DirObj.create]
        rw [lookup_setEntry, if_pos rfl]
        simp [World.alloc, World.freshFile, Ne.symm hne]
      · left
        rw [← ha j]
        simp only [World.entries, World.setNode, if_true, DirObj.create, hn]
        rw [lookup_setEntry, if_neg hm]
    · left
      rw [← ha j]
      simp [World.entries, World.setNode, hj]

end Verif.Conc
