import Verif.Mem.Frame
/-!
# Which objects the generic algorithms may change
-/
namespace Verif.Gen
open Mem Mem.M

/-! ## The generic algorithms -/

/-- the URIs got from `u` by splitting off last segments and appending names -/
inductive Derived (u : Uri) : Uri → Prop
  | refl : Derived u u
  | split {v x : Uri} {t : Str} (h : Derived u v) (hs : v.split = .ok (x, t)) : Derived u x
  | div {v x : Uri} {n : Str} (h : Derived u v) (hs : v.div n = .ok x) : Derived u x

/-- splitting only -/
inductive Ancestor (u : Uri) : Uri → Prop
  | refl : Ancestor u u
  | split {v x : Uri} {t : Str} (h : Ancestor u v) (hs : v.split = .ok (x, t)) : Ancestor u x

theorem Ancestor.derived {u v : Uri} (h : Ancestor u v) : Derived u v := by
  induction h with
  | refl => exact .refl
  | split _ hs ih => exact .split ih hs

theorem Derived.trans {a b c : Uri} (h : Derived a b) (h' : Derived b c) : Derived a c := by
  induction h' with
  | refl => exact h
  | split _ hs ih => exact .split ih hs
  | div _ hs ih => exact .div ih hs

theorem Ancestor.trans {a b c : Uri} (h : Ancestor a b) (h' : Ancestor b c) : Ancestor a c := by
  induction h' with
  | refl => exact h
  | split _ hs ih => exact .split ih hs

/-- a binding whose first part only converts -/
theorem _root_.Verif.Mem.Spares.lift_bind {s : Nat} {P : Uri → Prop} {α β : Type} {x : Except PyErr α} {f : α → M β}
    (h : ∀ a, x = .ok a → Spares s P (f a)) : Spares s P (lift x >>= f) := by
  intro w hw hs hu
  cases x with
  | error e => exact .rfl' s w
  | ok a => exact h a rfl w hw hs hu

theorem _root_.Verif.Mem.SparesAt.lift_bind {r s : Nat} {α β : Type} {x : Except PyErr α} {f : α → M β}
    (h : ∀ a, x = .ok a → SparesAt r s (f a)) : SparesAt r s (lift x >>= f) := by
  intro w hw hr hs
  cases x with
  | error e => exact .rfl' s w
  | ok a => exact h a rfl w hw hr hs

theorem spares_uIsdir {s : Nat} {P : Uri → Prop} (u : Uri) : Spares s P (uIsdir u) := spares_query_conn _ _ _
theorem spares_uIslink {s : Nat} {P : Uri → Prop} (u : Uri) : Spares s P (uIslink u) := spares_query_conn _ _ _
theorem spares_uIsfile {s : Nat} {P : Uri → Prop} (u : Uri) : Spares s P (uIsfile u) := spares_query_conn _ _ _
theorem spares_uExists {s : Nat} {P : Uri → Prop} (u : Uri) : Spares s P (uExists u) := spares_query_conn _ _ _
theorem spares_uListdir {s : Nat} {P : Uri → Prop} (u : Uri) : Spares s P (uListdir u) := spares_query_conn _ _ _

theorem spares_uMkdir {s : Nat} {P : Uri → Prop} {u : Uri} (hu : P u) : Spares s P (uMkdir u) :=
  .withConn hu fun _ hn => sparesAt_mkdir hn u

theorem spares_makedirs {s : Nat} {P : Uri → Prop} (n : Nat) (u : Uri) (h : ∀ v, Ancestor u v → P v) :
    Spares s P (makedirs n u) := by
  induction n generalizing u with
  | zero => exact .raise _
  | succ n ih =>
    rw [makedirs]
    refine .bind (pres_uIsdir u) (spares_uIsdir u) fun b => .ite (.ret _) (.lift_bind fun x hx => ?_)
    obtain ⟨pth, tail⟩ := x
    simp only
    refine .bind (pres_uIsdir pth) (spares_uIsdir pth) fun b => ?_
    have h2 : Spares s P (if tail ≠ [] then uMkdir u else pure ()) := .ite (spares_uMkdir (h u .refl)) (.ret _)
    have h3 : Spares s P (makedirs n pth) := ih pth fun v hv => h v ((Ancestor.split .refl hx).trans hv)
    cases b with
    | false => exact .bind (pres_makedirs n pth) h3 fun _ => h2
    | true => exact h2

theorem spares_uMakedirs {s : Nat} {P : Uri → Prop} (n : Nat) (u : Uri) (h : ∀ v, Ancestor u v → P v) :
    Spares s P (uMakedirs n u) := .withConn' fun _ => spares_makedirs n u h

theorem spares_classify {s : Nat} {P : Uri → Prop} (r : Nat) (top : Uri) (l : List Str) :
    Spares s P (classify r top l) := by
  induction l with
  | nil => exact .ret _
  | cons x l ih =>
    rw [classify]
    refine .lift_bind fun p _ => .bind (.query _) (fun w _ _ _ => .rfl' s w) fun d =>
      .bind (pres_classify r top l) ih fun _ => .ret _

theorem sparesAt_of_spares {r s : Nat} {α : Type} {m : M α} (h : Spares s (fun _ => False) m) : SparesAt r s m :=
  fun w hw _ hs => h w hw hs (by simp)

theorem sparesAt_walkDirs {r s : Nat} {σ : Type} {f : Bool} {visit : Uri → σ → M σ} (hk : ∀ u s, Keeps r (visit u s))
    (h : ∀ u t, SparesAt r s (visit u t)) (top : Uri) (l : List Str) (t : σ) :
    SparesAt r s (walkDirs f visit top l t) := by
  induction l generalizing t with
  | nil => exact .ret _
  | cons x l ih =>
    rw [walkDirs]
    refine .lift_bind fun p _ => .bind ((pres_uIslink p).keeps r) (sparesAt_of_spares (spares_uIslink p)) fun b => ?_
    split
    · exact .bind (hk p t) (h p t) fun _ => ih _
    · exact .bind ((Pres.ret _).keeps r) (.ret _) fun _ => ih _

theorem sparesAt_walk {r s q : Nat} {σ : Type} {td f : Bool}
    {body : σ → Uri → List Str → List Str → M (σ × List Str)} (hk : ∀ s u d n, Keeps r (body s u d n))
    (h : ∀ t u d n, SparesAt r s (body t u d n)) (n : Nat) (u : Uri) (t : σ) :
    SparesAt r s (walk q td f body n u t) := by
  induction n generalizing u t with
  | zero => exact .raise _
  | succ n ih =>
    rw [walk]
    refine .bind ((Pres.query _).keeps r) (.query _) fun names =>
      .bind ((pres_classify q u _).keeps r) (sparesAt_of_spares (spares_classify q u _)) fun x => ?_
    obtain ⟨dirs, nondirs⟩ := x
    simp only
    have hd := fun l t => sparesAt_walkDirs (f := f) (visit := walk q td f body n)
      (fun u s => keeps_walk hk n u s) ih u l t
    have hd' := fun l t => keeps_walkDirs (f := f) (visit := walk q td f body n)
      (fun u s => keeps_walk hk n u s) u l t
    split
    · exact .bind (hk t u dirs nondirs) (h t u dirs nondirs) fun x => hd x.2 x.1
    · exact .bind (hd' dirs t) (hd dirs t) fun t' => .bind (hk t' u dirs nondirs) (h t' u dirs nondirs) fun _ => .ret _

theorem spares_uWalk {s : Nat} {P : Uri → Prop} {u : Uri} (hu : P u) (n : Nat) (td f : Bool) :
    Spares s P (uWalk n u td f) :=
  .withConn hu fun r _ => sparesAt_walk (fun _ _ _ _ => (Pres.ret _).keeps r) (fun _ _ _ _ => .ret _) n u _

theorem spares_uGlob {s : Nat} {P : Uri → Prop} (u : Uri) (m : Str → Bool) : Spares s P (uGlob u m) :=
  .withConn' fun _ => .bind (pres_uListdir u) (spares_uListdir u) fun l => by
    induction l.filter m with
    | nil => exact .ret _
    | cons x l ih =>
      rw [List.mapM_cons]
      exact .bind (.lift _) (.lift _) fun _ => .bind (Pres.mapM _ fun _ => .lift _) ih fun _ => .ret _

theorem sparesAt_removeBody {r s : Nat} (hn : r ≠ s) (top : Uri) (dirs files : List Str) :
    SparesAt r s (removeBody r top dirs files) := by
  unfold removeBody
  refine .bind (Keeps.forM files fun f => ((Pres.lift _).bind fun p => pres_removefile r p).keeps r) ?_ fun _ => ?_
  · exact SparesAt.forM files (fun f => ((Pres.lift _).bind fun p => pres_removefile r p).keeps r) fun f =>
      .lift_bind fun p _ => sparesAt_removefile hn p
  · exact SparesAt.forM dirs (fun d => ((Pres.lift _).bind fun p => (Pres.query _).bind fun b =>
      .ite (pres_removefile r p) (pres_removedir r p)).keeps r) fun d =>
      .lift_bind fun p _ => .bind ((Pres.query _).keeps r) (.query _) fun b =>
        .ite (sparesAt_removefile hn p) (sparesAt_removedir hn p)

theorem sparesAt_removeDirRec {r s : Nat} (hn : r ≠ s) (n : Nat) (u : Uri) : SparesAt r s (removeDirRec n r u) := by
  unfold removeDirRec
  refine .bind (keeps_walk (fun _ u d f => (pres_removeBody r u d f).bind fun _ => (Pres.ret _).keeps r) n u ()) ?_
    fun _ => ?_
  · exact sparesAt_walk (fun _ u d f => (pres_removeBody r u d f).bind fun _ => (Pres.ret _).keeps r)
      (fun _ u d f => .bind (pres_removeBody r u d f) (sparesAt_removeBody hn u d f) fun _ => .ret _) n u ()
  · exact .bind ((Pres.query _).keeps r) (.query _) fun b => .ite (sparesAt_removefile hn u) (sparesAt_removedir hn u)

theorem spares_uRemove {s : Nat} {P : Uri → Prop} {u : Uri} (hu : P u) (n : Nat) (rec : Bool) :
    Spares s P (uRemove n u rec) := by
  refine .withConn hu fun r hn => ?_
  refine .bind ((Pres.query _).keeps r) (.query _) fun b => .ite (sparesAt_removefile hn u) ?_
  refine .bind ((Pres.query _).keeps r) (.query _) fun b => .ite (.raise _) ?_
  refine .bind ((Pres.query _).keeps r) (.query _) fun b => .ite (.ite (sparesAt_removeDirRec hn n u) (sparesAt_removedir hn u)) ?_
  exact .bind ((Pres.query _).keeps r) (.query _) fun b => .ite (sparesAt_removefile hn u) (.ret _)

theorem only_md5Loop (h : Handle) (n : Nat) : Only h.id (md5Loop h n) := by
  induction n with
  | zero => exact .raise _
  | succ n ih =>
    rw [md5Loop]
    refine (only_read h _).bind fun d => ?_
    cases d with
    | str t => exact .raise _
    | bytes b => exact .ite (.ret _) (ih.bind fun _ => .ret _)

/-- opening a file and working with its handle alone -/
theorem spares_open_only {s : Nat} {P : Uri → Prop} {u : Uri} (hu : P u) {o : Option Str} {α : Type} {g : Handle → M α}
    (hg : ∀ h, Only h.id (g h)) : Spares s P (uOpen u o >>= g) := by
  intro w hw hs hav
  have h1 := Spares.withConn (m := .open_) hu (fun _ hn => sparesAt_open (s := s) hn u o) w hw hs hav
  rw [bind_apply]
  cases ho : uOpen u o w with
  | mk x w1 =>
    have h1' : Same s w w1 := by unfold uOpen at ho; rw [ho] at h1; exact h1
    cases x with
    | error e => exact h1'
    | ok h => exact h1'.trans ((hg h).same (uOpen_not_within hw hs (hav u hu) ho).1)

theorem spares_uMd5 {s : Nat} {P : Uri → Prop} {u : Uri} (hu : P u) : Spares s P (uMd5 u) :=
  .withConn' fun _ => spares_open_only hu fun h => (only_size h).bind fun _ => only_md5Loop h _

theorem spares_uLockEnter {s : Nat} {P : Uri → Prop} {u : Uri} (hu : P u) (a b : Bool) :
    Spares s P (uLockEnter u a b) := by
  refine .withConn hu fun r hn => .bind (keeps_open r u _) (sparesAt_open hn u _) fun h => ?_
  refine .bind ((pres_withFile fun w _ hw _ => ⟨hw, .rfl' w⟩).keeps r) ?_ fun l => ?_
  · intro w _ _ _
    refine .of_node ?_
    unfold withFile
    cases w.node h.id <;> rfl
  · have ht : ∀ w, (tryAcquire l w).2.node = w.node := by
      intro w; unfold tryAcquire; split
      · rfl
      · exact node_acquire l w
    split
    · exact .bind ((pres_tryAcquire l).keeps r) (fun w _ _ _ => .of_node (ht w)) fun _ => .ret _
    · exact .bind ((pres_acquire l).keeps r) (fun w _ _ _ => .of_node (node_acquire l w)) fun _ => .ret _

theorem spares_lockExit {s : Nat} {P : Uri → Prop} (n : Nat) (g : LockGuard) (hu : g.cleanup = true → P g.path) :
    Spares s P (lockExit n g) := by
  refine .bind (pres_release g.lock) (spares_node (node_release g.lock)) fun _ => ?_
  split
  · rename_i hc; exact spares_uRemove (hu hc) n _
  · exact .ret _

/-! ## Copying -/

theorem spares_copyFileObj {s : Nat} {a b : Handle} (n : Nat) : ∀ w, Mem.Inv w → a.id < w.next → b.id < w.next →
    ¬ Within w s a.id → ¬ Within w s b.id → Same s w (copyFileObj a b n w).2 := by
  induction n with
  | zero => intro w _ _ _ _ _; exact .rfl' s w
  | succ n ih =>
    intro w hw ha hb hna hnb
    rw [copyFileObj, bind_apply]
    have h1 := (only_read a 8192).same hna
    have h2 := pres_read a 8192 w hw
    cases hr : a.read 8192 w with
    | mk x w1 =>
      rw [hr] at h1 h2
      cases x with
      | error e => exact h1
      | ok d =>
        simp only
        split
        · exact h1
        · refine h1.trans ?_
          have hna1 := not_within_stays hw h2.2.stays ha hna
          have hnb1 := not_within_stays hw h2.2.stays hb hnb
          rw [bind_apply]
          have h3 := (only_write b d).same hnb1
          have h4 := pres_write b d w1 h2.1
          cases hwr : b.write d w1 with
          | mk y w2 =>
            rw [hwr] at h3 h4
            cases y with
            | error e => exact h3
            | ok _ =>
              have l1 : w.next ≤ w1.next := h2.2.stays.next
              have l2 : w1.next ≤ w2.next := h4.2.stays.next
              exact h3.trans (ih w2 h4.1 (by omega) (by omega)
                (not_within_stays h2.1 h4.2.stays (Nat.lt_of_lt_of_le (by assumption) l1) hna1) (not_within_stays h2.1 h4.2.stays (Nat.lt_of_lt_of_le (by assumption) l1) hnb1))

theorem spares_copyContent {s : Nat} {P : Uri → Prop} {u v : Uri} (hu : P u) (hv : P v) : Spares s P (copyContent u v) := by
  intro w hw hs hav
  unfold copyContent
  rw [bind_apply]
  have h1 := Spares.withConn (m := .open_) hu (fun _ hn => sparesAt_open (s := s) hn u (some cl!"rb")) w hw hs hav
  have h2 := pres_uOpen u (some cl!"rb") w hw
  cases ho : uOpen u (some cl!"rb") w with
  | mk x w1 =>
    have h1' : Same s w w1 := by unfold uOpen at ho; rw [ho] at h1; exact h1
    rw [ho] at h2
    cases x with
    | error e => exact h1'
    | ok a =>
      refine h1'.trans ?_
      obtain ⟨ha, ha'⟩ := uOpen_not_within hw hs (hav u hu) ho
      have hs1 := h2.2.isRoot hs
      have hav1 : ∀ u, P u → w1.connOf (connKey u) ≠ some s := fun u hu => avoids_ext h2.1 h2.2 hs (hav u hu)
      simp only [bind_apply]
      have h3 := Spares.withConn (m := .open_) hv (fun _ hn => sparesAt_open (s := s) hn v (some cl!"wb")) w1 h2.1 hs1 hav1
      have h4 := pres_uOpen v (some cl!"wb") w1 h2.1
      cases ho2 : uOpen v (some cl!"wb") w1 with
      | mk y w2 =>
        have h3' : Same s w1 w2 := by unfold uOpen at ho2; rw [ho2] at h3; exact h3
        rw [ho2] at h4
        cases y with
        | error e => exact h3'
        | ok b =>
          refine h3'.trans ?_
          obtain ⟨hb, hb'⟩ := uOpen_not_within h2.1 hs1 (hav1 v hv) ho2
          have l2 : w1.next ≤ w2.next := h4.2.stays.next
          have ha2 := not_within_stays h2.1 h4.2.stays ha' ha
          have hsz : (a.size w2).2 = w2 := by
            unfold Handle.size withFile
            cases w2.node a.id <;> rfl
          simp only
          cases hz : a.size w2 with
          | mk z w3 =>
            rw [hz] at hsz
            simp only at hsz
            subst hsz
            cases z with
            | error e => exact .rfl' s _
            | ok n => exact spares_copyFileObj (n + 1) _ h4.1 (by omega) hb' ha2 hb

theorem sparesAt_copyLink {r s : Nat} (hn : r ≠ s) (u v : Uri) : SparesAt r s (copyLink r u v) := by
  unfold copyLink
  refine .bind ((Pres.query _).keeps r) (.query _) fun b => ?_
  have h2 : SparesAt r s (do
      if ← uIsfile v then removefile r v
      let t ← M.query fun w => readlink w r u
      symlink r t v) := by
    refine .bind ((pres_uIsfile v).keeps r) (sparesAt_of_spares (spares_uIsfile v)) fun b' => ?_
    have h3 : SparesAt r s (do
        let t ← M.query fun w => readlink w r u
        symlink r t v) := .bind ((Pres.query _).keeps r) (.query _) fun t => sparesAt_symlink hn t v
    cases b' with
    | false => exact h3
    | true => exact .bind ((pres_removefile r v).keeps r) (sparesAt_removefile hn v) fun _ => h3
  cases b with
  | true => exact h2
  | false => exact .bind ((Pres.raise _).keeps r) (.raise _) fun _ => h2

/-- `m`, working in `r` and in the file systems of the URIs of `P`, spares `s` -/
def SparesBoth (r s : Nat) (P : Uri → Prop) {α : Type} (m : M α) : Prop :=
  ∀ w, Mem.Inv w → IsRoot w r → IsRoot w s → (∀ u, P u → w.connOf (connKey u) ≠ some s) → Same s w (m w).2

theorem SparesBoth.bind {r s : Nat} {P : Uri → Prop} {α β : Type} {m : M α} {f : α → M β} (hk : Keeps r m)
    (h : SparesBoth r s P m) (h' : ∀ a, SparesBoth r s P (f a)) : SparesBoth r s P (m >>= f) := by
  intro w hw hr hs hav
  rw [bind_apply]
  have h0 := hk w hw hr
  have h1 := h w hw hr hs hav
  cases hm : m w with
  | mk x w1 =>
    rw [hm] at h0 h1
    cases x with
    | error e => exact h1
    | ok a =>
      exact h1.trans (h' a w1 h0.1 (h0.2.isRoot hr) (h0.2.isRoot hs) fun u hu => avoids_ext h0.1 h0.2 hs (hav u hu))

theorem SparesBoth.lift_bind {r s : Nat} {P : Uri → Prop} {α β : Type} {x : Except PyErr α} {f : α → M β}
    (h : ∀ a, x = .ok a → SparesBoth r s P (f a)) : SparesBoth r s P (lift x >>= f) := by
  intro w hw hr hs hav
  cases x with
  | error e => exact .rfl' s w
  | ok a => exact h a rfl w hw hr hs hav

theorem SparesBoth.ret {r s : Nat} {P : Uri → Prop} {α : Type} (a : α) : SparesBoth r s P (pure a : M α) :=
  fun w _ _ _ _ => .rfl' s w

theorem SparesBoth.raise {r s : Nat} {P : Uri → Prop} {α : Type} (e : PyErr) : SparesBoth r s P (raise e : M α) :=
  fun w _ _ _ _ => .rfl' s w

theorem SparesBoth.query {r s : Nat} {P : Uri → Prop} {α : Type} (f : World → Except PyErr α) :
    SparesBoth r s P (query f) := fun w _ _ _ _ => .rfl' s w

theorem SparesBoth.ret_bind {r s : Nat} {P : Uri → Prop} {α β : Type} {a : α} {f : α → M β}
    (h : SparesBoth r s P (f a)) : SparesBoth r s P (pure a >>= f) := h

theorem SparesBoth.ite {r s : Nat} {P : Uri → Prop} {α : Type} {c : Prop} [Decidable c] {m m' : M α}
    (h : SparesBoth r s P m) (h' : SparesBoth r s P m') : SparesBoth r s P (if c then m else m') := by
  split <;> assumption

theorem _root_.Verif.Mem.SparesAt.both {r s : Nat} {P : Uri → Prop} {α : Type} {m : M α} (h : SparesAt r s m) :
    SparesBoth r s P m := fun w hw hr hs _ => h w hw hr hs

theorem _root_.Verif.Mem.Spares.both {r s : Nat} {P : Uri → Prop} {α : Type} {m : M α} (h : Spares s P m) :
    SparesBoth r s P m := fun w hw _ hs hav => h w hw hs hav

theorem SparesBoth.withConn {r s : Nat} {P : Uri → Prop} {α : Type} {u : Uri} {m : Meth} {body : Nat → M α}
    (h : ∀ q, SparesBoth r s P (body q)) : SparesBoth r s P (withConn u m body) := by
  intro w hw hr hs hav
  obtain ⟨h1, h2, h3⟩ := getConnection_pres u w hw
  have h4 := getConnection_same u w hw hs
  unfold Mem.withConn
  rw [bind_apply]
  cases hg : getConnection u w with
  | mk x w1 =>
    rw [hg] at h1 h2 h3 h4
    cases x with
    | error e => exact h4
    | ok q =>
      refine h4.trans ?_
      refine SparesBoth.bind (P := P) ((preCallHook_pres q u m).keeps r) ?_ (fun _ => h q) w1 h1 (h2.isRoot hr)
        (h2.isRoot hs) fun v hv => avoids_ext h1 h2 hs (hav v hv)
      exact Spares.both (.bind (.lift _) (.lift _) fun _ w _ _ _ => .rfl' s w)

/-- as above, working in the file system of the URI too -/
theorem _root_.Verif.Mem.Spares.withConnBoth {s : Nat} {P : Uri → Prop} {α : Type} {u : Uri} {m : Meth}
    {body : Nat → M α} (hu : P u) (h : ∀ r, r ≠ s → SparesBoth r s P (body r)) : Spares s P (Mem.withConn u m body) := by
  intro w hw hs hav
  obtain ⟨h1, h2, h3⟩ := getConnection_pres u w hw
  have h4 := getConnection_same u w hw hs
  unfold Mem.withConn
  rw [bind_apply]
  cases hg : getConnection u w with
  | mk x w1 =>
    have h5 : ∀ r, x = .ok r → r ≠ s := fun r hx => getConnection_avoids hw hs (hav u hu) (by rw [hg]; exact hx)
    rw [hg] at h1 h2 h3 h4
    cases x with
    | error e => exact h4
    | ok r =>
      refine h4.trans ?_
      refine SparesBoth.bind (P := P) ((preCallHook_pres r u m).keeps r) ?_ (fun _ => h r (h5 r rfl)) w1 h1 (h3 r rfl)
        (h2.isRoot hs) fun v hv => avoids_ext h1 h2 hs (hav v hv)
      exact Spares.both (.bind (.lift _) (.lift _) fun _ w _ _ _ => .rfl' s w)

section
variable {r s : Nat} (hn : r ≠ s) {P : Uri → Prop}
include hn

theorem spares_copyOne {u v : Uri} (hu : P u) (hv : P v) (f : Bool) : SparesBoth r s P (copyOne r u v f) := by
  unfold copyOne
  refine .bind ((pres_uIslink u).keeps r) (spares_uIslink u).both fun b => .ite (sparesAt_copyLink hn u v).both ?_
  exact .bind ((pres_copyContent u v).keeps r) (spares_copyContent hu hv).both fun _ =>
    .ite (sparesAt_copystat hn u v).both (.ret _)

theorem spares_copyDirs (n : Nat) (ig : List Str) (f : Bool) (u v : Uri) (hv : ∀ x, Derived v x → P x) (l m : List Str) :
    SparesBoth r s P (copyDirs n r ig f u v l m) := by
  induction l generalizing m with
  | nil => exact .ret _
  | cons x l ih =>
    rw [copyDirs]
    refine .ite (ih _) (.lift_bind fun ddir hd => .lift_bind fun srcp _ =>
      .bind ((pres_uIslink srcp).keeps r) (spares_uIslink srcp).both fun b => ?_)
    split
    · exact .bind (keeps_copyLink r srcp ddir) (sparesAt_copyLink hn srcp ddir).both fun _ => ih m
    · refine .bind ((pres_uMakedirs n ddir).keeps r) (Spares.both (spares_uMakedirs n ddir fun y hy => ?_)) fun _ => ih m
      exact hv y ((Derived.div .refl hd).trans hy.derived)

theorem spares_copyFiles (f : Bool) (u v : Uri) (hu : ∀ x, Derived u x → P x) (hv : ∀ x, Derived v x → P x) (l : List Str) :
    SparesBoth r s P (copyFiles r f u v l) := by
  induction l with
  | nil => exact .ret _
  | cons x l ih =>
    rw [copyFiles]
    refine .lift_bind fun a ha => .lift_bind fun b hb => .bind (keeps_copyOne r a b f)
      (spares_copyOne hn (hu a (.div .refl ha)) (hv b (.div .refl hb)) f) fun _ => ih

theorem spares_copyBody (n : Nat) (ig : List Str) (f : Bool) (k : Nat) (d u : Uri) (hu : ∀ x, Derived u x → P x)
    (hd : ∀ x, Derived d x → P x) (l m : List Str) : SparesBoth r s P (copyBody n r ig f k d u l m) := by
  unfold copyBody
  have h : ∀ b, Derived d b → SparesBoth r s P (do
      let dirs' ← copyDirs n r ig f u b l l
      copyFiles r f u b m
      pure dirs') := fun b hb =>
    .bind (keeps_copyDirs n r ig f u b l l) (spares_copyDirs hn n ig f u b (fun x hx => hd x (hb.trans hx)) l l) fun _ =>
      .bind (keeps_copyFiles r f u b m) (spares_copyFiles hn f u b hu (fun x hx => hd x (hb.trans hx)) m) fun _ => .ret _
  exact .ite (.lift_bind fun b hb => h b (.div .refl hb)) (.ret_bind (h d .refl))

omit hn in
/-- walking, where `Q` holds of the directories visited -/
theorem spares_walkDirs {σ : Type} {f : Bool} {visit : Uri → σ → M σ} {Q : Uri → Prop}
    (hQ : ∀ u n x, Q u → u.div n = .ok x → Q x) (hk : ∀ u s, Keeps r (visit u s))
    (h : ∀ u t, Q u → SparesBoth r s P (visit u t)) (top : Uri) (ht : Q top) (l : List Str) (t : σ) :
    SparesBoth r s P (walkDirs f visit top l t) := by
  induction l generalizing t with
  | nil => exact .ret _
  | cons x l ih =>
    rw [walkDirs]
    refine .lift_bind fun p hp => .bind ((pres_uIslink p).keeps r) (spares_uIslink p).both fun b => ?_
    exact .ite (.bind (hk p t) (h p t (hQ _ _ _ ht hp)) fun _ => ih _) (.ret_bind (ih _))

omit hn in
theorem spares_walk {q : Nat} {σ : Type} {td f : Bool} {Q : Uri → Prop}
    (hQ : ∀ u n x, Q u → u.div n = .ok x → Q x)
    {body : σ → Uri → List Str → List Str → M (σ × List Str)} (hk : ∀ s u d n, Keeps r (body s u d n))
    (h : ∀ t u d n, Q u → SparesBoth r s P (body t u d n)) (n : Nat) (u : Uri) (hu : Q u) (t : σ) :
    SparesBoth r s P (walk q td f body n u t) := by
  induction n generalizing u t with
  | zero => exact .raise _
  | succ n ih =>
    rw [walk]
    refine .bind ((Pres.query _).keeps r) (.query _) fun names =>
      .bind ((pres_classify q u _).keeps r) (spares_classify q u _).both fun x => ?_
    obtain ⟨dirs, nondirs⟩ := x
    have hd := fun l t => spares_walkDirs (f := f) (visit := walk q td f body n) hQ
      (fun u s => keeps_walk hk n u s) (fun u t hu => ih u hu t) u hu l t
    have hd' := fun l t => keeps_walkDirs (f := f) (visit := walk q td f body n)
      (fun u s => keeps_walk hk n u s) u l t
    exact .ite (.bind (hk t u dirs nondirs) (h t u dirs nondirs hu) fun x => hd x.2 x.1)
      (.bind (hd' dirs t) (hd dirs t) fun t' => .bind (hk t' u dirs nondirs) (h t' u dirs nondirs hu) fun _ => .ret _)

theorem spares_copyWalk (n : Nat) (ig : List Str) (f : Bool) (u d : Uri) (hu : ∀ x, Derived u x → P x)
    (hd : ∀ x, Derived d x → P x) : SparesBoth r s P (copyWalk n r ig f u d) :=
  .withConn fun _ => spares_walk (Q := Derived u) (fun _ _ _ h1 h2 => .div h1 h2)
    (fun _ u' l m => (keeps_copyBody n r ig f _ d u' l m).bind fun _ => (Pres.ret _).keeps r)
    (fun _ u' l m hu' => .bind (keeps_copyBody n r ig f _ d u' l m)
      (spares_copyBody hn n ig f _ d u' (fun x hx => hu x (hu'.trans hx)) hd l m) fun _ => .ret _) n u .refl ()

theorem spares_copy (n : Nat) (u v : Uri) (rec : Bool) (ig : List Str) (f : Bool) (hu : ∀ x, Derived u x → P x)
    (hv : ∀ x, Derived v x → P x) : SparesBoth r s P (copy n r u v rec ig f) := by
  unfold copy
  have key : SparesBoth r s P (
      if !rec then do
        if !(← uIsfile u) then raise .assertionError
        let dest ← if ← uIsdir v then M.lift (v.div u.last) else pure v
        copyOne r u dest f
      else do
        if !(← uIsdir u) then raise .assertionError
        let droot ← if ← uIsdir v then M.lift (v.div u.last) else pure v
        if (← uIslink u) && !f then copyLink r u droot
        else
          uMakedirs n droot
          copyWalk n r ig f u droot : M Unit) := by
    refine .ite ?_ ?_
    · refine .bind ((pres_uIsfile u).keeps r) (spares_uIsfile u).both fun b => ?_
      have h1 : SparesBoth r s P (do
          let dest ← if ← uIsdir v then M.lift (v.div u.last) else pure v
          copyOne r u dest f) := by
        refine .bind ((pres_uIsdir v).keeps r) (spares_uIsdir v).both fun b => ?_
        exact .ite (.lift_bind fun d hd => spares_copyOne hn (hu u .refl) (hv d (.div .refl hd)) f)
          (.ret_bind (spares_copyOne hn (hu u .refl) (hv v .refl) f))
      cases b with
      | true => exact h1
      | false => exact .bind ((Pres.raise _).keeps r) (.raise _) fun _ => h1
    · refine .bind ((pres_uIsdir u).keeps r) (spares_uIsdir u).both fun b => ?_
      have h1 : SparesBoth r s P (do
          let droot ← if ← uIsdir v then M.lift (v.div u.last) else pure v
          if (← uIslink u) && !f then copyLink r u droot
          else
            uMakedirs n droot
            copyWalk n r ig f u droot) := by
        refine .bind ((pres_uIsdir v).keeps r) (spares_uIsdir v).both fun b => ?_
        have h2 : ∀ d, Derived v d → SparesBoth r s P (do
            if (← uIslink u) && !f then copyLink r u d
            else
              uMakedirs n d
              copyWalk n r ig f u d) := fun d hd =>
          .bind ((pres_uIslink u).keeps r) (spares_uIslink u).both fun b => .ite (sparesAt_copyLink hn u d).both
            (.bind ((pres_uMakedirs n d).keeps r) (Spares.both (spares_uMakedirs n d fun x hx => hv x (hd.trans hx.derived)))
              fun _ => spares_copyWalk hn n ig f u d hu fun x hx => hv x (hd.trans hx))
        exact .ite (.lift_bind fun d hd => h2 d (.div .refl hd)) (.ret_bind (h2 v .refl))
      cases b with
      | true => exact h1
      | false => exact .bind ((Pres.raise _).keeps r) (.raise _) fun _ => h1
  refine .bind ((pres_uExists u).keeps r) (spares_uExists u).both fun b => ?_
  cases b with
  | true => exact key
  | false => exact .bind ((Pres.raise _).keeps r) (.raise _) fun _ => key

end

theorem spares_uCopy {s : Nat} {P : Uri → Prop} (n : Nat) (u v : Uri) (rec : Bool) (ig : List Str) (f : Bool)
    (hu : ∀ x, Derived u x → P x) (hv : ∀ x, Derived v x → P x) : Spares s P (uCopy n u v rec ig f) :=
  .withConnBoth (hu u .refl) fun _ hn => spares_copy hn n u v rec ig f hu hv

theorem spares_uMove {s : Nat} {P : Uri → Prop} (n : Nat) (u v : Uri)
    (hu : ∀ x, Derived u x → P x) (hv : ∀ x, Derived v x → P x) : Spares s P (uMove n u v) := by
  refine .withConn' fun _ => ?_
  unfold move
  refine .bind (pres_uIsfile u) (spares_uIsfile u) fun b => .ite ?_ ?_
  · exact .bind (pres_uCopy n u v _ _ _) (spares_uCopy n u v _ _ _ hu hv) fun _ => spares_uRemove (hu u .refl) n _
  · exact .bind (pres_uCopy n u v _ _ _) (spares_uCopy n u v _ _ _ hu hv) fun _ => spares_uRemove (hu u .refl) n _

end Verif.Gen
