import Verif.Conc.Op
import Verif.Mem.MLemmas
/-!
# Operations that are not interrupted are those of `Verif/Gen/Tree`
-/
namespace Verif.Conc
open Mem Mem.M

namespace Op

theorem seq_bind {α β : Type} (m : Op α) (f : α → Op β) : (m >>= f).seq = m.seq >>= fun a => (f a).seq := by
  show (next f m).seq = _
  induction m with
  | ret r => cases r <;> rfl
  | ask p k ih =>
    funext w
    rw [bind_apply]
    show (next f (k (p.seq w).1)).seq (p.seq w).2 = _
    rw [ih, bind_apply]
    rfl

theorem seq_get {β : Type} (p : Prim β) : (get p).seq = p.seq := rfl
theorem seq_pure {α : Type} (a : α) : (pure a : Op α).seq = pure a := rfl
theorem seq_raise {α : Type} (e : PyErr) : (raise e : Op α).seq = M.raise e := rfl
theorem seq_lift {α : Type} (x : Except PyErr α) : (lift x).seq = M.lift x := by
  funext w; cases x <;> rfl
theorem seq_ite {α : Type} {c : Prop} [Decidable c] (a b : Op α) : (if c then a else b).seq = if c then a.seq else b.seq := by split <;> rfl

end Op
open Op

theorem seq_conn {α : Type} (u : Uri) (m : Meth) (body : Nat → Op α) : (oConn u m body).seq = withConn u m fun r => (body r).seq := by
  unfold oConn
  rw [seq_bind, seq_get]
  show (withConn u m fun r => pure r) >>= _ = _
  unfold withConn
  simp

theorem seq_exists (u : Uri) : (oExists u).seq = uExists u := seq_conn _ _ _
theorem seq_isfile (u : Uri) : (oIsfile u).seq = uIsfile u := seq_conn _ _ _
theorem seq_isdir (u : Uri) : (oIsdir u).seq = uIsdir u := seq_conn _ _ _
theorem seq_islink (u : Uri) : (oIslink u).seq = uIslink u := seq_conn _ _ _
theorem seq_listdir (u : Uri) : (oListdir u).seq = uListdir u := seq_conn _ _ _
theorem seq_mkdir (u : Uri) : (oMkdir u).seq = uMkdir u := seq_conn _ _ _

theorem seq_makedirs_ (n : Nat) : ∀ u, (oMakedirs_ n u).seq = Gen.makedirs n u := by
  induction n with
  | zero => intro u; rfl
  | succ n ih =>
    intro u
    rw [oMakedirs_, Gen.makedirs]
    simp only [seq_bind, seq_isdir, seq_ite, seq_lift, seq_pure, seq_mkdir, ih]

theorem seq_makedirs (n : Nat) (u : Uri) : (oMakedirs n u).seq = Gen.uMakedirs n u := by
  unfold oMakedirs Gen.uMakedirs
  rw [seq_conn]
  simp only [seq_makedirs_]

theorem seq_classify (r : Nat) (top : Uri) (l : List Str) : (oClassify r top l).seq = Gen.classify r top l := by
  induction l with
  | nil => rfl
  | cons x l ih =>
    rw [oClassify, Gen.classify]
    simp only [seq_bind, seq_lift, seq_get, seq_pure, ih]
    rfl

theorem seq_walkDirs {σ : Type} (f : Bool) {visit : Uri → σ → Op σ} {visit' : Uri → σ → M σ} (h : ∀ u x, (visit u x).seq = visit' u x) (top : Uri)
    (l : List Str) : ∀ x, (oWalkDirs f visit top l x).seq = Gen.walkDirs f visit' top l x := by
  induction l with
  | nil => intro x; rfl
  | cons y l ih =>
    intro x
    rw [oWalkDirs, Gen.walkDirs]
    simp only [seq_bind, seq_lift, seq_islink, seq_ite, seq_pure, ih, h]

theorem seq_walk_ {σ : Type} (r : Nat) (td f : Bool) {body : σ → Uri → List Str → List Str → Op (σ × List Str)}
    {body' : σ → Uri → List Str → List Str → M (σ × List Str)} (h : ∀ x u d m, (body x u d m).seq = body' x u d m) (n : Nat) :
    ∀ u x, (oWalk_ r td f body n u x).seq = Gen.walk r td f body' n u x := by
  induction n with
  | zero => intro u x; rfl
  | succ n ih =>
    intro u x
    rw [oWalk_, Gen.walk]
    simp only [seq_bind, seq_get, seq_classify, seq_ite, seq_pure, h, seq_walkDirs f ih]
    rfl

theorem seq_walk (n : Nat) (u : Uri) (td f : Bool) : (oWalk n u td f).seq = Gen.uWalk n u td f := by
  unfold oWalk Gen.uWalk
  rw [seq_conn]
  exact congrArg _ (funext fun r => seq_walk_ r td f (fun _ _ _ _ => rfl) n u [])

theorem seq_mapM {α β : Type} {f : α → Op β} {f' : α → M β} (h : ∀ a, (f a).seq = f' a) (l : List α) : (l.mapM f).seq = l.mapM f' := by
  have : ∀ (l : List α) (acc : List β), (List.mapM.loop f l acc).seq = List.mapM.loop f' l acc := by
    intro l
    induction l with
    | nil => intro acc; rfl
    | cons a l ih =>
      intro acc
      rw [List.mapM.loop, List.mapM.loop, seq_bind, h]
      exact congrArg _ (funext fun b => ih _)
  exact this l []

theorem seq_forM {α : Type} {f : α → Op PUnit} {f' : α → M PUnit} (h : ∀ a, (f a).seq = f' a) (l : List α) : (l.forM f).seq = l.forM f' := by
  induction l with
  | nil => rfl
  | cons a l ih =>
    show (f a >>= fun _ => l.forM f).seq = (f' a >>= fun _ => l.forM f')
    rw [seq_bind, h, ih]

theorem seq_glob (u : Uri) (f : Str → Bool) : (oGlob u f).seq = Gen.uGlob u f := by
  unfold oGlob Gen.uGlob
  rw [seq_conn]
  simp only [seq_bind, seq_listdir, seq_mapM fun a => seq_lift (u.div a)]

theorem seq_removeBody (r : Nat) (top : Uri) (d m : List Str) : (oRemoveBody r top d m).seq = Gen.removeBody r top d m := by
  unfold oRemoveBody Gen.removeBody
  rw [seq_bind]
  have h1 := seq_forM (f := fun f => do
    let p ← Op.lift (top.div f)
    Op.get (.removefile r p)) (f' := fun f => do
    let p ← M.lift (top.div f)
    removefile r p) (fun a => by simp only [seq_bind, seq_lift, seq_get]; rfl) m
  have h2 := seq_forM (f := fun f => do
    let p ← Op.lift (top.div f)
    if ← Op.get (.islink r p) then Op.get (.removefile r p) else Op.get (.removedir r p)) (f' := fun f => do
    let p ← M.lift (top.div f)
    if ← query fun w => islink w r p then removefile r p else removedir r p)
    (fun a => by simp only [seq_bind, seq_lift, seq_get, seq_ite]; rfl) d
  simp only [h1, h2]

theorem seq_removeDirRec (n r : Nat) (u : Uri) : (oRemoveDirRec n r u).seq = Gen.removeDirRec n r u := by
  unfold oRemoveDirRec Gen.removeDirRec
  rw [seq_bind, seq_walk_ r false false (body' := fun (_ : Unit) top dirs files => do
    Gen.removeBody r top dirs files
    pure ((), dirs)) (fun _ _ _ _ => by simp only [seq_bind, seq_removeBody, seq_pure])]
  simp only [seq_bind, seq_get, seq_ite]
  rfl

theorem seq_remove (n : Nat) (u : Uri) (rec : Bool) : (oRemove n u rec).seq = Gen.uRemove n u rec := by
  unfold oRemove Gen.uRemove
  rw [seq_conn]
  simp only [seq_bind, seq_get, seq_ite, seq_raise, seq_pure, seq_removeDirRec]
  rfl

theorem seq_copyLink (r : Nat) (u v : Uri) : (oCopyLink r u v).seq = Gen.copyLink r u v := by
  unfold oCopyLink Gen.copyLink
  simp only [seq_bind, seq_get, seq_ite, seq_raise, seq_isfile]
  rfl

theorem seq_copyOne (r : Nat) (u v : Uri) (f : Bool) : (oCopyOne r u v f).seq = Gen.copyOne r u v f := by
  unfold oCopyOne Gen.copyOne
  simp only [seq_bind, seq_get, seq_ite, seq_pure, seq_islink, seq_copyLink]
  rfl

theorem seq_copyDirs (n r : Nat) (ig : List Str) (f : Bool) (top dbase : Uri) (l : List Str) :
    ∀ m, (oCopyDirs n r ig f top dbase l m).seq = Gen.copyDirs n r ig f top dbase l m := by
  induction l with
  | nil => intro m; rfl
  | cons x l ih =>
    intro m
    rw [oCopyDirs, Gen.copyDirs]
    simp only [seq_bind, seq_lift, seq_ite, seq_islink, seq_copyLink, seq_makedirs, ih]

theorem seq_copyFiles (r : Nat) (f : Bool) (top dbase : Uri) (l : List Str) : (oCopyFiles r f top dbase l).seq = Gen.copyFiles r f top dbase l := by
  induction l with
  | nil => rfl
  | cons x l ih =>
    rw [oCopyFiles, Gen.copyFiles]
    simp only [seq_bind, seq_lift, seq_copyOne, ih]

theorem seq_copyBody (n r : Nat) (ig : List Str) (f : Bool) (k : Nat) (droot top : Uri) (l m : List Str) :
    (oCopyBody n r ig f k droot top l m).seq = Gen.copyBody n r ig f k droot top l m := by
  unfold oCopyBody Gen.copyBody
  simp only [seq_bind, seq_lift, seq_ite, seq_pure, seq_copyDirs, seq_copyFiles]

theorem seq_copyWalk (n r : Nat) (ig : List Str) (f : Bool) (u droot : Uri) : (oCopyWalk n r ig f u droot).seq = Gen.copyWalk n r ig f u droot := by
  unfold oCopyWalk Gen.copyWalk
  rw [seq_conn]
  exact congrArg _ (funext fun q => seq_walk_ q true f (fun _ _ _ _ => by simp only [seq_bind, seq_copyBody, seq_pure]) n u ())

theorem seq_copy_ (n r : Nat) (u v : Uri) (rec : Bool) (ig : List Str) (f : Bool) : (oCopy_ n r u v rec ig f).seq = Gen.copy n r u v rec ig f := by
  unfold oCopy_ Gen.copy
  simp only [seq_bind, seq_lift, seq_ite, seq_pure, seq_raise, seq_exists, seq_isfile, seq_isdir, seq_islink, seq_copyOne, seq_copyLink,
    seq_makedirs, seq_copyWalk]

theorem seq_copy (n : Nat) (u v : Uri) (rec : Bool) (ig : List Str) (f : Bool) : (oCopy n u v rec ig f).seq = Gen.uCopy n u v rec ig f := by
  unfold oCopy Gen.uCopy
  rw [seq_conn]
  simp only [seq_copy_]

theorem seq_move (n : Nat) (u v : Uri) : (oMove n u v).seq = Gen.uMove n u v := by
  unfold oMove Gen.uMove
  rw [seq_conn]
  unfold oMove_ Gen.move
  simp only [seq_bind, seq_ite, seq_isfile, seq_copy, seq_remove]

theorem seq_md5 (u : Uri) : (oMd5 u).seq = Gen.uMd5 u := rfl

end Verif.Conc
