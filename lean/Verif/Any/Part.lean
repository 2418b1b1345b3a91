import Verif.Any.Ops
/-!
# A table of operations that contains another one

Some URIs (`Here`) are served by the smaller table: then every algorithm of fs.py, run with the larger table, does what it does
with the smaller one, and the rest of the state is neither read nor changed.
-/
namespace Verif.Any
open OM
open Mem (Meth)

/-- a state `τ` of which `σ` is a part -/
structure Lens (τ σ : Type) where
  get : τ → σ
  put : τ → σ → τ
  get_put : ∀ s a, get (put s a) = a
  put_get : ∀ s, put s (get s) = s
  put_put : ∀ s a b, put (put s a) b = put s b

/-- a computation in the part -/
def Lens.up {τ σ α : Type} (L : Lens τ σ) (m : OM σ α) : OM τ α := fun s => ((m (L.get s)).1, L.put s (m (L.get s)).2)

/-- `O'` contains `O`: its connections and file objects are among those of `O'`, with the same methods, and URIs of `Here` get
    such connections -/
structure OpsIn {σ τ : Type} (O : Ops σ) (O' : Ops τ) extends Lens τ σ where
  Here : Uri → Prop
  cn : O.Conn → O'.Conn
  hd : O.Hd → O'.Hd
  div : ∀ {u n v}, Here u → u.div n = .ok v → Here v
  split : ∀ {u v t}, Here u → u.split = .ok (v, t) → Here v
  conn : ∀ {u}, Here u → O'.conn u = toLens.up (O.conn u >>= fun c => pure (cn c))
  hook : ∀ c u m, O'.hook (cn c) u m = toLens.up (O.hook c u m)
  exists_ : ∀ c u, O'.exists_ (cn c) u = toLens.up (O.exists_ c u)
  isfile : ∀ c u, O'.isfile (cn c) u = toLens.up (O.isfile c u)
  isdir : ∀ c u, O'.isdir (cn c) u = toLens.up (O.isdir c u)
  islink : ∀ c u, O'.islink (cn c) u = toLens.up (O.islink c u)
  readlink : ∀ c u, O'.readlink (cn c) u = toLens.up (O.readlink c u)
  symlink : ∀ c t u, O'.symlink (cn c) t u = toLens.up (O.symlink c t u)
  listdir : ∀ c u, O'.listdir (cn c) u = toLens.up (O.listdir c u)
  mkdir : ∀ c u, O'.mkdir (cn c) u = toLens.up (O.mkdir c u)
  removefile : ∀ c u, O'.removefile (cn c) u = toLens.up (O.removefile c u)
  removedir : ∀ c u, O'.removedir (cn c) u = toLens.up (O.removedir c u)
  copystat : ∀ c u v, O'.copystat (cn c) u v = toLens.up (O.copystat c u v)
  openR : ∀ c u, O'.openR (cn c) u = toLens.up (O.openR c u >>= fun h => pure (hd h))
  openW : ∀ c u, O'.openW (cn c) u = toLens.up (O.openW c u >>= fun h => pure (hd h))
  pump : ∀ a b, O'.pump (hd a) (hd b) = toLens.up (O.pump a b)
  blocks : ∀ a, O'.blocks (hd a) = toLens.up (O.blocks a)
  moveSelf : ∀ c u v, O'.moveSelf (cn c) u v = (O.moveSelf c u v).map toLens.up

section
variable {σ τ : Type} (L : Lens τ σ)

theorem up_bind {α β : Type} {a : OM σ α} {f : α → OM τ β} {g : α → OM σ β} (hf : ∀ x, f x = L.up (g x)) :
    (L.up a >>= f) = L.up (a >>= g) := by
  funext s
  show OM.bnd (L.up a) f s = L.up (OM.bnd a g) s
  simp only [OM.bnd, Lens.up]
  cases h : a (L.get s) with
  | mk x w => cases x with
    | error e => rfl
    | ok x =>
      show f x (L.put s w) = _
      rw [hf x]
      simp only [Lens.up, L.get_put, L.put_put]

theorem up_pure {α : Type} (a : α) : (pure a : OM τ α) = L.up (pure a) := by
  funext s
  show (Except.ok a, s) = (Except.ok a, L.put s (L.get s))
  rw [L.put_get]

theorem up_raise {α : Type} (e : PyErr) : (raise e : OM τ α) = L.up (raise e) := by
  funext s
  show (Except.error e, s) = (Except.error e, L.put s (L.get s))
  rw [L.put_get]

theorem up_lift {α : Type} (x : Except PyErr α) : (OM.lift x : OM τ α) = L.up (OM.lift x) := by
  funext s
  show (x, s) = (x, L.put s (L.get s))
  rw [L.put_get]

theorem up_lift_bind {α β : Type} {x : Except PyErr α} {f : α → OM τ β} {g : α → OM σ β}
    (h : ∀ a, x = .ok a → f a = L.up (g a)) : (OM.lift x >>= f) = L.up (OM.lift x >>= g) := by
  cases x with
  | error e => exact up_raise L e
  | ok a => exact h a rfl

theorem up_ite {α : Type} {c : Prop} [Decidable c] {a a' : OM τ α} {b b' : OM σ α} (h : c → a = L.up b) (h' : ¬ c → a' = L.up b') :
    (if c then a else a') = L.up (if c then b else b') := by
  split
  · exact h ‹_›
  · exact h' ‹_›

theorem up_mapM {α β : Type} {f : α → OM τ β} {g : α → OM σ β} (h : ∀ x, f x = L.up (g x)) (l : List α) :
    l.mapM f = L.up (l.mapM g) := by
  induction l with
  | nil => exact up_pure L _
  | cons x l ih =>
    rw [List.mapM_cons, List.mapM_cons, h x, ih]
    exact up_bind L fun a => up_bind L fun b => up_pure L _

theorem up_forM {α : Type} {f : α → OM τ Unit} {g : α → OM σ Unit} (h : ∀ x, f x = L.up (g x)) (l : List α) :
    l.forM f = L.up (l.forM g) := by
  induction l with
  | nil => exact up_pure L _
  | cons x l ih =>
    show (f x >>= fun _ => l.forM f) = L.up (g x >>= fun _ => l.forM g)
    rw [h x]
    exact up_bind L fun _ => ih

end

namespace OpsIn
variable {σ τ : Type} {O : Ops σ} {O' : Ops τ} (Q : OpsIn O O')

theorem withConn {α : Type} {u : Uri} (h : Q.Here u) (m : Meth) {f : O'.Conn → OM τ α} {g : O.Conn → OM σ α}
    (hf : ∀ c, f (Q.cn c) = Q.up (g c)) : Any.withConn O' u m f = Q.up (Any.withConn O u m g) := by
  unfold Any.withConn
  rw [Q.conn h]
  rw [show (O.conn u >>= fun c => O.hook c u m >>= fun _ => g c) = O.conn u >>= fun c => (pure c >>= fun c => O.hook c u m >>= fun _ => g c) from rfl]
  funext s
  show OM.bnd (Q.up (OM.bnd (O.conn u) fun c => OM.ret (Q.cn c))) _ s = Q.up (OM.bnd (O.conn u) _) s
  simp only [OM.bnd, Lens.up]
  cases hc : O.conn u (Q.get s) with
  | mk x w => cases x with
    | error e => rfl
    | ok c =>
      show OM.bnd (O'.hook (Q.cn c) u m) (fun _ => f (Q.cn c)) (Q.put s w) = _
      rw [Q.hook, hf c]
      have := congrFun (up_bind Q.toLens (a := O.hook c u m) (f := fun _ => Q.up (g c)) (g := fun _ => g c) fun _ => rfl) (Q.put s w)
      refine this.trans ?_
      simp only [Lens.up, Q.get_put, Q.put_put]
      rfl

theorem uExists {u : Uri} (h : Q.Here u) : Any.uExists O' u = Q.up (Any.uExists O u) := Q.withConn h _ fun _ => Q.exists_ _ _
theorem uIsfile {u : Uri} (h : Q.Here u) : Any.uIsfile O' u = Q.up (Any.uIsfile O u) := Q.withConn h _ fun _ => Q.isfile _ _
theorem uIsdir {u : Uri} (h : Q.Here u) : Any.uIsdir O' u = Q.up (Any.uIsdir O u) := Q.withConn h _ fun _ => Q.isdir _ _
theorem uIslink {u : Uri} (h : Q.Here u) : Any.uIslink O' u = Q.up (Any.uIslink O u) := Q.withConn h _ fun _ => Q.islink _ _
theorem uReadlink {u : Uri} (h : Q.Here u) : Any.uReadlink O' u = Q.up (Any.uReadlink O u) := Q.withConn h _ fun _ => Q.readlink _ _
theorem uSymlink {u : Uri} (h : Q.Here u) (l : Uri) : Any.uSymlink O' u l = Q.up (Any.uSymlink O u l) :=
  Q.withConn h _ fun _ => Q.symlink _ _ _
theorem uListdir {u : Uri} (h : Q.Here u) : Any.uListdir O' u = Q.up (Any.uListdir O u) := Q.withConn h _ fun _ => Q.listdir _ _
theorem uMkdir {u : Uri} (h : Q.Here u) : Any.uMkdir O' u = Q.up (Any.uMkdir O u) := Q.withConn h _ fun _ => Q.mkdir _ _
theorem uCopystat {u : Uri} (h : Q.Here u) (v : Uri) : Any.uCopystat O' u v = Q.up (Any.uCopystat O u v) :=
  Q.withConn h _ fun _ => Q.copystat _ _ _
theorem uOpenR {u : Uri} (h : Q.Here u) : Any.uOpenR O' u = Q.up (Any.uOpenR O u >>= fun a => pure (Q.hd a)) := by
  refine (Q.withConn h _ (g := fun c => O.openR c u >>= fun a => pure (Q.hd a)) fun _ => Q.openR _ _).trans (congrArg Q.up ?_)
  simp only [Any.uOpenR, Any.withConn, bind_assoc]
theorem uOpenW {u : Uri} (h : Q.Here u) : Any.uOpenW O' u = Q.up (Any.uOpenW O u >>= fun a => pure (Q.hd a)) := by
  refine (Q.withConn h _ (g := fun c => O.openW c u >>= fun a => pure (Q.hd a)) fun _ => Q.openW _ _).trans (congrArg Q.up ?_)
  simp only [Any.uOpenW, Any.withConn, bind_assoc]

theorem makedirs (depth : Nat) : ∀ {u}, Q.Here u → Any.makedirs O' depth u = Q.up (Any.makedirs O depth u) := by
  induction depth with
  | zero => intro u _; exact up_raise _ _
  | succ n ih =>
    intro u hu
    unfold Any.makedirs
    rw [Q.uIsdir hu]
    refine up_bind _ fun b => up_ite _ (fun _ => up_pure _ _) fun _ => up_lift_bind _ ?_
    rintro ⟨pth, tail⟩ he
    have hp := Q.split hu he
    show (Any.uIsdir O' pth >>= _) = Q.up (Any.uIsdir O pth >>= _)
    rw [Q.uIsdir hp]
    have hm : (if tail ≠ [] then Any.uMkdir O' u else pure ()) = Q.up (if tail ≠ [] then Any.uMkdir O u else pure ()) :=
      up_ite _ (fun _ => Q.uMkdir hu) fun _ => up_pure _ _
    refine up_bind _ fun d => ?_
    cases d
    · show (Any.makedirs O' n pth >>= fun _ => _) = Q.up (Any.makedirs O n pth >>= fun _ => _)
      rw [ih hp]
      exact up_bind _ fun _ => hm
    · exact hm

theorem uMakedirs (depth : Nat) {u : Uri} (h : Q.Here u) : Any.uMakedirs O' depth u = Q.up (Any.uMakedirs O depth u) :=
  Q.withConn h _ fun _ => Q.makedirs depth h

theorem classify (c : O.Conn) (top : Uri) (l : List Str) : Any.classify O' (Q.cn c) top l = Q.up (Any.classify O c top l) := by
  induction l with
  | nil => exact up_pure _ _
  | cons n l ih =>
    simp only [Any.classify]
    refine up_lift_bind _ fun p _ => ?_
    rw [Q.isdir]
    refine up_bind _ fun d => ?_
    rw [ih]
    refine up_bind _ ?_
    rintro ⟨a, b⟩
    exact up_pure _ _

theorem walkDirs {t : Type} (fl : Bool) {visit : Uri → t → OM τ t} {visit' : Uri → t → OM σ t}
    (hv : ∀ {u}, Q.Here u → ∀ x, visit u x = Q.up (visit' u x)) {top : Uri} (h : Q.Here top) (l : List Str) :
    ∀ x, Any.walkDirs O' fl visit top l x = Q.up (Any.walkDirs O fl visit' top l x) := by
  induction l with
  | nil => intro x; exact up_pure _ _
  | cons n l ih =>
    intro x
    simp only [Any.walkDirs]
    refine up_lift_bind _ fun p he => ?_
    have hp := Q.div h he
    rw [Q.uIslink hp]
    refine up_bind _ fun b => up_ite _ (fun _ => ?_) fun _ => ?_
    · rw [hv hp]
      exact up_bind _ fun y => ih y
    · exact ih x

theorem walk {t : Type} (c : O.Conn) (td fl : Bool) {body : t → Uri → List Str → List Str → OM τ (t × List Str)}
    {body' : t → Uri → List Str → List Str → OM σ (t × List Str)}
    (hb : ∀ {u}, Q.Here u → ∀ x d f, body x u d f = Q.up (body' x u d f)) (depth : Nat) :
    ∀ {top}, Q.Here top → ∀ x, Any.walk O' (Q.cn c) td fl body depth top x = Q.up (Any.walk O c td fl body' depth top x) := by
  induction depth with
  | zero => intro top _ x; exact up_raise _ _
  | succ n ih =>
    intro top ht x
    simp only [Any.walk]
    rw [Q.listdir]
    refine up_bind _ fun names => ?_
    rw [Q.classify]
    refine up_bind _ ?_
    rintro ⟨dirs, nondirs⟩
    refine up_ite _ (fun _ => ?_) fun _ => ?_
    · rw [hb ht]
      refine up_bind _ ?_
      rintro ⟨y, dirs⟩
      exact Q.walkDirs fl (fun hu x => ih hu x) ht dirs y
    · rw [Q.walkDirs fl (fun hu x => ih hu x) ht dirs x]
      refine up_bind _ fun y => ?_
      rw [hb ht]
      refine up_bind _ ?_
      rintro ⟨z, _⟩
      exact up_pure _ _

theorem uWalk (depth : Nat) {u : Uri} (h : Q.Here u) (td fl : Bool) : Any.uWalk O' depth u td fl = Q.up (Any.uWalk O depth u td fl) :=
  Q.withConn h _ fun _ => Q.walk _ _ _ (fun _ _ _ _ => up_pure _ _) _ h _

theorem uGlob {u : Uri} (h : Q.Here u) (m : Str → Bool) : Any.uGlob O' u m = Q.up (Any.uGlob O u m) := by
  refine Q.withConn h _ fun _ => ?_
  rw [Q.uListdir h]
  exact up_bind _ fun _ => up_mapM _ (fun _ => up_lift _ _) _

theorem removeBody (c : O.Conn) (top : Uri) (d f : List Str) :
    Any.removeBody O' (Q.cn c) top d f = Q.up (Any.removeBody O c top d f) := by
  unfold Any.removeBody
  have h1 : ∀ x, (do let p ← OM.lift (top.div x); O'.removefile (Q.cn c) p : OM τ Unit) =
      Q.up (do let p ← OM.lift (top.div x); O.removefile c p) := fun x => up_lift_bind _ fun p _ => Q.removefile _ _
  have h2 : ∀ x, (do let p ← OM.lift (top.div x); if ← O'.islink (Q.cn c) p then O'.removefile (Q.cn c) p else O'.removedir (Q.cn c) p : OM τ Unit) =
      Q.up (do let p ← OM.lift (top.div x); if ← O.islink c p then O.removefile c p else O.removedir c p) := by
    intro x
    refine up_lift_bind _ fun p _ => ?_
    rw [Q.islink]
    exact up_bind _ fun b => up_ite _ (fun _ => Q.removefile _ _) fun _ => Q.removedir _ _
  rw [up_forM _ h1]
  exact up_bind _ fun _ => up_forM _ h2 _

theorem removeDirRec (depth : Nat) (c : O.Conn) {u : Uri} (h : Q.Here u) :
    Any.removeDirRec O' depth (Q.cn c) u = Q.up (Any.removeDirRec O depth c u) := by
  unfold Any.removeDirRec
  rw [Q.walk c false false (body' := fun (_ : Unit) top dirs files => do
    Any.removeBody O c top dirs files
    pure ((), dirs)) (fun {top} _ _ d f => by rw [Q.removeBody]; exact up_bind _ fun _ => up_pure _ _) depth h ()]
  refine up_bind _ fun _ => ?_
  rw [Q.islink]
  exact up_bind _ fun b => up_ite _ (fun _ => Q.removefile _ _) fun _ => Q.removedir _ _

theorem uRemove (depth : Nat) {u : Uri} (h : Q.Here u) (rec : Bool) : Any.uRemove O' depth u rec = Q.up (Any.uRemove O depth u rec) := by
  refine Q.withConn h _ fun c => ?_
  rw [Q.islink]
  refine up_bind _ fun b => up_ite _ (fun _ => Q.removefile _ _) fun _ => ?_
  rw [Q.exists_]
  refine up_bind _ fun b => up_ite _ (fun _ => up_raise _ _) fun _ => ?_
  rw [Q.isdir]
  refine up_bind _ fun b => up_ite _ (fun _ => up_ite _ (fun _ => Q.removeDirRec _ _ h) fun _ => Q.removedir _ _) fun _ => ?_
  rw [Q.isfile]
  exact up_bind _ fun b => up_ite _ (fun _ => Q.removefile _ _) fun _ => up_pure _ _

theorem copyContent {u v : Uri} (h : Q.Here u) (h' : Q.Here v) : Any.copyContent O' u v = Q.up (Any.copyContent O u v) := by
  unfold Any.copyContent
  rw [Q.uOpenR h, Q.uOpenW h']
  have e : (Any.uOpenR O u >>= fun a => Any.uOpenW O v >>= fun b => O.pump a b) = ((Any.uOpenR O u >>= fun a => pure a) >>= fun a => (Any.uOpenW O v >>= fun b => pure b) >>= fun b => O.pump a b) := by
    simp only [bind_pure]
  funext s
  simp only [Lens.up]
  show OM.bnd (Q.up (OM.bnd (Any.uOpenR O u) fun a => OM.ret (Q.hd a))) _ s = Q.up (OM.bnd (Any.uOpenR O u) fun a => OM.bnd (Any.uOpenW O v) fun b => O.pump a b) s
  simp only [OM.bnd, Lens.up, OM.ret]
  cases hc : Any.uOpenR O u (Q.get s) with
  | mk x w => cases x with
    | error e => rfl
    | ok a =>
      show OM.bnd (Q.up (OM.bnd (Any.uOpenW O v) fun a => OM.ret (Q.hd a))) (fun b => O'.pump (Q.hd a) b) (Q.put s w) = _
      simp only [OM.bnd, Lens.up, OM.ret, Q.get_put, Q.put_put]
      cases hd : Any.uOpenW O v w with
      | mk y w' => cases y with
        | error e => rfl
        | ok b =>
          show O'.pump (Q.hd a) (Q.hd b) (Q.put s w') = _
          rw [Q.pump]
          simp only [Lens.up, Q.get_put, Q.put_put]

theorem copyLink (c : O.Conn) (u : Uri) {v : Uri} (h' : Q.Here v) : Any.copyLink O' (Q.cn c) u v = Q.up (Any.copyLink O c u v) := by
  unfold Any.copyLink
  have h2 : (O'.readlink (Q.cn c) u >>= fun t => O'.symlink (Q.cn c) t v) = Q.up (O.readlink c u >>= fun t => O.symlink c t v) := by
    rw [Q.readlink]
    exact up_bind _ fun _ => Q.symlink _ _ _
  have h3 : (Any.uIsfile O' v >>= fun b => (if b = true then O'.removefile (Q.cn c) v >>= fun _ => (O'.readlink (Q.cn c) u >>= fun t => O'.symlink (Q.cn c) t v) else (O'.readlink (Q.cn c) u >>= fun t => O'.symlink (Q.cn c) t v))) =
      Q.up (Any.uIsfile O v >>= fun b => (if b = true then O.removefile c v >>= fun _ => (O.readlink c u >>= fun t => O.symlink c t v) else (O.readlink c u >>= fun t => O.symlink c t v))) := by
    rw [Q.uIsfile h']
    refine up_bind _ fun b => up_ite _ (fun _ => ?_) fun _ => h2
    rw [Q.removefile]
    exact up_bind _ fun _ => h2
  rw [Q.islink]
  refine up_bind _ fun b => ?_
  cases b
  · exact up_raise _ _
  · exact h3

theorem copyOne (c : O.Conn) {u v : Uri} (h : Q.Here u) (h' : Q.Here v) (fl : Bool) :
    Any.copyOne O' (Q.cn c) u v fl = Q.up (Any.copyOne O c u v fl) := by
  unfold Any.copyOne
  rw [Q.uIslink h]
  refine up_bind _ fun b => up_ite _ (fun _ => Q.copyLink c u h') fun _ => ?_
  rw [Q.copyContent h h']
  exact up_bind _ fun _ => up_ite _ (fun _ => Q.copystat _ _ _) fun _ => up_pure _ _

theorem copyDirs (depth : Nat) (c : O.Conn) (ig : List Str) (fl : Bool) {top dbase : Uri} (h : Q.Here top) (h' : Q.Here dbase) (l : List Str) :
    ∀ dirs, Any.copyDirs O' depth (Q.cn c) ig fl top dbase l dirs = Q.up (Any.copyDirs O depth c ig fl top dbase l dirs) := by
  induction l with
  | nil => intro d; exact up_pure _ _
  | cons n l ih =>
    intro d
    simp only [Any.copyDirs]
    refine up_ite _ (fun _ => ih _) fun _ => up_lift_bind _ fun dd e1 => up_lift_bind _ fun sp e2 => ?_
    have hd := Q.div h' e1
    have hs := Q.div h e2
    rw [Q.uIslink hs]
    refine up_bind _ fun b => up_ite _ (fun _ => ?_) fun _ => ?_
    · rw [Q.copyLink c sp hd]
      exact up_bind _ fun _ => ih _
    · rw [Q.uMakedirs depth hd]
      exact up_bind _ fun _ => ih _

theorem copyFiles (c : O.Conn) (fl : Bool) {top dbase : Uri} (h : Q.Here top) (h' : Q.Here dbase) (l : List Str) :
    Any.copyFiles O' (Q.cn c) fl top dbase l = Q.up (Any.copyFiles O c fl top dbase l) := by
  induction l with
  | nil => exact up_pure _ _
  | cons n l ih =>
    simp only [Any.copyFiles]
    refine up_lift_bind _ fun a e1 => up_lift_bind _ fun b e2 => ?_
    rw [Q.copyOne c (Q.div h e1) (Q.div h' e2)]
    exact up_bind _ fun _ => ih

theorem copyBody (depth : Nat) (c : O.Conn) (ig : List Str) (fl : Bool) (n : Nat) {droot top : Uri} (h' : Q.Here droot) (h : Q.Here top)
    (dirs files : List Str) :
    Any.copyBody O' depth (Q.cn c) ig fl n droot top dirs files = Q.up (Any.copyBody O depth c ig fl n droot top dirs files) := by
  unfold Any.copyBody
  have key : ∀ {db}, Q.Here db → (Any.copyDirs O' depth (Q.cn c) ig fl top db dirs dirs >>= fun d => Any.copyFiles O' (Q.cn c) fl top db files >>= fun _ => pure d) =
      Q.up (Any.copyDirs O depth c ig fl top db dirs dirs >>= fun d => Any.copyFiles O c fl top db files >>= fun _ => pure d) := by
    intro db hd
    rw [Q.copyDirs depth c ig fl h hd]
    refine up_bind _ fun d => ?_
    rw [Q.copyFiles c fl h hd]
    exact up_bind _ fun _ => up_pure _ _
  refine up_ite _ (fun _ => up_lift_bind _ fun db e => key (Q.div h' e)) fun _ => key h'

theorem copyWalk (depth : Nat) (c : O.Conn) (ig : List Str) (fl : Bool) {u v : Uri} (h : Q.Here u) (h' : Q.Here v) :
    Any.copyWalk O' depth (Q.cn c) ig fl u v = Q.up (Any.copyWalk O depth c ig fl u v) := by
  refine Q.withConn h _ fun r => Q.walk _ _ _ (fun ht _ d f => ?_) _ h _
  rw [Q.copyBody depth c ig fl _ h' ht]
  exact up_bind _ fun _ => up_pure _ _

theorem copy (depth : Nat) (c : O.Conn) {u v : Uri} (h : Q.Here u) (h' : Q.Here v) (rec : Bool) (ig : List Str) (fl : Bool) :
    Any.copy O' depth (Q.cn c) u v rec ig fl = Q.up (Any.copy O depth c u v rec ig fl) := by
  unfold Any.copy
  have h5 : ∀ {d}, Q.Here d → (Any.uIslink O' u >>= fun l => if (l && !fl) = true then Any.copyLink O' (Q.cn c) u d else
      Any.uMakedirs O' depth d >>= fun _ => Any.copyWalk O' depth (Q.cn c) ig fl u d) =
      Q.up (Any.uIslink O u >>= fun l => if (l && !fl) = true then Any.copyLink O c u d else
      Any.uMakedirs O depth d >>= fun _ => Any.copyWalk O depth c ig fl u d) := by
    intro d hd
    rw [Q.uIslink h]
    refine up_bind _ fun _ => up_ite _ (fun _ => Q.copyLink c u hd) fun _ => ?_
    rw [Q.uMakedirs depth hd]
    exact up_bind _ fun _ => Q.copyWalk depth c ig fl h hd
  rw [Q.uExists h]
  refine up_bind _ fun b => ?_
  cases b
  · exact up_raise _ _
  · cases rec
    · show (Any.uIsfile O' u >>= fun _ => _) = Q.up (Any.uIsfile O u >>= fun _ => _)
      rw [Q.uIsfile h]
      refine up_bind _ fun b => ?_
      cases b
      · exact up_raise _ _
      · show (Any.uIsdir O' v >>= fun _ => _) = Q.up (Any.uIsdir O v >>= fun _ => _)
        rw [Q.uIsdir h']
        refine up_bind _ fun b => ?_
        cases b
        · exact Q.copyOne c h h' fl
        · exact up_lift_bind _ fun x e => Q.copyOne c h (Q.div h' e) fl
    · show (Any.uIsdir O' u >>= fun _ => _) = Q.up (Any.uIsdir O u >>= fun _ => _)
      rw [Q.uIsdir h]
      refine up_bind _ fun b => ?_
      cases b
      · exact up_raise _ _
      · show (Any.uIsdir O' v >>= fun _ => _) = Q.up (Any.uIsdir O v >>= fun _ => _)
        rw [Q.uIsdir h']
        refine up_bind _ fun b => ?_
        cases b
        · exact h5 h'
        · exact up_lift_bind _ fun x e => h5 (Q.div h' e)

theorem uCopy (depth : Nat) {u v : Uri} (h : Q.Here u) (h' : Q.Here v) (rec : Bool) (ig : List Str) (fl : Bool) :
    Any.uCopy O' depth u v rec ig fl = Q.up (Any.uCopy O depth u v rec ig fl) :=
  Q.withConn h _ fun c => Q.copy depth c h h' rec ig fl

theorem uMove (depth : Nat) {u v : Uri} (h : Q.Here u) (h' : Q.Here v) : Any.uMove O' depth u v = Q.up (Any.uMove O depth u v) := by
  refine Q.withConn h _ fun c => ?_
  rw [Q.moveSelf]
  cases O.moveSelf c u v with
  | some m => rfl
  | none =>
    show Any.move O' depth u v = Q.up (Any.move O depth u v)
    unfold Any.move
    rw [Q.uIsfile h]
    refine up_bind _ fun b => up_ite _ (fun _ => ?_) fun _ => ?_ <;>
      (rw [Q.uCopy depth h h']; exact up_bind _ fun _ => Q.uRemove depth h _)

theorem uMd5 {u : Uri} (h : Q.Here u) : Any.uMd5 O' u = Q.up (Any.uMd5 O u) := by
  refine Q.withConn h _ fun _ => ?_
  rw [Q.uOpenR h]
  funext s
  show OM.bnd (Q.up (OM.bnd (Any.uOpenR O u) fun a => OM.ret (Q.hd a))) _ s = Q.up (OM.bnd (Any.uOpenR O u) fun a => O.blocks a) s
  simp only [OM.bnd, Lens.up, OM.ret]
  cases hc : Any.uOpenR O u (Q.get s) with
  | mk x w => cases x with
    | error e => rfl
    | ok a =>
      show O'.blocks (Q.hd a) (Q.put s w) = _
      rw [Q.blocks]
      simp only [Lens.up, Q.get_put, Q.put_put]

end OpsIn
end Verif.Any
