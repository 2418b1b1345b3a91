import Verif.Any.PartMem
import Verif.Any.PartLoc
import Verif.Any.ArcLemmas
/-!
# Programs with any URIs

Calls whose arguments are URIs, with whatever text, and programs that decide on the next call by the answers before it.
-/
namespace Verif.Any

/-- what a call answers -/
inductive Rep
  | unit
  | bool (b : Bool)
  | names (l : List Str)
  | bytes (b : Bytes)
  | blocks (l : List Bytes)
  | uri (u : Uri)
  | uris (l : List Uri)
  | rows (l : List (Uri × List Str × List Str))
  | parts (u : Uri) (n : Str)
  deriving DecidableEq

/-- a call with URIs -/
inductive Req
  | exists_ (u : Uri)
  | isfile (u : Uri)
  | isdir (u : Uri)
  | islink (u : Uri)
  | readlink (u : Uri)
  | symlink (u link : Uri)
  | listdir (u : Uri)
  | mkdir (u : Uri)
  | makedirs (u : Uri)
  | read (u : Uri)
  | write (u : Uri) (chunks : List Bytes)
  | md5 (u : Uri)
  | copystat (u v : Uri)
  | remove (u : Uri) (recursive : Bool)
  | copy (u v : Uri) (recursive : Bool) (ignore : List Str) (followlinks : Bool)
  | move (u v : Uri)
  | walk (u : Uri) (topdown followlinks : Bool)
  | glob (u : Uri) (pattern : Str → Bool)
  | join (u : Uri) (n : Str)
  | split (u : Uri)

/-- the URIs that a call is made on or copies to -/
def Req.uses : Req → List Uri
  | .exists_ u | .isfile u | .isdir u | .islink u | .readlink u | .symlink u _ | .listdir u | .mkdir u | .makedirs u | .read u
  | .write u _ | .md5 u | .copystat u _ | .remove u _ | .walk u _ _ | .glob u _ | .join u _ | .split u => [u]
  | .copy u v _ _ _ | .move u v => [u, v]

/-- a call with the backends `O`; `rd` and `wr` read and write a whole file -/
def Req.run {σ : Type} (O : Ops σ) (rd : Uri → OM σ Bytes) (wr : Uri → List Bytes → OM σ Unit) (depth : Nat) : Req → OM σ Rep
  | .exists_ u => do pure (.bool (← uExists O u))
  | .isfile u => do pure (.bool (← uIsfile O u))
  | .isdir u => do pure (.bool (← uIsdir O u))
  | .islink u => do pure (.bool (← uIslink O u))
  | .readlink u => do pure (.uri (← uReadlink O u))
  | .symlink u l => do uSymlink O u l; pure .unit
  | .listdir u => do pure (.names (← uListdir O u))
  | .mkdir u => do uMkdir O u; pure .unit
  | .makedirs u => do uMakedirs O depth u; pure .unit
  | .read u => do pure (.bytes (← rd u))
  | .write u l => do wr u l; pure .unit
  | .md5 u => do pure (.blocks (← uMd5 O u))
  | .copystat u v => do uCopystat O u v; pure .unit
  | .remove u b => do uRemove O depth u b; pure .unit
  | .copy u v b ig fl => do uCopy O depth u v b ig fl; pure .unit
  | .move u v => do uMove O depth u v; pure .unit
  | .walk u td fl => do pure (.rows (← uWalk O depth u td fl))
  | .glob u m => do pure (.uris (← uGlob O u m))
  | .join u n => do pure (.uri (← OM.lift (u.div n)))
  | .split u => do
    let (v, n) ← OM.lift u.split
    pure (.parts v n)

/-- a program decides on the next call by what the calls before it answered -/
def UPrg := List (Except PyErr Rep) → Option Req

/-- the answers of the first `n` calls of a program, and the state after them -/
def UPrg.exec {σ : Type} (step : Req → OM σ Rep) (pr : UPrg) : Nat → σ → List (Except PyErr Rep) × σ
  | 0, s => ([], s)
  | n + 1, s =>
    match pr (pr.exec step n s).1 with
    | none => pr.exec step n s
    | some a => ((pr.exec step n s).1 ++ [(step a (pr.exec step n s).2).1], (step a (pr.exec step n s).2).2)

/-- `with u.open('rb') as f: return f.read()`, in the memory backend -/
def memRead (u : Uri) : OM Mem.World Bytes := do
  let h ← uOpenR memOps u
  let n ← omM h.size
  match ← omM (h.read n) with
  | .bytes b => pure b
  | .str _ => OM.raise .typeError

/-- writing one piece after the other -/
def memWrites (h : Mem.Handle) : List Bytes → OM Mem.World Unit
  | [] => pure ()
  | b :: l => do
    omM (h.write (.bytes b))
    memWrites h l

/-- `with u.open('wb') as f: for b in chunks: f.write(b)`, in the memory backend -/
def memWrite (u : Uri) (chunks : List Bytes) : OM Mem.World Unit := do
  let h ← uOpenW memOps u
  memWrites h chunks

/-! ## Inside of other tables -/

theorem req_part {σ τ : Type} {O : Ops σ} {O' : Ops τ} (Q : OpsIn O O') {rd : Uri → OM σ Bytes} {wr : Uri → List Bytes → OM σ Unit}
    {rd' : Uri → OM τ Bytes} {wr' : Uri → List Bytes → OM τ Unit} (hrd : ∀ {u}, Q.Here u → rd' u = Q.up (rd u))
    (hwr : ∀ {u}, Q.Here u → ∀ l, wr' u l = Q.up (wr u l)) (depth : Nat) (a : Req) (ha : ∀ u ∈ a.uses, Q.Here u) :
    a.run O' rd' wr' depth = Q.up (a.run O rd wr depth) := by
  cases a <;> simp only [Req.run]
  case exists_ u => rw [Q.uExists (ha u (by simp [Req.uses]))]; exact up_bind _ fun _ => up_pure _ _
  case isfile u => rw [Q.uIsfile (ha u (by simp [Req.uses]))]; exact up_bind _ fun _ => up_pure _ _
  case isdir u => rw [Q.uIsdir (ha u (by simp [Req.uses]))]; exact up_bind _ fun _ => up_pure _ _
  case islink u => rw [Q.uIslink (ha u (by simp [Req.uses]))]; exact up_bind _ fun _ => up_pure _ _
  case readlink u => rw [Q.uReadlink (ha u (by simp [Req.uses]))]; exact up_bind _ fun _ => up_pure _ _
  case symlink u l => rw [Q.uSymlink (ha u (by simp [Req.uses]))]; exact up_bind _ fun _ => up_pure _ _
  case listdir u => rw [Q.uListdir (ha u (by simp [Req.uses]))]; exact up_bind _ fun _ => up_pure _ _
  case mkdir u => rw [Q.uMkdir (ha u (by simp [Req.uses]))]; exact up_bind _ fun _ => up_pure _ _
  case makedirs u => rw [Q.uMakedirs depth (ha u (by simp [Req.uses]))]; exact up_bind _ fun _ => up_pure _ _
  case read u => rw [hrd (ha u (by simp [Req.uses]))]; exact up_bind _ fun _ => up_pure _ _
  case write u l => rw [hwr (ha u (by simp [Req.uses]))]; exact up_bind _ fun _ => up_pure _ _
  case md5 u => rw [Q.uMd5 (ha u (by simp [Req.uses]))]; exact up_bind _ fun _ => up_pure _ _
  case copystat u v => rw [Q.uCopystat (ha u (by simp [Req.uses]))]; exact up_bind _ fun _ => up_pure _ _
  case remove u b => rw [Q.uRemove depth (ha u (by simp [Req.uses]))]; exact up_bind _ fun _ => up_pure _ _
  case copy u v b ig fl =>
    rw [Q.uCopy depth (ha u (by simp [Req.uses])) (ha v (by simp [Req.uses]))]; exact up_bind _ fun _ => up_pure _ _
  case move u v =>
    rw [Q.uMove depth (ha u (by simp [Req.uses])) (ha v (by simp [Req.uses]))]; exact up_bind _ fun _ => up_pure _ _
  case walk u td fl => rw [Q.uWalk depth (ha u (by simp [Req.uses]))]; exact up_bind _ fun _ => up_pure _ _
  case glob u m => rw [Q.uGlob (ha u (by simp [Req.uses]))]; exact up_bind _ fun _ => up_pure _ _
  case join u n => exact up_lift_bind _ fun _ _ => up_pure _ _
  case split u => exact up_lift_bind _ fun _ _ => up_pure _ _

/-- a program whose calls in the part all are made on URIs of the part -/
theorem exec_part {σ τ : Type} (L : Lens τ σ) {step : Req → OM σ Rep} {step' : Req → OM τ Rep} (pr : UPrg) (s : τ) (n : Nat)
    (h : ∀ k < n, ∀ a, pr (pr.exec step k (L.get s)).1 = some a → step' a = L.up (step a)) :
    pr.exec step' n s = ((pr.exec step n (L.get s)).1, L.put s (pr.exec step n (L.get s)).2) := by
  induction n with
  | zero => simp only [UPrg.exec]; rw [L.put_get]
  | succ n ih =>
    have ih := ih fun k hk => h k (Nat.lt_succ_of_lt hk)
    simp only [UPrg.exec]
    rw [ih]
    cases hp : pr (pr.exec step n (L.get s)).1 with
    | none => simp only []
    | some a =>
      simp only []
      rw [h n (Nat.lt_succ_self n) a hp]
      unfold Lens.up
      rw [L.get_put, L.put_put]

theorem memRead_part {u : Uri} (h : MemStays u) : sRead u = memLens.up (memRead u) := by
  unfold sRead memRead
  rw [memPart.uOpenR h]
  refine up_map_bind memLens fun a => ?_
  refine up_bind (L := memLens) (a := omM a.size) fun n => ?_
  refine up_bind (L := memLens) (a := omM (a.read n)) fun d => ?_
  cases d with
  | bytes b => exact up_pure memLens _
  | str _ => exact up_raise memLens _

theorem memWrites_part (a : Mem.Handle) (l : List Bytes) : sWrites (.mem a) l = memLens.up (memWrites a l) := by
  induction l with
  | nil => exact up_pure memLens _
  | cons b l ih =>
    simp only [sWrites, memWrites]
    rw [ih]
    exact up_bind (L := memLens) (a := omM (a.write (.bytes b))) (g := fun _ => memWrites a l) fun _ => rfl

theorem memWrite_part {u : Uri} (h : MemStays u) (l : List Bytes) : sWrite u l = memLens.up (memWrite u l) := by
  unfold sWrite memWrite
  rw [memPart.uOpenW h]
  exact up_map_bind memLens fun a => memWrites_part a l

/-! ## What a walk and a search find -/

theorem om_inv {σ α β : Type} {m : OM σ α} {f : α → OM σ β} {s s' : σ} {b : β} (h : (m >>= f) s = (.ok b, s')) :
    ∃ a s1, m s = (.ok a, s1) ∧ f a s1 = (.ok b, s') := by
  change OM.bnd m f s = _ at h
  unfold OM.bnd at h
  cases hm : m s with
  | mk x w => cases x with
    | error e => rw [hm] at h; simp at h
    | ok a => rw [hm] at h; exact ⟨a, w, rfl, h⟩

/-- what holds of a URI and of what it is joined to holds of the URIs that the loop of a walk sees -/
theorem walk_sees {σ : Type} {O : Ops σ} {H : Uri → Prop} (hd : ∀ {u n v}, H u → u.div n = .ok v → H v) {T : Type} {I : T → Prop} (c : O.Conn)
    (td fl : Bool) {body : T → Uri → List Str → List Str → OM σ (T × List Str)}
    (hb : ∀ {u t d f s r s'}, H u → I t → body t u d f s = (.ok r, s') → I r.1) (depth : Nat) :
    ∀ {u}, H u → ∀ {t}, I t → ∀ {s r s'}, walk O c td fl body depth u t s = (.ok r, s') → I r := by
  induction depth with
  | zero => intro u _ t _ s r s' h; simp [walk, OM.raise] at h
  | succ n ih =>
    have hdirs : ∀ (l : List Str) {u}, H u → ∀ {t}, I t → ∀ {s r s'},
        walkDirs O fl (walk O c td fl body n) u l t s = (.ok r, s') → I r := by
      intro l
      induction l with
      | nil => intro u _ t ht s r s' h; cases h; exact ht
      | cons m l ihl =>
        intro u hu t ht s r s' h
        simp only [walkDirs] at h
        obtain ⟨v, s1, h1, h⟩ := om_inv h
        have hv : u.div m = .ok v := by
          unfold OM.lift at h1
          cases hq : u.div m with
          | error e => rw [hq] at h1; simp at h1
          | ok w => rw [hq] at h1; simp at h1; rw [h1.1]
        obtain ⟨b, s2, h2, h⟩ := om_inv h
        split at h
        · obtain ⟨t2, s3, h3, h⟩ := om_inv h
          exact ihl hu (ih (hd hu hv) ht h3) h
        · exact ihl hu ht h
    intro u hu t ht s r s' h
    simp only [walk] at h
    obtain ⟨names, s1, -, h⟩ := om_inv h
    obtain ⟨⟨dirs, nondirs⟩, s2, -, h⟩ := om_inv h
    dsimp only at h
    split at h
    · obtain ⟨⟨t1, d⟩, s3, h3, h⟩ := om_inv h
      exact hdirs d hu (hb hu ht h3) h
    · obtain ⟨t1, s3, h3, h⟩ := om_inv h
      obtain ⟨⟨t2, d⟩, s4, h4, h⟩ := om_inv h
      cases h
      exact hb hu (hdirs dirs hu ht h3) h4

theorem uWalk_sees {σ : Type} {O : Ops σ} {H : Uri → Prop} (hd : ∀ {u n v}, H u → u.div n = .ok v → H v) {depth : Nat} {u : Uri}
    {td fl : Bool} (hu : H u) {s s' : σ} {rows : List (Uri × List Str × List Str)} (h : uWalk O depth u td fl s = (.ok rows, s')) :
    ∀ r ∈ rows, H r.1 := by
  unfold uWalk withConn at h
  obtain ⟨c, s1, -, h⟩ := om_inv h
  obtain ⟨_, s2, -, h⟩ := om_inv h
  refine walk_sees (I := fun t => ∀ r ∈ t, H r.1) hd c td fl (fun {u t d f s r s'} hu ht h => ?_) depth hu (by simp) h
  cases h
  intro r hr
  rcases List.mem_append.1 hr with hr | hr
  · exact ht r hr
  · rw [List.mem_singleton.1 hr]; exact hu

theorem uGlob_sees {σ : Type} {O : Ops σ} {H : Uri → Prop} (hd : ∀ {u n v}, H u → u.div n = .ok v → H v) {u : Uri}
    {m : Str → Bool} (hu : H u) {s s' : σ} {l : List Uri} (h : uGlob O u m s = (.ok l, s')) : ∀ v ∈ l, H v := by
  have this : ∀ (ns : List Str) {l : List Uri} {s s' : σ}, (ns.mapM fun f => OM.lift (u.div f)) s = (.ok l, s') → ∀ v ∈ l, H v := by
    intro ns
    induction ns with
    | nil => intro l s s' h; rw [List.mapM_nil] at h; cases h; simp
    | cons n ns ih =>
      intro l s s' h
      rw [List.mapM_cons] at h
      obtain ⟨v, s4, h1, h⟩ := om_inv h
      have hv : u.div n = .ok v := by
        unfold OM.lift at h1
        cases hq : u.div n with
        | error e => rw [hq] at h1; simp at h1
        | ok w => rw [hq] at h1; simp at h1; rw [h1.1]
      obtain ⟨l', s5, h2, h⟩ := om_inv h
      cases h
      intro x hx
      rcases List.mem_cons.1 hx with rfl | hx
      · exact hd hu hv
      · exact ih h2 x hx
  unfold uGlob withConn at h
  obtain ⟨c, s1, -, h⟩ := om_inv h
  obtain ⟨_, s2, -, h⟩ := om_inv h
  obtain ⟨names, s3, -, h⟩ := om_inv h
  refine this _ h
end Verif.Any
