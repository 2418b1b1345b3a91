import Verif.Any.Part
import Verif.Any.PartUri
import Verif.Any.Many
/-!
# Programs over a table that contains another one
-/
namespace Verif.Any

variable {ι κ : Type}

/-- a call in the file systems at `site k`, with the table `O`; `rd` and `wr` read and write a whole file -/
def Acts.over {σ : Type} (O : Ops σ) (rd : Uri → OM σ Bytes) (wr : Uri → List Bytes → OM σ Unit) (E : ι → Dict) (site : κ → Option ι)
    (depth : Nat) : Acts κ → OM σ Ans
  | .one k a => a.over O (siteAt E (site k)) rd wr (uMove O) depth
  | .copy k p k' q b ig fl => do uCopy O depth (siteAt E (site k) p) (siteAt E (site k') q) b ig fl; pure .unit
  | .move k p k' q => do uMove O depth (siteAt E (site k) p) (siteAt E (site k') q); pure .unit

theorem acts_over_sys (E : ι → Dict) (site : κ → Option ι) (depth : Nat) (a : Acts κ) :
    a.over sysOps sRead sWrite E site depth = a.run E site depth := by cases a <;> rfl

theorem stays_site (E : ι → Dict) (k : Option ι) (p : List Str) : Stays (siteAt E k p) := by
  have hp : LocalText (Spec.pathOf p) := by
    cases p with
    | nil => exact .inl ⟨_, rfl⟩
    | cons c cs => exact .inl ⟨c ++ Spec.slash cs, rfl⟩
  cases k with
  | none => exact ⟨.inr ⟨Spec.pathOf p, hp, .inl rfl⟩, .inr (.inr (.inr ⟨rfl, rfl, hp⟩))⟩
  | some i => exact ⟨.inl ⟨cl!"memory", Spec.pathOf p, .inl ⟨trivial, rfl⟩, rfl⟩, .inl ⟨trivial, rfl⟩⟩

section
variable {σ τ : Type} {O : Ops σ} {O' : Ops τ} (Q : OpsIn O O') {rd : Uri → OM σ Bytes} {wr : Uri → List Bytes → OM σ Unit}
  {rd' : Uri → OM τ Bytes} {wr' : Uri → List Bytes → OM τ Unit}

theorem act_over_part (hrd : ∀ {u}, Q.Here u → rd' u = Q.up (rd u)) (hwr : ∀ {u}, Q.Here u → ∀ l, wr' u l = Q.up (wr u l))
    {at_ : List Str → Uri} (hat : ∀ p, Q.Here (at_ p)) (depth : Nat) (a : Act) :
    a.over O' at_ rd' wr' (uMove O') depth = Q.up (a.over O at_ rd wr (uMove O) depth) := by
  cases a <;> simp only [Act.over]
  case exists_ p => rw [Q.uExists (hat p)]; exact up_bind _ fun _ => up_pure _ _
  case isfile p => rw [Q.uIsfile (hat p)]; exact up_bind _ fun _ => up_pure _ _
  case isdir p => rw [Q.uIsdir (hat p)]; exact up_bind _ fun _ => up_pure _ _
  case islink p => rw [Q.uIslink (hat p)]; exact up_bind _ fun _ => up_pure _ _
  case listdir p => rw [Q.uListdir (hat p)]; exact up_bind _ fun _ => up_pure _ _
  case mkdir p => rw [Q.uMkdir (hat p)]; exact up_bind _ fun _ => up_pure _ _
  case makedirs p => rw [Q.uMakedirs depth (hat p)]; exact up_bind _ fun _ => up_pure _ _
  case write p l => rw [hwr (hat p)]; exact up_bind _ fun _ => up_pure _ _
  case read p => rw [hrd (hat p)]; exact up_bind _ fun _ => up_pure _ _
  case md5 p => rw [Q.uMd5 (hat p)]; exact up_bind _ fun _ => up_pure _ _
  case copystat p q => rw [Q.uCopystat (hat p)]; exact up_bind _ fun _ => up_pure _ _
  case remove p b => rw [Q.uRemove depth (hat p)]; exact up_bind _ fun _ => up_pure _ _
  case move p q => rw [Q.uMove depth (hat p) (hat q)]; exact up_bind _ fun _ => up_pure _ _
  case copy p q b ig fl => rw [Q.uCopy depth (hat p) (hat q)]; exact up_bind _ fun _ => up_pure _ _
  case walk p td fl => rw [Q.uWalk depth (hat p)]; exact up_bind _ fun _ => up_pure _ _
  case glob p m => rw [Q.uGlob (hat p)]; exact up_bind _ fun _ => up_pure _ _

theorem acts_over_part (hrd : ∀ {u}, Q.Here u → rd' u = Q.up (rd u)) (hwr : ∀ {u}, Q.Here u → ∀ l, wr' u l = Q.up (wr u l))
    {E : ι → Dict} (hat : ∀ k p, Q.Here (siteAt E k p)) (site : κ → Option ι) (depth : Nat) (a : Acts κ) :
    a.over O' rd' wr' E site depth = Q.up (a.over O rd wr E site depth) := by
  cases a <;> simp only [Acts.over]
  case one k a => exact act_over_part Q hrd hwr (hat _) depth a
  case copy k p k' q b ig fl => rw [Q.uCopy depth (hat _ p) (hat _ q)]; exact up_bind _ fun _ => up_pure _ _
  case move k p k' q => rw [Q.uMove depth (hat _ p) (hat _ q)]; exact up_bind _ fun _ => up_pure _ _

end
end Verif.Any
