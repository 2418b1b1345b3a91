import Verif.Any.PartSys
import Verif.Any.Plain
/-!
# The local backend alone

The table of operations of localfs.py without the memory backend (`locOps`), and that it is a part of `sysOps`.
-/
namespace Verif.Any
open Spec

/-- `os.path.exists`, `isfile`, `isdir` (`fl`) and `islink`: localfs.py:106-116, 164-165 -/
def dAsk (fl : Bool) (f : Option DObj → Bool) (u : Uri) : OM Disk Bool := fun d => (.ok (f (d.stat fl u.path)), d)

/-- localfs.py:129-150 `move`, where the destination is local -/
def dMove (source dest : Uri) : OM Disk Unit := do
  let a ← dAsk true isDirD source
  let b ← dAsk true isDirD dest
  let dest ← if a && b then do
      let n ← OM.lift source.basename
      OM.lift (dest.div n)
    else pure dest
  shutilMove source.path dest.path

/-- `shutil.copyfileobj(infs, outfs, 8192)`, at most `n` rounds -/
def dPumpLoop (inf outf : Nat) : Nat → OM Disk Unit
  | 0 => OM.raise .hang
  | n + 1 => do
    let b ← fdRead inf 8192
    if b.isEmpty then pure ()
    else
      fdWrite outf b
      dPumpLoop inf outf n

/-- fs.py:795-799 the loop feeding the hash, at most `n` rounds -/
def dBlockLoop (h : Nat) : Nat → OM Disk (List Bytes)
  | 0 => OM.raise .hang
  | n + 1 => do
    let b ← fdRead h 4096
    if b = [] then pure []
    else
      let r ← dBlockLoop h n
      pure (b :: r)

/-- fs.py:82-131 with the backend of localfs.py only -/
def locConn (u : Uri) : OM Disk Unit :=
  if u.allExtras.any (fun kv => kv.1 ∈ Mem.reservedNames) then OM.raise .typeError
  else if u.scheme = some cl!"file" then pure ()
  else OM.raise .noScheme

/-- localfs.py:78-185 on a platform with symbolic links -/
def locOps : Ops Disk where
  Conn := Unit
  Hd := Nat
  conn := locConn
  hook _ _ _ := pure ()
  exists_ _ u := dAsk true Option.isSome u
  isfile _ u := dAsk true isFileD u
  isdir _ u := dAsk true isDirD u
  islink _ u := dAsk false isLinkD u
  readlink _ u := do
    let t ← osReadlink u.path
    OM.lift (URI t)
  symlink _ t u := osSymlink t.path u.path
  listdir _ u := do
    let l ← osListdir u.path
    pure (sortStr l)
  mkdir _ u := if u.path = [] then pure () else osMkdir u.path
  removefile _ u := osUnlink u.path
  removedir _ u := do
    if ← dAsk false isLinkD u then OM.raise .assertionError
    osRmdir u.path
  copystat _ u v := osCopystat u.path v.path
  openR _ u := osOpenR u.path
  openW _ u := osOpenW u.path
  pump a b := do
    let n ← fdSize a
    dPumpLoop a b (n + 1)
  blocks a := do
    let n ← fdSize a
    dBlockLoop a (n + 1)
  moveSelf _ u v := if v.scheme = some cl!"file" then some (dMove u v) else none

/-- `with u.open('rb') as f: return f.read()`, in the local backend -/
def locRead (u : Uri) : OM Disk Bytes := do
  let h ← uOpenR locOps u
  let n ← fdSize h
  fdRead h n

/-- writing one piece after the other -/
def locWrites (h : Nat) : List Bytes → OM Disk Unit
  | [] => pure ()
  | b :: l => do
    fdWrite h b
    locWrites h l

/-- `with u.open('wb') as f: for b in chunks: f.write(b)`, in the local backend -/
def locWrite (u : Uri) (chunks : List Bytes) : OM Disk Unit := do
  let h ← uOpenW locOps u
  locWrites h chunks

/-- the part of the state that belongs to the local backend -/
def locLens : Lens Sys Disk := ⟨Sys.disk, fun s a => { s with disk := a }, fun _ _ => rfl, fun _ => rfl, fun _ _ _ => rfl⟩

theorem up_map_bind {σ τ α β γ : Type} (L : Lens τ σ) {a : OM σ α} {f : α → β} {k : β → OM τ γ} {g : α → OM σ γ}
    (h : ∀ x, k (f x) = L.up (g x)) : (L.up (a >>= fun x => pure (f x)) >>= k) = L.up (a >>= g) := by
  funext s
  show OM.bnd (L.up (OM.bnd a fun x => OM.ret (f x))) k s = L.up (OM.bnd a g) s
  simp only [OM.bnd, Lens.up, OM.ret]
  cases a (L.get s) with
  | mk x w => cases x with
    | error e => rfl
    | ok x =>
      simp only []
      rw [h x]
      unfold Lens.up
      rw [L.get_put, L.put_put]

theorem hRead_loc (n : Nat) (fd : Nat) : hRead n (.loc fd) = locLens.up (fdRead fd n >>= fun b => pure (Mem.PyData.bytes b)) :=
  up_bind (L := locLens) (a := fdRead fd n) (g := fun b => pure (Mem.PyData.bytes b)) fun _ => up_pure locLens _

theorem pump_loc (a b : Nat) : pump (.loc a) (.loc b) = locLens.up (locOps.pump a b) := by
  have h : ∀ n, pumpLoop (.loc a) (.loc b) n = locLens.up (dPumpLoop a b n) := by
    intro n
    induction n with
    | zero => exact up_raise locLens _
    | succ n ih =>
      simp only [pumpLoop, dPumpLoop]
      rw [hRead_loc]
      refine up_map_bind locLens fun x => up_ite locLens (fun _ => up_pure locLens _) fun _ => ?_
      rw [ih]
      exact up_bind (L := locLens) (a := fdWrite b x) (g := fun _ => dPumpLoop a b n) fun _ => rfl
  exact up_bind (L := locLens) (a := fdSize a) (g := fun n => dPumpLoop a b (n + 1)) fun n => h _

theorem blocks_loc (a : Nat) : blocks (.loc a) = locLens.up (locOps.blocks a) := by
  have h : ∀ n, blockLoop (.loc a) n = locLens.up (dBlockLoop a n) := by
    intro n
    induction n with
    | zero => exact up_raise locLens _
    | succ n ih =>
      simp only [blockLoop, dBlockLoop]
      rw [hRead_loc]
      refine up_map_bind locLens fun x => up_ite locLens (fun _ => up_pure locLens _) fun _ => ?_
      rw [ih]
      exact up_bind locLens fun _ => up_pure locLens _
  exact up_bind (L := locLens) (a := fdSize a) (g := fun n => dBlockLoop a (n + 1)) fun n => h _

theorem move_loc (u v : Uri) : locMove u v = locLens.up (dMove u v) := by
  refine up_bind (L := locLens) (a := dAsk true isDirD u) fun x => ?_
  refine up_bind (L := locLens) (a := dAsk true isDirD v) fun y => ?_
  cases x && y with
  | true =>
    show (OM.lift u.basename >>= fun n => OM.lift (v.div n) >>= fun d => onDisk (shutilMove u.path d.path)) =
      locLens.up (OM.lift u.basename >>= fun n => OM.lift (v.div n) >>= fun d => shutilMove u.path d.path)
    exact up_lift_bind locLens fun _ _ => up_lift_bind locLens fun _ _ => rfl
  | false => rfl

/-- `sysOps` contains `locOps` -/
def locPart : OpsIn locOps sysOps where
  toLens := locLens
  Here := StaysIn False
  cn _ := Conn.loc
  hd := Hd.loc
  div := StaysIn.div
  split := StaysIn.split
  conn := by
    intro u hu
    show sysConn u = locLens.up (locConn u >>= fun _ => pure Conn.loc)
    unfold sysConn locConn
    by_cases h : (u.allExtras.any fun kv => kv.1 ∈ Mem.reservedNames) = true
    · rw [if_pos h, if_pos h]
      rfl
    · rw [if_neg h, if_neg h]
      by_cases hf : u.scheme = some cl!"file"
      · rw [if_pos hf, if_pos hf]; rfl
      · rw [if_neg hf, if_neg hf]
        have e : ∀ w, Mem.getConnection u w = (.error .noScheme, w) := by
          intro w
          unfold Mem.getConnection
          rw [if_neg h]
          rcases hu.scheme with ⟨hx, _⟩ | hs | hs | ⟨hs, _⟩
          · exact hx.elim
          · rw [hs, if_neg (by decide), if_neg (by decide)]
          · rw [hs, if_neg (by decide), if_neg (by decide)]
          · exact absurd hs hf
        funext s
        show OM.bnd (onMem (Mem.getConnection u)) (fun r => OM.ret (Conn.mem r)) s = (.error .noScheme, s)
        unfold OM.bnd onMem
        rw [e]
  hook _ _ _ := rfl
  exists_ _ _ := rfl
  isfile _ _ := rfl
  isdir _ _ := rfl
  islink _ _ := rfl
  readlink _ _ := up_bind locLens fun _ => up_lift locLens _
  symlink _ _ _ := rfl
  listdir _ _ := up_bind locLens fun _ => up_pure locLens _
  mkdir _ _ := up_ite locLens (fun _ => up_pure locLens _) fun _ => rfl
  removefile _ _ := rfl
  removedir _ u := by
    refine up_bind (L := locLens) (a := dAsk false isLinkD u) fun b => ?_
    cases b with
    | true => rfl
    | false => rfl
  copystat _ _ _ := rfl
  openR _ _ := up_bind locLens fun _ => up_pure locLens _
  openW _ _ := up_bind locLens fun _ => up_pure locLens _
  pump := pump_loc
  blocks := blocks_loc
  moveSelf _ u v := by
    show (if v.scheme = some cl!"file" then some (locMove u v) else none) = (if v.scheme = some cl!"file" then some (dMove u v) else none).map _
    split
    · rw [move_loc]; rfl
    · rfl

theorem hBytes_loc (n a : Nat) : (do
    match ← hRead n (.loc a) with
    | .bytes b => pure b
    | .str _ => OM.raise .typeError) = locLens.up (fdRead a n) := by
  funext s
  show OM.bnd (OM.bnd (onDisk (fdRead a n)) fun b => OM.ret (Mem.PyData.bytes b)) _ s = _
  unfold OM.bnd onDisk Lens.up
  simp only [show locLens.get s = s.disk from rfl]
  cases fdRead a n s.disk with
  | mk x w => cases x <;> rfl

theorem locRead_part {u : Uri} (h : StaysIn False u) : sRead u = locLens.up (locRead u) := by
  unfold sRead locRead
  rw [locPart.uOpenR h]
  refine up_map_bind locLens fun a => ?_
  refine up_bind (L := locLens) (a := fdSize a) fun n => ?_
  exact hBytes_loc n a

theorem locWrites_part (a : Nat) (l : List Bytes) : sWrites (.loc a) l = locLens.up (locWrites a l) := by
  induction l with
  | nil => exact up_pure locLens _
  | cons b l ih =>
    simp only [sWrites, locWrites]
    rw [ih]
    exact up_bind (L := locLens) (a := fdWrite a b) (g := fun _ => locWrites a l) fun _ => rfl

theorem locWrite_part {u : Uri} (h : StaysIn False u) (l : List Bytes) : sWrite u l = locLens.up (locWrite u l) := by
  unfold sWrite locWrite
  rw [locPart.uOpenW h]
  exact up_map_bind locLens fun a => locWrites_part a l

end Verif.Any
