import Verif.Any.Pump
import Mathlib.Data.Int.Bitwise
/-!
# The executable flag in the memory and the local file systems

`isexec` and `set_exec` on both backends, and what the other calls do to the flags.
-/
namespace Verif.Any
open Verif.Spec Verif.Gen
open Mem (World Becomes FileObj)

/-! ## The calls -/

/-- `st_mode`: the type of the object and its permissions; a link that is followed has none of its own
    (what `stats[stat.ST_MODE]` at localfs.py:70 is; assumed) -/
def DObj.stMode : DObj → Nat
  | .dir p => 0o040000 ||| p
  | .file p _ => 0o100000 ||| p
  | .link _ => 0o120777

/-- `os.stat(p)`, the field ST_MODE (called at localfs.py:65, 70; assumed) -/
def osStatMode (p : Str) : OM Disk Nat := fun d =>
  match d.find true p with
  | .here q =>
    match d.tree q with
    | some o => (.ok o.stMode, d)
    | none => (.error .outside, d)
  | .free _ _ => (.error (.os .ENOENT), d)
  | .fail e => (.error e, d)

/-- `os.chmod(p, m)`: only the lower twelve bits count (called at localfs.py:61; assumed) -/
def osChmod (p : Str) (m : Nat) : OM Disk Unit := fun d =>
  match d.find true p with
  | .here q =>
    match d.tree q with
    | some (.dir _) => (.ok (), d.set q (.dir (m &&& 0o7777)))
    | some (.file _ b) => (.ok (), d.set q (.file (m &&& 0o7777) b))
    | _ => (.error .outside, d)
  | .free _ _ => (.error (.os .ENOENT), d)
  | .fail e => (.error e, d)

/-- localfs.py:52-76 `info(unc).mode`; links are followed, so that what `islink` says is not used (localfs.py:55) -/
def locMode (u : Uri) : OM Sys Nat := do
  let _ ← osAsk false isLinkD u
  onDisk (osStatMode u.path)

/-- localfs.py:52-62 `info(unc, dict(mode=m))` -/
def locSetMode (u : Uri) (m : Nat) : OM Sys Unit := do
  let _ ← osAsk false isLinkD u
  onDisk (osChmod u.path m)

/-- localfs.py:119-120 and memory.py:412-413 -/
def sysIsexec (c : Conn) (u : Uri) (mask : Nat) : OM Sys Bool :=
  match c with
  | .loc => do
    let m ← locMode u
    pure (decide (m &&& mask ≠ 0))
  | .mem r => onMem (Mem.M.query fun w => Mem.isexec w r u mask)

/-- localfs.py:123-126 and memory.py:416-419 -/
def sysSetExec (c : Conn) (u : Uri) (mode : Nat) : OM Sys Unit :=
  match c with
  | .loc => do
    let m ← locMode u
    locSetMode u (Local.clearBits m 0o111 ||| mode)
  | .mem r => onMem (Mem.setExec r u mode)

/-- fs.py:652-665 -/
def uIsexec (u : Uri) (mask : Nat) : OM Sys Bool := withConn sysOps u .isexec fun c => sysIsexec c u mask
/-- fs.py:668-680 -/
def uSetExec (u : Uri) (mode : Nat) : OM Sys Unit := withConn sysOps u .set_exec fun c => sysSetExec c u mode

/-! ## Bits -/

/-- the flags of a mode: the bits for the user, the group and the others -/
def xN (m : Nat) : Nat := m &&& 0o111
/-- the flags of a mode in a memory file system, any whole number -/
def xI (m : Int) : Nat := (Int.land m 0o111).toNat

theorem land_nat (m : Int) (k : Nat) : ∃ x : Nat, Int.land m k = x ∧ ∀ i, x.testBit i = (m.testBit i && k.testBit i) := by
  have h : ∃ x : Nat, Int.land m k = x := by
    cases m with
    | ofNat a => exact ⟨_, rfl⟩
    | negSucc a => exact ⟨_, rfl⟩
  obtain ⟨x, hx⟩ := h
  refine ⟨x, hx, fun i => ?_⟩
  have := Int.testBit_land m k i
  rw [hx] at this
  exact this

theorem testBit_xI (m : Int) (i : Nat) : (xI m).testBit i = (m.testBit i && (0o111 : Nat).testBit i) := by
  obtain ⟨x, h1, h2⟩ := land_nat m 0o111
  have : xI m = x := by
    unfold xI
    rw [show (0o111 : Int) = ((0o111 : Nat) : Int) from rfl, h1]; rfl
  rw [this, h2]

theorem testBit_xN (m i : Nat) : (xN m).testBit i = (m.testBit i && (0o111 : Nat).testBit i) := Nat.testBit_and _ _ _

/-- only flags -/
def Flags (m : Nat) : Prop := m &&& 0o111 = m

theorem Flags.bit {m : Nat} (h : Flags m) (i : Nat) : (m.testBit i && (0o111 : Nat).testBit i) = m.testBit i := by
  rw [← Nat.testBit_and, h]

theorem flags_xN (m : Nat) : Flags (xN m) := by
  unfold Flags xN
  rw [Nat.and_assoc, Nat.and_self]

theorem flags_xI (m : Int) : Flags (xI m) := by
  apply Nat.eq_of_testBit_eq
  intro i
  rw [Nat.testBit_and, testBit_xI, Bool.and_assoc, Bool.and_self]

theorem Flags.lt {m : Nat} (h : Flags m) : m < 256 := by
  have : m ≤ 0o111 := by rw [← h]; exact Nat.and_le_right
  omega

theorem flags_zero : Flags 0 := rfl

theorem xI_zero : xI 0 = 0 := by decide

theorem xI_newMode (o : Int) {m : Nat} (h : Flags m) : xI (Mem.newMode o m) = m := by
  apply Nat.eq_of_testBit_eq
  intro i
  rw [testBit_xI, Mem.newMode, Int.testBit_lor, Int.testBit_land, Int.testBit_lnot]
  have e : (Mem.xMask).testBit i = (0o111 : Nat).testBit i := rfl
  have e2 : (m : Int).testBit i = m.testBit i := rfl
  rw [e, e2, ← h.bit i]
  cases (0o111 : Nat).testBit i <;> cases o.testBit i <;> cases m.testBit i <;> rfl

theorem isexec_xI (m : Int) {k : Nat} (h : Flags k) : decide (Int.land m k ≠ 0) = decide (xI m &&& k ≠ 0) := by
  obtain ⟨x, h1, h2⟩ := land_nat m k
  have : xI m &&& k = x := by
    apply Nat.eq_of_testBit_eq
    intro i
    rw [Nat.testBit_and, testBit_xI, h2, Bool.and_assoc, Bool.and_comm ((0o111 : Nat).testBit i), h.bit]
  rw [h1, this]
  simp

theorem xN_type (a p : Nat) (ha : a &&& 0o111 = 0) {k : Nat} (h : Flags k) : (a ||| p) &&& k = xN p &&& k := by
  apply Nat.eq_of_testBit_eq
  intro i
  have e : (a.testBit i && (0o111 : Nat).testBit i) = false := by rw [← Nat.testBit_and, ha, Nat.zero_testBit]
  rw [Nat.testBit_and, Nat.testBit_and, Nat.testBit_or, testBit_xN, ← h.bit i]
  revert e
  cases (0o111 : Nat).testBit i <;> cases a.testBit i <;> cases p.testBit i <;> cases k.testBit i <;> simp

theorem testBit_clear (a b i : Nat) : (Local.clearBits a b).testBit i = (a.testBit i && !b.testBit i) := by
  unfold Local.clearBits
  rw [Nat.testBit_xor, Nat.testBit_and]
  cases a.testBit i <;> cases b.testBit i <;> rfl

theorem xN_low (m : Nat) : xN (m &&& 0o7777) = xN m := by
  unfold xN
  rw [Nat.and_assoc]; rfl

theorem xN_set (a : Nat) {m : Nat} (h : Flags m) : xN ((Local.clearBits a 0o111 ||| m) &&& 0o7777) = m := by
  rw [xN_low]
  apply Nat.eq_of_testBit_eq
  intro i
  rw [testBit_xN, Nat.testBit_or, testBit_clear, ← h.bit i]
  cases (0o111 : Nat).testBit i <;> cases a.testBit i <;> cases m.testBit i <;> rfl

theorem xN_new (u : Nat) : xN (Local.clearBits 0o666 u) = 0 := by
  apply Nat.eq_of_testBit_eq
  intro i
  have e : ((0o666 : Nat).testBit i && (0o111 : Nat).testBit i) = false := by
    rw [← Nat.testBit_and, show (0o666 : Nat) &&& 0o111 = 0 from rfl, Nat.zero_testBit]
  rw [testBit_xN, testBit_clear, Nat.zero_testBit]
  revert e
  cases (0o111 : Nat).testBit i <;> cases (0o666 : Nat).testBit i <;> simp

/-! ## The flags of the files -/

/-- the flags of a local object, where it is a file -/
def flagL : DObj → Option Nat
  | .file p _ => some (xN p)
  | _ => none

/-- the flags of an object in a memory file system, where it is a file -/
def flagO : Spec.Obj → Option Nat
  | .file _ m _ => some (xI m)
  | _ => none

/-- the flags of the file at each place and name -/
def siteX {ι : Type} (r : ι → Nat) (s : Sys) : Option ι → List Str → Option Nat
  | none => fun q => (s.disk.tree q).bind flagL
  | some i => fun q => (view s.mem (r i) q).bind flagO

/-- the map with something else at one name of one place -/
noncomputable def updX {κ : Type} (X : κ → List Str → Option Nat) (k : κ) (p : List Str) (x : Option Nat) :
    κ → List Str → Option Nat := by
  classical exact fun k' p' => if k' = k ∧ p' = p then x else X k' p'

section
variable {κ : Type} {X : κ → List Str → Option Nat} {k k' : κ} {p p' : List Str} {x y : Option Nat}

theorem updX_same (X : κ → List Str → Option Nat) (k : κ) (p : List Str) (x : Option Nat) : updX X k p x k p = x := by simp [updX]

theorem updX_ne (h : ¬ (k' = k ∧ p' = p)) : updX X k p x k' p' = X k' p' := by simp [updX, h]

theorem updX_self (h : X k p = x) : updX X k p x = X := by
  funext k' p'
  by_cases hk : k' = k ∧ p' = p
  · obtain ⟨rfl, rfl⟩ := hk; rw [updX_same, h]
  · rw [updX_ne hk]

theorem updX_updX : updX (updX X k p x) k p y = updX X k p y := by
  funext k' p'
  by_cases h : k' = k ∧ p' = p
  · obtain ⟨rfl, rfl⟩ := h; rw [updX_same, updX_same]
  · rw [updX_ne h, updX_ne h, updX_ne h]
end

section
variable {ι : Type} {E : ι → Dict} {r : ι → Nat} {s : Sys}

/-- the files have flags, the other objects have none -/
theorem siteX_some {k : Option ι} {q : List Str} : (siteX r s k q).isSome = isF (siteV r s k q) := by
  cases k with
  | none =>
    simp only [siteX, siteV]
    cases s.disk.tree q with
    | none => rfl
    | some o => cases o <;> rfl
  | some i =>
    simp only [siteX, siteV]
    cases view s.mem (r i) q with
    | none => rfl
    | some o => cases o <;> rfl

theorem siteX_none {k : Option ι} {q : List Str} (h : isF (siteV r s k q) = false) : siteX r s k q = none := by
  rw [← siteX_some] at h
  exact Option.isSome_eq_false_iff.1 h |> fun h => by simpa using h

theorem siteX_flags {k : Option ι} {q : List Str} {x : Nat} (h : siteX r s k q = some x) : Flags x := by
  cases k with
  | none =>
    simp only [siteX] at h
    cases ht : s.disk.tree q with
    | none => simp [ht] at h
    | some o =>
      cases o with
      | file p b => simp only [ht, Option.bind_some, flagL, Option.some.injEq] at h; exact h ▸ flags_xN _
      | _ => simp [ht, flagL] at h
  | some i =>
    simp only [siteX] at h
    cases ht : view s.mem (r i) q with
    | none => simp [ht] at h
    | some o =>
      cases o with
      | file b m t => simp only [ht, Option.bind_some, flagO, Option.some.injEq] at h; exact h ▸ flags_xI _
      | _ => simp [ht, flagO] at h

theorem SysOk.siteX_mem (h : SysOk E r s) (hr : Function.Injective r) {w : World} {i : ι} {ns : NS} {q : List Str} {x : Option Nat}
    (hb : Becomes s.mem w (r i) ns) (hq : (ns q).bind flagO = x) (ho : ∀ p, p ≠ q → ns p = view s.mem (r i) p) :
    siteX r { s with mem := w } = updX (siteX r s) (some i) q x := by
  funext k p
  by_cases hk : k = some i ∧ p = q
  · obtain ⟨rfl, rfl⟩ := hk
    rw [updX_same]
    simp only [siteX, hb.view, hq]
  · rw [updX_ne hk]
    cases k with
    | none => rfl
    | some j =>
      by_cases hj : j = i
      · subst hj
        have : p ≠ q := fun e => hk ⟨rfl, e⟩
        simp only [siteX, hb.view, ho p this]
      · simp only [siteX]
        rw [hb.other (r j) (h.fs j).isRoot fun e => hj (hr e)]

theorem SysOk.setX_mem (h : SysOk E r s) (hr : Function.Injective r) {w : World} {i : ι} {q : List Str} {o : Spec.Obj}
    (hb : Becomes s.mem w (r i) ((view s.mem (r i)).set q o)) :
    siteX r { s with mem := w } = updX (siteX r s) (some i) q (flagO o) :=
  h.siteX_mem hr hb (by rw [Mem.NS.set_get]; rfl) fun p hp => Mem.NS.set_ne _ _ hp

theorem SysOk.sameX_mem (h : SysOk E r s) {w : World} {i : ι} (hb : Becomes s.mem w (r i) (view s.mem (r i))) :
    siteX r { s with mem := w } = siteX r s := by
  funext k p
  cases k with
  | none => rfl
  | some j =>
    simp only [siteX]
    by_cases hj : r j = r i
    · rw [hj, hb.view]
    · rw [hb.other (r j) (h.fs j).isRoot hj]

theorem siteX_disk {d : Disk} {q : List Str} {x : Option DObj} (h : ∀ p, d.tree p = if p = q then x else s.disk.tree p) :
    siteX r { s with disk := d } = updX (siteX r s) none q (x.bind flagL) := by
  funext k p
  by_cases hk : k = none ∧ p = q
  · obtain ⟨rfl, rfl⟩ := hk
    rw [updX_same]
    simp only [siteX, h, if_pos]
  · rw [updX_ne hk]
    cases k with
    | some j => rfl
    | none =>
      have : p ≠ q := fun e => hk ⟨rfl, e⟩
      simp only [siteX, h, if_neg this]

/-! ## What the single calls do to the flags -/

theorem x_mkdir (h : SysOk E r s) (hr : Function.Injective r) {k : Option ι} {cs : List Str} {n : Str} (hn : Nm (cs ++ [n]))
    (hd : siteV r s k cs = some .dir) (hv : siteV r s k (cs ++ [n]) = none) {a : Except PyErr Unit} {s' : Sys}
    (e : sysOps.mkdir (siteC r k) (siteAt E k (cs ++ [n])) s = (a, s')) : siteX r s' = siteX r s := by
  have hx : siteX r s k (cs ++ [n]) = none := siteX_none (by rw [hv]; rfl)
  cases k with
  | none =>
    obtain ⟨p, hp⟩ := siteV_ldir.1 hd
    rw [siteV_lnone] at hv
    have e' : sysOps.mkdir (siteC r none) (siteAt E none (cs ++ [n])) s =
        (.ok (), { s with disk := s.disk.set (cs ++ [n]) (.dir (Local.clearBits 0o777 s.disk.umask)) }) := by
      show (if (loc (cs ++ [n])).path = [] then pure () else onDisk (osMkdir (loc (cs ++ [n])).path)) s = _
      rw [if_neg (loc_path_ne hn)]
      apply onDisk_ok
      unfold osMkdir
      rw [find_free h.disk hn hp hv]
    rw [e'] at e
    obtain ⟨-, rfl⟩ := Prod.mk.inj e
    rw [siteX_disk (x := some _) fun p => tree_set _ _ _ p]
    exact updX_self hx
  | some i =>
    rw [siteV_none] at hv
    have hdir := siteV_dir.1 hd
    obtain ⟨nd, d, h1, h2, h3, h4⟩ := Mem.mkdir_new h.inv (h.fs i).isRoot (stepsOf_mem hn.ok (E i)) (isDir_goes hdir) hdir hv
    have h5 := h.setX_mem hr (Mem.becomes_addChild h.inv (h.fs i).isRoot h1 h2 h3 (n := s.mem.freshDir) rfl)
    have e' : sysOps.mkdir (siteC r (some i)) (siteAt E (some i) (cs ++ [n])) s = _ := onMem_ok h4
    rw [e'] at e
    obtain ⟨-, rfl⟩ := Prod.mk.inj e
    rw [h5]
    exact updX_self hx

theorem x_removefile (h : SysOk E r s) (hr : Function.Injective r) {k : Option ι} {cs : List Str} {d : Bytes} (hn : Nm cs)
    (hv : siteV r s k cs = some (.file d)) {a : Except PyErr Unit} {s' : Sys}
    (e : sysOps.removefile (siteC r k) (siteAt E k cs) s = (a, s')) : siteX r s' = updX (siteX r s) k cs none := by
  cases k with
  | none =>
    obtain ⟨p, hp⟩ := siteV_lfile.1 hv
    have e' : sysOps.removefile (siteC r none) (siteAt E none cs) s = (.ok (), { s with disk := s.disk.del cs }) := by
      refine onDisk_ok (?_ : osUnlink (loc cs).path s.disk = _)
      unfold osUnlink
      rw [find_here h.disk hn hp (.inr rfl)]
      simp only [hp, isDirD, Bool.false_eq_true, if_false]
    rw [e'] at e
    obtain ⟨-, rfl⟩ := Prod.mk.inj e
    exact siteX_disk (x := none) fun p => tree_del _ _ p
  | some i =>
    obtain ⟨m, t, hf⟩ := siteV_file.1 hv
    rcases List.eq_nil_or_concat cs with rfl | ⟨q, n, rfl⟩
    · obtain ⟨m', t', e⟩ := Mem.isDir_root h.inv (h.fs i).isRoot
      rw [hf] at e; simp at e
    · rw [List.concat_eq_append] at *
      have hq := Mem.view_parent hf
      obtain ⟨w', k1, k2⟩ := Mem.removefile_at h.inv (h.fs i).isRoot (stepsOf_mem hn.ok (E i)) (Mem.filter_clean hn.ok.nil_not_mem)
        (mem_last (hn.ok.clean n (by simp)) (E i)) (isDir_goes hq) (.inr (plain_snoc hq n)) hf
      rw [Mem.del_leaf (Mem.notDir_leaf hf rfl)] at k2
      have e' : sysOps.removefile (siteC r (some i)) (siteAt E (some i) (q ++ [n])) s = _ := onMem_ok k1
      rw [e'] at e
      obtain ⟨-, rfl⟩ := Prod.mk.inj e
      refine h.siteX_mem hr k2 ?_ fun p hp => ?_
      · simp [NS.erase]
      · simp [NS.erase, hp]

theorem x_removedir (h : SysOk E r s) (hr : Function.Injective r) {k : Option ι} {cs : List Str} (hn : Nm cs) (hne : cs ≠ [])
    (hv : siteV r s k cs = some .dir) (he : ∀ n, siteV r s k (cs ++ [n]) = none) {a : Except PyErr Unit} {s' : Sys}
    (e : sysOps.removedir (siteC r k) (siteAt E k cs) s = (a, s')) : siteX r s' = siteX r s := by
  have hx : siteX r s k cs = none := siteX_none (by rw [hv]; rfl)
  cases k with
  | none =>
    obtain ⟨p, hp⟩ := siteV_ldir.1 hv
    have he' : ∀ n, s.disk.tree (cs ++ [n]) = none := fun n => siteV_lnone.1 (he n)
    have e' : sysOps.removedir (siteC r none) (siteAt E none cs) s = (.ok (), { s with disk := s.disk.del cs }) := by
      have hl : osAsk false isLinkD (loc cs) s = (.ok false, s) := by
        simp only [osAsk, stat_here h.disk hn hp (.inr rfl), isLinkD]
      refine (bind_ok hl).trans ?_
      rw [if_neg Bool.false_ne_true]
      refine onDisk_ok (?_ : osRmdir (loc cs).path s.disk = _)
      have hnm : s.disk.names cs = [] := by
        rw [List.eq_nil_iff_forall_not_mem]
        intro n hm
        exact mem_diskNames.1 hm (he' n)
      unfold osRmdir
      rw [find_here h.disk hn hp (.inr rfl)]
      simp only [hp, isDirD, if_true, hnm, ne_eq, not_true, if_false, if_neg hne]
    rw [e'] at e
    obtain ⟨-, rfl⟩ := Prod.mk.inj e
    rw [siteX_disk (x := none) fun p => tree_del _ _ p]
    exact updX_self hx
  | some i =>
    have hd := siteV_dir.1 hv
    rcases List.eq_nil_or_concat cs with rfl | ⟨q, n, rfl⟩
    · exact absurd rfl hne
    · rw [List.concat_eq_append] at *
      obtain ⟨m, t, ho⟩ := hd
      have hq := Mem.view_parent ho
      obtain ⟨w', k1, k2⟩ := (Mem.removedir_at h.inv (h.fs i).isRoot (stepsOf_mem hn.ok (E i)) (Mem.filter_clean hn.ok.nil_not_mem)
        (mem_last (hn.ok.clean n (by simp)) (E i)) (isDir_goes hq) ⟨m, t, ho⟩).1 fun n => siteV_none.1 (he n)
      have e' : sysOps.removedir (siteC r (some i)) (siteAt E (some i) (q ++ [n])) s = _ := onMem_ok k1
      rw [e'] at e
      obtain ⟨-, rfl⟩ := Prod.mk.inj e
      rw [h.siteX_mem hr k2 (q := q ++ [n]) (x := none) (by simp [NS.erase]) fun p hp => by simp [NS.erase, hp]]
      exact updX_self hx

theorem x_read (h : SysOk E r s) {k : Option ι} {q : List Str} {hd : Hd} {data : Bytes} {pos : Nat}
    (hrd : RdAt r s k q hd data pos) {n : Nat} {a : Except PyErr Mem.PyData} {s' : Sys} (e : hRead n hd s = (a, s')) :
    siteX r s' = siteX r s := by
  cases k with
  | none =>
    cases hd with
    | mem _ => exact hrd.elim
    | loc fd =>
      obtain ⟨h1, p, h2⟩ := hrd
      have e1 : fdRead fd n s.disk = (.ok ((data.drop pos).take n),
          { s.disk with fds := s.disk.fds.set fd (q, pos + ((data.drop pos).take n).length) }) := by
        unfold fdRead
        simp only [h1, h2]
      have e' : hRead n (.loc fd) s = _ := bind_ok (onDisk_ok e1)
      rw [e'] at e
      obtain ⟨-, rfl⟩ := Prod.mk.inj e
      funext k p; cases k <;> rfl
  | some i =>
    cases hd with
    | loc _ => exact hrd.elim
    | mem hh =>
      obtain ⟨h1, h2, hp, f, hf, rfl, rfl⟩ := hrd
      have e1 := Mem.read_eq (n := n) h1 hf
      have e' : hRead n (.mem hh) s = _ := onMem_ok e1
      rw [e'] at e
      obtain ⟨-, rfl⟩ := Prod.mk.inj e
      have hv : view s.mem (r i) q = some (.file f.data f.mode f.mtime) := by rw [Mem.view_of_phys hp, hf]; rfl
      exact h.sameX_mem ((Mem.becomes_put h.inv (h.fs i).isRoot hp hf).congr (Mem.NS.set_same hv))

theorem x_write (h : SysOk E r s) (hr : Function.Injective r) {k : Option ι} {q : List Str} {hd : Hd} {data : Bytes}
    (hwr : WrAt r s k q hd data) {b : Bytes} {a : Except PyErr Unit} {s' : Sys} (e : hWrite hd (.bytes b) s = (a, s')) :
    siteX r s' = siteX r s := by
  cases k with
  | none =>
    cases hd with
    | mem _ => exact hwr.elim
    | loc fd =>
      obtain ⟨h1, p, h2⟩ := hwr
      have e1 : fdWrite fd b s.disk = (.ok (),
          { s.disk.set q (.file p (data ++ b)) with fds := s.disk.fds.set fd (q, data.length + b.length) }) := by
        unfold fdWrite
        simp only [h1, h2, BytesIO.write_end]
      have e' : hWrite (.loc fd) (.bytes b) s = _ := onDisk_ok e1
      rw [e'] at e
      obtain ⟨-, rfl⟩ := Prod.mk.inj e
      refine (siteX_disk (x := some (.file p (data ++ b))) fun p => tree_set _ _ _ p).trans ?_
      refine updX_self ?_
      simp only [siteX, h2]; rfl
  | some i =>
    cases hd with
    | loc _ => exact hwr.elim
    | mem hh =>
      obtain ⟨hp, f, hf, rfl, hpos⟩ := hwr
      have e1 := Mem.write_eq (h := hh) (d := .bytes b) rfl hf
      have e' : hWrite (.mem hh) (.bytes b) s = _ := onMem_ok e1
      rw [e'] at e
      obtain ⟨-, rfl⟩ := Prod.mk.inj e
      have hv : view s.mem (r i) q = some (.file f.data f.mode f.mtime) := by rw [Mem.view_of_phys hp, hf]; rfl
      refine (h.setX_mem hr (Mem.becomes_put h.inv (h.fs i).isRoot hp hf)).trans (updX_self ?_)
      simp only [siteX, hv]; rfl

/-- the flags of a file that is opened for writing: a local file keeps them, a file of a memory file system loses them,
    and a new file has none -/
def flagsW {ι : Type} (X : Option ι → List Str → Option Nat) (k : Option ι) (q : List Str) : Nat :=
  match k with
  | none => (X none q).getD 0
  | some _ => 0

theorem x_openR (h : SysOk E r s) {k : Option ι} {cs : List Str} {d : Bytes} (hn : Nm cs)
    (hv : siteV r s k cs = some (.file d)) {a : Except PyErr Hd} {s' : Sys}
    (e : sysOps.openR (siteC r k) (siteAt E k cs) s = (a, s')) : siteX r s' = siteX r s := by
  cases k with
  | none =>
    obtain ⟨p, hp⟩ := siteV_lfile.1 hv
    have e1 : osOpenR (loc cs).path s.disk = (.ok s.disk.fds.length, { s.disk with fds := s.disk.fds ++ [(cs, 0)] }) := by
      unfold osOpenR Disk.newFd
      simp only [find_here h.disk hn hp (.inr rfl), hp, isDirD, Bool.false_eq_true, if_false]
    have e' : sysOps.openR (siteC r none) (siteAt E none cs) s = _ := bind_ok (onDisk_ok e1)
    rw [e'] at e
    obtain ⟨-, rfl⟩ := Prod.mk.inj e
    funext k p; cases k <;> rfl
  | some i =>
    obtain ⟨m, t, hf⟩ := siteV_file.1 hv
    obtain ⟨j, f, hj, hjf⟩ := Mem.isFile_view ⟨_, _, _, hf⟩
    have hg : Goes (view s.mem (r i)) maxDepth [] cs (.found cs) := Mem.Plain.goes (plain_of_view hf) hf rfl
    have e1 := (Mem.openRead_found h.inv (h.fs i).isRoot (b := true) (stepsOf_mem hn.ok (E i)) hg hj hjf).1
    rw [Mem.put_eq_setNode] at e1
    have e2 : Mem.open_ (r i) (mem (E i) cs) (some cl!"rb") s.mem = _ := e1
    have e' : sysOps.openR (siteC r (some i)) (siteAt E (some i) cs) s = _ := bind_ok (onMem_ok e2)
    rw [e'] at e
    obtain ⟨-, rfl⟩ := Prod.mk.inj e
    have hvj : view s.mem (r i) cs = some (.file f.data f.mode f.mtime) := by rw [Mem.view_of_phys hj, hjf]; rfl
    exact h.sameX_mem ((Mem.becomes_put h.inv (h.fs i).isRoot (k := s.mem.tick) (f' := { f with pos := 0 }) hj hjf).congr
      (Mem.NS.set_same hvj))

theorem x_openW (h : SysOk E r s) (hr : Function.Injective r) {k : Option ι} {ds : List Str} {n : Str} (hn : Nm (ds ++ [n]))
    (hd : siteV r s k ds = some .dir) (hv : siteV r s k (ds ++ [n]) = none ∨ isF (siteV r s k (ds ++ [n])) = true)
    {a : Except PyErr Hd} {s' : Sys} (e : sysOps.openW (siteC r k) (siteAt E k (ds ++ [n])) s = (a, s')) :
    siteX r s' = updX (siteX r s) k (ds ++ [n]) (some (flagsW (siteX r s) k (ds ++ [n]))) := by
  cases k with
  | none =>
    obtain ⟨pd, hpd⟩ := siteV_ldir.1 hd
    have hset : ∃ perm, osOpenW (loc (ds ++ [n])).path s.disk =
        (.ok s.disk.fds.length, { s.disk.set (ds ++ [n]) (.file perm []) with fds := s.disk.fds ++ [(ds ++ [n], 0)] }) ∧
        xN perm = flagsW (siteX r s) none (ds ++ [n]) := by
      rcases hv with hv | hv
      · rw [siteV_lnone] at hv
        refine ⟨Local.clearBits 0o666 s.disk.umask, ?_, ?_⟩
        · unfold osOpenW Disk.newFd
          simp only [find_free h.disk hn hpd hv]
          rfl
        · rw [xN_new]
          simp only [flagsW, siteX, hv]; rfl
      · cases ht : s.disk.tree (ds ++ [n]) with
        | none => simp [siteV, ht, isF] at hv
        | some o =>
          cases o with
          | dir p => simp [siteV, ht, isF, kindL] at hv
          | link t => simp [siteV, ht, isF, kindL] at hv
          | file p b =>
            refine ⟨p, ?_, ?_⟩
            · unfold osOpenW Disk.newFd
              simp only [find_here h.disk hn ht (.inr rfl), ht]
              rfl
            · simp only [flagsW, siteX, ht]; rfl
    obtain ⟨perm, e1, hx⟩ := hset
    have e' : sysOps.openW (siteC r none) (siteAt E none (ds ++ [n])) s = _ := bind_ok (onDisk_ok e1)
    rw [e'] at e
    obtain ⟨-, rfl⟩ := Prod.mk.inj e
    rw [← hx]
    exact siteX_disk (x := some (.file perm [])) fun p => tree_set _ _ _ p
  | some i =>
    have hdir := siteV_dir.1 hd
    have hw := h.inv
    have hroot := (h.fs i).isRoot
    have hs := stepsOf_mem hn.ok (E i)
    have hopen : ∀ w, Mem.open_ (r i) (mem (E i) (ds ++ [n])) (some cl!"wb") w = Mem.openWrite (r i) (mem (E i) (ds ++ [n])) true w :=
      fun w => rfl
    rcases hv with hv | hv
    · rw [siteV_none] at hv
      obtain ⟨w', g, e1, ho⟩ := Mem.openWrite_new' hw ((h.fs i).serves _) true hs (isDir_goes hdir) hdir hv
      have e' : sysOps.openW (siteC r (some i)) (siteAt E (some i) (ds ++ [n])) s = _ := bind_ok (onMem_ok ((hopen _).trans e1))
      rw [e'] at e
      obtain ⟨-, rfl⟩ := Prod.mk.inj e
      exact h.setX_mem hr ho.becomes
    · have hfile : ∃ b m t, view s.mem (r i) (ds ++ [n]) = some (.file b m t) := by
        cases ht : view s.mem (r i) (ds ++ [n]) with
        | none => simp [siteV, ht, isF] at hv
        | some o => cases o <;> simp [siteV, ht, isF, kindO] at hv ⊢
      obtain ⟨bo, mo, tm, hvo⟩ := hfile
      have hgo : Goes (view s.mem (r i)) maxDepth [] (ds ++ [n]) (.found (ds ++ [n])) := Mem.Plain.goes (plain_of_view hvo) hvo rfl
      obtain ⟨w', o, g, e1, ho, hpo⟩ := Mem.openWrite_found' hw ((h.fs i).serves _) true hs (isDir_goes hdir) hvo hgo ⟨_, _, _, hvo⟩
      have e' : sysOps.openW (siteC r (some i)) (siteAt E (some i) (ds ++ [n])) s = _ := bind_ok (onMem_ok ((hopen _).trans e1))
      rw [e'] at e
      obtain ⟨-, rfl⟩ := Prod.mk.inj e
      exact h.setX_mem hr ho.becomes

theorem x_pumpLoop (hr : Function.Injective r) {k k' : Option ι} {q q' : List Str} {inf outf : Hd} {data : Bytes}
    (hne : ¬ (k' = k ∧ q' = q)) (n : Nat) : ∀ {s : Sys} {g : Bytes} {pos : Nat} {a : Except PyErr Unit} {s' : Sys}, SysOk E r s →
    RdAt r s k q inf data pos → WrAt r s k' q' outf g → data.length - pos < n → pumpLoop inf outf n s = (a, s') →
    siteX r s' = siteX r s := by
  induction n with
  | zero => intro s g pos a s' _ _ _ h; omega
  | succ n ih =>
    intro s g pos a s' h hrd hwr hlen e
    obtain ⟨s1, e1, ok1, v1, rd1, keep1⟩ := read_step h hr hrd 8192
    have x1 := x_read h hrd e1
    unfold pumpLoop at e
    rw [bind_ok e1] at e
    by_cases hd : data.drop pos = []
    · simp only [hd, List.take_nil, isEmptyData, List.isEmpty_nil, if_true] at e
      obtain ⟨-, rfl⟩ := Prod.mk.inj e
      exact x1
    · have hl : pos < data.length := by
        by_contra hc
        exact hd (List.drop_eq_nil_of_le (by omega))
      have hne' : ((data.drop pos).take 8192).isEmpty = false := by
        cases hx : (data.drop pos).take 8192 with
        | cons a b => rfl
        | nil =>
          have := congrArg List.length hx
          rw [List.length_take, List.length_drop, List.length_nil] at this
          omega
      obtain ⟨s2, e2, ok2, v2, wr2, keep2⟩ := write_step ok1 hr (keep1 hne hwr) ((data.drop pos).take 8192)
      have x2 := x_write ok1 hr (keep1 hne hwr) e2
      simp only [isEmptyData, hne', Bool.false_eq_true, if_false] at e
      rw [bind_ok e2] at e
      have x3 := ih ok2 (keep2 (fun e => hne ⟨e.1.symm, e.2.symm⟩) rd1) wr2
        (by simp only [List.length_take, List.length_drop]; omega) e
      rw [x3, x2, x1]

theorem x_content (h : SysOk E r s) (hr : Function.Injective r) {k k' : Option ι} {cs ds : List Str} {n : Str} {d : Bytes}
    (hn : Nm cs) (hn' : Nm (ds ++ [n])) (hv : siteV r s k cs = some (.file d)) (hd : siteV r s k' ds = some .dir)
    (hv' : siteV r s k' (ds ++ [n]) = none ∨ isF (siteV r s k' (ds ++ [n])) = true) (hne : ¬ (k = k' ∧ cs = ds ++ [n]))
    {a : Except PyErr Unit} {s' : Sys} (e : copyContent sysOps (siteAt E k cs) (siteAt E k' (ds ++ [n])) s = (a, s')) :
    siteX r s' = updX (siteX r s) k' (ds ++ [n]) (some (flagsW (siteX r s) k' (ds ++ [n]))) := by
  obtain ⟨s1, inf, e1, ok1, v1, rd1⟩ := site_openR h hn hv
  have x1 := x_openR h hn hv e1
  obtain ⟨s2, outf, e2, ok2, v2, wr2, keep2⟩ := site_openW ok1 hr hn' (by rw [v1]; exact hd) (by rw [v1]; exact hv')
  have x2 := x_openW ok1 hr hn' (by rw [v1]; exact hd) (by rw [v1]; exact hv') e2
  have rd2 := keep2 hne rd1
  have c1 : uOpenR sysOps (siteAt E k cs) s = (.ok inf, s1) := by
    unfold uOpenR Any.withConn
    have a1 : sysOps.conn (siteAt E k cs) s = _ := site_conn h
    have a2 : sysOps.hook (siteC r k) (siteAt E k cs) .open_ s = _ := site_hook h hn _
    rw [bind_ok a1, bind_ok a2]
    exact e1
  have c2 : uOpenW sysOps (siteAt E k' (ds ++ [n])) s1 = (.ok outf, s2) := by
    unfold uOpenW Any.withConn
    have a1 : sysOps.conn (siteAt E k' (ds ++ [n])) s1 = _ := site_conn ok1
    have a2 : sysOps.hook (siteC r k') (siteAt E k' (ds ++ [n])) .open_ s1 = _ := site_hook ok1 hn' _
    rw [bind_ok a1, bind_ok a2]
    exact e2
  unfold copyContent at e
  rw [bind_ok c1, bind_ok c2] at e
  change (hSize inf >>= fun n => pumpLoop inf outf (n + 1)) s2 = _ at e
  rw [bind_ok (hSize_eq rd2)] at e
  rw [x_pumpLoop hr (fun e => hne ⟨e.1.symm, e.2.symm⟩) (d.length + 1) ok2 rd2 wr2 (by omega) e, x2, x1]

/-- `copystat` inside one memory file system, or on the disk, gives the copy the flags -/
theorem x_copystat (h : SysOk E r s) (hr : Function.Injective r) {k : Option ι} {cs ds : List Str} {d d' : Bytes}
    (hn : Nm cs) (hn' : Nm ds) (hv : siteV r s k cs = some (.file d)) (hv' : siteV r s k ds = some (.file d'))
    {a : Except PyErr Unit} {s' : Sys} (e : sysOps.copystat (siteC r k) (siteAt E k cs) (siteAt E k ds) s = (a, s')) :
    siteX r s' = updX (siteX r s) k ds (siteX r s k cs) := by
  cases k with
  | none =>
    obtain ⟨p, hp⟩ := siteV_lfile.1 hv
    obtain ⟨p', hp'⟩ := siteV_lfile.1 hv'
    have e1 : osCopystat (loc cs).path (loc ds).path s.disk =
        (.ok (), s.disk.set ds ((DObj.file p d).withPermOf (.file p' d'))) := by
      unfold osCopystat
      simp only [find_here h.disk hn hp (.inr rfl), find_here h.disk hn' hp' (.inr rfl), hp, hp']
    have e' : sysOps.copystat (siteC r none) (siteAt E none cs) (siteAt E none ds) s = _ := onDisk_ok e1
    rw [e'] at e
    obtain ⟨-, rfl⟩ := Prod.mk.inj e
    rw [siteX_disk (x := some _) fun p => tree_set _ _ _ p]
    congr 1
    simp only [siteX, hp, Option.bind_some, DObj.withPermOf, flagL, xN_low]
  | some i =>
    obtain ⟨m, t, hf⟩ := siteV_file.1 hv
    obtain ⟨m', t', hf'⟩ := siteV_file.1 hv'
    obtain ⟨w, h5, h6⟩ := Mem.copystat_at h.inv ((h.fs i).serves cs) (stepsOf_mem hn.ok (E i)) (stepsOf_mem hn'.ok (E i))
      (Mem.Plain.goes (plain_of_view hf) hf rfl) (Mem.Plain.goes (plain_of_view hf') hf' rfl) hf hf'
    have e' : sysOps.copystat (siteC r (some i)) (siteAt E (some i) cs) (siteAt E (some i) ds) s = _ := onMem_ok h5
    rw [e'] at e
    obtain ⟨-, rfl⟩ := Prod.mk.inj e
    rw [h.setX_mem hr h6]
    congr 1
    simp only [siteX, hf, Option.bind_some]; rfl

/-! ## The executable flags as a part of the content: the laws again -/

/-- what there is, the flags of a file being the first byte of what it contains -/
def withX (v : Option Kind) (x : Option Nat) : Option Kind :=
  match v with
  | some (.file d) => some (.file (UInt8.ofNat (x.getD 0) :: d))
  | v => v

/-- what there is, with the flags of the files -/
def siteVX {ι : Type} (r : ι → Nat) (s : Sys) (k : Option ι) (q : List Str) : Option Kind := withX (siteV r s k q) (siteX r s k q)

theorem withX_dir {v : Option Kind} {x : Option Nat} : withX v x = some .dir ↔ v = some .dir := by
  cases v with
  | none => simp [withX]
  | some k => cases k <;> simp [withX]

theorem withX_other {v : Option Kind} {x : Option Nat} : withX v x = some .other ↔ v = some .other := by
  cases v with
  | none => simp [withX]
  | some k => cases k <;> simp [withX]

theorem withX_none {v : Option Kind} {x : Option Nat} : withX v x = none ↔ v = none := by
  cases v with
  | none => simp [withX]
  | some k => cases k <;> simp [withX]

theorem withX_isF {v : Option Kind} {x : Option Nat} : isF (withX v x) = isF v := by
  cases v with
  | none => rfl
  | some k => cases k <;> rfl

theorem withX_isD {v : Option Kind} {x : Option Nat} : isD (withX v x) = isD v := by
  cases v with
  | none => rfl
  | some k => cases k <;> rfl

theorem withX_isSome {v : Option Kind} {x : Option Nat} : (withX v x).isSome = v.isSome := by
  cases v with
  | none => rfl
  | some k => cases k <;> rfl

theorem siteVX_file {k : Option ι} {q : List Str} {d : Bytes} : siteVX r s k q = some (.file d) ↔
    ∃ x c, d = UInt8.ofNat x :: c ∧ siteV r s k q = some (.file c) ∧ siteX r s k q = some x := by
  unfold siteVX
  have hX : (siteX r s k q).isSome = isF (siteV r s k q) := siteX_some
  cases h : siteV r s k q with
  | none => simp [withX]
  | some o =>
    rw [h] at hX
    cases o with
    | dir => simp [withX]
    | other => simp [withX]
    | file c =>
      obtain ⟨x, hx⟩ := Option.isSome_iff_exists.1 (hX.trans rfl)
      rw [hx]
      simp only [withX, Option.getD_some, Option.some.injEq, Kind.file.injEq]
      constructor
      · rintro rfl; exact ⟨x, c, rfl, rfl, rfl⟩
      · rintro ⟨x', c', rfl, rfl, rfl⟩; rfl

/-- equal content and flags -/
theorem siteVX_eq {s' : Sys} {k k' : Option ι} {q q' : List Str} (h : siteVX r s k q = siteVX r s' k' q') :
    siteV r s k q = siteV r s' k' q' ∧ siteX r s k q = siteX r s' k' q' := by
  have a := siteX_some (r := r) (s := s) (k := k) (q := q)
  have b := siteX_some (r := r) (s := s') (k := k') (q := q')
  have key : isF (siteV r s k q) = isF (siteV r s' k' q') := by
    have := congrArg isF h
    unfold siteVX at this
    rwa [withX_isF, withX_isF] at this
  cases hf : isF (siteV r s k q) with
  | false =>
    refine ⟨?_, by rw [siteX_none hf, siteX_none (key ▸ hf)]⟩
    have hf' := key ▸ hf
    unfold siteVX at h
    revert h hf hf'
    cases siteV r s k q with
    | none => cases siteV r s' k' q' with
      | none => simp
      | some o => cases o <;> simp [withX, isF]
    | some o => cases siteV r s' k' q' with
      | none => cases o <;> simp [withX, isF]
      | some o' => cases o <;> cases o' <;> simp [withX, isF]
  | true =>
    obtain ⟨d, hd⟩ : ∃ d, siteVX r s k q = some (.file d) := by
      unfold siteVX
      revert hf
      cases siteV r s k q with
      | none => simp [isF]
      | some o => cases o <;> simp [isF, withX]
    obtain ⟨x, c, rfl, e1, e2⟩ := siteVX_file.1 hd
    rw [h] at hd
    obtain ⟨x', c', e3, e4, e5⟩ := siteVX_file.1 hd
    simp only [List.cons.injEq] at e3
    have hx : x = x' := by
      have := congrArg UInt8.toNat e3.1
      rw [UInt8.toNat_ofNat', UInt8.toNat_ofNat', Nat.mod_eq_of_lt (siteX_flags e2).lt, Nat.mod_eq_of_lt (siteX_flags e5).lt] at this
      exact this
    exact ⟨by rw [e1, e4, e3.2], by rw [e2, e5, hx]⟩

theorem siteVX_upd {s' : Sys} {k : Option ι} {q : List Str} {v : Option Kind} {x : Option Nat}
    (h1 : siteV r s' = upd (siteV r s) k q v) (h2 : siteX r s' = updX (siteX r s) k q x) :
    siteVX r s' = upd (siteVX r s) k q (withX v x) := by
  funext j p
  unfold siteVX
  rw [h1, h2]
  by_cases h : j = k ∧ p = q
  · obtain ⟨rfl, rfl⟩ := h
    rw [upd_same, upd_same, updX_same]
  · rw [upd_ne h, upd_ne h, updX_ne h]

theorem clearX {k : Option ι} {q : List Str} (h : Clear (siteVX r s k) q) : Clear (siteV r s k) q :=
  ⟨fun p hp hne => (h.above p hp hne).imp withX_dir.1 withX_none.1, fun c => h.here (withX_other.2 c)⟩

theorem x_copy (h : SysOk E r s) (hr : Function.Injective r) {k : Option ι} {cs ds : List Str} {n : Str} {d : Bytes}
    (hn : Nm cs) (hn' : Nm (ds ++ [n])) (hv : siteV r s k cs = some (.file d)) (hd : siteV r s k ds = some .dir)
    (hv' : siteV r s k (ds ++ [n]) = none ∨ isF (siteV r s k (ds ++ [n])) = true) (hne : cs ≠ ds ++ [n]) {a : Except PyErr Unit}
    {s' : Sys} (e : (do
        copyContent sysOps (siteAt E k cs) (siteAt E k (ds ++ [n]))
        if (siteAt E k cs).scheme = (siteAt E k (ds ++ [n])).scheme then
          sysOps.copystat (siteC r k) (siteAt E k cs) (siteAt E k (ds ++ [n])) : OM Sys Unit) s = (a, s')) :
    siteX r s' = updX (siteX r s) k (ds ++ [n]) (siteX r s k cs) := by
  obtain ⟨s1, e1, ok1, v1⟩ := site_content h hr hn hn' hv hd hv' (fun e => hne e.2)
  have x1 := x_content h hr hn hn' hv hd hv' (fun e => hne e.2) e1
  rw [bind_ok e1, if_pos (by cases k <;> rfl)] at e
  rw [x_copystat ok1 hr hn hn' (d := d) (d' := d) (by rw [v1, upd_ne (fun e => hne e.2)]; exact hv) (by rw [v1, upd_same]) e, x1,
    updX_updX, updX_ne (fun e => hne e.2)]

end

/-- both backends obey the laws, where what a file contains is taken together with its flags; files are copied inside one
    file system -/
def execLaws {ι : Type} (E : ι → Dict) (r : ι → Nat) (hr : Function.Injective r) :
    Laws sysOps (Option ι) (SysOk E r) (fun k k' => k = k') where
  at_ := siteAt E
  C := siteC r
  V := siteVX r
  names := siteNames r
  conn h _ := site_conn h
  hook h hn := site_hook h hn _
  exists_ h hn hc := by unfold siteVX; rw [withX_isSome]; exact site_exists h hn (clearX hc)
  isfile h hn hc := by unfold siteVX; rw [withX_isF]; exact site_isfile h hn (clearX hc)
  isdir h hn hc := by unfold siteVX; rw [withX_isD]; exact site_isdir h hn (clearX hc)
  islink h hn hc hv := site_islink h hn (clearX hc) (fun c => hv (withX_none.2 c))
  listdir h hn hd := site_listdir h hn (withX_dir.1 hd)
  names_sorted h := site_names_sorted h
  mem_names _ := site_mem_names.trans (not_congr withX_none.symm)
  mkdir {s k cs n} h hn hd hv := by
    obtain ⟨s', e, ok, v⟩ := site_mkdir h hr hn (withX_dir.1 hd) (withX_none.1 hv)
    have x := x_mkdir h hr hn (withX_dir.1 hd) (withX_none.1 hv) e
    refine ⟨s', e, ok, ?_⟩
    rw [siteVX_upd (x := siteX r s k (cs ++ [n])) v (x.trans (updX_self rfl).symm)]; rfl
  removefile h hn hv := by
    obtain ⟨x, c, rfl, hf, -⟩ := siteVX_file.1 hv
    obtain ⟨s', e, ok, v⟩ := site_removefile h hr hn hf
    exact ⟨s', e, ok, siteVX_upd v (x_removefile h hr hn hf e)⟩
  removedir {s k cs} h hn hne hv he := by
    have he' := fun n => withX_none.1 (he n)
    obtain ⟨s', e, ok, v⟩ := site_removedir h hr hn hne (withX_dir.1 hv) he'
    have x := x_removedir h hr hn hne (withX_dir.1 hv) he' e
    refine ⟨s', e, ok, ?_⟩
    rw [siteVX_upd (x := siteX r s k cs) v (x.trans (updX_self rfl).symm)]; rfl
  copy := by
    rintro s k k' cs ds n d rfl h hn hn' hv hd hv' hne
    obtain ⟨x, c, rfl, hf, hx⟩ := siteVX_file.1 hv
    have hv2 := hv'.imp withX_none.1 (fun h => withX_isF.symm.trans h)
    obtain ⟨s', e, ok, v⟩ := site_copy h hr (.inr (.inr rfl)) hn hn' hf (withX_dir.1 hd) hv2 hne
    have y := x_copy h hr hn hn' hf (withX_dir.1 hd) hv2 (fun c => hne ⟨rfl, c⟩) e
    refine ⟨s', e, ok, ?_⟩
    rw [siteVX_upd v y, hx]; rfl
  root h := withX_dir.2 (site_root h)
  tree h hv := withX_dir.2 (site_tree h fun c => hv (withX_none.2 c))
  div hn hne hp := site_div hn hne hp
  split hn := site_split hn
  last hn := site_last hn
  path hn := site_path hn

section
variable {ι : Type} {E : ι → Dict} {r : ι → Nat} {s : Sys}

/-- copying a file to another backend: there is no `copystat` -/
theorem x_copy_across (h : SysOk E r s) (hr : Function.Injective r) {k k' : Option ι} (hm : May k k') (hk : k ≠ k')
    {cs ds : List Str} {n : Str} {d : Bytes} (hn : Nm cs) (hn' : Nm (ds ++ [n])) (hv : siteV r s k cs = some (.file d))
    (hd : siteV r s k' ds = some .dir) (hv' : siteV r s k' (ds ++ [n]) = none ∨ isF (siteV r s k' (ds ++ [n])) = true)
    {a : Except PyErr Unit} {s' : Sys} (e : (do
        copyContent sysOps (siteAt E k cs) (siteAt E k' (ds ++ [n]))
        if (siteAt E k cs).scheme = (siteAt E k' (ds ++ [n])).scheme then
          sysOps.copystat (siteC r k) (siteAt E k cs) (siteAt E k' (ds ++ [n])) : OM Sys Unit) s = (a, s')) :
    siteX r s' = updX (siteX r s) k' (ds ++ [n]) (some (flagsW (siteX r s) k' (ds ++ [n]))) := by
  obtain ⟨s1, e1, ok1, v1⟩ := site_content h hr hn hn' hv hd hv' (fun e => hk e.1)
  have x1 := x_content h hr hn hn' hv hd hv' (fun e => hk e.1) e1
  rw [bind_ok e1, if_neg] at e
  · obtain ⟨-, rfl⟩ := Prod.mk.inj e
    exact x1
  · cases k with
    | none =>
      cases k' with
      | none => exact absurd rfl hk
      | some j => simp [siteAt, Gen.mem, loc, Uri.scheme]
    | some i =>
      cases k' with
      | none => simp [siteAt, Gen.mem, loc, Uri.scheme]
      | some j =>
        rcases hm with h | h | h
        · simp at h
        · simp at h
        · exact absurd h hk

/-- no file at the names of `R` has a flag -/
def Unflagged {ι : Type} (r : ι → Nat) (R : Option ι → List Str → Prop) (s : Sys) : Prop :=
  ∀ k q, R k q → siteX r s k q = none ∨ siteX r s k q = some 0

theorem Unflagged.updX {R : Option ι → List Str → Prop} (h : Unflagged r R s) {s' : Sys} {k : Option ι} {q : List Str} {x : Option Nat}
    (hx : R k q → x = none ∨ x = some 0) (e : siteX r s' = updX (siteX r s) k q x) : Unflagged r R s' := by
  intro j p hp
  rw [e]
  by_cases c : j = k ∧ p = q
  · obtain ⟨rfl, rfl⟩ := c
    rw [updX_same]; exact hx hp
  · rw [updX_ne c]; exact h j p hp

end

/-- both backends obey the laws, files being copied from the one to the other, while no file at the names of `R` has a flag -/
def quietLaws {ι : Type} (E : ι → Dict) (r : ι → Nat) (hr : Function.Injective r) (R : Option ι → List Str → Prop) :
    Laws sysOps (Option ι) (fun s => SysOk E r s ∧ Unflagged r R s) (fun k k' => May k k' ∧ k ≠ k') where
  at_ := siteAt E
  C := siteC r
  V := siteV r
  names := siteNames r
  conn h _ := site_conn h.1
  hook h hn := site_hook h.1 hn _
  exists_ h hn hc := site_exists h.1 hn hc
  isfile h hn hc := site_isfile h.1 hn hc
  isdir h hn hc := site_isdir h.1 hn hc
  islink h hn hc hv := site_islink h.1 hn hc hv
  listdir h hn hd := site_listdir h.1 hn hd
  names_sorted h := site_names_sorted h.1
  mem_names _ := site_mem_names
  mkdir {s k cs n} h hn hd hv := by
    obtain ⟨s', e, ok, v⟩ := site_mkdir h.1 hr hn hd hv
    refine ⟨s', e, ⟨ok, fun j p hp => ?_⟩, v⟩
    rw [x_mkdir h.1 hr hn hd hv e]; exact h.2 j p hp
  removefile h hn hv := by
    obtain ⟨s', e, ok, v⟩ := site_removefile h.1 hr hn hv
    exact ⟨s', e, ⟨ok, h.2.updX (fun _ => .inl rfl) (x_removefile h.1 hr hn hv e)⟩, v⟩
  removedir h hn hne hv he := by
    obtain ⟨s', e, ok, v⟩ := site_removedir h.1 hr hn hne hv he
    refine ⟨s', e, ⟨ok, fun j p hp => ?_⟩, v⟩
    rw [x_removedir h.1 hr hn hne hv he e]; exact h.2 j p hp
  copy {s k k' cs ds n d} hm h hn hn' hv hd hv' hne := by
    obtain ⟨s', e, ok, v⟩ := site_copy h.1 hr hm.1 hn hn' hv hd hv' hne
    refine ⟨s', e, ⟨ok, h.2.updX (fun hR => .inr ?_) (x_copy_across h.1 hr hm.1 hm.2 hn hn' hv hd hv' e)⟩, v⟩
    unfold flagsW
    cases k' with
    | some j => rfl
    | none =>
      show some ((siteX r s none (ds ++ [n])).getD 0) = _
      rcases h.2 none _ hR with c | c <;> rw [c] <;> rfl
  root h := site_root h.1
  tree h hv := site_tree h.1 hv
  div hn hne hp := site_div hn hne hp
  split hn := site_split hn
  last hn := site_last hn
  path hn := site_path hn

end Verif.Any
