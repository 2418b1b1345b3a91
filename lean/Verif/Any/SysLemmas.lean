import Verif.Any.DiskLemmas
import Verif.Gen.CopyTree
/-!
# The two backends obey the laws: the single calls

A context is a family of memory file systems, `E i` the parameters and `r i` the root of number `i`.  The places are
`none`, the local file system, and `some i`.
-/
namespace Verif.Any
open Verif.Spec Verif.Gen
open Mem (World Becomes)

/-- what a local object is -/
def kindL : DObj → Kind
  | .dir _ => .dir
  | .file _ b => .file b
  | .link _ => .other

/-- what an object of a memory file system is -/
def kindO : Spec.Obj → Kind
  | .dir _ _ => .dir
  | .file b _ _ => .file b
  | .link _ _ _ => .other

/-- the memory file systems are there, and the local objects form a tree -/
structure SysOk {ι : Type} (E : ι → Dict) (r : ι → Nat) (s : Sys) : Prop where
  inv : Mem.Inv s.mem
  fs : ∀ i, Fs s.mem (E i) (r i)
  disk : DiskOk s.disk

/-- the connection -/
def siteC {ι : Type} (r : ι → Nat) : Option ι → Conn
  | none => .loc
  | some i => .mem (r i)

/-- the URI -/
def siteAt {ι : Type} (E : ι → Dict) : Option ι → List Str → Uri
  | none => loc
  | some i => mem (E i)

/-- what there is -/
def siteV {ι : Type} (r : ι → Nat) (s : Sys) : Option ι → List Str → Option Kind
  | none => fun q => (s.disk.tree q).map kindL
  | some i => fun q => (view s.mem (r i) q).map kindO

/-- the names in a directory -/
def siteNames {ι : Type} (r : ι → Nat) (s : Sys) : Option ι → List Str → List Str
  | none => fun q => sortStr (s.disk.names q)
  | some i => fun q => Gen.names s.mem (r i) q

section
variable {ι : Type} {E : ι → Dict} {r : ι → Nat} {s : Sys}

theorem siteV_dir {i : ι} {q : List Str} : siteV r s (some i) q = some .dir ↔ (view s.mem (r i)).isDir q := by
  unfold siteV NS.isDir
  cases h : view s.mem (r i) q with
  | none => simp [h]
  | some o => cases o <;> simp [h, kindO]

theorem siteV_file {i : ι} {q : List Str} {d : Bytes} :
    siteV r s (some i) q = some (.file d) ↔ ∃ m t, view s.mem (r i) q = some (.file d m t) := by
  unfold siteV
  cases h : view s.mem (r i) q with
  | none => simp [h]
  | some o => cases o <;> simp [h, kindO]

theorem siteV_none {i : ι} {q : List Str} : siteV r s (some i) q = none ↔ view s.mem (r i) q = none := by
  unfold siteV
  cases h : view s.mem (r i) q <;> simp [h]

theorem siteV_ldir {q : List Str} : siteV r s none q = some .dir ↔ ∃ p, s.disk.tree q = some (.dir p) := by
  unfold siteV
  cases h : s.disk.tree q with
  | none => simp [h]
  | some o => cases o <;> simp [h, kindL]

theorem siteV_lfile {q : List Str} {d : Bytes} : siteV r s none q = some (.file d) ↔ ∃ p, s.disk.tree q = some (.file p d) := by
  unfold siteV
  cases h : s.disk.tree q with
  | none => simp [h]
  | some o => cases o <;> simp [h, kindL]

theorem siteV_lnone {q : List Str} : siteV r s none q = none ↔ s.disk.tree q = none := by
  unfold siteV
  cases h : s.disk.tree q <;> simp [h]

theorem siteV_lother {q : List Str} : siteV r s none q = some .other ↔ ∃ t, s.disk.tree q = some (.link t) := by
  unfold siteV
  cases h : s.disk.tree q with
  | none => simp [h]
  | some o => cases o <;> simp [h, kindL]

theorem isLink_siteV {q : List Str} : isLinkD (s.disk.tree q) = false ↔ siteV r s none q ≠ some .other := by
  unfold siteV
  cases h : s.disk.tree q with
  | none => simp [h, isLinkD]
  | some o => cases o <;> simp [h, kindL, isLinkD]

/-- no link on a clear path -/
theorem Clear.noLink {cs : List Str} (hc : Clear (siteV r s none) cs) : ∀ p, p <+: cs → isLinkD (s.disk.tree p) = false := by
  intro p hp
  rw [isLink_siteV (r := r)]
  by_cases e : p = cs
  · rw [e]; exact hc.here
  · rcases hc.above p hp e with h | h <;> rw [h] <;> simp

/-- something changed in one memory file system -/
theorem SysOk.mem (h : SysOk E r s) {w : World} {i : ι} {ns : NS} (hb : Becomes s.mem w (r i) ns) :
    SysOk E r { s with mem := w } :=
  ⟨hb.inv, fun j => (h.fs j).becomes hb, h.disk⟩

theorem SysOk.siteV_mem (h : SysOk E r s) (hr : Function.Injective r) {w : World} {i : ι} {ns : NS} {q : List Str} {x : Option Kind}
    (hb : Becomes s.mem w (r i) ns) (hq : (ns q).map kindO = x) (ho : ∀ p, p ≠ q → ns p = view s.mem (r i) p) :
    siteV r { s with mem := w } = upd (siteV r s) (some i) q x := by
  funext k p
  by_cases hk : k = some i ∧ p = q
  · obtain ⟨rfl, rfl⟩ := hk
    rw [upd_same]
    simp only [siteV, hb.view, hq]
  · rw [upd_ne hk]
    cases k with
    | none => rfl
    | some j =>
      by_cases hj : j = i
      · subst hj
        have : p ≠ q := fun e => hk ⟨rfl, e⟩
        simp only [siteV, hb.view, ho p this]
      · simp only [siteV]
        rw [hb.other (r j) (h.fs j).isRoot fun e => hj (hr e)]

theorem SysOk.set_mem (h : SysOk E r s) (hr : Function.Injective r) {w : World} {i : ι} {q : List Str} {o : Spec.Obj}
    (hb : Becomes s.mem w (r i) ((view s.mem (r i)).set q o)) :
    SysOk E r { s with mem := w } ∧ siteV r { s with mem := w } = upd (siteV r s) (some i) q (some (kindO o)) :=
  ⟨h.mem hb, h.siteV_mem hr hb (by rw [Mem.NS.set_get]; rfl) fun p hp => Mem.NS.set_ne _ _ hp⟩

theorem SysOk.same_mem (h : SysOk E r s) {w : World} {i : ι} (hb : Becomes s.mem w (r i) (view s.mem (r i))) :
    SysOk E r { s with mem := w } ∧ siteV r { s with mem := w } = siteV r s := by
  refine ⟨h.mem hb, ?_⟩
  funext k p
  cases k with
  | none => rfl
  | some j =>
    simp only [siteV]
    by_cases hj : r j = r i
    · rw [hj, hb.view]
    · rw [hb.other (r j) (h.fs j).isRoot hj]

/-- something changed on the disk -/
theorem siteV_disk {d : Disk} {q : List Str} {x : Option DObj} (h : ∀ p, d.tree p = if p = q then x else s.disk.tree p) :
    siteV r { s with disk := d } = upd (siteV r s) none q (x.map kindL) := by
  funext k p
  by_cases hk : k = none ∧ p = q
  · obtain ⟨rfl, rfl⟩ := hk
    rw [upd_same]
    simp only [siteV, h, if_pos]
  · rw [upd_ne hk]
    cases k with
    | some j => rfl
    | none =>
      have : p ≠ q := fun e => hk ⟨rfl, e⟩
      simp only [siteV, h, if_neg this]

theorem SysOk.dsk (h : SysOk E r s) {d : Disk} (hd : DiskOk d) : SysOk E r { s with disk := d } := ⟨h.inv, h.fs, hd⟩

/-! ## Queries -/

theorem onMem_apply {α : Type} (m : Mem.M α) (s : Sys) : onMem m s = ((m s.mem).1, { s with mem := (m s.mem).2 }) := rfl

theorem onMem_ok {α : Type} {m : Mem.M α} {s : Sys} {a : Except PyErr α} {w : World} (h : m s.mem = (a, w)) :
    onMem m s = (a, { s with mem := w }) := by rw [onMem_apply, h]

theorem onMem_query {α : Type} {f : World → Except PyErr α} {s : Sys} : onMem (Mem.M.query f) s = (f s.mem, s) := rfl

theorem onDisk_ok {α : Type} {m : OM Disk α} {s : Sys} {a : Except PyErr α} {d : Disk} (h : m s.disk = (a, d)) :
    onDisk m s = (a, { s with disk := d }) := by unfold onDisk; rw [h]

theorem site_conn (h : SysOk E r s) {k : Option ι} {cs : List Str} :
    sysConn (siteAt E k cs) s = (.ok (siteC r k), s) := by
  cases k with
  | none => simp [sysConn, siteAt, siteC]
  | some i =>
    have hs := (h.fs i).serves cs
    show sysConn (mem (E i) cs) s = _
    unfold sysConn
    rw [hs.extras, if_neg Bool.false_ne_true, if_neg (by rw [hs.scheme]; decide),
      bind_ok (onMem_ok (Mem.getConnection_serves hs))]
    rfl

theorem site_hook (h : SysOk E r s) {k : Option ι} {cs : List Str} (hn : Nm cs) (m : Mem.Meth) :
    sysHook (siteC r k) (siteAt E k cs) m s = (.ok (), s) := by
  cases k with
  | none => rfl
  | some i =>
    obtain ⟨p, hp, -⟩ := Mem.stepsOf_strip (stepsOf_mem hn.ok (E i))
    exact onMem_ok (Mem.preCallHook_serves ((h.fs i).serves cs) hp m)

/-- following a clear path -/
theorem site_goes (h : SysOk E r s) {i : ι} {cs : List Str} (hc : Clear (siteV r s (some i)) cs) :
    (view s.mem (r i) cs ≠ none → Goes (view s.mem (r i)) maxDepth [] cs (.found cs)) ∧
    (view s.mem (r i) cs = none → Goes (view s.mem (r i)) maxDepth [] cs .missing) := by
  constructor
  · intro hne
    obtain ⟨o, ho⟩ := Option.ne_none_iff_exists'.1 hne
    have hl : o.isLink = false := by
      have := hc.here
      simp only [siteV, ho, Option.map_some] at this
      cases o <;> simp_all [kindO, Obj.isLink]
    exact Mem.Plain.goes (plain_of_view ho) ho hl
  · intro hn
    -- the first name that is missing
    have key : ∀ (b a : List Str), a ++ b = cs → (view s.mem (r i)).isDir a →
        Goes (view s.mem (r i)) maxDepth a b .missing := by
      intro b
      induction b with
      | nil =>
        intro a ha hd
        rw [List.append_nil] at ha
        subst ha
        obtain ⟨m, t, e⟩ := hd
        rw [e] at hn; simp at hn
      | cons n b ih =>
        intro a ha hd
        cases hv : view s.mem (r i) (a ++ [n]) with
        | none => exact .missing hd hv
        | some o =>
          have hp : a ++ [n] <+: cs := ⟨b, by rw [← ha]; simp⟩
          have hne : a ++ [n] ≠ cs := by rintro rfl; rw [hn] at hv; simp at hv
          have hdir : (view s.mem (r i)).isDir (a ++ [n]) := by
            rcases hc.above _ hp hne with h1 | h1
            · exact siteV_dir.1 h1
            · rw [siteV_none, hv] at h1; simp at h1
          obtain ⟨m, t, e⟩ := hdir
          exact .step hd e rfl (ih (a ++ [n]) (by rw [← ha]; simp) ⟨m, t, e⟩)
    exact key cs [] rfl (Mem.isDir_root h.inv (h.fs i).isRoot)

theorem site_answer (h : SysOk E r s) {i : ι} {cs : List Str} (hc : Clear (siteV r s (some i)) cs) (k : Spec.Obj → Bool) :
    ∃ out, Goes (view s.mem (r i)) maxDepth [] cs out ∧
      Mem.answer (view s.mem (r i)) k out = .ok ((view s.mem (r i) cs).any k) := by
  obtain ⟨h1, h2⟩ := site_goes h hc
  cases hv : view s.mem (r i) cs with
  | none => exact ⟨_, h2 hv, rfl⟩
  | some o => exact ⟨_, h1 (by rw [hv]; simp), by simp only [Mem.answer, hv]⟩

theorem site_exists (h : SysOk E r s) {k : Option ι} {cs : List Str} (hn : Nm cs) (hc : Clear (siteV r s k) cs) :
    sysOps.exists_ (siteC r k) (siteAt E k cs) s = (.ok (siteV r s k cs).isSome, s) := by
  cases k with
  | none =>
    show osAsk _ _ _ _ = _
    simp only [osAsk, siteAt, stat_eq h.disk hn hc.noLink, siteV, Option.isSome_map]
  | some i =>
    show onMem _ _ = _
    obtain ⟨out, h1, h2⟩ := site_answer h hc (fun _ => true)
    rw [onMem_query, siteAt, Mem.exists_goes h.inv (h.fs i).isRoot (stepsOf_mem hn.ok (E i)) h1, h2]
    simp only [siteV]
    cases view s.mem (r i) cs <;> rfl

theorem site_isfile (h : SysOk E r s) {k : Option ι} {cs : List Str} (hn : Nm cs) (hc : Clear (siteV r s k) cs) :
    sysOps.isfile (siteC r k) (siteAt E k cs) s = (.ok (isF (siteV r s k cs)), s) := by
  cases k with
  | none =>
    show osAsk _ _ _ _ = _
    simp only [osAsk, siteAt, stat_eq h.disk hn hc.noLink, siteV]
    cases s.disk.tree cs with
    | none => rfl
    | some o => cases o <;> rfl
  | some i =>
    show onMem _ _ = _
    obtain ⟨out, h1, h2⟩ := site_answer h hc Obj.isFile
    rw [onMem_query, siteAt, Mem.isfile_goes h.inv (h.fs i).isRoot (stepsOf_mem hn.ok (E i)) h1, h2]
    simp only [siteV]
    cases view s.mem (r i) cs with
    | none => rfl
    | some o => cases o <;> rfl

theorem site_isdir (h : SysOk E r s) {k : Option ι} {cs : List Str} (hn : Nm cs) (hc : Clear (siteV r s k) cs) :
    sysOps.isdir (siteC r k) (siteAt E k cs) s = (.ok (isD (siteV r s k cs)), s) := by
  cases k with
  | none =>
    show osAsk _ _ _ _ = _
    simp only [osAsk, siteAt, stat_eq h.disk hn hc.noLink, siteV]
    cases s.disk.tree cs with
    | none => rfl
    | some o => cases o <;> rfl
  | some i =>
    show onMem _ _ = _
    obtain ⟨out, h1, h2⟩ := site_answer h hc Obj.isDir
    rw [onMem_query, siteAt, Mem.isdir_goes h.inv (h.fs i).isRoot (stepsOf_mem hn.ok (E i)) h1, h2]
    simp only [siteV]
    cases view s.mem (r i) cs with
    | none => rfl
    | some o => cases o <;> rfl

theorem site_islink (h : SysOk E r s) {k : Option ι} {cs : List Str} (hn : Nm cs) (hc : Clear (siteV r s k) cs)
    (hv : siteV r s k cs ≠ none) : sysOps.islink (siteC r k) (siteAt E k cs) s = (.ok false, s) := by
  cases k with
  | none =>
    show osAsk _ _ _ _ = _
    simp only [osAsk, siteAt, stat_eq h.disk hn hc.noLink, hc.noLink cs (List.prefix_refl _)]
  | some i =>
    show onMem _ _ = _
    rw [onMem_query, siteAt]
    rcases List.eq_nil_or_concat cs with rfl | ⟨q, n, rfl⟩
    · rw [Mem.islink_root (stepsOf_mem hn.ok (E i))]
    · rw [List.concat_eq_append] at *
      rw [ne_eq, siteV_none] at hv
      obtain ⟨o, ho⟩ := Option.ne_none_iff_exists'.1 hv
      rw [islink_at h.inv (h.fs i) hn.ok (Mem.view_parent ho), ho]
      have := hc.here
      simp only [siteV, ho, Option.map_some] at this
      cases o <;> simp_all [kindO, Obj.isLink]

theorem site_listdir (h : SysOk E r s) {k : Option ι} {cs : List Str} (hn : Nm cs) (hd : siteV r s k cs = some .dir) :
    sysOps.listdir (siteC r k) (siteAt E k cs) s = (.ok (siteNames r s k cs), s) := by
  cases k with
  | none =>
    obtain ⟨p, hp⟩ := siteV_ldir.1 hd
    have : osListdir (loc cs).path s.disk = (.ok (s.disk.names cs), s.disk) := by
      unfold osListdir
      rw [find_here h.disk hn hp (.inr rfl)]
      simp only [hp, isDirD, if_true]
    exact bind_ok (onDisk_ok this)
  | some i =>
    show onMem _ _ = _
    rw [onMem_query, siteAt, listdir_names h.inv (h.fs i) hn.ok (siteV_dir.1 hd)]
    rfl

theorem site_names_sorted (h : SysOk E r s) {k : Option ι} {cs : List Str} : (siteNames r s k cs).Pairwise strLt := by
  cases k with
  | none => exact pairwise_sortStr (diskNames_nodup h.disk.nodup cs)
  | some i => exact names_sorted h.inv

theorem site_mem_names {k : Option ι} {cs : List Str} {n : Str} : n ∈ siteNames r s k cs ↔ siteV r s k (cs ++ [n]) ≠ none := by
  cases k with
  | none =>
    simp only [siteNames]
    rw [mem_sortStr, mem_diskNames, ne_eq, ne_eq, siteV_lnone]
  | some i =>
    simp only [siteNames]
    rw [mem_names, ne_eq, ne_eq, siteV_none]

theorem site_root (h : SysOk E r s) {k : Option ι} : siteV r s k [] = some .dir := by
  cases k with
  | none => exact siteV_ldir.2 h.disk.root
  | some i => exact siteV_dir.2 (Mem.isDir_root h.inv (h.fs i).isRoot)

theorem site_tree (h : SysOk E r s) {k : Option ι} {cs : List Str} {n : Str} (hv : siteV r s k (cs ++ [n]) ≠ none) :
    siteV r s k cs = some .dir := by
  cases k with
  | none => rw [ne_eq, siteV_lnone] at hv; exact siteV_ldir.2 (h.disk.tree _ _ hv)
  | some i =>
    rw [ne_eq, siteV_none] at hv
    obtain ⟨o, ho⟩ := Option.ne_none_iff_exists'.1 hv
    exact siteV_dir.2 (Mem.view_parent ho)

/-! ## Changes -/

theorem loc_path_ne {cs : List Str} (hn : Nm cs) : (loc cs).path ≠ [] := by
  rw [loc_path hn]
  cases cs <;> simp [pathOf, slash]

theorem site_mkdir (h : SysOk E r s) (hr : Function.Injective r) {k : Option ι} {cs : List Str} {n : Str} (hn : Nm (cs ++ [n]))
    (hd : siteV r s k cs = some .dir) (hv : siteV r s k (cs ++ [n]) = none) :
    ∃ s', sysOps.mkdir (siteC r k) (siteAt E k (cs ++ [n])) s = (.ok (), s') ∧ SysOk E r s' ∧
      siteV r s' = upd (siteV r s) k (cs ++ [n]) (some .dir) := by
  cases k with
  | none =>
    obtain ⟨p, hp⟩ := siteV_ldir.1 hd
    rw [siteV_lnone] at hv
    refine ⟨{ s with disk := s.disk.set (cs ++ [n]) (.dir (Local.clearBits 0o777 s.disk.umask)) }, ?_, ?_, ?_⟩
    · show (if (loc (cs ++ [n])).path = [] then pure () else onDisk (osMkdir (loc (cs ++ [n])).path)) s = _
      rw [if_neg (loc_path_ne hn)]
      apply onDisk_ok
      unfold osMkdir
      rw [find_free h.disk hn hp hv]
    · refine h.dsk (h.disk.set ?_ (.inl ⟨_, rfl⟩))
      intro c m e
      have := List.append_inj' e rfl
      rw [← this.1]; exact ⟨p, hp⟩
    · exact siteV_disk (x := some _) fun p => tree_set _ _ _ p
  | some i =>
    rw [siteV_none] at hv
    have hdir := siteV_dir.1 hd
    obtain ⟨nd, d, h1, h2, h3, h4⟩ := Mem.mkdir_new h.inv (h.fs i).isRoot (stepsOf_mem hn.ok (E i)) (isDir_goes hdir) hdir hv
    obtain ⟨h5, h6⟩ := h.set_mem hr (Mem.becomes_addChild h.inv (h.fs i).isRoot h1 h2 h3 (n := s.mem.freshDir) rfl)
    exact ⟨_, onMem_ok h4, h5, h6⟩

theorem site_removefile (h : SysOk E r s) (hr : Function.Injective r) {k : Option ι} {cs : List Str} {d : Bytes} (hn : Nm cs)
    (hv : siteV r s k cs = some (.file d)) :
    ∃ s', sysOps.removefile (siteC r k) (siteAt E k cs) s = (.ok (), s') ∧ SysOk E r s' ∧
      siteV r s' = upd (siteV r s) k cs none := by
  cases k with
  | none =>
    obtain ⟨p, hp⟩ := siteV_lfile.1 hv
    refine ⟨{ s with disk := s.disk.del cs }, ?_, h.dsk (h.disk.del (h.disk.ne_root hp rfl) (h.disk.leaf hp rfl)), ?_⟩
    · refine onDisk_ok (?_ : osUnlink (loc cs).path s.disk = _)
      unfold osUnlink
      rw [find_here h.disk hn hp (.inr rfl)]
      simp only [hp, isDirD, Bool.false_eq_true, if_false]
    · exact siteV_disk (x := none) fun p => tree_del _ _ p
  | some i =>
    obtain ⟨m, t, hf⟩ := siteV_file.1 hv
    rcases List.eq_nil_or_concat cs with rfl | ⟨q, n, rfl⟩
    · obtain ⟨m', t', e⟩ := Mem.isDir_root h.inv (h.fs i).isRoot
      rw [hf] at e; simp at e
    · rw [List.concat_eq_append] at *
      have hq := Mem.view_parent hf
      obtain ⟨w', k1, k2⟩ := Mem.removefile_at h.inv (h.fs i).isRoot (stepsOf_mem hn.ok (E i)) (Mem.filter_clean hn.ok.nil_not_mem)
        (mem_last (hn.ok.clean n (by simp)) (E i)) (isDir_goes hq) (.inr (plain_snoc hq n)) hf
      rw [Mem.del_leaf (Mem.notDir_leaf hf rfl)] at k2
      refine ⟨_, onMem_ok k1, h.mem k2, h.siteV_mem hr k2 ?_ fun p hp => ?_⟩
      · simp [NS.erase]
      · simp [NS.erase, hp]

theorem site_removedir (h : SysOk E r s) (hr : Function.Injective r) {k : Option ι} {cs : List Str} (hn : Nm cs) (hne : cs ≠ [])
    (hv : siteV r s k cs = some .dir) (he : ∀ n, siteV r s k (cs ++ [n]) = none) :
    ∃ s', sysOps.removedir (siteC r k) (siteAt E k cs) s = (.ok (), s') ∧ SysOk E r s' ∧
      siteV r s' = upd (siteV r s) k cs none := by
  cases k with
  | none =>
    obtain ⟨p, hp⟩ := siteV_ldir.1 hv
    have he' : ∀ n, s.disk.tree (cs ++ [n]) = none := fun n => siteV_lnone.1 (he n)
    refine ⟨{ s with disk := s.disk.del cs }, ?_, h.dsk (h.disk.del hne he'), ?_⟩
    · have hl : osAsk false isLinkD (loc cs) s = (.ok false, s) := by
        simp only [osAsk, stat_here h.disk hn hp (.inr rfl), isLinkD]
      refine (bind_ok hl).trans ?_
      rw [if_neg Bool.false_ne_true]
      refine onDisk_ok (?_ : osRmdir (loc cs).path s.disk = _)
      have hnm : s.disk.names cs = [] := by
        rw [List.eq_nil_iff_forall_not_mem]
        intro n hm
        exact mem_diskNames.1 hm (he' n)
      unfold osRmdir
      rw [find_here h.disk hn hp (.inr rfl)]
      simp only [hp, isDirD, if_true, hnm, ne_eq, not_true, if_false, if_neg hne]
    · exact siteV_disk (x := none) fun p => tree_del _ _ p
  | some i =>
    have hd := siteV_dir.1 hv
    rcases List.eq_nil_or_concat cs with rfl | ⟨q, n, rfl⟩
    · exact absurd rfl hne
    · rw [List.concat_eq_append] at *
      obtain ⟨m, t, ho⟩ := hd
      have hq := Mem.view_parent ho
      obtain ⟨w', k1, k2⟩ := (Mem.removedir_at h.inv (h.fs i).isRoot (stepsOf_mem hn.ok (E i)) (Mem.filter_clean hn.ok.nil_not_mem)
        (mem_last (hn.ok.clean n (by simp)) (E i)) (isDir_goes hq) ⟨m, t, ho⟩).1 fun n => siteV_none.1 (he n)
      refine ⟨_, onMem_ok k1, h.mem k2, h.siteV_mem hr k2 ?_ fun p hp => ?_⟩
      · simp [NS.erase]
      · simp [NS.erase, hp]

/-! ## URIs -/

theorem site_div {k : Option ι} {cs ns : List Str} {p : Str} (hn : Nm (cs ++ ns)) (hne : ns ≠ []) (hp : slash ns = '/' :: p) :
    (siteAt E k cs).div p = .ok (siteAt E k (cs ++ ns)) := by
  cases k with
  | none => exact loc_div_path hn hne hp
  | some i => exact mem_div_path hn.ok.of_prefix.clean hne (fun n h => hn.ok.clean n (by simp [h])) (E i) hp

theorem site_split {k : Option ι} {cs : List Str} {n : Str} (hn : Nm (cs ++ [n])) :
    (siteAt E k (cs ++ [n])).split = .ok (siteAt E k cs, n) := by
  cases k with
  | none => exact loc_split hn
  | some i => exact mem_split hn.ok.of_prefix.clean (hn.ok.clean n (by simp)) (E i)

theorem site_last {k : Option ι} {cs : List Str} {n : Str} (hn : Nm (cs ++ [n])) : (siteAt E k (cs ++ [n])).last = n := by
  cases k with
  | none => exact loc_last hn
  | some i => exact mem_last (hn.ok.clean n (by simp)) (E i)

theorem site_path {k : Option ι} {cs : List Str} (hn : Nm cs) : (siteAt E k cs).path = pathOf cs := by
  cases k with
  | none => exact loc_path hn
  | some i => exact mem_path hn.ok (E i)

end

end Verif.Any
