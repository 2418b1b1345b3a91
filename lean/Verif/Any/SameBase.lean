import Verif.Any.Plain
import Verif.Any.LocLink
import Verif.Props.LocalRefusals
/-!
# A file system of the repository and the plain file system: the single calls

What the calls refuse, for memory file systems and local files at once; then every call of a backend against the call of
the plain file system.
-/
namespace Verif.Any
open Verif.Spec Verif.Gen
open Mem (World)
open Verif.Props (Lost Straight find_lost find_gone site_wc)

section
variable {ι : Type} {E : ι → Dict} {r : ι → Nat} {s : Sys}

/-! ## Refusals -/

/-- nothing is found on the way to a missing name, whether links are followed or not -/
theorem prevLoop_missing {w : World} {root : Nat} {res : Uri → Except PyErr (Option Nat)} {fl : Bool} {last : Str} {cs : List Str}
    (hc : ∀ p, p <+: cs → p ≠ cs → (view w root).isDir p ∨ view w root p = none) (hv : view w root cs = none) :
    ∀ (b a : List Str) (c : Nat) (prev : Option Nat), a ++ b = cs → phys w root a = some c → (view w root).isDir a →
      Mem.prevLoop w res fl false last b prev (some c) = .ok (none, none) := by
  intro b
  induction b with
  | nil =>
    intro a c prev ha hp hd
    rw [List.append_nil] at ha
    subst ha
    obtain ⟨m, t, e⟩ := hd
    rw [e] at hv; simp at hv
  | cons n b ih =>
    intro a c prev ha hp hd
    obtain ⟨d, hdn⟩ := Mem.dir_of_isDir hd hp
    rw [Mem.prevLoop_cons_dir hdn, Mem.has_view hp hdn]
    cases hx : view w root (a ++ [n]) with
    | none => rfl
    | some o =>
      have hpre : a ++ [n] <+: cs := ⟨b, by rw [← ha]; simp⟩
      have hne : a ++ [n] ≠ cs := by rintro rfl; rw [hv] at hx; simp at hx
      have hdir : (view w root).isDir (a ++ [n]) := by
        rcases hc _ hpre hne with h1 | h1
        · exact h1
        · rw [hx] at h1; simp at h1
      obtain ⟨j, h1, h2, h3⟩ := Mem.lookup_of_view hp hdn hx
      obtain ⟨d', hd'⟩ := Mem.dir_of_isDir hdir h2
      rw [Mem.child_plain hdn h1 (by intro l; rw [hd']; simp)]
      exact ih _ _ _ (by rw [← ha]; simp) h2 hdir

/-- what is missing is no link -/
theorem site_islink_none (h : SysOk E r s) {k : Option ι} {cs : List Str} (hn : Nm cs) (hc : Clear (siteV r s k) cs)
    (hv : siteV r s k cs = none) : sysOps.islink (siteC r k) (siteAt E k cs) s = (.ok false, s) := by
  cases k with
  | none =>
    show osAsk _ _ _ _ = _
    simp only [osAsk, siteAt, stat_eq h.disk hn hc.noLink, hc.noLink cs (List.prefix_refl _)]
  | some i =>
    show onMem _ _ = _
    rw [onMem_query, siteAt]
    rcases List.eq_nil_or_concat cs with rfl | ⟨q, n, rfl⟩
    · rw [Mem.islink_root (stepsOf_mem hn.ok (E i))]
    · rw [List.concat_eq_append] at *
      have hs := stepsOf_mem hn.ok (E i)
      obtain ⟨p, h1, h2, h3⟩ := Mem.stepsOf_snoc hs
      unfold Mem.islink
      simp only [h1, if_pos h2]
      unfold Mem.nodeForPath
      rw [Mem.nodeForPathWith_eq hs, prevLoop_missing (root := r i) (fun p hp hne => ?_) (siteV_none.1 hv) (q ++ [n]) [] (r i) none rfl rfl
        (Mem.isDir_root h.inv (h.fs i).isRoot)]
      · rfl
      · rcases hc.above p hp hne with h | h
        · exact .inl (siteV_dir.1 h)
        · exact .inr (siteV_none.1 h)

theorem Clear.straight {T : List Str → Option Kind} {cs : List Str} (h : Clear T cs) : Straight T cs := by
  intro p hp
  by_cases e : p = cs
  · rw [e]; exact h.here
  · rcases h.above p hp e with h | h <;> rw [h] <;> simp

/-- on a clear way there is no file -/
theorem Clear.lost {T : List Str → Option Kind} {cs : List Str} (h : Clear T cs) (hv : T cs = none) {e : PyErr} (hl : Lost T cs e) :
    e = .os .ENOENT := by
  rcases hl with ⟨-, p, hp, hf⟩ | ⟨rfl, -⟩
  · exfalso
    by_cases ep : p = cs
    · rw [ep, hv] at hf; simp [isF] at hf
    · rcases h.above p hp ep with h | h <;> rw [h] at hf <;> simp [isF] at hf
  · rfl

/-- listing what is missing -/
theorem site_listdir_none (h : SysOk E r s) {k : Option ι} {cs : List Str} (hn : Nm cs) (hc : Clear (siteV r s k) cs)
    (hv : siteV r s k cs = none) : sysOps.listdir (siteC r k) (siteAt E k cs) s = (.error (.os .ENOENT), s) := by
  cases k with
  | none =>
    obtain ⟨e, h1, h2⟩ := find_gone h hn hc.straight hv true
    obtain rfl := hc.lost hv h1
    refine bind_error (onDisk_ok (d := s.disk) (?_ : osListdir (loc cs).path s.disk = _))
    unfold osListdir
    rcases h2 with h2 | ⟨c, n, h2, -⟩ <;> rw [h2]
  | some i =>
    show onMem _ _ = _
    have hg := (site_goes h hc).2 (siteV_none.1 hv)
    rw [onMem_query, siteAt, Mem.listdir_fail h.inv (h.fs i).isRoot (stepsOf_mem hn.ok (E i)) (out := .missing)
      (by rw [Mem.filter_clean hn.ok.nil_not_mem]; exact hg) (by simp)]
    rfl

/-- copying the permissions from or to what is missing -/
theorem site_copystat_none (h : SysOk E r s) {k : Option ι} {cs ds : List Str} (hn : Nm cs) (hn' : Nm ds) (hc : Clear (siteV r s k) cs)
    (hc' : Clear (siteV r s k) ds) (hv : siteV r s k cs = none ∨ siteV r s k ds = none) :
    sysOps.copystat (siteC r k) (siteAt E k cs) (siteAt E k ds) s = (.error (.os .ENOENT), s) := by
  cases k with
  | none =>
    have gone : ∀ {p : List Str}, Nm p → Clear (siteV r s none) p → siteV r s none p = none →
        s.disk.find true (loc p).path = .fail (.os .ENOENT) ∨ ∃ c n, s.disk.find true (loc p).path = .free c n := by
      intro p hn hc hv
      obtain ⟨e, h1, h2⟩ := find_gone h hn hc.straight hv true
      obtain rfl := hc.lost hv h1
      rcases h2 with h2 | ⟨c, n, h2, -⟩
      · exact .inl h2
      · exact .inr ⟨c, n, h2⟩
    refine onDisk_ok (d := s.disk) (?_ : osCopystat (loc cs).path (loc ds).path s.disk = _)
    unfold osCopystat
    by_cases h1 : siteV r s none cs = none
    · rcases gone hn hc h1 with h2 | ⟨c, n, h2⟩ <;> rw [h2]
    · have h3 := gone hn' hc' (hv.resolve_left h1)
      obtain ⟨o, ho⟩ := Option.ne_none_iff_exists'.1 fun e => h1 (siteV_lnone.2 e)
      have hl : isLinkD (some o) = false := by
        cases o with
        | link t => exact absurd (by simp only [siteV]; rw [ho]; rfl) (hc.here)
        | _ => rfl
      rw [find_here h.disk hn ho (.inr hl)]
      rcases h3 with h2 | ⟨c, n, h2⟩ <;> simp only [h2]
  | some i =>
    refine onMem_ok ?_
    have look : ∀ {p : List Str}, Nm p → Clear (siteV r s (some i)) p → siteV r s (some i) p = none →
        Mem.nodeForPath s.mem (r i) true true (mem (E i) p) = .error (.os .ENOENT) := by
      intro p hn hc hv
      rw [Mem.nodeForPath_goes h.inv (h.fs i).isRoot (stepsOf_mem hn.ok (E i)) ((site_goes h hc).2 (siteV_none.1 hv))]
      rfl
    unfold Mem.copystat
    by_cases h1 : siteV r s (some i) cs = none
    · simp only [siteAt, look hn hc h1]
    · obtain ⟨o, ho⟩ := Option.ne_none_iff_exists'.1 fun e => h1 (siteV_none.2 e)
      have h2 := Mem.nodeForPath_goes (throw := true) h.inv (h.fs i).isRoot (stepsOf_mem hn.ok (E i)) ((site_goes h hc).1 (by rw [ho]; simp))
      obtain ⟨j, hj⟩ : ∃ j, phys s.mem (r i) cs = some j := by
        cases hj : phys s.mem (r i) cs with
        | some j => exact ⟨j, rfl⟩
        | none => simp [view, hj] at ho
      simp only [siteAt, h2, Mem.outResult, hj, look hn' hc' (hv.resolve_left h1)]

/-- making a directory where there is something -/
theorem site_mkdir_taken (h : SysOk E r s) {k : Option ι} {cs : List Str} (hn : Nm cs) (hne : cs ≠ []) (hv : siteV r s k cs ≠ none) :
    sysOps.mkdir (siteC r k) (siteAt E k cs) s = (.error (.os .EEXIST), s) := by
  cases k with
  | none =>
    obtain ⟨o, ho⟩ := Option.ne_none_iff_exists'.1 fun e => hv (siteV_lnone.2 e)
    show (if (loc cs).path = [] then pure () else onDisk (osMkdir (loc cs).path)) s = _
    rw [if_neg (loc_path_ne hn)]
    apply onDisk_ok (d := s.disk)
    unfold osMkdir
    rw [find_here h.disk hn ho (.inl rfl)]
  | some i =>
    rcases List.eq_nil_or_concat cs with rfl | ⟨q, n, rfl⟩
    · exact absurd rfl hne
    · rw [List.concat_eq_append] at *
      rw [ne_eq, siteV_none] at hv
      obtain ⟨o, ho⟩ := Option.ne_none_iff_exists'.1 hv
      refine onMem_ok ?_
      exact (Mem.create_taken h.inv (h.fs i).isRoot (t := mem (E i) []) (stepsOf_mem hn.ok (E i)) (isDir_goes (Mem.view_parent ho)) ho).1

theorem Clear.parent {T : List Str → Option Kind} {cs : List Str} {n : Str} (h : Clear T (cs ++ [n])) : Clear T cs := by
  have hp : ∀ p, p <+: cs → T p = some .dir ∨ T p = none := fun p hp =>
    h.above p (hp.trans (List.prefix_append _ _)) (by rintro rfl; have := hp.length_le; simp at this; omega)
  exact ⟨fun p h1 _ => hp p h1, by rcases hp cs (List.prefix_refl _) with h | h <;> rw [h] <;> simp⟩

/-- making a directory in what is missing -/
theorem site_mkdir_parent (h : SysOk E r s) {k : Option ι} {cs : List Str} {n : Str} (hn : Nm (cs ++ [n])) (hc : Clear (siteV r s k) (cs ++ [n]))
    (hv : siteV r s k cs = none) : sysOps.mkdir (siteC r k) (siteAt E k (cs ++ [n])) s = (.error (.os .ENOENT), s) := by
  cases k with
  | none =>
    have hv' : siteV r s none (cs ++ [n]) = none := by
      by_contra hx
      have := site_tree h (k := none) hx
      rw [hv] at this; simp at this
    obtain ⟨e, h1, h2⟩ := find_lost h hn hc.straight hv' (by rw [List.dropLast_concat, hv]; simp) false
    obtain rfl := hc.lost hv' h2
    show (if (loc (cs ++ [n])).path = [] then pure () else onDisk (osMkdir (loc (cs ++ [n])).path)) s = _
    rw [if_neg (loc_path_ne hn)]
    apply onDisk_ok (d := s.disk)
    unfold osMkdir
    rw [h1]
  | some i =>
    have hg := (site_goes h hc.parent).2 (siteV_none.1 hv)
    refine onMem_ok ?_
    exact (Mem.create_fail h.inv (h.fs i).isRoot (t := mem (E i) []) (stepsOf_mem hn.ok (E i)) hg (by simp)).1

/-- removing a directory with something in it -/
theorem site_removedir_full (h : SysOk E r s) {k : Option ι} {cs : List Str} {n : Str} (hn : Nm cs) (hne : cs ≠ [])
    (hd : siteV r s k cs = some .dir) (hv : siteV r s k (cs ++ [n]) ≠ none) :
    sysOps.removedir (siteC r k) (siteAt E k cs) s = (.error (.os .ENOTEMPTY), s) := by
  cases k with
  | none =>
    obtain ⟨p, hp⟩ := siteV_ldir.1 hd
    have hl : osAsk false isLinkD (loc cs) s = (.ok false, s) := by
      simp only [osAsk, stat_here h.disk hn hp (.inr rfl), isLinkD]
    refine (bind_ok hl).trans ?_
    rw [if_neg Bool.false_ne_true]
    refine onDisk_ok (d := s.disk) (?_ : osRmdir (loc cs).path s.disk = _)
    unfold osRmdir
    rw [find_here h.disk hn hp (.inr rfl)]
    have : s.disk.names cs ≠ [] := fun e => by
      have hm : n ∈ s.disk.names cs := mem_diskNames.2 fun e => hv (siteV_lnone.2 e)
      rw [e] at hm; simp at hm
    simp only [hp, isDirD, ne_eq, this, not_false_eq_true, if_true]
  | some i =>
    rcases List.eq_nil_or_concat cs with rfl | ⟨q, m, rfl⟩
    · exact absurd rfl hne
    · rw [List.concat_eq_append] at *
      obtain ⟨mo, t, ho⟩ := siteV_dir.1 hd
      have hq := Mem.view_parent ho
      refine onMem_ok ?_
      exact (Mem.removedir_at h.inv (h.fs i).isRoot (stepsOf_mem hn.ok (E i)) (Mem.filter_clean hn.ok.nil_not_mem)
        (mem_last (hn.ok.clean m (by simp)) (E i)) (isDir_goes hq) ⟨mo, t, ho⟩).2 ⟨n, fun e => hv (siteV_none.2 e)⟩

/-- opening for reading what is missing -/
theorem site_openR_none (h : SysOk E r s) {k : Option ι} {cs : List Str} (hn : Nm cs) (hc : Clear (siteV r s k) cs)
    (hv : siteV r s k cs = none) : sysOps.openR (siteC r k) (siteAt E k cs) s = (.error (.os .ENOENT), s) := by
  cases k with
  | none =>
    obtain ⟨e, h1, h2⟩ := find_gone h hn hc.straight hv true
    obtain rfl := hc.lost hv h1
    have : onDisk (osOpenR (loc cs).path) s = (.error (.os .ENOENT), s) := by
      apply onDisk_ok (d := s.disk)
      unfold osOpenR
      rcases h2 with h2 | ⟨c, n, h2, -⟩ <;> rw [h2]
    exact bind_error this
  | some i =>
    have hg := (site_goes h hc).2 (siteV_none.1 hv)
    have : Mem.open_ (r i) (mem (E i) cs) (some cl!"rb") s.mem = (.error (.os .ENOENT), s.mem) :=
      (Mem.openRead_fail h.inv (h.fs i).isRoot (b := true) (stepsOf_mem hn.ok (E i)) hg (by simp)).1
    exact bind_error (onMem_ok this)

/-- opening a directory for writing -/
theorem site_openW_dir (h : SysOk E r s) {k : Option ι} {cs : List Str} (hn : Nm cs) (hne : cs ≠ []) (hv : siteV r s k cs = some .dir) :
    sysOps.openW (siteC r k) (siteAt E k cs) s = (.error (.os .EISDIR), s) := by
  cases k with
  | none =>
    obtain ⟨p, hp⟩ := siteV_ldir.1 hv
    have : onDisk (osOpenW (loc cs).path) s = (.error (.os .EISDIR), s) := by
      apply onDisk_ok (d := s.disk)
      unfold osOpenW
      rw [find_here h.disk hn hp (.inr rfl)]
      simp only [hp]
    exact bind_error this
  | some i =>
    rcases List.eq_nil_or_concat cs with rfl | ⟨q, m, rfl⟩
    · exact absurd rfl hne
    · rw [List.concat_eq_append] at *
      have hd := siteV_dir.1 hv
      obtain ⟨mo, t, ho⟩ := hd
      obtain ⟨p, h1, -, h3⟩ := Mem.stepsOf_snoc (stepsOf_mem hn.ok (E i))
      obtain ⟨j, hj, he⟩ := Mem.openWrite_found h.inv (h.fs i).isRoot (b := true) h1 h3 (isDir_goes (Mem.view_parent ho)) ho
        (isDir_goes ⟨mo, t, ho⟩)
      obtain ⟨d, hd⟩ := Mem.dir_of_isDir ⟨mo, t, ho⟩ hj
      rw [hd] at he
      have : Mem.open_ (r i) (mem (E i) (q ++ [m])) (some cl!"wb") s.mem = (.error (.os .EISDIR), s.mem) := he
      exact bind_error (onMem_ok this)

/-- opening for writing in what is missing -/
theorem site_openW_parent (h : SysOk E r s) {k : Option ι} {cs : List Str} {n : Str} (hn : Nm (cs ++ [n])) (hc : Clear (siteV r s k) (cs ++ [n]))
    (hv : siteV r s k cs = none) : sysOps.openW (siteC r k) (siteAt E k (cs ++ [n])) s = (.error (.os .ENOENT), s) := by
  cases k with
  | none =>
    have hv' : siteV r s none (cs ++ [n]) = none := by
      by_contra hx
      have := site_tree h (k := none) hx
      rw [hv] at this; simp at this
    obtain ⟨e, h1, h2⟩ := find_lost h hn hc.straight hv' (by rw [List.dropLast_concat, hv]; simp) true
    obtain rfl := hc.lost hv' h2
    have : onDisk (osOpenW (loc (cs ++ [n])).path) s = (.error (.os .ENOENT), s) := by
      apply onDisk_ok (d := s.disk)
      unfold osOpenW
      rw [h1]
    exact bind_error this
  | some i =>
    have hg := (site_goes h hc.parent).2 (siteV_none.1 hv)
    obtain ⟨p, h1, -, h3⟩ := Mem.stepsOf_snoc (stepsOf_mem hn.ok (E i))
    have : Mem.open_ (r i) (mem (E i) (cs ++ [n])) (some cl!"wb") s.mem = (.error (.os .ENOENT), s.mem) :=
      Mem.openWrite_fail h.inv (h.fs i).isRoot (b := true) h1 h3 hg (by simp)
    exact bind_error (onMem_ok this)

end
end Verif.Any
