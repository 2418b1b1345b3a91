import Verif.Props.Across
/-!
# C87: what is refused, on local files and on copies between backends

Every refusal here leaves the state, of all places, as it was.
-/
namespace Verif.Props
open Verif.Spec Verif.Any

/-- the error for a name that leads to nothing: ENOTDIR if the way to it goes through a file, else ENOENT -/
def Lost (V : List Str → Option Any.Kind) (cs : List Str) (e : PyErr) : Prop :=
  (e = .os .ENOTDIR ∧ ∃ p, p <+: cs ∧ isF (V p) = true) ∨ (e = .os .ENOENT ∧ ∀ p, p <+: cs → isF (V p) = false)

section
variable {ι : Type} {E : ι → Dict} {r : ι → Nat} {s : Sys}

theorem isF_siteV {q : List Str} : isF (siteV r s none q) = isFileD (s.disk.tree q) := by
  show isF ((s.disk.tree q).map kindL) = _
  cases s.disk.tree q with
  | none => rfl
  | some o => cases o <;> rfl

/-- no link on the way -/
abbrev Straight (V : List Str → Option Any.Kind) (cs : List Str) : Prop := ∀ p, p <+: cs → V p ≠ some .other

theorem Straight.noLink {cs : List Str} (hs : Straight (siteV r s none) cs) : ∀ p, p <+: cs → isLinkD (s.disk.tree p) = false :=
  fun p hp => isLink_siteV.2 (hs p hp)

/-- where a path leads at the end of which there is nothing -/
theorem find_lost (h : SysOk E r s) {cs : List Str} (hn : Nm cs) (hs : Straight (siteV r s none) cs) (hv : siteV r s none cs = none)
    (hp : siteV r s none cs.dropLast ≠ some .dir) (fl : Bool) :
    ∃ e, s.disk.find fl (loc cs).path = .fail e ∧ Lost (siteV r s none) cs e := by
  obtain ⟨e, h1, h2⟩ := find_fail h.disk hn (fl := fl) (siteV_lnone.1 hv) (Straight.noLink hs) (by
    cases e : s.disk.tree cs.dropLast with
    | none => rfl
    | some o =>
      cases o with
      | dir p => exact absurd (siteV_ldir.2 ⟨p, e⟩) hp
      | file p d => rfl
      | link t => rfl)
  refine ⟨e, h1, ?_⟩
  rcases h2 with ⟨rfl, p, h3, h4⟩ | ⟨rfl, h3⟩
  · exact .inl ⟨rfl, p, h3, isF_siteV.trans h4⟩
  · exact .inr ⟨rfl, fun p hp => isF_siteV.trans (h3 p hp)⟩

/-- the same, or a free name -/
theorem find_gone (h : SysOk E r s) {cs : List Str} (hn : Nm cs) (hs : Straight (siteV r s none) cs) (hv : siteV r s none cs = none)
    (fl : Bool) : ∃ e, Lost (siteV r s none) cs e ∧
      (s.disk.find fl (loc cs).path = .fail e ∨ (∃ c n, s.disk.find fl (loc cs).path = .free c n ∧ e = .os .ENOENT)) := by
  by_cases hp : siteV r s none cs.dropLast = some .dir
  · rcases List.eq_nil_or_concat cs with rfl | ⟨c, n, rfl⟩
    · rw [site_root h] at hv; simp at hv
    · rw [List.concat_eq_append] at *
      rw [List.dropLast_concat] at hp
      obtain ⟨m, hm⟩ := siteV_ldir.1 hp
      refine ⟨.os .ENOENT, .inr ⟨rfl, fun p hpp => ?_⟩, .inr ⟨c, n, find_free h.disk hn hm (siteV_lnone.1 hv), rfl⟩⟩
      by_cases e : p = c ++ [n]
      · rw [e, hv]; rfl
      · have hpc : p <+: c := by
          obtain ⟨t, ht⟩ := hpp
          rcases List.eq_nil_or_concat t with rfl | ⟨t', x, rfl⟩
          · rw [List.append_nil] at ht; exact absurd ht e
          · rw [List.concat_eq_append, ← List.append_assoc] at ht
            exact ⟨t', (List.append_inj' ht rfl).1⟩
        rw [isF_siteV]
        by_cases e2 : p = c
        · rw [e2, hm]; rfl
        · obtain ⟨m', hm'⟩ := h.disk.above (by rw [hm]; simp) hpc e2
          rw [hm']; rfl
  · obtain ⟨e, h1, h2⟩ := find_lost h hn hs hv hp fl
    exact ⟨e, h2, .inl h1⟩

theorem site_wc (h : SysOk E r s) {k : Option ι} {cs : List Str} (hn : Nm cs) {α : Type} (m : Mem.Meth) (body : sysOps.Conn → OM Sys α) :
    Any.withConn sysOps (siteAt E k cs) m body s = body (siteC r k) s :=
  (bind_ok (f := fun c => (do sysOps.hook c (siteAt E k cs) m; body c : OM Sys α)) (site_conn h)).trans (bind_ok (site_hook h hn m))

/-! ## Listing -/

/-- listing what is not there -/
theorem C87_listdir_missing (h : SysOk E r s) {cs : List Str} (hn : Nm cs) (hs : Straight (siteV r s none) cs)
    (hv : siteV r s none cs = none) :
    ∃ e, uListdir sysOps (siteAt E none cs) s = (.error e, s) ∧ Lost (siteV r s none) cs e := by
  obtain ⟨e, h1, h2⟩ := find_gone h hn hs hv true
  refine ⟨e, ?_, h1⟩
  refine (site_wc h (k := none) hn _ _).trans ?_
  refine bind_error (onDisk_ok (d := s.disk) (?_ : osListdir (loc cs).path s.disk = _))
  unfold osListdir
  rcases h2 with h2 | ⟨c, n, h2, rfl⟩ <;> rw [h2]

/-- listing a file -/
theorem C87_listdir_file (h : SysOk E r s) {cs : List Str} (hn : Nm cs) {d : Bytes} (hv : siteV r s none cs = some (.file d)) :
    uListdir sysOps (siteAt E none cs) s = (.error (.os .ENOTDIR), s) := by
  obtain ⟨p, hp⟩ := siteV_lfile.1 hv
  refine (site_wc h (k := none) hn _ _).trans ?_
  refine bind_error (onDisk_ok (d := s.disk) (?_ : osListdir (loc cs).path s.disk = _))
  unfold osListdir
  rw [find_here h.disk hn hp (.inr rfl)]
  simp only [hp, isDirD, Bool.false_eq_true, if_false]

/-! ## Making directories -/

/-- mkdir where there is something -/
theorem C87_mkdir_there (h : SysOk E r s) {cs : List Str} (hn : Nm cs) (hv : siteV r s none cs ≠ none) :
    uMkdir sysOps (siteAt E none cs) s = (.error (.os .EEXIST), s) := by
  obtain ⟨o, ho⟩ := Option.ne_none_iff_exists'.1 fun e => hv (siteV_lnone.2 e)
  refine (site_wc h (k := none) hn _ _).trans ?_
  show (if (loc cs).path = [] then pure () else onDisk (osMkdir (loc cs).path)) s = _
  rw [if_neg (loc_path_ne hn)]
  apply onDisk_ok (d := s.disk)
  unfold osMkdir
  rw [find_here h.disk hn ho (.inl rfl)]

/-- mkdir in what is no directory -/
theorem C87_mkdir_parent (h : SysOk E r s) {cs : List Str} (hn : Nm cs) (hs : Straight (siteV r s none) cs) (hv : siteV r s none cs = none)
    (hp : siteV r s none cs.dropLast ≠ some .dir) :
    ∃ e, uMkdir sysOps (siteAt E none cs) s = (.error e, s) ∧ Lost (siteV r s none) cs e := by
  obtain ⟨e, h1, h2⟩ := find_lost h hn hs hv hp false
  refine ⟨e, ?_, h2⟩
  refine (site_wc h (k := none) hn _ _).trans ?_
  show (if (loc cs).path = [] then pure () else onDisk (osMkdir (loc cs).path)) s = _
  rw [if_neg (loc_path_ne hn)]
  apply onDisk_ok (d := s.disk)
  unfold osMkdir
  rw [h1]

/-! ## Opening -/

/-- opening for reading what is not there -/
theorem C87_openR_missing (h : SysOk E r s) {cs : List Str} (hn : Nm cs) (hs : Straight (siteV r s none) cs)
    (hv : siteV r s none cs = none) :
    ∃ e, uOpenR sysOps (siteAt E none cs) s = (.error e, s) ∧ Lost (siteV r s none) cs e := by
  obtain ⟨e, h1, h2⟩ := find_gone h hn hs hv true
  refine ⟨e, ?_, h1⟩
  refine (site_wc h (k := none) hn _ _).trans ?_
  have : onDisk (osOpenR (loc cs).path) s = (.error e, s) := by
    apply onDisk_ok (d := s.disk)
    unfold osOpenR
    rcases h2 with h2 | ⟨c, n, h2, rfl⟩ <;> rw [h2]
  exact bind_error this

/-- opening a directory for reading -/
theorem C87_openR_dir (h : SysOk E r s) {cs : List Str} (hn : Nm cs) (hv : siteV r s none cs = some .dir) :
    uOpenR sysOps (siteAt E none cs) s = (.error (.os .EISDIR), s) := by
  obtain ⟨p, hp⟩ := siteV_ldir.1 hv
  refine (site_wc h (k := none) hn _ _).trans ?_
  have : onDisk (osOpenR (loc cs).path) s = (.error (.os .EISDIR), s) := by
    apply onDisk_ok (d := s.disk)
    unfold osOpenR
    rw [find_here h.disk hn hp (.inr rfl)]
    simp only [hp, isDirD, if_true]
  exact bind_error this

/-- opening for writing in what is no directory -/
theorem C87_openW_parent (h : SysOk E r s) {cs : List Str} (hn : Nm cs) (hs : Straight (siteV r s none) cs) (hv : siteV r s none cs = none)
    (hp : siteV r s none cs.dropLast ≠ some .dir) :
    ∃ e, uOpenW sysOps (siteAt E none cs) s = (.error e, s) ∧ Lost (siteV r s none) cs e := by
  obtain ⟨e, h1, h2⟩ := find_lost h hn hs hv hp true
  refine ⟨e, ?_, h2⟩
  refine (site_wc h (k := none) hn _ _).trans ?_
  have : onDisk (osOpenW (loc cs).path) s = (.error e, s) := by
    apply onDisk_ok (d := s.disk)
    unfold osOpenW
    rw [h1]
  exact bind_error this

/-- opening a directory for writing -/
theorem C87_openW_dir (h : SysOk E r s) {cs : List Str} (hn : Nm cs) (hv : siteV r s none cs = some .dir) :
    uOpenW sysOps (siteAt E none cs) s = (.error (.os .EISDIR), s) := by
  obtain ⟨p, hp⟩ := siteV_ldir.1 hv
  refine (site_wc h (k := none) hn _ _).trans ?_
  have : onDisk (osOpenW (loc cs).path) s = (.error (.os .EISDIR), s) := by
    apply onDisk_ok (d := s.disk)
    unfold osOpenW
    rw [find_here h.disk hn hp (.inr rfl)]
    simp only [hp]
  exact bind_error this

/-! ## Removing -/

theorem loc_exists (h : SysOk E r s) {cs : List Str} (hn : Nm cs) (hs : Straight (siteV r s none) cs) :
    sysOps.exists_ .loc (siteAt E none cs) s = (.ok (s.disk.tree cs).isSome, s) := by
  show osAsk true Option.isSome (loc cs) s = _
  unfold osAsk
  rw [stat_eq h.disk hn (Straight.noLink hs)]

theorem loc_isdir (h : SysOk E r s) {cs : List Str} (hn : Nm cs) (hs : Straight (siteV r s none) cs) :
    sysOps.isdir .loc (siteAt E none cs) s = (.ok (isDirD (s.disk.tree cs)), s) := by
  show osAsk true isDirD (loc cs) s = _
  unfold osAsk
  rw [stat_eq h.disk hn (Straight.noLink hs)]

theorem loc_islink (h : SysOk E r s) {cs : List Str} (hn : Nm cs) (hs : Straight (siteV r s none) cs) :
    sysOps.islink .loc (siteAt E none cs) s = (.ok false, s) := by
  show osAsk false isLinkD (loc cs) s = _
  unfold osAsk
  rw [stat_eq h.disk hn (Straight.noLink hs), Straight.noLink hs cs (List.prefix_refl _)]

theorem straight_dir (h : SysOk E r s) {cs : List Str} (hd : siteV r s none cs = some .dir) : Straight (siteV r s none) cs := by
  obtain ⟨p, hp⟩ := siteV_ldir.1 hd
  intro q hq
  by_cases e : q = cs
  · rw [e, hd]; simp
  · obtain ⟨m, hm⟩ := h.disk.above (by rw [hp]; simp) hq e
    rw [siteV_ldir.2 ⟨m, hm⟩]; simp

/-- removing what is not there, recursively or not -/
theorem C87_remove_missing (h : SysOk E r s) {cs : List Str} (hn : Nm cs) (hs : Straight (siteV r s none) cs)
    (hv : siteV r s none cs = none) (depth : Nat) (rec : Bool) :
    uRemove sysOps depth (siteAt E none cs) rec s = (.error .fileDoesNotExist, s) := by
  refine (site_wc h (k := none) hn _ _).trans ((bind_ok (loc_islink h hn hs)).trans ?_)
  refine (bind_ok (loc_exists h hn hs)).trans ?_
  rw [siteV_lnone.1 hv]
  rfl

/-- removing a directory with something in it without asking for a recursive removal -/
theorem C87_remove_full (h : SysOk E r s) {cs : List Str} {n : Str} (hn : Nm cs) (hd : siteV r s none cs = some .dir)
    (hv : siteV r s none (cs ++ [n]) ≠ none) (depth : Nat) :
    uRemove sysOps depth (siteAt E none cs) false s = (.error (.os .ENOTEMPTY), s) := by
  obtain ⟨p, hp⟩ := siteV_ldir.1 hd
  have hs := straight_dir h hd
  refine (site_wc h (k := none) hn _ _).trans ((bind_ok (loc_islink h hn hs)).trans ?_)
  refine (bind_ok (loc_exists h hn hs)).trans ?_
  rw [hp]
  refine (bind_ok (loc_isdir h hn hs)).trans ?_
  rw [hp]
  refine (bind_ok (loc_islink h hn hs)).trans ?_
  refine onDisk_ok (d := s.disk) (?_ : osRmdir (loc cs).path s.disk = _)
  unfold osRmdir
  rw [find_here h.disk hn hp (.inr rfl)]
  have : s.disk.names cs ≠ [] := fun e => by
    have hm : n ∈ s.disk.names cs := mem_diskNames.2 fun e => hv (siteV_lnone.2 e)
    rw [e] at hm; simp at hm
  simp only [hp, isDirD, ne_eq, this, not_false_eq_true, if_true]

/-! ## Copying, from any place to any place -/

/-- copying what is not there, recursively or not; `v` is any destination -/
theorem C87_copy_missing (h : SysOk E r s) {k : Option ι} {cs : List Str} (hn : Nm cs) (hc : Clear (siteV r s k) cs)
    (hv : siteV r s k cs = none) (v : Uri) (depth : Nat) (rec : Bool) (ig : List Str) (fl : Bool) :
    uCopy sysOps depth (siteAt E k cs) v rec ig fl s = (.error .fileDoesNotExist, s) := by
  have e : uExists sysOps (siteAt E k cs) s = (.ok false, s) :=
    (site_wc h hn _ _).trans ((site_exists h hn hc).trans (by rw [hv]; rfl))
  refine (site_wc h hn _ _).trans ?_
  unfold Any.copy
  rw [bind_ok e]
  rfl

/-- copying a directory without asking for a recursive copy -/
theorem C87_copy_dir (h : SysOk E r s) {k : Option ι} {cs : List Str} (hn : Nm cs) (hc : Clear (siteV r s k) cs)
    (hv : siteV r s k cs = some .dir) (v : Uri) (depth : Nat) (ig : List Str) (fl : Bool) :
    uCopy sysOps depth (siteAt E k cs) v false ig fl s = (.error .assertionError, s) := by
  have e : uExists sysOps (siteAt E k cs) s = (.ok true, s) :=
    (site_wc h hn _ _).trans ((site_exists h hn hc).trans (by rw [hv]; rfl))
  have e' : uIsfile sysOps (siteAt E k cs) s = (.ok false, s) :=
    (site_wc h hn _ _).trans ((site_isfile h hn hc).trans (by rw [hv]; rfl))
  refine (site_wc h hn _ _).trans ?_
  unfold Any.copy
  rw [bind_ok e]
  exact bind_ok e'

/-- copying a file and asking for a recursive copy -/
theorem C87_copy_file (h : SysOk E r s) {k : Option ι} {cs : List Str} (hn : Nm cs) (hc : Clear (siteV r s k) cs) {d : Bytes}
    (hv : siteV r s k cs = some (.file d)) (v : Uri) (depth : Nat) (ig : List Str) (fl : Bool) :
    uCopy sysOps depth (siteAt E k cs) v true ig fl s = (.error .assertionError, s) := by
  have e : uExists sysOps (siteAt E k cs) s = (.ok true, s) :=
    (site_wc h hn _ _).trans ((site_exists h hn hc).trans (by rw [hv]; rfl))
  have e' : uIsdir sysOps (siteAt E k cs) s = (.ok false, s) :=
    (site_wc h hn _ _).trans ((site_isdir h hn hc).trans (by rw [hv]; rfl))
  refine (site_wc h hn _ _).trans ?_
  unfold Any.copy
  rw [bind_ok e]
  exact bind_ok e'

end

/-! ## Concrete cases: the local files of `sampleSys` -/

/-- /t/g is a file: /t/g/x leads through it -/
example : uListdir sysOps (sAt none [cl!"t", cl!"g", cl!"x"]) sampleSys = (.error (.os .ENOTDIR), sampleSys) := by
  obtain ⟨e, h1, h2 | h2⟩ := C87_listdir_missing sampleSys_ok (cs := [cl!"t", cl!"g", cl!"x"]) (by decide +kernel) (all_prefixes (by decide +kernel)) (by decide +kernel)
  · rw [h2.1] at h1; exact h1
  · have := h2.2 [cl!"t", cl!"g"] (by decide)
    exact absurd this (by decide +kernel)

example : uListdir sysOps (sAt none [cl!"t", cl!"nope"]) sampleSys = (.error (.os .ENOENT), sampleSys) := by
  obtain ⟨e, h1, h2 | h2⟩ := C87_listdir_missing sampleSys_ok (cs := [cl!"t", cl!"nope"]) (by decide +kernel) (all_prefixes (by decide +kernel)) (by decide +kernel)
  · obtain ⟨-, p, h3, h4⟩ := h2
    exact absurd h4 (all_prefixes (P := fun p => ¬ isF (sV none p) = true) (by decide +kernel) p h3)
  · rw [h2.1] at h1; exact h1

example : uListdir sysOps (sAt none [cl!"t", cl!"g"]) sampleSys = (.error (.os .ENOTDIR), sampleSys) :=
  C87_listdir_file sampleSys_ok (d := [1, 2, 3]) (by decide +kernel) (by decide +kernel)

example : uMkdir sysOps (sAt none [cl!"t", cl!"g"]) sampleSys = (.error (.os .EEXIST), sampleSys) :=
  C87_mkdir_there sampleSys_ok (by decide +kernel) (by decide +kernel)

example : uMkdir sysOps (sAt none [cl!"t", cl!"g", cl!"x"]) sampleSys = (.error (.os .ENOTDIR), sampleSys) := by
  obtain ⟨e, h1, h2 | h2⟩ := C87_mkdir_parent sampleSys_ok (cs := [cl!"t", cl!"g", cl!"x"]) (by decide +kernel) (all_prefixes (by decide +kernel)) (by decide +kernel) (by decide +kernel)
  · rw [h2.1] at h1; exact h1
  · have := h2.2 [cl!"t", cl!"g"] (by decide)
    exact absurd this (by decide +kernel)

example : uOpenR sysOps (sAt none [cl!"t", cl!"g", cl!"x"]) sampleSys = (.error (.os .ENOTDIR), sampleSys) := by
  obtain ⟨e, h1, h2 | h2⟩ := C87_openR_missing sampleSys_ok (cs := [cl!"t", cl!"g", cl!"x"]) (by decide +kernel) (all_prefixes (by decide +kernel)) (by decide +kernel)
  · rw [h2.1] at h1; exact h1
  · have := h2.2 [cl!"t", cl!"g"] (by decide)
    exact absurd this (by decide +kernel)

example : uOpenW sysOps (sAt none [cl!"t", cl!"g", cl!"x"]) sampleSys = (.error (.os .ENOTDIR), sampleSys) := by
  obtain ⟨e, h1, h2 | h2⟩ := C87_openW_parent sampleSys_ok (cs := [cl!"t", cl!"g", cl!"x"]) (by decide +kernel) (all_prefixes (by decide +kernel)) (by decide +kernel) (by decide +kernel)
  · rw [h2.1] at h1; exact h1
  · have := h2.2 [cl!"t", cl!"g"] (by decide)
    exact absurd this (by decide +kernel)

example : uOpenR sysOps (sAt none [cl!"t"]) sampleSys = (.error (.os .EISDIR), sampleSys) :=
  C87_openR_dir sampleSys_ok (by decide +kernel) (by decide +kernel)

example : uOpenW sysOps (sAt none [cl!"t"]) sampleSys = (.error (.os .EISDIR), sampleSys) :=
  C87_openW_dir sampleSys_ok (by decide +kernel) (by decide +kernel)

example : uRemove sysOps 100 (sAt none [cl!"nope"]) true sampleSys = (.error .fileDoesNotExist, sampleSys) :=
  C87_remove_missing sampleSys_ok (by decide +kernel) (all_prefixes (by decide +kernel)) (by decide +kernel) _ _

example : uRemove sysOps 100 (sAt none [cl!"t"]) false sampleSys = (.error (.os .ENOTEMPTY), sampleSys) :=
  C87_remove_full sampleSys_ok (n := cl!"g") (by decide +kernel) (by decide +kernel) (by decide +kernel) _

example (v : Uri) : uCopy sysOps 100 (sAt none [cl!"nope"]) v true [] true sampleSys = (.error .fileDoesNotExist, sampleSys) :=
  C87_copy_missing sampleSys_ok (by decide +kernel) ⟨fun p hp hne => by revert hne; revert p; exact all_prefixes (by decide +kernel), by decide +kernel⟩
    (by decide +kernel) v _ _ _ _

example (v : Uri) : uCopy sysOps 100 (sAt (some ()) [cl!"a"]) v false [] true sampleSys = (.error .assertionError, sampleSys) :=
  C87_copy_dir sampleSys_ok (by decide +kernel) ⟨fun p hp hne => by revert hne; revert p; exact all_prefixes (by decide +kernel), by decide +kernel⟩
    (by decide +kernel) v _ _ _

example (v : Uri) : uCopy sysOps 100 (sAt none [cl!"t", cl!"g"]) v true [] true sampleSys = (.error .assertionError, sampleSys) :=
  C87_copy_file sampleSys_ok (d := [1, 2, 3]) (by decide +kernel)
    ⟨fun p hp hne => by revert hne; revert p; exact all_prefixes (by decide +kernel), by decide +kernel⟩ (by decide +kernel) v _ _ _

end Verif.Props
