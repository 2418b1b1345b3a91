import Verif.Any.LocMove
import Verif.Props.LocalLinks
/-!
# C98: moving local files, directories and links

`Shifted d d' s t` says that the object at `s`, with all below it, is now at `t`, and that nothing else has changed.
-/
namespace Verif.Props
open Verif.Spec Verif.Any Verif.Gen

/-- the path `p` names what is at `t`: links on the way are followed, a link at the end is not -/
structure Named (d : Disk) (p t : List Str) (o : DObj) : Prop where
  nm : Nm p
  nm' : Nm t
  leads : ∃ k ≤ 40, Leads d false k p t
  obj : d.tree t = some o

/-- the path `q` leads to the directory `ds`, by whatever links -/
structure ToDir (d : Disk) (q ds : List Str) : Prop where
  nm : Nm q
  nm' : Nm ds
  leads : ∃ k ≤ 40, Leads d true k q ds
  dir : ∃ x, d.tree ds = some (.dir x)

section
variable {ι : Type} {E : ι → Dict} {r : ι → Nat} {s : Sys}

theorem Named.find {d : Disk} {p t : List Str} {o : DObj} (h : DiskOk d) (hp : Named d p t o) : d.find false (loc p).path = .here t := by
  obtain ⟨k, hk, hl⟩ := hp.leads
  exact find_obj h hl hk hp.nm hp.nm' hp.obj (.inl rfl)

theorem Named.stat {d : Disk} {p t : List Str} {o : DObj} (h : DiskOk d) (hp : Named d p t o) : d.stat false (loc p).path = some o := by
  unfold Disk.stat
  rw [hp.find h]
  exact hp.obj

/-- of something that is no link -/
theorem Named.find_true {d : Disk} {p t : List Str} {o : DObj} (h : DiskOk d) (hp : Named d p t o) (ho : isLinkD (some o) = false) :
    d.find true (loc p).path = .here t := by
  obtain ⟨k, hk, hl⟩ := hp.leads
  exact find_obj h (Leads.follow hl) hk hp.nm hp.nm' hp.obj (.inr ho)

theorem Named.last {d : Disk} {p t : List Str} {n : Str} {o : DObj} (hp : Named d p (t ++ [n]) o) : ∃ a, p = a ++ [n] := by
  obtain ⟨k, -, hl⟩ := hp.leads
  exact hl.last

theorem ToDir.find {d : Disk} {q ds : List Str} (h : DiskOk d) (hq : ToDir d q ds) : d.find true (loc q).path = .here ds := by
  obtain ⟨k, hk, hl⟩ := hq.leads
  obtain ⟨x, hx⟩ := hq.dir
  exact find_obj h hl hk hq.nm hq.nm' hx (.inr rfl)

theorem ToDir.stat {d : Disk} {q ds : List Str} (h : DiskOk d) (hq : ToDir d q ds) : isDirD (d.stat true (loc q).path) = true := by
  obtain ⟨x, hx⟩ := hq.dir
  unfold Disk.stat
  rw [hq.find h]
  simp only [hx, isDirD]

theorem ToDir.snoc {d : Disk} {q ds : List Str} (h : DiskOk d) (hq : ToDir d q ds) {m : Str} (hn : Nm (ds ++ [m])) : Nm (q ++ [m]) := by
  obtain ⟨k, -, hl⟩ := hq.leads
  by_cases e : q = []
  · subst e
    rw [hl.root h] at hn
    exact hn
  · exact hq.nm.snoc hn e

theorem ToDir.new {d : Disk} {q ds : List Str} (h : DiskOk d) (hq : ToDir d q ds) {m : Str} (hn : Nm (ds ++ [m]))
    (hf : d.tree (ds ++ [m]) = none) (fl : Bool) : d.find fl (loc (q ++ [m])).path = .free ds m := by
  obtain ⟨k, hk, hl⟩ := hq.leads
  obtain ⟨x, hx⟩ := hq.dir
  exact find_new h hl hk (hq.snoc h hn) hn hx hf

/-- what has a name in the directory -/
theorem ToDir.names {d : Disk} {q ds : List Str} (h : DiskOk d) (hq : ToDir d q ds) {m : Str} (hn : Nm (ds ++ [m])) {o : DObj}
    (ho : d.tree (ds ++ [m]) = some o) : Named d (q ++ [m]) (ds ++ [m]) o := by
  obtain ⟨k, hk, hl⟩ := hq.leads
  exact ⟨hq.snoc h hn, hn, ⟨k, hk, hl.under h false hn⟩, ho⟩

/-- `move` in terms of `shutil.move` -/
theorem uMove_loc (h : SysOk E r s) {p q : List Str} (hn : Nm p) (depth : Nat) :
    uMove sysOps depth (siteAt E none p) (siteAt E none q) s = locMove (loc p) (loc q) s := by
  refine (site_wc h (k := none) hn _ _).trans ?_
  have e : sysOps.moveSelf (siteC r none) (siteAt E none p) (siteAt E none q) = some (locMove (loc p) (loc q)) := by
    show (if (loc q).scheme = some cl!"file" then some (locMove (loc p) (loc q)) else none) = _
    rw [if_pos (loc_scheme q)]
  rw [e]

theorem ask_eq (fl : Bool) (f : Option DObj → Bool) (u : Uri) (s : Sys) : osAsk fl f u s = (.ok (f (s.disk.stat fl u.path)), s) := rfl

theorem locMove_else {p q : List Str} (hd : isDirD (s.disk.stat true (loc p).path) = false ∨ isDirD (s.disk.stat true (loc q).path) = false) :
    locMove (loc p) (loc q) s = onDisk (shutilMove (loc p).path (loc q).path) s := by
  unfold locMove
  rw [bind_ok (ask_eq true isDirD (loc p) s), bind_ok (ask_eq true isDirD (loc q) s), if_neg (by rcases hd with hd | hd <;> simp [hd])]
  rfl

theorem locMove_both {a q : List Str} {n : Str} (hn : Nm (a ++ [n])) (hq : Nm (q ++ [n]))
    (h1 : isDirD (s.disk.stat true (loc (a ++ [n])).path) = true) (h2 : isDirD (s.disk.stat true (loc q).path) = true) :
    locMove (loc (a ++ [n])) (loc q) s = onDisk (shutilMove (loc (a ++ [n])).path (loc (q ++ [n])).path) s := by
  unfold locMove
  rw [bind_ok (ask_eq true isDirD (loc (a ++ [n])) s), bind_ok (ask_eq true isDirD (loc q) s), if_pos (by simp [h1, h2])]
  have e1 : (loc (a ++ [n])).basename = .ok n := basename_of_split (loc_split hn)
  have e2 : (loc q).div n = .ok (loc (q ++ [n])) := loc_div_path hq (by simp) (by simp [slash])
  refine (bind_ok (a := n) (s' := s) (by rw [e1]; rfl)).trans ?_
  exact bind_ok (a := loc (q ++ [n])) (s' := s) (by rw [e2]; rfl)

theorem renameOrCopy_ok {d d' : Disk} {src dst real : Str} (h : osRename src real d = (.ok (), d')) :
    renameOrCopy src dst real d = (.ok (), d') := by
  unfold renameOrCopy
  rw [h]

theorem renamed (h : SysOk E r s) {t ds : List Str} {m : Str} (h1 : ¬ t <+: ds ++ [m]) (h2 : ¬ ds ++ [m] <+: t) {x : Nat}
    (hx : s.disk.tree ds = some (.dir x)) {f : OM Disk Unit} (hf : f s.disk = (.ok (), s.disk.rename t (ds ++ [m]))) :
    ∃ s', onDisk f s = (.ok (), s') ∧ SysOk E r s' ∧ s'.mem = s.mem ∧ Shifted s.disk s'.disk t (ds ++ [m]) :=
  ⟨{ s with disk := s.disk.rename t (ds ++ [m]) }, onDisk_ok hf, h.dsk (h.disk.rename h1 h2 hx), rfl, rename_shifted h.disk h1 h2⟩

theorem not_above {d : Disk} (h : DiskOk d) {t q : List Str} {o : DObj} (ho : d.tree t = some o) (hf : d.tree q = none) : ¬ q <+: t := by
  intro c
  by_cases e : q = t
  · rw [e, ho] at hf; cases hf
  · obtain ⟨x, hx⟩ := h.above (by rw [ho]; simp) c e
    rw [hx] at hf; cases hf

theorem snoc_of_ne {t : List Str} (ht : t ≠ []) : ∃ ss n, t = ss ++ [n] := by
  rcases List.eq_nil_or_concat t with e | ⟨a, b, e⟩
  · exact absurd e ht
  · exact ⟨a, b, by rw [e, List.concat_eq_append]⟩

theorem isdir_false (h : SysOk E r s) {q : List Str} (hn : Nm q) {b : Bool} (hd : uIsdir sysOps (siteAt E none q) s = (.ok b, s)) :
    isDirD (s.disk.stat true (loc q).path) = b := by
  have e : uIsdir sysOps (siteAt E none q) s = (.ok (isDirD (s.disk.stat true (loc q).path)), s) :=
    (site_wc h (k := none) hn _ _).trans rfl
  rw [e] at hd
  simpa using hd

/-! ## C98 -/

/-- **C98**: what is moved onto a directory gets into it under its own name, if that is free there -/
theorem C98_into (h : SysOk E r s) {p q ss ds : List Str} {n : Str} {o : DObj} (hp : Named s.disk p (ss ++ [n]) o)
    (hq : ToDir s.disk q ds) (hn : Nm (ds ++ [n])) (hf : s.disk.tree (ds ++ [n]) = none) (hne : ¬ ss ++ [n] <+: ds) (depth : Nat) :
    ∃ s', uMove sysOps depth (siteAt E none p) (siteAt E none q) s = (.ok (), s') ∧ SysOk E r s' ∧ s'.mem = s.mem ∧
      Shifted s.disk s'.disk (ss ++ [n]) (ds ++ [n]) := by
  obtain ⟨a, rfl⟩ := hp.last
  obtain ⟨x, hx⟩ := hq.dir
  have hnq := hq.snoc h.disk hn
  have k1 : ¬ ss ++ [n] <+: ds ++ [n] := fun c => by
    rcases prefix_snoc_iff.1 c with c | c
    · exact hne c
    · rw [← c, hp.obj] at hf; cases hf
  have k2 := not_above h.disk hp.obj hf
  have hr := osRename_new (noOwnName_loc hp.nm) (noOwnName_loc hnq) (hp.find h.disk) (hq.new h.disk hn hf false) k1
  have hno : s.disk.stat true (loc (q ++ [n])).path = none := by
    unfold Disk.stat; rw [hq.new h.disk hn hf true]
  rw [uMove_loc h hp.nm]
  cases hd : isDirD (s.disk.stat true (loc (a ++ [n])).path) with
  | true =>
    rw [locMove_both hp.nm hnq hd (hq.stat h.disk)]
    refine renamed h k1 k2 hx ?_
    unfold shutilMove
    rw [hno, if_neg (by simp [isDirD])]
    exact renameOrCopy_ok hr
  | false =>
    rw [locMove_else (.inl hd)]
    refine renamed h k1 k2 hx ?_
    unfold shutilMove
    rw [hq.stat h.disk, if_pos rfl, if_neg, join_loc hp.nm hnq, hno, if_neg (by simp)]
    · exact renameOrCopy_ok hr
    · intro e
      have := hq.stat h.disk
      unfold Disk.stat at this hd
      rw [e] at hd
      rw [hd] at this; cases this

/-- **C98**: moved to a free name it is renamed -/
theorem C98_rename (h : SysOk E r s) {p q t e : List Str} {m : Str} {o : DObj} (hp : Named s.disk p t o)
    (hq : ToDir s.disk q e) (hn : Nm (e ++ [m])) (hf : s.disk.tree (e ++ [m]) = none) (hne : ¬ t <+: e ++ [m]) (depth : Nat) :
    ∃ s', uMove sysOps depth (siteAt E none p) (siteAt E none (q ++ [m])) s = (.ok (), s') ∧ SysOk E r s' ∧ s'.mem = s.mem ∧
      Shifted s.disk s'.disk t (e ++ [m]) := by
  obtain ⟨x, hx⟩ := hq.dir
  have ht : t ≠ [] := by rintro rfl; exact hne List.nil_prefix
  obtain ⟨ss, n, rfl⟩ := snoc_of_ne ht
  obtain ⟨a, rfl⟩ := hp.last
  have hr := osRename_new (noOwnName_loc hp.nm) (noOwnName_loc (hq.snoc h.disk hn)) (hp.find h.disk) (hq.new h.disk hn hf false) hne
  have hno : s.disk.stat true (loc (q ++ [m])).path = none := by
    unfold Disk.stat; rw [hq.new h.disk hn hf true]
  rw [uMove_loc h hp.nm, locMove_else (.inr (by rw [hno]; rfl))]
  refine renamed h hne (not_above h.disk hp.obj hf) hx ?_
  unfold shutilMove
  rw [hno, if_neg (by simp [isDirD])]
  exact renameOrCopy_ok hr

/-- **C98**: what is no directory replaces what is none and leads to none -/
theorem C98_replace (h : SysOk E r s) {p q t e : List Str} {m : Str} {o o' : DObj} (hp : Named s.disk p t o)
    (ho : isDirD (some o) = false) (hq : ToDir s.disk q e) (hn : Nm (e ++ [m])) (hv : s.disk.tree (e ++ [m]) = some o')
    (hd : uIsdir sysOps (siteAt E none (q ++ [m])) s = (.ok false, s)) (hne : t ≠ e ++ [m]) (depth : Nat) :
    ∃ s', uMove sysOps depth (siteAt E none p) (siteAt E none (q ++ [m])) s = (.ok (), s') ∧ SysOk E r s' ∧ s'.mem = s.mem ∧
      Shifted s.disk s'.disk t (e ++ [m]) := by
  obtain ⟨x, hx⟩ := hq.dir
  have hd := isdir_false h (hq.snoc h.disk hn) hd
  have ht : t ≠ [] := h.disk.ne_root hp.obj ho
  obtain ⟨ss, n, rfl⟩ := snoc_of_ne ht
  obtain ⟨a, rfl⟩ := hp.last
  have hv' := hq.names h.disk hn hv
  have ho' : isDirD (some o') = false := by
    cases o' with
    | dir x =>
      have := hv'.find_true h.disk rfl
      unfold Disk.stat at hd
      rw [this] at hd
      simp only [hv, isDirD] at hd
      cases hd
    | file _ _ => rfl
    | link _ => rfl
  obtain ⟨hr, k1, k2⟩ := osRename_onto h.disk (noOwnName_loc hp.nm) (noOwnName_loc hv'.nm) (hp.find h.disk) (hv'.find h.disk) hp.obj hv ho ho' hne
  rw [uMove_loc h hp.nm, locMove_else (.inr hd)]
  refine renamed h k1 k2 hx ?_
  unfold shutilMove
  rw [hd, if_neg (by simp)]
  exact renameOrCopy_ok hr

/-- **C98**: so a link moved onto the file it leads to takes its place, and the file is lost -/
theorem C98_onto_target_refuted (h : SysOk E r s) {c t e : List Str} {m : Str} (hn : Nm c) (hc : s.disk.tree c = some (.link (pathOf t)))
    (he : t = e ++ [m]) (ht : Nm t) {x : Nat} {b : Bytes} (hv : s.disk.tree t = some (.file x b)) (depth : Nat) :
    ∃ s', uMove sysOps depth (siteAt E none c) (siteAt E none t) s = (.ok (), s') ∧ s'.disk.tree c = none ∧
      s'.disk.tree t = some (.link (pathOf t)) ∧ uExists sysOps (siteAt E none t) s' = (.ok false, s') := by
  subst he
  obtain ⟨y, hy⟩ := h.disk.tree e m (by rw [hv]; simp)
  have hq : ToDir s.disk e e := ⟨ht.of_prefix, ht.of_prefix, ⟨0, by omega, .here _⟩, y, hy⟩
  have hne : c ≠ e ++ [m] := by rintro rfl; rw [hc] at hv; cases hv
  have hcn : ¬ e ++ [m] <+: c := fun k => by
    obtain ⟨z, hz⟩ := h.disk.above (by rw [hc]; simp) k hne.symm
    rw [hv] at hz; cases hz
  obtain ⟨s', h1, h2, -, S⟩ := C98_replace h ⟨hn, hn, ⟨0, by omega, .here _⟩, hc⟩ rfl hq ht hv (by
    refine (site_wc h (k := none) ht _ _).trans ?_
    show osAsk true isDirD (loc _) s = _
    simp only [osAsk, stat_here h.disk ht hv (.inr rfl), isDirD]) hne depth
  have k : s'.disk.tree (e ++ [m]) = some (.link (pathOf (e ++ [m]))) := by
    have := S.there []
    rwa [List.append_nil, List.append_nil, hc] at this
  refine ⟨s', h1, S.gone _ (List.prefix_refl _) hcn, k, ?_⟩
  refine (C95_circle h2 (n := 0) (p := e ++ [m]) ?_ ht).1
  have := Leads.link (fl := true) (x := []) (n := 0) (q := e ++ [m]) k (by simpa using ht) (by simpa using ht) (.inr rfl) (by simpa using .here _)
  simpa using this

/-- what is done with a directory that cannot be renamed -/
theorem renameOrCopy_dir {d : Disk} {src dst real : Str} {e : PyErr} (hr : osRename src real d = (.error e, d)) (he : e ≠ .outside)
    {x : Nat} (h1 : d.stat false src = some (.dir x)) (h2 : d.stat true src = some (.dir x)) :
    renameOrCopy src dst real d =
      if absNames d src <+: absNames d dst then (.error .shutilError, d)
      else
        match osMakedirs real.length real d with
        | (.error e, d') => (.error e, d')
        | (.ok (), d') =>
          match osRename src real d' with
          | (.ok (), d'') => (.ok (), d'')
          | (.error _, _) => (.error .outside, d') := by
  unfold renameOrCopy
  rw [hr]
  simp only
  rw [if_neg he, h1, h2, if_neg (by simp [isLinkD]), if_pos (by simp [isDirD])]
  rfl

theorem onDisk_err {f : OM Disk Unit} {e : PyErr} (hf : f s.disk = (.error e, s.disk)) : onDisk f s = (.error e, s) := by
  unfold onDisk
  rw [hf]

/-- **C98**: a directory is not moved onto anything else -/
theorem C98_dir_onto (h : SysOk E r s) {p q t e : List Str} {m : Str} {x : Nat} {o' : DObj} (hp : Named s.disk p t (.dir x))
    (hr : t ≠ []) (hq : ToDir s.disk q e) (hn : Nm (e ++ [m])) (hv : s.disk.tree (e ++ [m]) = some o')
    (hd : uIsdir sysOps (siteAt E none (q ++ [m])) s = (.ok false, s)) (depth : Nat) :
    uMove sysOps depth (siteAt E none p) (siteAt E none (q ++ [m])) s =
      (.error (if p <+: q ++ [m] then .shutilError else .os .EEXIST), s) := by
  have hd := isdir_false h (hq.snoc h.disk hn) hd
  obtain ⟨ss, n, rfl⟩ := snoc_of_ne hr
  obtain ⟨a, rfl⟩ := hp.last
  have hv' := hq.names h.disk hn hv
  have ho' : isDirD (some o') = false := by
    cases o' with
    | dir x =>
      have := hv'.find_true h.disk rfl
      unfold Disk.stat at hd
      rw [this] at hd
      simp only [hv, isDirD] at hd
      cases hd
    | file _ _ => rfl
    | link _ => rfl
  obtain ⟨er, h1, h2⟩ := osRename_dir_onto h.disk (noOwnName_loc hp.nm) (noOwnName_loc hv'.nm) (hp.find h.disk) (hv'.find h.disk) hp.obj hv ho'
  rw [uMove_loc h hp.nm, locMove_else (.inr hd)]
  refine onDisk_err ?_
  unfold shutilMove
  rw [hd, if_neg (by simp), renameOrCopy_dir h1 h2 (hp.stat h.disk) (by unfold Disk.stat; rw [hp.find_true h.disk rfl]; exact hp.obj),
    absNames_loc hp.nm, absNames_loc hv'.nm]
  by_cases hc : a ++ [n] <+: q ++ [m]
  · rw [if_pos hc, if_pos hc]
  · rw [if_neg hc, if_neg hc]
    obtain ⟨k, hk⟩ : ∃ k, (loc (q ++ [m])).path.length = k + 1 := by
      have := path_length hv'.nm
      simp only [List.length_append, List.length_cons, List.length_nil] at this
      exact ⟨(loc (q ++ [m])).path.length - 1, by omega⟩
    have e1 : osMakedirs (loc (q ++ [m])).path.length (loc (q ++ [m])).path s.disk = (.error (.os .EEXIST), s.disk) := by
      rw [hk]
      unfold osMakedirs
      rw [shDirname_loc hv'.nm, if_neg]
      · unfold osMkdir
        rw [hv'.find h.disk]
      · intro c
        have := hq.stat h.disk
        rw [Option.isNone_iff_eq_none.1 c.2] at this
        cases this
    rw [e1]

/-- **C98**: a directory is not moved into itself, nor to a name below itself -/
theorem C98_into_itself (h : SysOk E r s) {p q ss ds : List Str} {n : Str} {x : Nat} (hp : Named s.disk p (ss ++ [n]) (.dir x))
    (hq : ToDir s.disk q ds) (hin : ss ++ [n] <+: ds) (hpq : p <+: q) (depth : Nat) :
    (∀ m, Nm (ds ++ [m]) → s.disk.tree (ds ++ [m]) = none →
      uMove sysOps depth (siteAt E none p) (siteAt E none (q ++ [m])) s = (.error .shutilError, s)) ∧
    (Nm (ds ++ [n]) → s.disk.tree (ds ++ [n]) = none →
      uMove sysOps depth (siteAt E none p) (siteAt E none q) s = (.error .shutilError, s)) := by
  obtain ⟨a, rfl⟩ := hp.last
  have hsd : s.disk.stat true (loc (a ++ [n])).path = some (.dir x) := by
    unfold Disk.stat; rw [hp.find_true h.disk rfl]; exact hp.obj
  have key : ∀ m, Nm (ds ++ [m]) → s.disk.tree (ds ++ [m]) = none →
      onDisk (shutilMove (loc (a ++ [n])).path (loc (q ++ [m])).path) s = (.error .shutilError, s) := fun m hn hf => by
    have hnq := hq.snoc h.disk hn
    have hno : s.disk.stat true (loc (q ++ [m])).path = none := by
      unfold Disk.stat; rw [hq.new h.disk hn hf true]
    have hr : osRename (loc (a ++ [n])).path (loc (q ++ [m])).path s.disk = (.error (.os .EINVAL), s.disk) := by
      unfold osRename
      rw [noOwnName_loc hp.nm, noOwnName_loc hnq, if_neg (by simp), hp.find h.disk]
      simp only [hq.new h.disk hn hf false]
      rw [if_pos (hin.trans (List.prefix_append _ _))]
    refine onDisk_err ?_
    unfold shutilMove
    rw [hno, if_neg (by simp [isDirD]), renameOrCopy_dir hr (by simp) (hp.stat h.disk) hsd, absNames_loc hp.nm, absNames_loc hnq,
      if_pos (hpq.trans (List.prefix_append _ _))]
  refine ⟨fun m hn hf => ?_, fun hn hf => ?_⟩
  · have hno : s.disk.stat true (loc (q ++ [m])).path = none := by
      unfold Disk.stat; rw [hq.new h.disk hn hf true]
    rw [uMove_loc h hp.nm, locMove_else (.inr (by rw [hno]; rfl))]
    exact key m hn hf
  · rw [uMove_loc h hp.nm, locMove_both hp.nm (hq.snoc h.disk hn) (by rw [hsd]; rfl) (hq.stat h.disk)]
    exact key n hn hf

/-- **C98**: a directory moved onto a directory that has a directory of that name already gets into that one -/
theorem C98_twice (h : SysOk E r s) {p q ss ds : List Str} {n : Str} {x y : Nat} (hp : Named s.disk p (ss ++ [n]) (.dir x))
    (hq : ToDir s.disk q ds) (hn : Nm (ds ++ [n, n])) (hv : s.disk.tree (ds ++ [n]) = some (.dir y))
    (hf : s.disk.tree (ds ++ [n, n]) = none) (hne : ¬ ss ++ [n] <+: ds ++ [n]) (depth : Nat) :
    ∃ s', uMove sysOps depth (siteAt E none p) (siteAt E none q) s = (.ok (), s') ∧ SysOk E r s' ∧ s'.mem = s.mem ∧
      Shifted s.disk s'.disk (ss ++ [n]) (ds ++ [n, n]) := by
  obtain ⟨a, rfl⟩ := hp.last
  rw [show ds ++ [n, n] = (ds ++ [n]) ++ [n] by simp] at *
  have hn1 : Nm (ds ++ [n]) := hn.of_prefix
  have hN := hq.names h.disk hn1 hv
  have hq' : ToDir s.disk (q ++ [n]) (ds ++ [n]) := by
    obtain ⟨k, hk, hl⟩ := hN.leads
    exact ⟨hN.nm, hN.nm', ⟨k, hk, Leads.follow hl⟩, y, hv⟩
  have hsd : s.disk.stat true (loc (a ++ [n])).path = some (.dir x) := by
    unfold Disk.stat; rw [hp.find_true h.disk rfl]; exact hp.obj
  have hnq := hq'.snoc h.disk hn
  have hno : s.disk.stat true (loc (q ++ [n] ++ [n])).path = none := by
    unfold Disk.stat; rw [hq'.new h.disk hn hf true]
  have k1 : ¬ ss ++ [n] <+: ds ++ [n] ++ [n] := fun c => by
    rcases prefix_snoc_iff.1 c with c | c
    · exact hne c
    · rw [← c, hp.obj] at hf; cases hf
  rw [uMove_loc h hp.nm, locMove_both hp.nm hN.nm (by rw [hsd]; rfl) (hq.stat h.disk)]
  refine renamed h k1 (not_above h.disk hp.obj hf) hv ?_
  unfold shutilMove
  rw [hq'.stat h.disk, if_pos rfl, if_neg, join_loc hp.nm hnq, hno, if_neg (by simp)]
  · exact renameOrCopy_ok (osRename_new (noOwnName_loc hp.nm) (noOwnName_loc hnq) (hp.find h.disk) (hq'.new h.disk hn hf false) k1)
  · rw [hp.find_true h.disk rfl, hq'.find h.disk]
    intro c
    injection c with c
    rw [c] at hne
    exact hne (List.prefix_refl _)

/-- **C98**: to move a directory into the directory it is in changes nothing -/
theorem C98_same_dir (h : SysOk E r s) {p q ds : List Str} {n : Str} {x : Nat} (hp : Named s.disk p (ds ++ [n]) (.dir x))
    (hq : ToDir s.disk q ds) (depth : Nat) :
    uMove sysOps depth (siteAt E none p) (siteAt E none q) s = (.ok (), s) := by
  obtain ⟨a, rfl⟩ := hp.last
  have hN := hq.names h.disk hp.nm' hp.obj
  have hsd : s.disk.stat true (loc (a ++ [n])).path = some (.dir x) := by
    unfold Disk.stat; rw [hp.find_true h.disk rfl]; exact hp.obj
  have hsd' : s.disk.stat true (loc (q ++ [n])).path = some (.dir x) := by
    unfold Disk.stat; rw [hN.find_true h.disk rfl]; exact hN.obj
  rw [uMove_loc h hp.nm, locMove_both hp.nm hN.nm (by rw [hsd]; rfl) (hq.stat h.disk)]
  refine onDisk_ok (d := s.disk) ?_
  unfold shutilMove
  rw [hsd', if_pos (by simp [isDirD]), if_pos (by rw [hp.find_true h.disk rfl, hN.find_true h.disk rfl]),
    hp.stat h.disk, if_neg (by simp [isLinkD])]
  unfold osRename
  rw [noOwnName_loc hp.nm, noOwnName_loc hN.nm, if_neg (by simp), hp.find h.disk]
  simp only [hN.find h.disk, if_pos]

theorem exists_false (h : SysOk E r s) {q : List Str} (hn : Nm q) {b : Bool} (hd : uExists sysOps (siteAt E none q) s = (.ok b, s)) :
    (s.disk.stat true (loc q).path).isSome = b := by
  have e : uExists sysOps (siteAt E none q) s = (.ok (s.disk.stat true (loc q).path).isSome, s) :=
    (site_wc h (k := none) hn _ _).trans rfl
  rw [e] at hd
  simpa using hd

theorem find_ne {d : Disk} {P Q : Str} (h1 : isDirD (d.stat true P) = false) (h2 : isDirD (d.stat true Q) = true) : d.find true P ≠ d.find true Q := by
  intro e
  unfold Disk.stat at h1 h2
  rw [e] at h1
  rw [h1] at h2; cases h2

/-- **C98**: what is no directory is not moved into a directory that has something of that name -/
theorem C98_taken (h : SysOk E r s) {a q ds : List Str} {n : Str} (hn : Nm (a ++ [n]))
    (hd : uIsdir sysOps (siteAt E none (a ++ [n])) s = (.ok false, s)) (hq : ToDir s.disk q ds) (hnq : Nm (q ++ [n]))
    (hv : uExists sysOps (siteAt E none (q ++ [n])) s = (.ok true, s)) (depth : Nat) :
    uMove sysOps depth (siteAt E none (a ++ [n])) (siteAt E none q) s = (.error .shutilError, s) := by
  have hd := isdir_false h hn hd
  have hv := exists_false h hnq hv
  rw [uMove_loc h hn, locMove_else (.inl hd)]
  refine onDisk_err ?_
  unfold shutilMove
  rw [hq.stat h.disk, if_pos rfl, if_neg (find_ne hd (hq.stat h.disk)), join_loc hn hnq, hv, if_pos rfl]

/-- **C98**: a link that leads nowhere is in nobody's way; a link to a directory replaces what leads to no directory -/
theorem C98_into_over (h : SysOk E r s) {p q ss ds : List Str} {n : Str} {o o' : DObj} (hp : Named s.disk p (ss ++ [n]) o)
    (ho : isDirD (some o) = false) (hq : ToDir s.disk q ds) (hn : Nm (ds ++ [n])) (hv : s.disk.tree (ds ++ [n]) = some o')
    (hne : ss ++ [n] ≠ ds ++ [n])
    (hc : uExists sysOps (siteAt E none (q ++ [n])) s = (.ok false, s) ∨
      uIsdir sysOps (siteAt E none p) s = (.ok true, s) ∧ uIsdir sysOps (siteAt E none (q ++ [n])) s = (.ok false, s)) (depth : Nat) :
    ∃ s', uMove sysOps depth (siteAt E none p) (siteAt E none q) s = (.ok (), s') ∧ SysOk E r s' ∧ s'.mem = s.mem ∧
      Shifted s.disk s'.disk (ss ++ [n]) (ds ++ [n]) := by
  obtain ⟨a, rfl⟩ := hp.last
  obtain ⟨y, hy⟩ := hq.dir
  have hN := hq.names h.disk hn hv
  have hd : isDirD (s.disk.stat true (loc (q ++ [n])).path) = false := by
    rcases hc with hc | ⟨-, hc⟩
    · have := exists_false h hN.nm hc
      rw [Option.isSome_eq_false_iff, Option.isNone_iff_eq_none] at this
      rw [this]; rfl
    · exact isdir_false h hN.nm hc
  have ho' : isDirD (some o') = false := by
    cases o' with
    | dir x =>
      have := hN.find_true h.disk rfl
      unfold Disk.stat at hd
      rw [this] at hd
      simp only [hv, isDirD] at hd
      cases hd
    | file _ _ => rfl
    | link _ => rfl
  obtain ⟨hr, k1, k2⟩ := osRename_onto h.disk (noOwnName_loc hp.nm) (noOwnName_loc hN.nm) (hp.find h.disk) (hN.find h.disk) hp.obj hv ho ho' hne
  rw [uMove_loc h hp.nm]
  cases hb : isDirD (s.disk.stat true (loc (a ++ [n])).path) with
  | true =>
    rw [locMove_both hp.nm hN.nm hb (hq.stat h.disk)]
    refine renamed h k1 k2 hy ?_
    unfold shutilMove
    rw [hd, if_neg (by simp)]
    exact renameOrCopy_ok hr
  | false =>
    have hno : (s.disk.stat true (loc (q ++ [n])).path).isSome = false := by
      rcases hc with hc | ⟨hc, -⟩
      · exact exists_false h hN.nm hc
      · have := isdir_false h hp.nm hc
        rw [hb] at this; cases this
    rw [locMove_else (.inl hb)]
    refine renamed h k1 k2 hy ?_
    unfold shutilMove
    rw [hq.stat h.disk, if_pos rfl, if_neg (find_ne hb (hq.stat h.disk)), join_loc hp.nm hN.nm, hno, if_neg (by simp)]
    exact renameOrCopy_ok hr

/-- where a name leads that is not there -/
theorem find_astray {d : Disk} (h : DiskOk d) {a : List Str} {n : Str} (hn : Nm (a ++ [n])) (hd : Direct d (a ++ [n])) (hv : d.tree (a ++ [n]) = none) :
    ∃ e, ((e = .os .ENOTDIR ∧ ∃ p, p <+: a ++ [n] ∧ isFileD (d.tree p) = true) ∨
       (e = .os .ENOENT ∧ ∀ p, p <+: a ++ [n] → isFileD (d.tree p) = false)) ∧
      ∀ fl, d.find fl (loc (a ++ [n])).path = .fail e ∨ e = .os .ENOENT ∧ d.find fl (loc (a ++ [n])).path = .free a n := by
  cases ha : isDirD (d.tree a) with
  | true =>
    obtain ⟨x, hx⟩ : ∃ x, d.tree a = some (.dir x) := by
      cases e : d.tree a with
      | none => rw [e] at ha; cases ha
      | some o => rw [e] at ha; cases o <;> simp_all [isDirD]
    refine ⟨_, .inr ⟨rfl, fun p hp => ?_⟩, fun fl => .inr ⟨rfl, find_free h hn hx hv⟩⟩
    rcases prefix_snoc_iff.1 hp with c | c
    · by_cases e : p = a
      · rw [e, hx]; rfl
      · obtain ⟨y, hy⟩ := h.above (by rw [hx]; simp) c e
        rw [hy]; rfl
    · rw [c, hv]; rfl
  | false =>
    have k : isDirD (d.tree (a ++ [n]).dropLast) = false := by simpa using ha
    obtain ⟨e, h1, h2⟩ := find_fail h hn (fl := false) hv hd k
    refine ⟨e, h2, fun fl => .inl ?_⟩
    obtain ⟨e', h1', h2'⟩ := find_fail h hn (fl := fl) hv hd k
    rw [h1']
    congr 1
    rcases h2 with ⟨rfl, p, hp, hf⟩ | ⟨rfl, hf⟩ <;> rcases h2' with ⟨rfl, p', hp', hf'⟩ | ⟨rfl, hf'⟩
    · rfl
    · rw [hf' p hp] at hf; cases hf
    · rw [hf p' hp'] at hf'; cases hf'
    · rfl

theorem Lost.of {d : Disk} {q : List Str} {e : PyErr} (hs : s.disk = d)
    (h : (e = .os .ENOTDIR ∧ ∃ p, p <+: q ∧ isFileD (d.tree p) = true) ∨ (e = .os .ENOENT ∧ ∀ p, p <+: q → isFileD (d.tree p) = false)) :
    Lost (siteV r s none) q e := by
  subst hs
  unfold Lost
  simpa only [isF_siteV] using h

/-- **C98**: what is not there is not moved -/
theorem C98_missing (h : SysOk E r s) {a q : List Str} {n : Str} (hn : Nm (a ++ [n])) (hd : Direct s.disk (a ++ [n]))
    (hv : siteV r s none (a ++ [n]) = none) (hnq : Nm q) (hr : q ≠ [] ) (hnq' : Nm (q ++ [n]))
    (hf : uIsdir sysOps (siteAt E none q) s = (.ok false, s) ∨ uExists sysOps (siteAt E none (q ++ [n])) s = (.ok false, s)) (depth : Nat) :
    ∃ e, uMove sysOps depth (siteAt E none (a ++ [n])) (siteAt E none q) s = (.error e, s) ∧ Lost (siteV r s none) (a ++ [n]) e := by
  have hv : s.disk.tree (a ++ [n]) = none := siteV_lnone.1 hv
  obtain ⟨e, hl, he⟩ := find_astray h.disk hn hd hv
  have hne : e ≠ .outside := by rcases hl with ⟨rfl, -⟩ | ⟨rfl, -⟩ <;> simp
  have hst : ∀ fl, s.disk.stat fl (loc (a ++ [n])).path = none := fun fl => by
    unfold Disk.stat
    rcases he fl with c | ⟨-, c⟩ <;> rw [c]
  have key : ∀ dst real, noOwnName real = false → renameOrCopy (loc (a ++ [n])).path dst real s.disk = (.error e, s.disk) := fun dst real hno => by
    have hr : osRename (loc (a ++ [n])).path real s.disk = (.error e, s.disk) := by
      unfold osRename
      rw [noOwnName_loc hn, hno, if_neg (by simp)]
      rcases he false with c | ⟨rfl, c⟩ <;> rw [c]
    unfold renameOrCopy
    rw [hr]
    simp only
    rw [if_neg hne, hst false, hst true, if_neg (by simp [isLinkD]), if_neg (by simp [isDirD])]
    rcases he true with c | ⟨rfl, c⟩ <;> rw [c]
  refine ⟨e, ?_, Lost.of rfl hl⟩
  have hsd : isDirD (s.disk.stat true (loc (a ++ [n])).path) = false := by rw [hst]; rfl
  rw [uMove_loc h hn, locMove_else (.inl hsd)]
  refine onDisk_err ?_
  unfold shutilMove
  cases hb : isDirD (s.disk.stat true (loc q).path) with
  | false =>
    rw [if_neg (by simp)]
    obtain ⟨b, m, rfl⟩ := snoc_of_ne hr
    exact key _ _ (noOwnName_loc hnq)
  | true =>
    rw [if_pos rfl, if_neg (find_ne hsd hb), join_loc hn hnq']
    have hno : (s.disk.stat true (loc (q ++ [n])).path).isSome = false := by
      rcases hf with hc | hc
      · have := isdir_false h hnq hc
        rw [hb] at this; cases this
      · exact exists_false h hnq' hc
    rw [hno, if_neg (by simp)]
    exact key _ _ (noOwnName_loc hnq')

/-- **C98**: a file or a link is not moved to a place in a directory that is not there -/
theorem C98_far (h : SysOk E r s) {p t e : List Str} {m : Str} {o : DObj} (hp : Named s.disk p t o)
    (ho : isDirD (some o) = false) (hl : o ≠ .link []) (hn : Nm (e ++ [m])) (hd : Direct s.disk (e ++ [m]))
    (hv : siteV r s none (e ++ [m]) = none) (he : siteV r s none e ≠ some .dir) (depth : Nat) :
    ∃ er, uMove sysOps depth (siteAt E none p) (siteAt E none (e ++ [m])) s = (.error er, s) ∧ Lost (siteV r s none) (e ++ [m]) er := by
  have hv : s.disk.tree (e ++ [m]) = none := siteV_lnone.1 hv
  have he : isDirD (s.disk.tree e) = false := by
    cases c : s.disk.tree e with
    | none => rfl
    | some o =>
      cases o with
      | dir y => exact absurd (siteV_ldir.2 ⟨y, c⟩) he
      | file _ _ => rfl
      | link _ => rfl
  have ht : t ≠ [] := h.disk.ne_root hp.obj ho
  obtain ⟨ss, n, rfl⟩ := snoc_of_ne ht
  obtain ⟨a, rfl⟩ := hp.last
  obtain ⟨er, hL, hx⟩ := find_astray h.disk hn hd hv
  have hfail : ∀ fl, s.disk.find fl (loc (e ++ [m])).path = .fail er := fun fl => by
    obtain ⟨e', h1', -⟩ := find_fail h.disk hn (fl := fl) hv hd (by simpa using he)
    rcases hx fl with c | ⟨-, c⟩
    · exact c
    · rw [c] at h1'; cases h1'
  have hne : er ≠ .outside := by rcases hL with ⟨rfl, -⟩ | ⟨rfl, -⟩ <;> simp
  refine ⟨er, ?_, Lost.of rfl hL⟩
  have hsd : isDirD (s.disk.stat true (loc (e ++ [m])).path) = false := by
    unfold Disk.stat; rw [hfail true]; rfl
  rw [uMove_loc h hp.nm, locMove_else (.inr hsd)]
  refine onDisk_err ?_
  unfold shutilMove
  rw [hsd, if_neg (by simp)]
  have hr : osRename (loc (a ++ [n])).path (loc (e ++ [m])).path s.disk = (.error er, s.disk) := by
    unfold osRename
    rw [noOwnName_loc hp.nm, noOwnName_loc hn, if_neg (by simp), hp.find h.disk]
    simp only [hfail false]
  unfold renameOrCopy
  rw [hr]
  simp only
  rw [if_neg hne, hp.stat h.disk]
  cases o with
  | dir _ => simp [isDirD] at ho
  | file y b =>
    rw [if_neg (by simp [isLinkD])]
    have k := hp.find_true h.disk rfl
    have k2 : s.disk.stat true (loc (a ++ [n])).path = some (.file y b) := by unfold Disk.stat; rw [k]; exact hp.obj
    rw [k2, if_neg (by simp [isDirD]), k]
    simp only [hfail true]
  | link l =>
    rw [if_pos (by simp [isLinkD])]
    have k1 : osReadlink (loc (a ++ [n])).path s.disk = (.ok l, s.disk) := by
      unfold osReadlink
      rw [hp.find h.disk]
      simp only [hp.obj]
    have k2 : osSymlink l (loc (e ++ [m])).path s.disk = (.error er, s.disk) := by
      unfold osSymlink
      rw [if_neg (fun c => hl (by rw [c])), hfail false]
    rw [bind_ok k1, bind_error k2]

/-- **C98**: for a directory the directories above the new place are made -/
theorem C98_far_dir (h : SysOk E r s) {t e : List Str} {m : Str} {x : Nat} (hn : Nm t) (ho : s.disk.tree t = some (.dir x)) (hr : t ≠ [])
    (hn' : Nm (e ++ [m])) (hc : ∀ p, p <+: e ++ [m] → isDirD (s.disk.tree p) = true ∨ s.disk.tree p = none)
    (he : s.disk.tree e = none) (hne : ¬ t <+: e ++ [m]) (depth : Nat) :
    ∃ s', uMove sysOps depth (siteAt E none t) (siteAt E none (e ++ [m])) s = (.ok (), s') ∧ SysOk E r s' ∧ s'.mem = s.mem ∧
      (∀ z, s'.disk.tree (e ++ [m] ++ z) = s.disk.tree (t ++ z)) ∧
      (∀ p, t <+: p → s'.disk.tree p = none) ∧
      (∀ p, p <+: e → s.disk.tree p = none → s'.disk.tree p = some (.dir (Local.clearBits 0o777 s.disk.umask))) ∧
      (∀ p, ¬ t <+: p → s.disk.tree p ≠ none → s'.disk.tree p = s.disk.tree p) ∧
      (∀ p, ¬ p <+: e ++ [m] → ¬ e ++ [m] <+: p → s.disk.tree p = none → s'.disk.tree p = none) := by
  obtain ⟨ss, n, rfl⟩ := snoc_of_ne hr
  have hdir : Direct s.disk (e ++ [m]) := fun p hp => by
    rcases hc p hp with c | c
    · cases e2 : s.disk.tree p with
      | none => rfl
      | some o => rw [e2] at c; cases o <;> simp_all [isDirD, isLinkD]
    · rw [c]; rfl
  have hv : s.disk.tree (e ++ [m]) = none := by
    by_contra c
    obtain ⟨y, hy⟩ := h.disk.tree e m c
    rw [he] at hy; cases hy
  have hsd' : s.disk.stat true (loc (e ++ [m])).path = none := stat_none h.disk hn' hv hdir
  obtain ⟨er, hfl, hE⟩ := find_fail h.disk hn' (fl := false) hv hdir (by simp [he, isDirD])
  have hf := find_here h.disk hn (fl := false) ho (.inl rfl)
  have hr1 : osRename (loc (ss ++ [n])).path (loc (e ++ [m])).path s.disk = (.error er, s.disk) := by
    unfold osRename
    rw [noOwnName_loc hn, noOwnName_loc hn', if_neg (by simp), hf]
    simp only [hfl]
  obtain ⟨d1, m1, ok1, u1, t1⟩ := osMakedirs_ok (e ++ [m]) _ (path_length hn') s.disk h.disk hn' hc hv
  have hnone : ∀ z, s.disk.tree (e ++ [m] ++ z) = none := fun z => by
    by_contra c
    exact absurd hv (by
      cases z with
      | nil => rwa [List.append_nil] at c
      | cons y z =>
        obtain ⟨w, hw⟩ := h.disk.above c (List.prefix_append (e ++ [m]) (y :: z)) (by simp)
        rw [hw]; simp)
  have ho1 : d1.tree (ss ++ [n]) = some (.dir x) := by
    rw [t1, if_neg (fun c => by rw [ho] at c; exact absurd c.2 (by simp)), ho]
  have ho2 : d1.tree (e ++ [m]) = some (.dir (Local.clearBits 0o777 s.disk.umask)) := by
    rw [t1, if_pos ⟨List.prefix_refl _, hv⟩]
  have hlong : ∀ y z, ¬ e ++ [m] ++ y :: z <+: e ++ [m] := fun y z c => by
    have := c.length_le
    simp only [List.length_append, List.length_cons] at this
    omega
  have he1 : ∀ y, d1.tree (e ++ [m] ++ [y]) = none := fun y => by
    rw [t1, if_neg (fun c => hlong y [] c.1), hnone]
  have hf1 := find_here ok1 hn (fl := false) ho1 (.inl rfl)
  have hf2 := find_here ok1 hn' (fl := false) ho2 (.inl rfl)
  obtain ⟨hr2, k2⟩ := osRename_empty ok1 (noOwnName_loc hn) (noOwnName_loc hn') hf1 hf2 ho1 ho2 he1 hne
  obtain ⟨w, hw⟩ : ∃ w, d1.tree e = some (.dir w) := ok1.tree e m (by rw [ho2]; simp)
  have S := rename_shifted ok1 hne k2
  refine ⟨{ s with disk := d1.rename (ss ++ [n]) (e ++ [m]) }, ?_, h.dsk (ok1.rename hne k2 hw), rfl, fun z => ?_, fun p hp => ?_,
    fun p hp hpn => ?_, fun p hp hpn => ?_, fun p h1 h2 hpn => ?_⟩
  · rw [uMove_loc h hn, locMove_else (.inr (by rw [hsd']; rfl))]
    refine onDisk_ok ?_
    unfold shutilMove
    rw [hsd', if_neg (by simp [isDirD]), renameOrCopy_dir hr1 (by rcases hE with ⟨rfl, -⟩ | ⟨rfl, -⟩ <;> simp)
      (stat_here h.disk hn ho (.inl rfl)) (stat_here h.disk hn ho (.inr rfl)), absNames_loc hn, absNames_loc hn', if_neg hne, m1]
    simp only [hr2]
  · refine (S.there z).trans ?_
    rw [t1, if_neg]
    rintro ⟨c, -⟩
    exact hne ((List.prefix_append _ _).trans c)
  · refine S.gone p hp fun c => ?_
    rcases List.prefix_or_prefix_of_prefix hp c with c | c
    · exact hne c
    · exact k2 c
  · have hpl : ¬ e ++ [m] <+: p := fun c => by
      have := (c.trans hp).length_le
      simp only [List.length_append, List.length_cons, List.length_nil] at this
      omega
    refine (S.rest p (fun c => hne (c.trans (hp.trans (List.prefix_append _ _)))) hpl).trans ?_
    rw [t1, if_pos ⟨hp.trans (List.prefix_append _ _), hpn⟩]
  · refine (S.rest p hp (fun c => ?_)).trans ?_
    · obtain ⟨z, rfl⟩ := c
      exact hpn (hnone z)
    · rw [t1, if_neg (fun c => hpn c.2)]
  · by_cases c : ss ++ [n] <+: p
    · exact S.gone p c h2
    · exact (S.rest p c h2).trans (by rw [t1, if_neg (fun c => h1 c.1), hpn])

end

/-! ## Cases -/

theorem here_names {d : Disk} {t : List Str} {o : DObj} (hn : Nm t) (ho : d.tree t = some o) : Named d t t o :=
  ⟨hn, hn, ⟨0, by omega, .here _⟩, ho⟩

theorem here_dir {d : Disk} {t : List Str} {x : Nat} (hn : Nm t) (ho : d.tree t = some (.dir x)) : ToDir d t t :=
  ⟨hn, hn, ⟨0, by omega, .here _⟩, x, ho⟩

theorem said_dir {s : Sys} (h : SysOk (fun _ : Unit => []) (fun _ => 0) s) {q : List Str} (hn : Nm q) {b : Bool}
    (e : isDirD (s.disk.stat true (loc q).path) = b) : uIsdir sysOps (sAt none q) s = (.ok b, s) :=
  e ▸ (site_wc h (k := none) hn _ _).trans rfl

theorem said_there {s : Sys} (h : SysOk (fun _ : Unit => []) (fun _ => 0) s) {q : List Str} (hn : Nm q) {b : Bool}
    (e : (s.disk.stat true (loc q).path).isSome = b) : uExists sysOps (sAt none q) s = (.ok b, s) :=
  e ▸ (site_wc h (k := none) hn _ _).trans rfl

/-- /ll leads to /t -/
theorem dir_ll : ToDir linkSys.disk [cl!"ll"] [cl!"t"] :=
  ⟨by decide +kernel, by decide +kernel, ⟨2, by decide,
    .link (c := [cl!"ll"]) (t := [cl!"l"]) (x := []) (by decide) (by decide +kernel) (by decide +kernel) (.inr rfl)
    (.link (c := [cl!"l"]) (t := [cl!"t"]) (x := []) (by decide) (by decide +kernel) (by decide +kernel) (.inr rfl) (.here _))⟩, 0o755, by decide⟩

/-- two directories with the same names in them -/
def twoDisk : Disk :=
  ⟨[([], .dir 0o755), ([cl!"a"], .dir 0o755), ([cl!"a", cl!"d"], .dir 0o755), ([cl!"a", cl!"d", cl!"x"], .file 0o644 [1]),
    ([cl!"a", cl!"g"], .file 0o644 [2]), ([cl!"a", cl!"h"], .file 0o644 [3]), ([cl!"a", cl!"k"], .link cl!"/b"),
    ([cl!"b"], .dir 0o755), ([cl!"b", cl!"d"], .dir 0o755), ([cl!"b", cl!"g"], .file 0o644 [4]), ([cl!"b", cl!"h"], .link cl!"/nope"),
    ([cl!"b", cl!"k"], .file 0o644 [5])], [], 0o22, []⟩

/-- these local files, beside the sample memory file systems -/
def twoSys : Sys := ⟨sample, twoDisk⟩

theorem twoSys_ok : SysOk (fun _ : Unit => []) (fun _ => 0) twoSys :=
  ⟨sampleSys_ok.inv, sampleSys_ok.fs, diskOk_of (by decide) (by decide) (by decide)⟩

/-- /a/f moved onto /ll is /t/f -/
example : ∃ s', uMove sysOps 9 (sAt none [cl!"a", cl!"f"]) (sAt none [cl!"ll"]) linkSys = (.ok (), s') ∧
    s'.disk.tree [cl!"t", cl!"f"] = some (.file 0o644 [7]) ∧ s'.disk.tree [cl!"a", cl!"f"] = none := by
  obtain ⟨s', h1, -, -, S⟩ := C98_into linkSys_ok (ss := [cl!"a"]) (n := cl!"f") (here_names (o := .file 0o644 [7]) (by decide +kernel) (by decide)) dir_ll
    (by decide +kernel) (by decide) (by decide) 9
  exact ⟨s', h1, (S.there []).trans (by decide), S.gone _ (by decide) (by decide)⟩

/-- /l/d moved onto /a is /a/d -/
example : ∃ s', uMove sysOps 9 (sAt none [cl!"l", cl!"d"]) (sAt none [cl!"a"]) linkSys = (.ok (), s') ∧
    s'.disk.tree [cl!"a", cl!"d", cl!"k"] = some (.link cl!"../g") ∧ s'.disk.tree [cl!"t", cl!"d"] = none := by
  obtain ⟨s', h1, -, -, S⟩ := C98_into linkSys_ok (ss := [cl!"t"]) (n := cl!"d") (o := .dir 0o700)
    ⟨by decide +kernel, by decide +kernel, ⟨1, by decide, leads_l (x := [cl!"d"]) (by decide +kernel) (by decide +kernel) (by simp)⟩, by decide⟩
    (here_dir (t := [cl!"a"]) (x := 0o755) (by decide +kernel) (by decide)) (by decide +kernel) (by decide) (by decide) 9
  exact ⟨s', h1, (S.there [cl!"k"]).trans (by decide), S.gone _ (by decide) (by decide)⟩

/-- /w moved to /ll/new is /t/new, its links as they were -/
example : ∃ s', uMove sysOps 9 (sAt none [cl!"w"]) (sAt none [cl!"ll", cl!"new"]) linkSys = (.ok (), s') ∧
    s'.disk.tree [cl!"t", cl!"new", cl!"z"] = some (.link cl!"/nope") ∧ s'.disk.tree [cl!"w", cl!"z"] = none := by
  obtain ⟨s', h1, -, -, S⟩ := C98_rename linkSys_ok (here_names (t := [cl!"w"]) (o := .dir 0o755) (by decide +kernel) (by decide)) dir_ll (m := cl!"new")
    (by decide +kernel) (by decide) (by decide) 9
  exact ⟨s', h1, (S.there [cl!"z"]).trans (by decide), S.gone _ (by decide) (by decide)⟩

/-- /a/f moved to /ll/g takes the place of /t/g -/
example : ∃ s', uMove sysOps 9 (sAt none [cl!"a", cl!"f"]) (sAt none [cl!"ll", cl!"g"]) linkSys = (.ok (), s') ∧
    s'.disk.tree [cl!"t", cl!"g"] = some (.file 0o644 [7]) := by
  obtain ⟨s', h1, -, -, S⟩ := C98_replace linkSys_ok (here_names (t := [cl!"a", cl!"f"]) (o := .file 0o644 [7]) (by decide +kernel) (by decide)) rfl dir_ll
    (m := cl!"g") (o' := .file 0o644 [1, 2, 3]) (by decide +kernel) (by decide) (said_dir linkSys_ok (by decide +kernel) (by decide +kernel)) (by decide) 9
  exact ⟨s', h1, (S.there []).trans (by decide)⟩

/-- /m, a link to /t/g, moved there -/
example : ∃ s', uMove sysOps 9 (sAt none [cl!"m"]) (sAt none [cl!"t", cl!"g"]) linkSys = (.ok (), s') ∧
    uExists sysOps (sAt none [cl!"t", cl!"g"]) s' = (.ok false, s') := by
  obtain ⟨s', h1, -, -, h2⟩ := C98_onto_target_refuted linkSys_ok (c := [cl!"m"]) (e := [cl!"t"]) (m := cl!"g") (by decide +kernel) (by decide) rfl
    (by decide +kernel) (x := 0o644) (b := [1, 2, 3]) (by decide) 9
  exact ⟨s', h1, h2⟩

example : uMove sysOps 9 (sAt none [cl!"w"]) (sAt none [cl!"ll", cl!"g"]) linkSys = (.error (.os .EEXIST), linkSys) :=
  C98_dir_onto linkSys_ok (here_names (t := [cl!"w"]) (o := .dir 0o755) (by decide +kernel) (by decide)) (by decide) dir_ll (m := cl!"g") (o' := .file 0o644 [1, 2, 3])
    (by decide +kernel) (by decide) (said_dir linkSys_ok (by decide +kernel) (by decide +kernel)) 9

example : uMove sysOps 9 (sAt none [cl!"w"]) (sAt none [cl!"w", cl!"y"]) linkSys = (.error .shutilError, linkSys) :=
  C98_dir_onto linkSys_ok (here_names (t := [cl!"w"]) (o := .dir 0o755) (by decide +kernel) (by decide)) (by decide)
    (here_dir (t := [cl!"w"]) (x := 0o755) (by decide +kernel) (by decide)) (m := cl!"y") (o' := .file 0o600 [8])
    (by decide +kernel) (by decide) (said_dir linkSys_ok (by decide +kernel) (by decide +kernel)) 9

example : uMove sysOps 9 (sAt none [cl!"w"]) (sAt none [cl!"w", cl!"v"]) linkSys = (.error .shutilError, linkSys) :=
  (C98_into_itself linkSys_ok (ss := []) (n := cl!"w") (here_names (o := .dir 0o755) (by decide +kernel) (by decide))
    (here_dir (t := [cl!"w", cl!"v"]) (x := 0o755) (by decide +kernel) (by decide)) (by decide) (by decide) 9).2 (by decide +kernel) (by decide)

example : uMove sysOps 9 (sAt none [cl!"w"]) (sAt none [cl!"w", cl!"v", cl!"new"]) linkSys = (.error .shutilError, linkSys) :=
  (C98_into_itself linkSys_ok (ss := []) (n := cl!"w") (here_names (o := .dir 0o755) (by decide +kernel) (by decide))
    (here_dir (t := [cl!"w", cl!"v"]) (x := 0o755) (by decide +kernel) (by decide)) (by decide) (by decide) 9).1 cl!"new" (by decide +kernel) (by decide)

/-- /a/d moved onto /b is /b/d/d -/
example : ∃ s', uMove sysOps 9 (sAt none [cl!"a", cl!"d"]) (sAt none [cl!"b"]) twoSys = (.ok (), s') ∧
    s'.disk.tree [cl!"b", cl!"d", cl!"d", cl!"x"] = some (.file 0o644 [1]) := by
  obtain ⟨s', h1, -, -, S⟩ := C98_twice twoSys_ok (ss := [cl!"a"]) (n := cl!"d") (here_names (o := .dir 0o755) (by decide +kernel) (by decide))
    (here_dir (t := [cl!"b"]) (x := 0o755) (by decide +kernel) (by decide)) (y := 0o755) (by decide +kernel) (by decide) (by decide) (by decide) 9
  exact ⟨s', h1, (S.there [cl!"x"]).trans (by decide)⟩

example : uMove sysOps 9 (sAt none [cl!"t", cl!"d"]) (sAt none [cl!"ll"]) linkSys = (.ok (), linkSys) :=
  C98_same_dir linkSys_ok (ds := [cl!"t"]) (here_names (o := .dir 0o700) (by decide +kernel) (by decide)) dir_ll 9

example : uMove sysOps 9 (sAt none [cl!"a", cl!"g"]) (sAt none [cl!"b"]) twoSys = (.error .shutilError, twoSys) :=
  C98_taken twoSys_ok (a := [cl!"a"]) (by decide +kernel) (said_dir twoSys_ok (by decide +kernel) (by decide +kernel)) (here_dir (x := 0o755) (by decide +kernel) (by decide))
    (by decide +kernel) (said_there twoSys_ok (by decide +kernel) (by decide +kernel)) 9

/-- a file is not moved into the directory it is in -/
example : uMove sysOps 9 (sAt none [cl!"a", cl!"g"]) (sAt none [cl!"a"]) twoSys = (.error .shutilError, twoSys) :=
  C98_taken twoSys_ok (a := [cl!"a"]) (by decide +kernel) (said_dir twoSys_ok (by decide +kernel) (by decide +kernel)) (here_dir (x := 0o755) (by decide +kernel) (by decide))
    (by decide +kernel) (said_there twoSys_ok (by decide +kernel) (by decide +kernel)) 9

/-- /a/h moved onto /b takes the place of the link there that leads nowhere; /a/k that of the file there -/
example : ∃ s', uMove sysOps 9 (sAt none [cl!"a", cl!"h"]) (sAt none [cl!"b"]) twoSys = (.ok (), s') ∧
    s'.disk.tree [cl!"b", cl!"h"] = some (.file 0o644 [3]) := by
  obtain ⟨s', h1, -, -, S⟩ := C98_into_over twoSys_ok (ss := [cl!"a"]) (n := cl!"h") (here_names (o := .file 0o644 [3]) (by decide +kernel) (by decide)) rfl
    (here_dir (t := [cl!"b"]) (x := 0o755) (by decide +kernel) (by decide)) (o' := .link cl!"/nope") (by decide +kernel) (by decide) (by decide)
    (.inl (said_there twoSys_ok (by decide +kernel) (by decide +kernel))) 9
  exact ⟨s', h1, (S.there []).trans (by decide)⟩

example : ∃ s', uMove sysOps 9 (sAt none [cl!"a", cl!"k"]) (sAt none [cl!"b"]) twoSys = (.ok (), s') ∧
    s'.disk.tree [cl!"b", cl!"k"] = some (.link cl!"/b") := by
  obtain ⟨s', h1, -, -, S⟩ := C98_into_over twoSys_ok (ss := [cl!"a"]) (n := cl!"k") (here_names (o := .link cl!"/b") (by decide +kernel) (by decide)) rfl
    (here_dir (t := [cl!"b"]) (x := 0o755) (by decide +kernel) (by decide)) (o' := .file 0o644 [5]) (by decide +kernel) (by decide) (by decide)
    (.inr ⟨said_dir twoSys_ok (by decide +kernel) (by decide +kernel), said_dir twoSys_ok (by decide +kernel) (by decide +kernel)⟩) 9
  exact ⟨s', h1, (S.there []).trans (by decide)⟩

example : ∃ e, uMove sysOps 9 (sAt none [cl!"a", cl!"g", cl!"x"]) (sAt none [cl!"b"]) twoSys = (.error e, twoSys) ∧
    Lost (siteV (fun _ : Unit => 0) twoSys none) [cl!"a", cl!"g", cl!"x"] e :=
  C98_missing twoSys_ok (a := [cl!"a", cl!"g"]) (by decide +kernel) (all_prefixes (by decide +kernel)) (by decide +kernel) (by decide +kernel) (by decide)
    (by decide +kernel) (.inr (said_there twoSys_ok (by decide +kernel) (by decide +kernel))) 9

/-- a file, and a link -/
example : ∃ e, uMove sysOps 9 (sAt none [cl!"a", cl!"g"]) (sAt none [cl!"no", cl!"x"]) twoSys = (.error e, twoSys) ∧
    Lost (siteV (fun _ : Unit => 0) twoSys none) [cl!"no", cl!"x"] e :=
  C98_far twoSys_ok (here_names (o := .file 0o644 [2]) (by decide +kernel) (by decide)) rfl (by simp) (e := [cl!"no"]) (by decide +kernel)
    (all_prefixes (by decide +kernel)) (by decide +kernel) (by decide +kernel) 9

example : ∃ e, uMove sysOps 9 (sAt none [cl!"a", cl!"k"]) (sAt none [cl!"b", cl!"g", cl!"x"]) twoSys = (.error e, twoSys) ∧
    Lost (siteV (fun _ : Unit => 0) twoSys none) [cl!"b", cl!"g", cl!"x"] e :=
  C98_far twoSys_ok (here_names (o := .link cl!"/b") (by decide +kernel) (by decide)) rfl (by simp) (e := [cl!"b", cl!"g"]) (by decide +kernel)
    (all_prefixes (by decide +kernel)) (by decide +kernel) (by decide +kernel) 9

/-- /a/d moved to /no/such/place -/
example : ∃ s', uMove sysOps 9 (sAt none [cl!"a", cl!"d"]) (sAt none [cl!"no", cl!"such", cl!"place"]) twoSys = (.ok (), s') ∧
    s'.disk.tree [cl!"no", cl!"such", cl!"place", cl!"x"] = some (.file 0o644 [1]) ∧ s'.disk.tree [cl!"no", cl!"such"] = some (.dir 0o755) := by
  obtain ⟨s', h1, -, -, h2, -, h3, -⟩ := C98_far_dir twoSys_ok (t := [cl!"a", cl!"d"]) (x := 0o755) (by decide +kernel) (by decide) (by decide)
    (e := [cl!"no", cl!"such"]) (m := cl!"place") (by decide +kernel)
    (all_prefixes (P := fun p => isDirD (twoSys.disk.tree p) = true ∨ twoSys.disk.tree p = none) (by decide +kernel)) (by decide) (by decide) 9
  exact ⟨s', h1, (h2 [cl!"x"]).trans (by decide), (h3 _ (by decide) (by decide)).trans (by decide)⟩

end Verif.Props
