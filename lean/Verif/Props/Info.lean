import Verif.Any.Info
import Verif.Props.Exec
/-!
# C131: the sizes and modes that `info` tells
-/
namespace Verif.Props
open Verif.Any Verif.Spec Verif.Gen

section
variable {ι : Type} {E : ι → Dict} {r : ι → Nat} {s : Sys}

theorem xI_ofNat (m : Nat) : xI (Int.ofNat m) = xN m := rfl

/-! ## One object -/

theorem locInfo_at (h : SysOk E r s) {q : List Str} (hn : Nm q) {o : DObj} (ho : s.disk.tree q = some o) {fl : Bool}
    (hl : fl = false ∨ isLinkD (some o) = false) (z : Nat) :
    locInfo z (loc q) fl s = (.ok ⟨o.stSize z, o.stMode⟩, s) := by
  have e : osAsk false isLinkD (loc q) s = (.ok (isLinkD (some o)), s) := by
    unfold osAsk; rw [stat_here h.disk hn ho (.inl rfl)]
  unfold locInfo
  rw [bind_ok e]
  refine onDisk_ok (s := s) (d := s.disk) ?_
  unfold osStat
  rw [find_here h.disk hn ho (by
    rcases hl with rfl | hl
    · cases hc : isLinkD (some o)
      · exact .inr rfl
      · exact .inl rfl
    · exact .inr hl)]
  simp only [ho]

theorem memInfo_at (h : SysOk E r s) {i : ι} {q : List Str} (hn : Nm q) {o : Obj} (ho : view s.mem (r i) q = some o) {fl : Bool}
    (hl : fl = false ∧ q ≠ [] ∨ o.isLink = false) : Mem.info s.mem (r i) (mem (E i) q) fl = .ok (Mem.infoOf o) := by
  have key : q ≠ [] → Mem.info s.mem (r i) (mem (E i) q) false = .ok (Mem.infoOf o) := by
    intro hq
    rcases List.eq_nil_or_concat q with rfl | ⟨a, n, rfl⟩
    · exact absurd rfl hq
    · rw [List.concat_eq_append] at *
      exact Mem.info_nofollow h.inv (h.fs i).isRoot (stepsOf_mem hn.ok (E i)) (Mem.Plain.goes_init (plain_of_view ho))
        (.inr (plain_of_view ho)) ho
  have key2 : o.isLink = false → Mem.info s.mem (r i) (mem (E i) q) true = .ok (Mem.infoOf o) := fun c =>
    (Mem.info_found h.inv (h.fs i).isRoot (stepsOf_mem hn.ok (E i)) (Mem.Plain.goes (plain_of_view ho) ho c) ho).1
  cases fl with
  | true => exact key2 (hl.resolve_left (by simp))
  | false =>
    by_cases hq : q = []
    · subst hq
      rcases hl with hl | hl
      · exact absurd rfl hl.2
      · have e : Mem.nodeForPath s.mem (r i) false true (mem (E i) []) = Mem.nodeForPath s.mem (r i) true true (mem (E i) []) := by
          unfold Mem.nodeForPath
          rw [Mem.nodeForPathWith_eq (stepsOf_mem hn.ok (E i)), Mem.nodeForPathWith_eq (stepsOf_mem hn.ok (E i))]
          rfl
        have := key2 hl
        unfold Mem.info at this ⊢
        rwa [e]
    · exact key hq

theorem locInfo_true (z : Nat) (u : Uri) (s : Sys) : locInfo z u true s = onDisk (osStat z true u.path) s := by
  refine (bind_ok (rfl : osAsk false isLinkD u s = _)).trans ?_
  have e6 : ∀ l : Bool, (!(l && !true)) = true := by decide
  rw [e6]

theorem locSetInfo_true (u : Uri) (m : Option Nat) (s : Sys) : locSetInfo u m true s =
    match m with
    | some m => onDisk (osChmod u.path m) s
    | none => (.ok (), s) := by
  refine (bind_ok (rfl : osAsk false isLinkD u s = _)).trans ?_
  have e6 : ∀ l : Bool, (l && !true) = false := by decide
  rw [e6]
  cases m <;> rfl

/-- **C131**: `info` of a file tells the number of its bytes, with and without `followlinks`, in memory and on local files; and
    changes nothing -/
theorem C131_file (h : SysOk E r s) {k : Option ι} {q : List Str} (hn : Nm q) {d : Bytes} (hd : siteV r s k q = some (.file d))
    (z : Nat) (fl : Bool) : ∃ t, Any.uInfo z (siteAt E k q) fl s = (.ok t, s) ∧ t.size = d.length := by
  have h0 := site_wc h (k := k) hn .info fun c => sysInfo z c (siteAt E k q) fl
  cases k with
  | none =>
    obtain ⟨p, hp⟩ := siteV_lfile.1 hd
    exact ⟨_, h0.trans (locInfo_at h hn hp (.inr rfl) z), rfl⟩
  | some i =>
    obtain ⟨mo, t, hv⟩ := siteV_file.1 hd
    refine ⟨⟨d.length, mo⟩, h0.trans ?_, rfl⟩
    show onMem _ s = _
    rw [onMem_query, siteAt, memInfo_at h hn hv (.inr rfl)]
    rfl

/-- **C131**: of a directory in memory the size is 0; of a local one it is what the operating system says -/
theorem C131_dir (h : SysOk E r s) {k : Option ι} {q : List Str} (hn : Nm q) (hd : siteV r s k q = some .dir)
    (z : Nat) (fl : Bool) : ∃ t, Any.uInfo z (siteAt E k q) fl s = (.ok t, s) ∧ t.size = if k.isSome then 0 else z := by
  have h0 := site_wc h (k := k) hn .info fun c => sysInfo z c (siteAt E k q) fl
  cases k with
  | none =>
    obtain ⟨p, hp⟩ := siteV_ldir.1 hd
    exact ⟨_, h0.trans (locInfo_at h hn hp (.inr rfl) z), rfl⟩
  | some i =>
    obtain ⟨mo, t, hv⟩ := siteV_dir.1 hd
    refine ⟨⟨0, mo⟩, h0.trans ?_, rfl⟩
    show onMem _ s = _
    rw [onMem_query, siteAt, memInfo_at h hn hv (.inr rfl)]
    rfl

/-- **C131**: of a link itself (`followlinks=False`) the size is 8 in memory, whatever its target is, and locally the number of
    bytes of its text -/
theorem C131_link (h : SysOk E r s) :
    (∀ {i : ι} {q : List Str} {t m c}, Nm q → view s.mem (r i) q = some (.link t m c) → ∀ z,
      Any.uInfo z (siteAt E (some i) q) false s = (.ok ⟨8, m⟩, s)) ∧
    ∀ {q : List Str} {t : Str}, Nm q → s.disk.tree q = some (.link t) → ∀ z,
      Any.uInfo z (siteAt E none q) false s = (.ok ⟨(utf8Encode t).length, 0o120777⟩, s) := by
  refine ⟨fun {i q t m c} hn hv z => ?_, fun {q t} hn ht z => ?_⟩
  · refine (site_wc h (k := some i) hn .info fun c => sysInfo z c (siteAt E (some i) q) false).trans ?_
    show onMem _ s = _
    rw [onMem_query, siteAt, memInfo_at h hn hv (.inl ⟨rfl, ?_⟩)]
    · rfl
    · rintro rfl
      obtain ⟨i', d, h1, h2⟩ := Mem.isDir_view (Mem.isDir_root h.inv (h.fs i).isRoot)
      rw [Mem.view_of_phys h1, h2] at hv
      simp [objOf] at hv
  · exact (site_wc h (k := none) hn .info fun c => sysInfo z c (siteAt E none q) false).trans (locInfo_at h hn ht (.inl rfl) z)

theorem site_astray (h : SysOk E r s) {q : List Str} (hn : Nm q) (hc : Clear (siteV r s none) q) (hv : siteV r s none q = none) :
    ∃ e, e = .os .ENOENT ∧ (s.disk.find true (loc q).path = .fail e ∨ ∃ a b, s.disk.find true (loc q).path = .free a b) := by
  have ht := siteV_lnone.1 hv
  rcases List.eq_nil_or_concat q with rfl | ⟨a, n, rfl⟩
  · obtain ⟨p, hp⟩ := h.disk.root
    rw [hp] at ht; cases ht
  rw [List.concat_eq_append] at *
  obtain ⟨e, hl, he⟩ := find_astray h.disk hn (fun p hp => hc.noLink p hp) ht
  refine ⟨e, ?_, ?_⟩
  · rcases hl with ⟨-, p, hp, hf⟩ | ⟨hl, -⟩
    · exfalso
      have : siteV r s none p = some .dir ∨ siteV r s none p = none := by
        by_cases c : p = a ++ [n]
        · rw [c]; exact .inr hv
        · exact hc.above p hp c
      rcases this with c | c
      · obtain ⟨x, hx⟩ := siteV_ldir.1 c
        rw [hx] at hf; simp [isFileD] at hf
      · rw [siteV_lnone.1 c] at hf; simp [isFileD] at hf
    · exact hl
  · rcases he true with c | ⟨-, c⟩
    · exact .inl c
    · exact .inr ⟨_, _, c⟩

/-- **C131**: `info` of what is not there raises ENOENT and changes nothing -/
theorem C131_missing (h : SysOk E r s) {k : Option ι} {q : List Str} (hn : Nm q) (hc : Clear (siteV r s k) q)
    (hv : siteV r s k q = none) (z : Nat) : Any.uInfo z (siteAt E k q) true s = (.error (.os .ENOENT), s) := by
  refine (site_wc h (k := k) hn .info fun c => sysInfo z c (siteAt E k q) true).trans ?_
  cases k with
  | none =>
    refine (locInfo_true z (loc q) s).trans (onDisk_ok (s := s) (d := s.disk) ?_)
    obtain ⟨e, he, hf⟩ := site_astray h hn hc hv
    unfold osStat
    rcases hf with hf | ⟨a, b, hf⟩ <;> rw [hf]
    rw [he]
  | some i =>
    show onMem _ s = _
    rw [onMem_query, siteAt]
    unfold Mem.info
    rw [Mem.nodeForPath_goes h.inv (h.fs i).isRoot (stepsOf_mem hn.ok (E i)) ((site_goes h hc).2 (siteV_none.1 hv))]
    rfl

/-! ## Through links, after writing -/

/-- **C131**: a path that leads to a file by links: `info` tells the size of the file, and `info(set_info=...)` is that of the file -/
theorem C131_links (h : SysOk E r s) {k : Option ι} {p q : List Str} (hn : Nm p) (hp : Reaches r s k p q) {d : Bytes}
    (hd : siteV r s k q = some (.file d)) (z : Nat) :
    (∃ t, Any.uInfo z (siteAt E k p) true s = (.ok t, s) ∧ t.size = d.length) ∧
    ∀ m t, Any.uSetInfo (siteAt E k p) m t true s = Any.uSetInfo (siteAt E k q) m t true s := by
  have hnq : Nm q := by cases k <;> exact hp.1
  have h1 : ∀ {y}, Nm y → Any.uInfo z (siteAt E k y) true s = _ := fun hy => site_wc h (k := k) hy .info fun c => sysInfo z c (siteAt E k _) true
  have h2 : ∀ {y} m t, Nm y → Any.uSetInfo (siteAt E k y) m t true s = _ := fun m t hy =>
    site_wc h (k := k) hy .info fun c => sysSetInfo c (siteAt E k _) m t true
  have e : Any.uInfo z (siteAt E k p) true s = Any.uInfo z (siteAt E k q) true s ∧
      ∀ m t, Any.uSetInfo (siteAt E k p) m t true s = Any.uSetInfo (siteAt E k q) m t true s := by
    rw [h1 hn, h1 hnq]
    cases k with
    | none =>
      obtain ⟨-, n, hk, hl⟩ := hp
      obtain ⟨pm, ht⟩ := siteV_lfile.1 hd
      have hf := find_leads h.disk hl hk hn hnq fun y hy _ => by
        by_cases c : y = q
        · rw [c, ht]; rfl
        · obtain ⟨z, hz⟩ := h.disk.above (by rw [ht]; simp) hy c
          rw [hz]; rfl
      refine ⟨?_, fun m t => ?_⟩
      · show locInfo z (loc p) true s = locInfo z (loc q) true s
        rw [locInfo_true, locInfo_true]
        unfold onDisk osStat
        rw [hf]
      · rw [h2 m t hn, h2 m t hnq]
        show locSetInfo (loc p) m true s = locSetInfo (loc q) m true s
        rw [locSetInfo_true, locSetInfo_true]
        cases m with
        | none => rfl
        | some m =>
          simp only [onDisk]
          rw [(osStat_congr hf m).2]
    | some i =>
      obtain ⟨mo, tm, hv⟩ := siteV_file.1 hd
      have e : Mem.nodeForPath s.mem (r i) true true (mem (E i) p) = Mem.nodeForPath s.mem (r i) true true (mem (E i) q) := by
        rw [Mem.nodeForPath_goes h.inv (h.fs i).isRoot (stepsOf_mem hn.ok (E i)) hp.2,
          Mem.nodeForPath_goes h.inv (h.fs i).isRoot (stepsOf_mem hnq.ok (E i)) (Mem.Plain.goes (plain_of_view hv) hv rfl)]
      refine ⟨?_, fun m t => ?_⟩
      · show onMem (Mem.M.query _) s = onMem (Mem.M.query _) s
        rw [onMem_query, onMem_query]
        simp only [siteAt, Mem.info, e]
      · rw [h2 m t hn, h2 m t hnq]
        show onMem (Mem.setInfo (r i) (mem (E i) p) _ true) s = onMem (Mem.setInfo (r i) (mem (E i) q) _ true) s
        unfold onMem Mem.setInfo
        rw [e]
  rw [e.1]
  exact ⟨C131_file h hnq hd z true, e.2⟩

/-- **C131**: a file that has been written has the size of all that was written -/
theorem C131_written (hr : Function.Injective r) (h : SysOk E r s) {k : Option ι} {ds : List Str} {n : Str} (hn : Nm (ds ++ [n]))
    (hd : siteV r s k ds = some .dir) (hv : siteV r s k (ds ++ [n]) = none ∨ isF (siteV r s k (ds ++ [n])) = true) (l : List Bytes)
    (z : Nat) (fl : Bool) :
    ∃ s' t, writeAll (siteAt E k (ds ++ [n])) l s = (.ok (), s') ∧ Any.uInfo z (siteAt E k (ds ++ [n])) fl s' = (.ok t, s') ∧
      t.size = (l.map List.length).sum := by
  obtain ⟨s', h1, h2, h3, -⟩ := C128_write hr h hn hd hv l
  obtain ⟨t, h4, h5⟩ := C131_file h2 hn h3 z fl
  exact ⟨s', t, h1, h4, by rw [h5, List.length_flatten]⟩

/-! ## Setting the mode -/

/-- what `info` tells as mode of a file after `info(set_info=dict(mode=m))` -/
def modeSet {ι : Type} (k : Option ι) (m : Nat) : Int :=
  match k with
  | none => ((0o100000 ||| (m &&& 0o7777) : Nat) : Int)
  | some _ => m

/-- **C131**: `info(set_info=dict(mode=m))` of a file sets its mode, all of it in memory, its lower twelve bits locally; the flags
    are those of `m`; its size stays, and what the files contain, and the flags of other files -/
theorem C131_set (hr : Function.Injective r) (h : SysOk E r s) {k : Option ι} {q : List Str} (hn : Nm q) {d : Bytes}
    (hd : siteV r s k q = some (.file d)) (m : Nat) (fl : Bool) :
    ∃ s', Any.uSetInfo (siteAt E k q) (some m) none fl s = (.ok (), s') ∧ SysOk E r s' ∧ siteV r s' = siteV r s ∧
      siteX r s' = updX (siteX r s) k q (some (xN m)) ∧
      ∀ z fl', Any.uInfo z (siteAt E k q) fl' s' = (.ok ⟨d.length, modeSet k m⟩, s') := by
  have h0 := site_wc h (k := k) hn .info fun c => sysSetInfo c (siteAt E k q) (some m) none fl
  cases k with
  | none =>
    obtain ⟨p, ht⟩ := siteV_lfile.1 hd
    have e1 : osAsk false isLinkD (loc q) s = (.ok false, s) := by
      unfold osAsk; rw [stat_here h.disk hn ht (.inl rfl)]; rfl
    have e3 : osChmod (loc q).path m s.disk = (.ok (), s.disk.set q (.file (m &&& 0o7777) d)) := by
      unfold osChmod
      simp only [find_here h.disk hn ht (.inr rfl), ht]
    have e4 : locSetInfo (loc q) (some m) fl s = (.ok (), { s with disk := s.disk.set q (.file (m &&& 0o7777) d) }) :=
      (bind_ok e1).trans (onDisk_ok e3)
    have ok : SysOk E r { s with disk := s.disk.set q (.file (m &&& 0o7777) d) } :=
      h.dsk (h.disk.set (h.disk.parent (by rw [ht]; simp)) (.inr ⟨h.disk.ne_root ht rfl, h.disk.leaf ht rfl⟩))
    refine ⟨_, h0.trans e4, ok, ?_, ?_, fun z fl' => ?_⟩
    · rw [siteV_disk (x := some _) fun p => tree_set _ _ _ p]
      exact upd_self (siteV_lfile.2 ⟨p, ht⟩)
    · rw [siteX_disk (x := some _) fun p => tree_set _ _ _ p]
      simp only [Option.bind_some, flagL]
      rw [xN_low]
    · exact (site_wc ok (k := none) hn .info fun c => sysInfo z c (siteAt E none q) fl').trans
        (locInfo_at ok hn (o := .file (m &&& 0o7777) d) (by simp [tree_set]) (.inr rfl) z)
  | some i =>
    obtain ⟨mo, tm, hv⟩ := siteV_file.1 hd
    have fin : ∃ w', Mem.uSetInfo (mem (E i) q) { mode := some (Int.ofNat m) } fl s.mem = (.ok (), w') ∧
        Mem.Becomes s.mem w' (r i) ((view s.mem (r i)).set q (.file d (Int.ofNat m) tm)) := by
      cases fl with
      | true =>
        exact Mem.uSetInfo_at h.inv ((h.fs i).serves q) { mode := some (Int.ofNat m) } (stepsOf_mem hn.ok (E i))
          (Mem.Plain.goes (plain_of_view hv) hv rfl) hv
      | false =>
        rcases List.eq_nil_or_concat q with rfl | ⟨a, n, rfl⟩
        · obtain ⟨i', d', h1, h2⟩ := Mem.isDir_view (Mem.isDir_root h.inv (h.fs i).isRoot)
          rw [Mem.view_of_phys h1, h2] at hv
          simp [objOf] at hv
        · rw [List.concat_eq_append] at *
          exact Mem.uSetInfo_nofollow h.inv ((h.fs i).serves _) { mode := some (Int.ofNat m) } (stepsOf_mem hn.ok (E i))
            (Mem.Plain.goes_init (plain_of_view hv)) (.inr (plain_of_view hv)) hv
    obtain ⟨w', h5, h6⟩ := fin
    obtain ⟨h7, h8⟩ := h.set_mem hr h6
    have e : Mem.setInfo (r i) (mem (E i) q) { mode := some (Int.ofNat m) } fl s.mem = (.ok (), w') := by
      obtain ⟨p, hp, -⟩ := Mem.stepsOf_strip (stepsOf_mem hn.ok (E i))
      have := h5
      unfold Mem.uSetInfo Mem.withConn at this
      rwa [Mem.bind_ok (Mem.getConnection_serves ((h.fs i).serves q)),
        Mem.bind_ok (Mem.preCallHook_serves ((h.fs i).serves q) hp .info)] at this
    refine ⟨_, h0.trans (onMem_ok e), h7, ?_, ?_, fun z fl' => ?_⟩
    · rw [h8]
      exact upd_self (siteV_file.2 ⟨mo, tm, hv⟩)
    · rw [h.setX_mem hr h6]
      rfl
    · refine (site_wc h7 (k := some i) hn .info fun c => sysInfo z c (siteAt E (some i) q) fl').trans ?_
      have hv' : view w' (r i) q = some (.file d (Int.ofNat m) tm) := by rw [h6.view, Mem.NS.set_get]
      show onMem _ _ = _
      rw [onMem_query, siteAt, memInfo_at h7 hn hv' (.inr rfl)]
      rfl

/-- **C131**: locally every other key of `set_info` is ignored: the call returns and does nothing, whatever is there -/
theorem C131_ignored (h : SysOk E r s) {q : List Str} (hn : Nm q) (t : Option Int) (fl : Bool) :
    Any.uSetInfo (siteAt E none q) none t fl s = (.ok (), s) :=
  site_wc h (k := none) hn .info fun c => sysSetInfo c (siteAt E none q) none t fl

end
/-! ## The cases -/

/-- /t/g has three bytes, /a/f in memory two -/
example : (∃ t, Any.uInfo 4096 (sAt none [cl!"t", cl!"g"]) true execSys = (.ok t, execSys) ∧ t.size = 3) ∧
    ∃ t, Any.uInfo 4096 (sAt (some ()) [cl!"a", cl!"f"]) false execSys = (.ok t, execSys) ∧ t.size = 2 :=
  ⟨C131_file execSys_ok.1 (k := none) (q := [cl!"t", cl!"g"]) (by decide +kernel) (d := [1, 2, 3]) (by decide +kernel) _ _,
   C131_file execSys_ok.1 (k := some ()) (q := [cl!"a", cl!"f"]) (by decide +kernel) (d := [104, 105]) (by decide +kernel) _ _⟩

example : (∃ t, Any.uInfo 4096 (sAt none [cl!"t"]) true execSys = (.ok t, execSys) ∧ t.size = 4096) ∧
    ∃ t, Any.uInfo 4096 (sAt (some ()) [cl!"a"]) true execSys = (.ok t, execSys) ∧ t.size = 0 :=
  ⟨C131_dir execSys_ok.1 (k := none) (q := [cl!"t"]) (by decide +kernel) (by decide +kernel) _ _,
   C131_dir execSys_ok.1 (k := some ()) (q := [cl!"a"]) (by decide +kernel) (by decide +kernel) _ _⟩

/-- the link /l itself, and what is not there -/
example : Any.uInfo 4096 (sAt none [cl!"l"]) false execSys = (.ok ⟨2, 0o120777⟩, execSys) ∧
    Any.uInfo 4096 (sAt none [cl!"t", cl!"no", cl!"x"]) true execSys = (.error (.os .ENOENT), execSys) :=
  ⟨(C131_link execSys_ok.1).2 (q := [cl!"l"]) (t := cl!"/t") (by decide +kernel) (by decide +kernel) _,
   C131_missing execSys_ok.1 (k := none) (q := [cl!"t", cl!"no", cl!"x"]) (by decide +kernel)
    (by rw [execSys_ok.2]; exact ⟨all_prefixes (by decide +kernel), by decide +kernel⟩) (by decide +kernel) _⟩

/-- /l/g leads to /t/g -/
example : ∃ t, Any.uInfo 4096 (sAt none [cl!"l", cl!"g"]) true execSys = (.ok t, execSys) ∧ t.size = 3 := by
  refine (C131_links execSys_ok.1 (k := none) (p := [cl!"l", cl!"g"]) (q := [cl!"t", cl!"g"]) (by decide +kernel)
    ⟨by decide +kernel, 1, by decide, ?_⟩ (d := [1, 2, 3]) (by decide +kernel) _).1
  exact .link (c := [cl!"l"]) (t := [cl!"t"]) (x := [cl!"g"]) (by decide +kernel) (by decide +kernel) (by decide +kernel) (.inr rfl) (.here _)

/-- /a/n written in two pieces -/
example : ∃ s' t, writeAll (sAt (some ()) [cl!"a", cl!"n"]) [[7, 8], [9, 1, 2]] execSys = (.ok (), s') ∧
    Any.uInfo 0 (sAt (some ()) [cl!"a", cl!"n"]) true s' = (.ok t, s') ∧ t.size = 5 :=
  C131_written unit_inj execSys_ok.1 (k := some ()) (ds := [cl!"a"]) (n := cl!"n") (by decide +kernel) (by decide +kernel)
    (.inl (by decide +kernel)) [[7, 8], [9, 1, 2]] 0 true

/-- the mode of /t/g, and of /a/f in memory, set to 0o640 -/
example : (∃ s', Any.uSetInfo (sAt none [cl!"t", cl!"g"]) (some 0o640) none true execSys = (.ok (), s') ∧
      Any.uInfo 0 (sAt none [cl!"t", cl!"g"]) true s' = (.ok ⟨3, 0o100640⟩, s')) ∧
    ∃ s', Any.uSetInfo (sAt (some ()) [cl!"a", cl!"f"]) (some 0o640) none true execSys = (.ok (), s') ∧
      Any.uInfo 0 (sAt (some ()) [cl!"a", cl!"f"]) true s' = (.ok ⟨2, 0o640⟩, s') := by
  obtain ⟨s', h1, -, -, -, h2⟩ := C131_set unit_inj execSys_ok.1 (k := none) (q := [cl!"t", cl!"g"]) (by decide +kernel) (d := [1, 2, 3])
    (by decide +kernel) 0o640 true
  obtain ⟨s2, h3, -, -, -, h4⟩ := C131_set unit_inj execSys_ok.1 (k := some ()) (q := [cl!"a", cl!"f"]) (by decide +kernel) (d := [104, 105])
    (by decide +kernel) 0o640 true
  exact ⟨⟨s', h1, h2 0 true⟩, s2, h3, h4 0 true⟩

/-- the times of /t/g, and of what is not there -/
example : Any.uSetInfo (sAt none [cl!"t", cl!"g"]) none (some 1) true execSys = (.ok (), execSys) ∧
    Any.uSetInfo (sAt none [cl!"no"]) none (some 1) true execSys = (.ok (), execSys) :=
  ⟨C131_ignored execSys_ok.1 (q := [cl!"t", cl!"g"]) (by decide +kernel) _ _, C131_ignored execSys_ok.1 (q := [cl!"no"]) (by decide +kernel) _ _⟩

/-! ## What does not hold -/

/-- **C131**: beyond the size of a file the two backends do not tell the same.  The same mode set is told with the type of the
    file locally and without it in memory; the time of modification set of something that is not there raises ENOENT in memory
    and returns locally; a mode set on a link itself raises NotImplementedError locally and is set in memory; a link itself has
    the size 8 in memory, and locally that of its text. -/
theorem C131_backends_refuted : ∃ s : Sys, SysOk (fun _ : Unit => []) (fun _ => 0) s ∧
    (Any.uSetInfo (sAt none [cl!"t", cl!"g"]) (some 0o640) none true s).1 = .ok () ∧
    (Any.uInfo 0 (sAt none [cl!"t", cl!"g"]) true (Any.uSetInfo (sAt none [cl!"t", cl!"g"]) (some 0o640) none true s).2).1 = .ok ⟨3, 0o100640⟩ ∧
    (Any.uInfo 0 (sAt (some ()) [cl!"a", cl!"f"]) true
      (Any.uSetInfo (sAt (some ()) [cl!"a", cl!"f"]) (some 0o640) none true s).2).1 = .ok ⟨2, 0o640⟩ ∧
    (Any.uSetInfo (sAt (some ()) [cl!"no"]) none (some 1) true s).1 = .error (.os .ENOENT) ∧
    (Any.uSetInfo (sAt none [cl!"no"]) none (some 1) true s).1 = .ok () ∧
    (Any.uSetInfo (sAt none [cl!"l"]) (some 0o640) none false s).1 = .error .notImplemented ∧
    (Any.uSetInfo (sAt (some ()) [cl!"m"]) (some 0o640) none false s).1 = .ok () ∧
    (Any.uInfo 0 (sAt none [cl!"l"]) false s).1 = .ok ⟨2, 0o120777⟩ ∧
    (Any.uInfo 0 (sAt (some ()) [cl!"m"]) false s).1 = .ok ⟨8, 0⟩ :=
  ⟨execSys, execSys_ok.1, by decide +kernel, by decide +kernel, by decide +kernel, by decide +kernel, by decide +kernel, by decide +kernel,
    by decide +kernel, by decide +kernel, by decide +kernel⟩

end Verif.Props
