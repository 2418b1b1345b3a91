import Verif.Any.Exec
import Verif.Any.SameMove
import Verif.Props.Merge
/-!
# C128: the executable flag

`siteX r s k q` is the part of the mode of the file `q` of the place `k` that says who may execute it (0o111: user, group,
others), and `none` where there is no file.
-/
namespace Verif.Props
open Verif.Any Verif.Spec Verif.Gen

section
variable {ι : Type} {E : ι → Dict} {r : ι → Nat} {s : Sys}

/-! ## Asking and setting -/

/-- **C128**: `isexec` of a file says whether one of the flags that are asked for is set -/
theorem C128_isexec (h : SysOk E r s) {k : Option ι} {q : List Str} (hn : Nm q) {x : Nat} (hx : siteX r s k q = some x) {m : Nat}
    (hm : Flags m) : Any.uIsexec (siteAt E k q) m s = (.ok (decide (x &&& m ≠ 0)), s) := by
  refine (site_wc h hn _ _).trans ?_
  cases k with
  | none =>
    simp only [siteX] at hx
    cases ht : s.disk.tree q with
    | none => simp [ht] at hx
    | some o =>
      cases o with
      | file p b =>
        simp only [ht, Option.bind_some, flagL, Option.some.injEq] at hx
        have e : osStatMode (loc q).path s.disk = (.ok (0o100000 ||| p), s.disk) := by
          unfold osStatMode
          simp only [find_here h.disk hn ht (.inr rfl), ht, DObj.stMode]
        have e2 : locMode (loc q) s = (.ok (0o100000 ||| p), s) := (bind_ok (rfl : osAsk false isLinkD (loc q) s = _)).trans (onDisk_ok e)
        show (locMode (loc q) >>= fun v => pure (decide (v &&& m ≠ 0))) s = _
        rw [bind_ok e2, pure_apply, xN_type 0o100000 p (by decide) hm, hx]
      | _ => simp [ht, flagL] at hx
  | some i =>
    simp only [siteX] at hx
    cases ht : view s.mem (r i) q with
    | none => simp [ht] at hx
    | some o =>
      cases o with
      | file b mo t =>
        simp only [ht, Option.bind_some, flagO, Option.some.injEq] at hx
        show onMem _ s = _
        rw [onMem_query]
        unfold Mem.isexec
        rw [siteAt, (Mem.info_found h.inv (h.fs i).isRoot (stepsOf_mem hn.ok (E i)) (Mem.Plain.goes (plain_of_view ht) ht rfl) ht).1]
        show (Except.ok (decide (Int.land mo m ≠ 0)), s) = _
        rw [isexec_xI mo hm, hx]
      | _ => simp [ht, flagO] at hx

/-- **C128**: `isexec` and `set_exec` of what is not there raise ENOENT, and change nothing -/
theorem C128_missing (h : SysOk E r s) {k : Option ι} {q : List Str} (hn : Nm q) (hc : Clear (siteV r s k) q)
    (hv : siteV r s k q = none) (m : Nat) :
    Any.uIsexec (siteAt E k q) m s = (.error (.os .ENOENT), s) ∧ Any.uSetExec (siteAt E k q) m s = (.error (.os .ENOENT), s) := by
  have h1 := site_wc h (k := k) hn .isexec fun c => sysIsexec c (siteAt E k q) m
  have h2 := site_wc h (k := k) hn .set_exec fun c => sysSetExec c (siteAt E k q) m
  cases k with
  | none =>
    have ht := siteV_lnone.1 hv
    rcases List.eq_nil_or_concat q with rfl | ⟨a, n, rfl⟩
    · obtain ⟨p, hp⟩ := h.disk.root
      rw [hp] at ht; cases ht
    rw [List.concat_eq_append] at *
    have e : osStatMode (loc (a ++ [n])).path s.disk = (.error (.os .ENOENT), s.disk) := by
      obtain ⟨e, hl, he⟩ := find_astray h.disk hn (fun p hp => hc.noLink p hp) ht
      have he' : e = .os .ENOENT := by
        rcases hl with ⟨-, p, hp, hf⟩ | ⟨hl, -⟩
        · exfalso
          have : siteV r s none p = some .dir ∨ siteV r s none p = none := by
            by_cases c : p = a ++ [n]
            · rw [c]; exact .inr hv
            · exact hc.above p hp c
          rcases this with c | c
          · obtain ⟨x, hx⟩ := siteV_ldir.1 c
            rw [hx] at hf; simp [isFileD] at hf
          · rw [siteV_lnone.1 c] at hf; simp [isFileD] at hf
        · exact hl
      unfold osStatMode
      rcases he true with c | ⟨-, c⟩ <;> simp [c, he']
    have e2 : locMode (loc (a ++ [n])) s = (.error (.os .ENOENT), s) :=
      (bind_ok (rfl : osAsk false isLinkD (loc (a ++ [n])) s = _)).trans (onDisk_ok e)
    exact ⟨h1.trans (bind_error e2), h2.trans (bind_error e2)⟩
  | some i =>
    have hg := (site_goes h hc).2 (siteV_none.1 hv)
    have e : Mem.info s.mem (r i) (mem (E i) q) true = .error (.os .ENOENT) := by
      unfold Mem.info
      rw [Mem.nodeForPath_goes h.inv (h.fs i).isRoot (stepsOf_mem hn.ok (E i)) hg]
      rfl
    refine ⟨h1.trans ?_, h2.trans ?_⟩
    · show onMem _ s = _
      rw [onMem_query]
      unfold Mem.isexec
      rw [siteAt, e]
    · refine onMem_ok ?_
      show Mem.setExec (r i) (mem (E i) q) m s.mem = _
      unfold Mem.setExec
      exact Mem.bind_error (show Mem.M.query (fun w => Mem.info w (r i) (mem (E i) q) true) s.mem = _ from by
        show (Mem.info s.mem (r i) (mem (E i) q) true, s.mem) = _
        rw [e])

/-- **C128**: `set_exec` of a file sets its flags; what the files contain, and all other flags, stay -/
theorem C128_set_exec (hr : Function.Injective r) (h : SysOk E r s) {k : Option ι} {q : List Str} (hn : Nm q) {x : Nat}
    (hx : siteX r s k q = some x) {m : Nat} (hm : Flags m) :
    ∃ s', Any.uSetExec (siteAt E k q) m s = (.ok (), s') ∧ SysOk E r s' ∧ siteV r s' = siteV r s ∧
      siteX r s' k q = some m ∧ ∀ j p, ¬ (j = k ∧ p = q) → siteX r s' j p = siteX r s j p := by
  suffices fin : ∃ s', sysSetExec (siteC r k) (siteAt E k q) m s = (.ok (), s') ∧ SysOk E r s' ∧ siteV r s' = siteV r s ∧
      siteX r s' = updX (siteX r s) k q (some m) by
    obtain ⟨s', h1, h2, h3, h4⟩ := fin
    exact ⟨s', (site_wc h hn _ _).trans h1, h2, h3, by rw [h4, updX_same], fun j p hj => by rw [h4, updX_ne hj]⟩
  cases k with
  | none =>
    simp only [siteX] at hx
    cases ht : s.disk.tree q with
    | none => simp [ht] at hx
    | some o =>
      cases o with
      | file p b =>
        have e : osStatMode (loc q).path s.disk = (.ok (0o100000 ||| p), s.disk) := by
          unfold osStatMode
          simp only [find_here h.disk hn ht (.inr rfl), ht, DObj.stMode]
        have e2 : locMode (loc q) s = (.ok (0o100000 ||| p), s) := (bind_ok (rfl : osAsk false isLinkD (loc q) s = _)).trans (onDisk_ok e)
        obtain ⟨M, hM⟩ : ∃ M, M = Local.clearBits (0o100000 ||| p) 0o111 ||| m := ⟨_, rfl⟩
        have e3 : osChmod (loc q).path M s.disk = (.ok (), s.disk.set q (.file (M &&& 0o7777) b)) := by
          unfold osChmod
          simp only [find_here h.disk hn ht (.inr rfl), ht]
        have e4 : locSetMode (loc q) M s = (.ok (), { s with disk := s.disk.set q (.file (M &&& 0o7777) b) }) :=
          (bind_ok (rfl : osAsk false isLinkD (loc q) s = _)).trans (onDisk_ok e3)
        refine ⟨_, (bind_ok e2).trans (by rw [← hM]; exact e4),
          h.dsk (h.disk.set (h.disk.parent (by rw [ht]; simp)) (.inr ⟨h.disk.ne_root ht rfl, h.disk.leaf ht rfl⟩)), ?_, ?_⟩
        · rw [siteV_disk (x := some _) fun p => tree_set _ _ _ p]
          exact upd_self (siteV_lfile.2 ⟨p, ht⟩)
        · rw [siteX_disk (x := some _) fun p => tree_set _ _ _ p]
          simp only [Option.bind_some, flagL]
          rw [hM, xN_set _ hm]
      | _ => simp [ht, flagL] at hx
  | some i =>
    simp only [siteX] at hx
    cases ht : view s.mem (r i) q with
    | none => simp [ht] at hx
    | some o =>
      cases o with
      | file b mo t =>
        obtain ⟨w', h5, h6⟩ := Mem.uSetExec_at h.inv ((h.fs i).serves q) m (stepsOf_mem hn.ok (E i))
          (Mem.Plain.goes (plain_of_view ht) ht rfl) ht
        obtain ⟨h7, h8⟩ := h.set_mem hr h6
        have e : Mem.setExec (r i) (mem (E i) q) m s.mem = (.ok (), w') := by
          obtain ⟨p, hp, -⟩ := Mem.stepsOf_strip (stepsOf_mem hn.ok (E i))
          have := h5
          unfold Mem.uSetExec Mem.withConn at this
          rwa [Mem.bind_ok (Mem.getConnection_serves ((h.fs i).serves q)),
            Mem.bind_ok (Mem.preCallHook_serves ((h.fs i).serves q) hp .set_exec)] at this
        refine ⟨_, onMem_ok e, h7, ?_, ?_⟩
        · rw [h8]
          exact upd_self (siteV_file.2 ⟨mo, t, ht⟩)
        · rw [h.setX_mem hr h6]
          show updX _ _ _ (some (xI (Mem.newMode mo m))) = _
          rw [xI_newMode mo hm]
      | _ => simp [ht, flagO] at hx

/-- following the links, the path `p` comes to `q` (locally through at most 40 of them; in memory nested at most 32 deep) -/
def Reaches (r : ι → Nat) (s : Sys) : Option ι → List Str → List Str → Prop
  | none, p, q => Nm q ∧ ∃ n ≤ 40, Leads s.disk true n p q
  | some i, p, q => Nm q ∧ Goes (view s.mem (r i)) maxDepth [] p (.found q)

theorem osStat_congr {d : Disk} {p q : Str} (h : d.find true p = d.find true q) (m : Nat) :
    osStatMode p d = osStatMode q d ∧ osChmod p m d = osChmod q m d := by
  unfold osStatMode osChmod
  rw [h]
  exact ⟨rfl, rfl⟩

/-- **C128**: links are followed: `isexec` and `set_exec` by a path that leads to a file by links are those of the file -/
theorem C128_links (h : SysOk E r s) {k : Option ι} {p q : List Str} (hn : Nm p) (hp : Reaches r s k p q) {x : Nat}
    (hx : siteX r s k q = some x) {m : Nat} (hm : Flags m) :
    Any.uIsexec (siteAt E k p) m s = (.ok (decide (x &&& m ≠ 0)), s) ∧ Any.uSetExec (siteAt E k p) m s = Any.uSetExec (siteAt E k q) m s := by
  have hnq : Nm q := by cases k <;> exact hp.1
  rw [← C128_isexec h hnq hx hm]
  have h1 : ∀ {y}, Nm y → Any.uIsexec (siteAt E k y) m s = _ := fun hy => site_wc h (k := k) hy .isexec fun c => sysIsexec c (siteAt E k _) m
  have h2 : ∀ {y}, Nm y → Any.uSetExec (siteAt E k y) m s = _ := fun hy => site_wc h (k := k) hy .set_exec fun c => sysSetExec c (siteAt E k _) m
  rw [h1 hn, h1 hnq, h2 hn, h2 hnq]
  cases k with
  | none =>
    obtain ⟨-, n, hk, hl⟩ := hp
    have ht : ∃ pm b, s.disk.tree q = some (.file pm b) := by
      simp only [siteX] at hx
      cases ht : s.disk.tree q with
      | none => simp [ht] at hx
      | some o => cases o <;> simp_all [flagL]
    obtain ⟨pm, b, ht⟩ := ht
    have hf := find_leads h.disk hl hk hn hnq fun y hy _ => by
      by_cases c : y = q
      · rw [c, ht]; rfl
      · obtain ⟨z, hz⟩ := h.disk.above (by rw [ht]; simp) hy c
        rw [hz]; rfl
    have e1 : locMode (loc p) s = locMode (loc q) s := by
      show onDisk (osStatMode (loc p).path) s = onDisk (osStatMode (loc q).path) s
      unfold onDisk; rw [(osStat_congr hf 0).1]
    refine ⟨?_, ?_⟩
    · show (locMode (loc p) >>= fun v => pure (decide (v &&& m ≠ 0))) s = (locMode (loc q) >>= fun v => pure (decide (v &&& m ≠ 0))) s
      have e : osStatMode (loc q).path s.disk = (.ok (0o100000 ||| pm), s.disk) := by
        unfold osStatMode
        simp only [find_here h.disk hnq ht (.inr rfl), ht, DObj.stMode]
      have e2 : locMode (loc q) s = (.ok (0o100000 ||| pm), s) := (bind_ok (rfl : osAsk false isLinkD (loc q) s = _)).trans (onDisk_ok e)
      rw [bind_ok e2, bind_ok (e1.trans e2)]
    · show (locMode (loc p) >>= fun v => locSetMode (loc p) (Local.clearBits v 0o111 ||| m)) s =
        (locMode (loc q) >>= fun v => locSetMode (loc q) (Local.clearBits v 0o111 ||| m)) s
      have e : osStatMode (loc q).path s.disk = (.ok (0o100000 ||| pm), s.disk) := by
        unfold osStatMode
        simp only [find_here h.disk hnq ht (.inr rfl), ht, DObj.stMode]
      have e2 : locMode (loc q) s = (.ok (0o100000 ||| pm), s) := (bind_ok (rfl : osAsk false isLinkD (loc q) s = _)).trans (onDisk_ok e)
      rw [bind_ok e2, bind_ok (e1.trans e2)]
      show onDisk (osChmod (loc p).path _) s = onDisk (osChmod (loc q).path _) s
      unfold onDisk; rw [(osStat_congr hf _).2]
  | some i =>
    have ht : ∃ b mo t, view s.mem (r i) q = some (.file b mo t) := by
      simp only [siteX] at hx
      cases ht : view s.mem (r i) q with
      | none => simp [ht] at hx
      | some o => cases o <;> simp_all [flagO]
    obtain ⟨b, mo, t, ht⟩ := ht
    have e : Mem.nodeForPath s.mem (r i) true true (mem (E i) p) = Mem.nodeForPath s.mem (r i) true true (mem (E i) q) := by
      rw [Mem.nodeForPath_goes h.inv (h.fs i).isRoot (stepsOf_mem hn.ok (E i)) hp.2,
        Mem.nodeForPath_goes h.inv (h.fs i).isRoot (stepsOf_mem hnq.ok (E i)) (Mem.Plain.goes (plain_of_view ht) ht rfl)]
    have e2 : Mem.info s.mem (r i) (mem (E i) p) true = Mem.info s.mem (r i) (mem (E i) q) true := by
      unfold Mem.info; rw [e]
    refine ⟨?_, ?_⟩
    · show onMem (Mem.M.query _) s = onMem (Mem.M.query _) s
      rw [onMem_query, onMem_query]
      simp only [siteAt, Mem.isexec, e2]
    · show onMem (Mem.setExec (r i) (mem (E i) p) m) s = onMem (Mem.setExec (r i) (mem (E i) q) m) s
      have hi := (Mem.info_found h.inv (h.fs i).isRoot (stepsOf_mem hnq.ok (E i)) (Mem.Plain.goes (plain_of_view ht) ht rfl) ht).1
      have : Mem.setExec (r i) (mem (E i) p) m s.mem = Mem.setExec (r i) (mem (E i) q) m s.mem := by
        unfold Mem.setExec
        rw [Mem.bind_ok (show Mem.M.query (fun w => Mem.info w (r i) (mem (E i) p) true) s.mem = (.ok _, s.mem) from by
            show (Mem.info s.mem (r i) (mem (E i) p) true, s.mem) = _
            rw [e2, hi]),
          Mem.bind_ok (show Mem.M.query (fun w => Mem.info w (r i) (mem (E i) q) true) s.mem = (.ok _, s.mem) from by
            show (Mem.info s.mem (r i) (mem (E i) q) true, s.mem) = _
            rw [hi])]
        unfold Mem.setInfo
        rw [e]
      unfold onMem
      rw [this]

/-- **C128**: for a URI in memory the two calls are those of the model of memory.py alone, whatever the state is: hooks are
    asked, missing file systems are made -/
theorem C128_memory {u : Uri} (hu : u.scheme = some cl!"memory") (m : Nat) (s : Sys) :
    Any.uIsexec u m s = onMem (Mem.uIsexec u m) s ∧ Any.uSetExec u m s = onMem (Mem.uSetExec u m) s := by
  have key : ∀ {α : Type} (me : Mem.Meth) (f : Conn → OM Sys α) (g : Nat → Mem.M α), (∀ c, f (.mem c) = onMem (g c)) →
      Any.withConn sysOps u me f s = onMem (Mem.withConn u me g) s := by
    intro α me f g hfg
    unfold Any.withConn Mem.withConn
    show (sysConn u >>= fun c => sysHook c u me >>= fun _ => f c) s = _
    by_cases hx : u.allExtras.any (fun kv => kv.1 ∈ Mem.reservedNames) = true
    · have e1 : sysConn u s = (.error .typeError, s) := by unfold sysConn; rw [if_pos hx]; rfl
      have e2 : Mem.getConnection u s.mem = (.error .typeError, s.mem) := by unfold Mem.getConnection; rw [if_pos hx]
      rw [bind_error e1, onMem_ok (Mem.bind_error e2)]
    · cases e2 : Mem.getConnection u s.mem with
      | mk a w =>
        have e1 : onMem (Mem.getConnection u) s = (a, { s with mem := w }) := onMem_ok e2
        have e0 : sysConn u s = (onMem (Mem.getConnection u) >>= fun r => pure (Conn.mem r)) s := by
          unfold sysConn; rw [if_neg hx, if_neg (by rw [hu]; decide)]
        cases a with
        | error er => rw [bind_error (e0.trans (bind_error e1)), onMem_ok (Mem.bind_error e2)]
        | ok c =>
          rw [bind_ok (e0.trans (bind_ok e1))]
          cases e3 : Mem.preCallHook c u me w with
          | mk a2 w2 =>
            have e4 : sysHook (.mem c) u me { s with mem := w } = (a2, { s with mem := w2 }) := onMem_ok e3
            cases a2 with
            | error er => rw [bind_error e4, onMem_ok ((Mem.bind_ok e2).trans (Mem.bind_error e3))]
            | ok _ =>
              rw [bind_ok e4, hfg]
              cases e5 : g c w2 with
              | mk a3 w3 => rw [onMem_ok ((Mem.bind_ok e2).trans ((Mem.bind_ok e3).trans e5)), onMem_ok (s := { s with mem := w2 }) e5]
  exact ⟨key _ _ _ fun _ => rfl, key _ _ _ fun _ => rfl⟩

/-! ## Writing -/

/-- `with p.open("wb") as f: f.write(...); f.write(...)` -/
def writeAll (u : Uri) (l : List Bytes) : OM Sys Unit := do
  let f ← uOpenW sysOps u
  l.forM fun b => hWrite f (.bytes b)

/-- **C128**: a file that is written: in a memory file system it has no flag afterwards, locally it has those it had before; a
    new file has none.  Nothing happens to the flags of other files. -/
theorem C128_write (hr : Function.Injective r) (h : SysOk E r s) {k : Option ι} {ds : List Str} {n : Str} (hn : Nm (ds ++ [n]))
    (hd : siteV r s k ds = some .dir) (hv : siteV r s k (ds ++ [n]) = none ∨ isF (siteV r s k (ds ++ [n])) = true) (l : List Bytes) :
    ∃ s', writeAll (siteAt E k (ds ++ [n])) l s = (.ok (), s') ∧ SysOk E r s' ∧
      siteV r s' k (ds ++ [n]) = some (.file l.flatten) ∧
      (k ≠ none ∨ siteV r s k (ds ++ [n]) = none → siteX r s' k (ds ++ [n]) = some 0) ∧
      (k = none → isF (siteV r s k (ds ++ [n])) = true → siteX r s' k (ds ++ [n]) = siteX r s k (ds ++ [n])) ∧
      ∀ j p, ¬ (j = k ∧ p = ds ++ [n]) → siteV r s' j p = siteV r s j p ∧ siteX r s' j p = siteX r s j p := by
  obtain ⟨s1, f, e1, ok1, v1, w1, -⟩ := site_openW h hr hn hd hv
  have x1 := x_openW h hr hn hd hv e1
  have key : ∀ (l : List Bytes) (s1 : Sys) (g : Bytes), SysOk E r s1 → WrAt r s1 k (ds ++ [n]) f g →
      siteV r s1 k (ds ++ [n]) = some (.file g) →
      ∃ s', (l.forM fun b => hWrite f (.bytes b)) s1 = (.ok (), s') ∧ SysOk E r s' ∧
        siteV r s' = upd (siteV r s1) k (ds ++ [n]) (some (.file (g ++ l.flatten))) ∧ siteX r s' = siteX r s1 := by
    intro l
    induction l with
    | nil =>
      intro s1 g ok w hg
      refine ⟨s1, rfl, ok, ?_, rfl⟩
      rw [List.flatten_nil, List.append_nil, upd_self hg]
    | cons b l ih =>
      intro s1 g ok w _
      obtain ⟨s2, e2, ok2, v2, w2, -⟩ := write_step ok hr w b
      have x2 := x_write ok hr w e2
      obtain ⟨s3, e3, ok3, v3, x3⟩ := ih s2 (g ++ b) ok2 w2 (by rw [v2, upd_same])
      refine ⟨s3, ?_, ok3, ?_, x3.trans x2⟩
      · exact (bind_ok e2).trans e3
      · rw [v3, v2, upd_upd, List.flatten_cons, List.append_assoc]
  obtain ⟨s', e2, ok2, v2, x2⟩ := key l s1 [] ok1 w1 (by rw [v1, upd_same])
  have e0 : uOpenW sysOps (siteAt E k (ds ++ [n])) s = (.ok f, s1) := (site_wc h hn _ _).trans e1
  rw [List.nil_append] at v2
  refine ⟨s', (bind_ok e0).trans e2, ok2, by rw [v2, upd_same], fun hk => ?_, fun hk hf => ?_, fun j p hj => ?_⟩
  · rw [x2, x1, updX_same]
    cases k with
    | some i => rfl
    | none =>
      have : siteX r s none (ds ++ [n]) = none := siteX_none (by rw [hk.resolve_left (by simp)]; rfl)
      simp only [flagsW, this]; rfl
  · rw [x2, x1, updX_same]
    subst hk
    obtain ⟨x, hx⟩ := Option.isSome_iff_exists.1 (siteX_some.trans hf)
    simp only [flagsW, hx]; rfl
  · exact ⟨by rw [v2, upd_ne hj, v1, upd_ne hj], by rw [x2, x1, updX_ne hj]⟩

/-! ## Copying -/

/-- the flags of the copy of a file -/
noncomputable def copyFlags (X : Option ι → List Str → Option Nat) (k k' : Option ι) (src dst : List Str) : Option Nat := by
  classical exact
    if k = k' then X k src else if k' = none ∧ (X k' dst).isSome then X k' dst else some 0

/-- **C128**: the copy of a file inside one file system has the flags of the file.  To another backend they are not copied: in
    a memory file system the copy has none, locally it has those that the file there had before, or none if there was none. -/
theorem C128_copy (hr : Function.Injective r) (h : SysOk E r s) {k k' : Option ι} (hm : May k k') {init : List Str} {n m : Str}
    {ds e ig : List Str} {d : Bytes}
    (hn : Nm (init ++ [n])) (hd : siteV r s k (init ++ [n]) = some (.file d)) (hds : Nm ds) (he : Nm (e ++ [m]))
    (ht : FileTarget (siteV r s k') ds n (e ++ [m])) (hp : siteV r s k' e = some .dir)
    (hf : siteV r s k' (e ++ [m]) = none ∨ isF (siteV r s k' (e ++ [m])) = true) (hne : ¬ (k = k' ∧ init ++ [n] = e ++ [m]))
    (depth : Nat) (fl : Bool) :
    ∃ s', uCopy sysOps depth (siteAt E k (init ++ [n])) (siteAt E k' ds) false ig fl s = (.ok (), s') ∧ SysOk E r s' ∧
      siteV r s' k' (e ++ [m]) = some (.file d) ∧
      siteX r s' k' (e ++ [m]) = copyFlags (siteX r s) k k' (init ++ [n]) (e ++ [m]) ∧
      ∀ j p, ¬ (j = k' ∧ p = e ++ [m]) → siteV r s' j p = siteV r s j p ∧ siteX r s' j p = siteX r s j p := by
  let L := sysLaws E r hr
  have h0 : uCopy sysOps depth (siteAt E k (init ++ [n])) (siteAt E k' ds) false ig fl s = _ :=
    L.copyFile_one (depth := depth) (ig := ig) (fl := fl) h hn hd hds he ht hp hf
  obtain ⟨s', e1, ok, v⟩ := site_copy h hr hm hn he hd hp hf hne
  have e2 : Any.copyOne sysOps (siteC r k) (siteAt E k (init ++ [n])) (siteAt E k' (e ++ [m])) fl s = (.ok (), s') := by
    unfold Any.copyOne
    have a : Any.uIslink sysOps (siteAt E k (init ++ [n])) s = (.ok false, s) :=
      L.uIslink (k := k) h hn (L.clear_of h (by show siteV r s k _ ≠ _; rw [hd]; simp) (by show siteV r s k _ ≠ _; rw [hd]; simp))
        (by show siteV r s k _ ≠ _; rw [hd]; simp)
    rw [bind_ok a]
    exact e1
  have hX : siteX r s' = updX (siteX r s) k' (e ++ [m]) (copyFlags (siteX r s) k k' (init ++ [n]) (e ++ [m])) := by
    unfold copyFlags
    by_cases hk : k = k'
    · subst hk
      rw [if_pos rfl]
      exact x_copy h hr hn he hd hp hf (fun c => hne ⟨rfl, c⟩) e1
    · rw [if_neg hk, x_copy_across h hr hm hk hn he hd hp hf e1]
      congr 1
      cases k' with
      | some j => simp [flagsW]
      | none =>
        cases hx : siteX r s none (e ++ [m]) with
        | none => simp [flagsW, hx]
        | some x => simp [flagsW, hx]
  exact ⟨s', h0.trans e2, ok, by rw [v, upd_same], by rw [hX, updX_same], fun j p hj => ⟨by rw [v, upd_ne hj], by rw [hX, updX_ne hj]⟩⟩

theorem copyableX {k : Option ι} {q : List Str} (H : Laws.Copyable (siteV r s k) q) : Laws.Copyable (siteVX r s k) q :=
  ⟨⟨fun x hx => H.sub.nm x (fun c => hx (withX_none.2 c)), fun x c => H.sub.noLink x (withX_other.1 c)⟩, H.ne, withX_dir.2 H.dir,
    fun t n hn => H.trim t n (withX_dir.1 hn)⟩

theorem targetX {k : Option ι} {ds e : List Str} {n : Str} (h : Target (siteV r s k) ds n e) : Target (siteVX r s k) ds n e := by
  cases h with
  | into h => exact .into (withX_dir.2 h)
  | new h => exact .new (withX_none.2 h)

theorem fileTargetX {k : Option ι} {ds e : List Str} {n : Str} (h : FileTarget (siteV r s k) ds n e) : FileTarget (siteVX r s k) ds n e := by
  cases h with
  | into h => exact .into (withX_dir.2 h)
  | at_ h => exact .at_ (fun c => h (withX_dir.1 c))

theorem mergesX {k k' : Option ι} {ig q e : List Str} (h : Merges (siteV r s k) (siteV r s k') ig q e) :
    Merges (siteVX r s k) (siteVX r s k') ig q e := by
  intro x hx hi
  obtain ⟨h1, h2⟩ := h x hx (fun ⟨a, n, b, c1, c2, c3⟩ => hi ⟨a, n, b, c1, c2, withX_dir.2 c3⟩)
  refine ⟨fun c => (h1 (withX_dir.1 c)).imp withX_none.2 withX_dir.2, fun d c => ?_⟩
  obtain ⟨y, d', -, c, -⟩ := siteVX_file.1 c
  exact (h2 d' c).imp withX_none.2 (fun c => withX_isF.trans c)

/-- **C128**: copying a tree inside one file system, also over an existing one: every file that is copied has the flags of
    its original, and all other files keep theirs. -/
theorem C128_copy_tree (hr : Function.Injective r) (h : SysOk E r s) {k : Option ι} {init : List Str} {n : Str} {ds e ig : List Str}
    (H : Laws.Copyable (siteV r s k) (init ++ [n])) (hds : Nm ds) (he : Nm e) (he0 : e ≠ []) (ht : Target (siteV r s k) ds n e)
    (hclear : ∀ p, p <+: e → siteV r s k p = some .dir ∨ siteV r s k p = none)
    (hfit : Merges (siteV r s k) (siteV r s k) ig (init ++ [n]) e)
    (hse : ¬ (init ++ [n] <+: e ∨ e <+: init ++ [n])) {depth : Nat} (hl : e.length < depth)
    (hh : ∀ x, siteV r s k (init ++ [n] ++ x) = some .dir → x.length < depth) (fl : Bool) :
    ∃ s', uCopy sysOps depth (siteAt E k (init ++ [n])) (siteAt E k ds) true ig fl s = (.ok (), s') ∧ SysOk E r s' ∧
      (∀ x, ¬ Ignored (siteV r s k) ig (init ++ [n]) x → ∀ d, siteV r s k (init ++ [n] ++ x) = some (.file d) →
        siteV r s' k (e ++ x) = some (.file d) ∧ siteX r s' k (e ++ x) = siteX r s k (init ++ [n] ++ x)) ∧
      (∀ x, x ≠ [] → Ignored (siteV r s k) ig (init ++ [n]) x ∨ siteV r s k (init ++ [n] ++ x) = none →
        siteV r s' k (e ++ x) = siteV r s k (e ++ x) ∧ siteX r s' k (e ++ x) = siteX r s k (e ++ x)) ∧
      ∀ j p, ¬ (j = k ∧ e <+: p) → siteX r s' j p = siteX r s j p := by
  have hI : ∀ x, Ignored (siteVX r s k) ig (init ++ [n]) x ↔ Ignored (siteV r s k) ig (init ++ [n]) x := fun x =>
    ⟨fun ⟨a, m, b, c1, c2, c3⟩ => ⟨a, m, b, c1, c2, withX_dir.1 c3⟩, fun ⟨a, m, b, c1, c2, c3⟩ => ⟨a, m, b, c1, c2, withX_dir.2 c3⟩⟩
  obtain ⟨s', h1, h2, h3⟩ := (execLaws E r hr).mergeTree (ig := ig) (fl := fl) (k := k) (k' := k) rfl h (copyableX H) hds he (targetX ht)
    (fun p hp => (hclear p hp).imp withX_dir.2 withX_none.2) he0
    ((mergesX hfit).fits (fun x c => H.sub.noLink x (withX_other.1 c))) (fun c => hse c.2) hl (fun x hx => hh x (withX_dir.1 hx))
  change siteVX r s' = over (mkdirs (siteVX r s) k e) k e (kept (siteVX r s k) ig (init ++ [n])) at h3
  have hmk : ∀ x, x ≠ [] → mkdirs (siteVX r s) k e k (e ++ x) = siteVX r s k (e ++ x) := by
    intro x hx
    unfold mkdirs
    rw [if_neg]
    rintro ⟨-, h4⟩
    have := h4.length_le
    have h5 : 0 < x.length := List.length_pos_iff.2 hx
    simp only [List.length_append] at this
    omega
  refine ⟨s', h1, h2, fun x hi d hd => ?_, fun x hx hi => ?_, fun j p hj => ?_⟩
  · have hx : x ≠ [] := by
      rintro rfl
      rw [List.append_nil, H.dir] at hd; cases hd
    have e1 : siteVX r s' k (e ++ x) = siteVX r s k (init ++ [n] ++ x) := by
      rw [h3, over_in hx, show kept (siteVX r s k) ig (init ++ [n]) x = siteVX r s k (init ++ [n] ++ x) from if_neg (fun c => hi ((hI x).1 c))]
      cases hv' : siteVX r s k (init ++ [n] ++ x) with
      | none => rw [withX_none.1 hv'] at hd; cases hd
      | some o => rfl
    obtain ⟨e2, e3⟩ := siteVX_eq e1
    exact ⟨e2.trans hd, e3⟩
  · have : kept (siteVX r s k) ig (init ++ [n]) x = none := by
      rcases hi with hi | hi
      · exact if_pos ((hI x).2 hi)
      · unfold kept; rw [show siteVX r s k (init ++ [n] ++ x) = none from withX_none.2 hi]; simp
    exact siteVX_eq (by rw [h3, over_in hx, this, hmk x hx]; rfl)
  · by_cases hp : j = k ∧ p <+: e
    · obtain ⟨rfl, hp⟩ := hp
      have : siteVX r s' j p = some .dir := by
        rw [h3, over_out (fun c => hj ⟨rfl, c.2.1⟩)]
        simp [mkdirs, hp]
      rw [siteX_none (by rw [withX_dir.1 this]; rfl)]
      rw [siteX_none]
      rcases hclear p hp with c | c <;> rw [c] <;> rfl
    · refine (siteVX_eq ?_).2
      rw [h3, over_out (fun c => hj ⟨c.1, c.2.1⟩)]
      unfold mkdirs
      rw [if_neg hp]

/-- **C128**: copying a tree to the other backend, where none of the files that are there has a flag: none of the copies has -/
theorem C128_across (hr : Function.Injective r) (h : SysOk E r s) {k k' : Option ι} (hm : May k k') (hkk : k ≠ k') {init : List Str} {n : Str}
    {ds e ig : List Str}
    (H : Laws.Copyable (siteV r s k) (init ++ [n])) (hds : Nm ds) (he : Nm e) (he0 : e ≠ []) (ht : Target (siteV r s k') ds n e)
    (hclear : ∀ p, p <+: e → siteV r s k' p = some .dir ∨ siteV r s k' p = none)
    (hfit : Merges (siteV r s k) (siteV r s k') ig (init ++ [n]) e)
    (hq : ∀ x, siteX r s k' (e ++ x) = none ∨ siteX r s k' (e ++ x) = some 0)
    {depth : Nat} (hl : e.length < depth)
    (hh : ∀ x, siteV r s k (init ++ [n] ++ x) = some .dir → x.length < depth) (fl : Bool) :
    ∃ s', uCopy sysOps depth (siteAt E k (init ++ [n])) (siteAt E k' ds) true ig fl s = (.ok (), s') ∧ SysOk E r s' ∧
      ∀ x, ¬ Ignored (siteV r s k) ig (init ++ [n]) x → ∀ d, siteV r s k (init ++ [n] ++ x) = some (.file d) →
        siteV r s' k' (e ++ x) = some (.file d) ∧ siteX r s' k' (e ++ x) = some 0 := by
  obtain ⟨s', h1, h2, h3⟩ := (quietLaws E r hr fun j p => j = k' ∧ e <+: p).mergeTree (ig := ig) (fl := fl) (k := k) (k' := k') ⟨hm, hkk⟩
    ⟨h, fun j p hp => by obtain ⟨rfl, x, rfl⟩ := hp; exact hq x⟩ H hds he ht hclear he0
    (hfit.fits H.sub.noLink) (fun c => hkk c.1) hl hh
  change siteV r s' = over (mkdirs (siteV r s) k' e) k' e (kept (siteV r s k) ig (init ++ [n])) at h3
  refine ⟨s', h1, h2.1, fun x hi d hd => ?_⟩
  have hx : x ≠ [] := by
    rintro rfl
    rw [List.append_nil, H.dir] at hd; cases hd
  have e1 : siteV r s' k' (e ++ x) = some (.file d) := by
    rw [h3, over_in hx, show kept (siteV r s k) ig (init ++ [n]) x = siteV r s k (init ++ [n] ++ x) from if_neg hi, hd]; rfl
  refine ⟨e1, (h2.2 k' (e ++ x) ⟨rfl, List.prefix_append _ _⟩).resolve_left fun c => ?_⟩
  have := siteX_some (r := r) (s := s') (k := k') (q := e ++ x)
  rw [c, e1] at this
  simp [isF] at this

/-! ## Moving -/

/-- **C128**: a file that is moved inside a memory file system keeps its flags -/
theorem C128_move_file (hr : Function.Injective r) (h : SysOk E r s) {i : ι} {init : List Str} {n m : Str} {ds e : List Str} {d : Bytes}
    (hn : Nm (init ++ [n])) (hd : siteV r s (some i) (init ++ [n]) = some (.file d)) (hds : Nm ds) (he : Nm (e ++ [m]))
    (ht : FileTarget (siteV r s (some i)) ds n (e ++ [m])) (hp : siteV r s (some i) e = some .dir)
    (hf : siteV r s (some i) (e ++ [m]) = none ∨ isF (siteV r s (some i) (e ++ [m])) = true) (hne : init ++ [n] ≠ e ++ [m]) (depth : Nat) :
    ∃ s', uMove sysOps depth (siteAt E (some i) (init ++ [n])) (siteAt E (some i) ds) s = (.ok (), s') ∧ SysOk E r s' ∧
      siteV r s' (some i) (e ++ [m]) = some (.file d) ∧
      siteX r s' (some i) (e ++ [m]) = siteX r s (some i) (init ++ [n]) ∧
      ∀ j p, ¬ (j = some i ∧ (p = init ++ [n] ∨ p = e ++ [m])) → siteX r s' j p = siteX r s j p := by
  obtain ⟨x, hx⟩ := Option.isSome_iff_exists.1 (siteX_some.trans (by rw [hd]; rfl))
  have hd' : siteVX r s (some i) (init ++ [n]) = some (.file (UInt8.ofNat x :: d)) := siteVX_file.2 ⟨x, d, rfl, hd, hx⟩
  obtain ⟨s', h1, h2, h3⟩ := (execLaws E r hr).moveFile (k := some i) (k' := some i) (depth := depth) rfl h (noMoveSelf (k := some i) (k' := some i) (E := E) (r := r) (.inl (by simp)) _ _)
    hn hd' hds he (fileTargetX ht) (withX_dir.2 hp) (hf.imp withX_none.2 (fun c => withX_isF.trans c)) (fun c => hne c.2)
  change siteVX r s' = upd (upd (siteVX r s) (some i) (e ++ [m]) _) (some i) (init ++ [n]) none at h3
  have e1 : siteVX r s' (some i) (e ++ [m]) = siteVX r s (some i) (init ++ [n]) := by
    rw [h3, upd_ne (fun c => hne c.2.symm), upd_same, hd']
  obtain ⟨e2, e3⟩ := siteVX_eq e1
  refine ⟨s', h1, h2, e2.trans hd, e3, fun j p hj => (siteVX_eq ?_).2⟩
  rw [h3, upd_ne (fun c => hj ⟨c.1, .inl c.2⟩), upd_ne (fun c => hj ⟨c.1, .inr c.2⟩)]

/-- **C128**: the files of a tree that is moved inside a memory file system keep their flags, also when there is a tree at
    the destination -/
theorem C128_move_tree (hr : Function.Injective r) (h : SysOk E r s) {i : ι} {init : List Str} {n : Str} {ds e : List Str}
    (H : Laws.Copyable (siteV r s (some i)) (init ++ [n])) (hds : Nm ds) (he : Nm e) (he0 : e ≠ [])
    (ht : Target (siteV r s (some i)) ds n e)
    (hclear : ∀ p, p <+: e → siteV r s (some i) p = some .dir ∨ siteV r s (some i) p = none)
    (hfit : Merges (siteV r s (some i)) (siteV r s (some i)) [] (init ++ [n]) e)
    (hse : ¬ (init ++ [n] <+: e ∨ e <+: init ++ [n])) {depth : Nat} (hl : e.length < depth)
    (hh : ∀ x, siteV r s (some i) (init ++ [n] ++ x) = some .dir → x.length < depth) :
    ∃ s', uMove sysOps depth (siteAt E (some i) (init ++ [n])) (siteAt E (some i) ds) s = (.ok (), s') ∧ SysOk E r s' ∧
      (∀ x d, siteV r s (some i) (init ++ [n] ++ x) = some (.file d) → siteV r s' (some i) (e ++ x) = some (.file d) ∧
        siteX r s' (some i) (e ++ x) = siteX r s (some i) (init ++ [n] ++ x)) ∧
      (∀ x, x ≠ [] → siteV r s (some i) (init ++ [n] ++ x) = none → siteX r s' (some i) (e ++ x) = siteX r s (some i) (e ++ x)) ∧
      ∀ j p, ¬ (j = some i ∧ (e <+: p ∨ init ++ [n] <+: p)) → siteX r s' j p = siteX r s j p := by
  have hfit' := (mergesX hfit).fits (fun x c => H.sub.noLink x (withX_other.1 c))
  rw [show kept (siteVX r s (some i)) [] (init ++ [n]) = fun x => siteVX r s (some i) (init ++ [n] ++ x) from funext fun x => kept_noIgnore] at hfit'
  obtain ⟨s', h1, h2, h3⟩ := (execLaws E r hr).mergeMove (k := some i) (k' := some i) rfl h (noMoveSelf (k := some i) (k' := some i) (E := E) (r := r) (.inl (by simp)) _ _) (copyableX H)
    hds he (targetX ht) (fun p hp => (hclear p hp).imp withX_dir.2 withX_none.2) he0 hfit' (fun c => hse c.2) hl
    (fun x hx => hh x (withX_dir.1 hx))
  change siteVX r s' = wipe (over (mkdirs (siteVX r s) (some i) e) (some i) e (fun x => siteVX r s (some i) (init ++ [n] ++ x))) (some i)
    (fun p => init ++ [n] <+: p) at h3
  have hmk : ∀ x, x ≠ [] → mkdirs (siteVX r s) (some i) e (some i) (e ++ x) = siteVX r s (some i) (e ++ x) := by
    intro x hx
    unfold mkdirs
    rw [if_neg]
    rintro ⟨-, h4⟩
    have := h4.length_le
    have h5 : 0 < x.length := List.length_pos_iff.2 hx
    simp only [List.length_append] at this
    omega
  have apart : ∀ {p : List Str}, e <+: p → ¬ init ++ [n] <+: p := fun hp h4 => hse (List.prefix_or_prefix_of_prefix h4 hp)
  refine ⟨s', h1, h2, fun x d hd => ?_, fun x hx hv => ?_, fun j p hj => ?_⟩
  · have hx : x ≠ [] := by
      rintro rfl
      rw [List.append_nil, H.dir] at hd; cases hd
    have e1 : siteVX r s' (some i) (e ++ x) = siteVX r s (some i) (init ++ [n] ++ x) := by
      rw [h3]
      unfold wipe
      rw [if_neg (fun c => apart (List.prefix_append _ _) c.2), over_in hx]
      cases hv' : siteVX r s (some i) (init ++ [n] ++ x) with
      | none => rw [withX_none.1 hv'] at hd; cases hd
      | some o => rfl
    obtain ⟨e2, e3⟩ := siteVX_eq e1
    exact ⟨e2.trans hd, e3⟩
  · refine (siteVX_eq ?_).2
    rw [h3]
    unfold wipe
    rw [if_neg (fun c => apart (List.prefix_append _ _) c.2), over_in hx, show siteVX r s (some i) (init ++ [n] ++ x) = none from withX_none.2 hv, hmk x hx]
    rfl
  · by_cases hp : j = some i ∧ p <+: e
    · obtain ⟨rfl, hp⟩ := hp
      have : siteVX r s' (some i) p = some .dir := by
        rw [h3]
        unfold wipe
        rw [if_neg (fun c => hj ⟨rfl, .inr c.2⟩), over_out (fun c => hj ⟨rfl, .inl c.2.1⟩)]
        simp [mkdirs, hp]
      rw [siteX_none (by rw [withX_dir.1 this]; rfl), siteX_none]
      rcases hclear p hp with c | c <;> rw [c] <;> rfl
    · refine (siteVX_eq ?_).2
      rw [h3]
      unfold wipe
      rw [if_neg (fun c => hj ⟨c.1, .inr c.2⟩), over_out (fun c => hj ⟨c.1, .inl c.2.1⟩)]
      unfold mkdirs
      rw [if_neg hp]

/-- **C128**: what is moved inside the local file system, to a name that is free or over a file, keeps its flags -/
theorem C128_move_local (h : SysOk E r s) {a q e : List Str} {n m : Str} {o : DObj} (hp : Nm (a ++ [n])) (hq : Nm q) (he : Nm (e ++ [m]))
    (ho : s.disk.tree (a ++ [n]) = some o)
    (ht : (siteV r s none q = some .dir ∧ e = q ∧ m = n) ∨ (siteV r s none q ≠ some .dir ∧ q = e ++ [m]))
    (h1 : ¬ a ++ [n] <+: e ++ [m]) (hd : siteV r s none e = some .dir)
    (hf : siteV r s none (e ++ [m]) = none ∨ (isF (siteV r s none (e ++ [m])) = true ∧ isF (siteV r s none (a ++ [n])) = true ∧ q = e ++ [m]))
    (depth : Nat) :
    ∃ s', uMove sysOps depth (siteAt E none (a ++ [n])) (siteAt E none q) s = (.ok (), s') ∧ SysOk E r s' ∧
      (∀ x, siteX r s' none (e ++ [m] ++ x) = siteX r s none (a ++ [n] ++ x)) ∧
      (∀ p, ¬ a ++ [n] <+: p → ¬ e ++ [m] <+: p → siteX r s' none p = siteX r s none p) ∧ ∀ i p, siteX r s' (some i) p = siteX r s (some i) p := by
  have hN : Named s.disk (a ++ [n]) (a ++ [n]) o := ⟨hp, hp, ⟨0, by omega, .here _⟩, ho⟩
  have hT : ∀ {x}, Nm x → siteV r s none x = some .dir → ToDir s.disk x x := fun hx hd =>
    ⟨hx, hx, ⟨0, by omega, .here _⟩, siteV_ldir.1 hd⟩
  suffices fin : ∃ s', uMove sysOps depth (siteAt E none (a ++ [n])) (siteAt E none q) s = (.ok (), s') ∧ SysOk E r s' ∧ s'.mem = s.mem ∧
      Shifted s.disk s'.disk (a ++ [n]) (e ++ [m]) by
    obtain ⟨s', b1, b2, b3, b4⟩ := fin
    refine ⟨s', b1, b2, fun x => ?_, fun x c1 c2 => ?_, fun j p => ?_⟩
    · simp only [siteX, b4.there]
    · simp only [siteX, b4.rest x c1 c2]
    · simp only [siteX, b3]
  rcases ht with ⟨g1, rfl, rfl⟩ | ⟨g1, rfl⟩
  · have hnone : siteV r s none (e ++ [m]) = none := by
      rcases hf with hf | ⟨-, -, hf⟩
      · exact hf
      · exact absurd (congrArg List.length hf) (by simp)
    exact C98_into h hN (hT hq g1) he (siteV_lnone.1 hnone) (fun c => h1 (c.trans (List.prefix_append _ _))) depth
  · rcases hf with hf | ⟨hf1, hf2, -⟩
    · exact C98_rename h hN (hT he.of_prefix hd) he (siteV_lnone.1 hf) h1 depth
    · have fi : ∀ {x}, isF (siteV r s none x) = true → ∃ pm d, s.disk.tree x = some (.file pm d) := by
        intro x hx
        cases hg : siteV r s none x with
        | none => rw [hg] at hx; simp [isF] at hx
        | some y =>
          cases y with
          | dir => rw [hg] at hx; simp [isF] at hx
          | other => rw [hg] at hx; simp [isF] at hx
          | file d =>
            obtain ⟨pm, hpm⟩ := siteV_lfile.1 hg
            exact ⟨pm, d, hpm⟩
      obtain ⟨pm1, d1, g2⟩ := fi hf1
      obtain ⟨pm2, d2, g3⟩ := fi hf2
      have ho' : isDirD (some o) = false := by rw [← ho, g3]; rfl
      refine C98_replace h hN ho' (hT he.of_prefix hd) he g2 ?_ (fun c => h1 (c ▸ List.prefix_refl _)) depth
      refine (site_wc h (k := none) he _ _).trans ?_
      show osAsk _ _ _ _ = _
      simp only [osAsk, siteAt, stat_here h.disk he g2 (.inr rfl), isDirD]

/-! ## Removing and making directories -/

/-- **C128**: removing a tree, and making directories, does nothing to the flags of other files -/
theorem C128_others (hr : Function.Injective r) (h : SysOk E r s) {k : Option ι} :
    (∀ {q depth}, Sub (siteV r s k) q → q ≠ [] → siteV r s k q = some .dir → (∀ x, siteV r s k (q ++ x) = some .dir → x.length < depth) →
      ∃ s', uRemove sysOps depth (siteAt E k q) true s = (.ok (), s') ∧ SysOk E r s' ∧
        ∀ j p, ¬ (j = k ∧ q <+: p) → siteX r s' j p = siteX r s j p) ∧
    (∀ {q d depth rec}, Nm q → siteV r s k q = some (.file d) →
      ∃ s', uRemove sysOps depth (siteAt E k q) rec s = (.ok (), s') ∧ SysOk E r s' ∧
        siteX r s' k q = none ∧ ∀ j p, ¬ (j = k ∧ p = q) → siteX r s' j p = siteX r s j p) ∧
    ∀ {e depth}, Nm e → (∀ p, p <+: e → siteV r s k p = some .dir ∨ siteV r s k p = none) → e.length < depth →
      ∃ s', uMakedirs sysOps depth (siteAt E k e) s = (.ok (), s') ∧ SysOk E r s' ∧ siteX r s' = siteX r s := by
  refine ⟨fun {q depth} hs hq hd hh => ?_, fun {q d depth rec} hn hd => ?_, fun {e depth} he hc hl => ?_⟩
  · obtain ⟨s', h1, h2, h3⟩ := (execLaws E r hr).uRemove_tree (k := k) h
      ⟨fun x hx => hs.nm x (fun c => hx (withX_none.2 c)), fun x c => hs.noLink x (withX_other.1 c)⟩ hq (withX_dir.2 hd)
      (fun x hx => hh x (withX_dir.1 hx))
    refine ⟨s', h1, h2, fun j p hj => (siteVX_eq ?_).2⟩
    change siteVX r s' = _ at h3
    rw [h3]; unfold wipe; rw [if_neg hj]; rfl
  · obtain ⟨x, hx⟩ := Option.isSome_iff_exists.1 (siteX_some.trans (by rw [hd]; rfl))
    obtain ⟨s', h1, h2, h3⟩ := (execLaws E r hr).uRemove_file (k := k) (depth := depth) (rec := rec) h hn (siteVX_file.2 ⟨x, d, rfl, hd, hx⟩)
    change siteVX r s' = upd (siteVX r s) k q none at h3
    refine ⟨s', h1, h2, siteX_none ?_, fun j p hj => (siteVX_eq ?_).2⟩
    · have : siteVX r s' k q = none := by rw [h3, upd_same]
      rw [withX_none.1 this]; rfl
    · rw [h3, upd_ne hj]
  · obtain ⟨s', h1, h2, h3⟩ := (execLaws E r hr).uMakedirs (k := k) h he (fun p hp => (hc p hp).imp withX_dir.2 withX_none.2) hl
    change siteVX r s' = mkdirs (siteVX r s) k e at h3
    refine ⟨s', h1, h2, ?_⟩
    funext j p
    by_cases hp : j = k ∧ p <+: e
    · obtain ⟨rfl, hp⟩ := hp
      have : siteVX r s' j p = some .dir := by rw [h3]; simp [mkdirs, hp]
      rw [siteX_none (by rw [withX_dir.1 this]; rfl), siteX_none]
      rcases hc p hp with c | c <;> rw [c] <;> rfl
    · refine (siteVX_eq ?_).2
      rw [h3]; unfold mkdirs; rw [if_neg hp]

end

/-! ## The cases -/

/-- the local files of the sample; /t/g may be executed -/
def execDisk : Disk :=
  ⟨[([], .dir 0o755), ([cl!"t"], .dir 0o755), ([cl!"t", cl!"d"], .dir 0o700), ([cl!"t", cl!"g"], .file 0o754 [1, 2, 3]),
    ([cl!"l"], .link cl!"/t")], [], 0o22, []⟩

theorem execDisk_ok : SysOk (fun _ : Unit => []) (fun _ => 0) ⟨sample, execDisk⟩ :=
  ⟨sample_reachable.inv, sampleSys_ok.fs, diskOk_of (by decide) (by decide) (by decide)⟩

/-- the sample, where /t/g of the local files and /a/f in memory may be executed -/
def execSys : Sys := (Any.uSetExec (sAt (some ()) [cl!"a", cl!"f"]) 0o110 ⟨sample, execDisk⟩).2

/-- the flags in it -/
abbrev eX := siteX (fun _ : Unit => 0)

theorem execSys_ok : SysOk (fun _ : Unit => []) (fun _ => 0) execSys ∧ siteV (fun _ : Unit => 0) execSys = sV := by
  obtain ⟨s', h1, h2, h3, -⟩ := C128_set_exec unit_inj execDisk_ok (k := some ()) (q := [cl!"a", cl!"f"]) (by decide +kernel) (x := 0)
    (by decide +kernel) (m := 0o110) (by unfold Flags; decide)
  have e : execSys = s' := congrArg Prod.snd h1
  refine ⟨e ▸ h2, (e ▸ h3).trans ?_⟩
  funext k p
  cases k with
  | some u => rfl
  | none =>
    simp only [siteV, Disk.tree, sampleSys, execDisk, sampleDisk, List.lookup]
    repeat' split
    all_goals rfl

example : eX execSys none [cl!"t", cl!"g"] = some 0o110 ∧ eX execSys (some ()) [cl!"a", cl!"f"] = some 0o110 ∧
    eX execSys none [cl!"t"] = none := by decide +kernel

example : Any.uIsexec (sAt none [cl!"t", cl!"g"]) 0o100 execSys = (.ok true, execSys) ∧
    Any.uIsexec (sAt (some ()) [cl!"a", cl!"f"]) 0o001 execSys = (.ok false, execSys) :=
  ⟨C128_isexec execSys_ok.1 (k := none) (q := [cl!"t", cl!"g"]) (by decide +kernel) (x := 0o110) (by decide +kernel) (m := 0o100) (by unfold Flags; decide),
   C128_isexec execSys_ok.1 (k := some ()) (q := [cl!"a", cl!"f"]) (by decide +kernel) (x := 0o110) (by decide +kernel) (m := 0o001) (by unfold Flags; decide)⟩

example : Any.uIsexec (sAt none [cl!"t", cl!"no", cl!"x"]) 0o111 execSys = (.error (.os .ENOENT), execSys) :=
  (C128_missing execSys_ok.1 (k := none) (q := [cl!"t", cl!"no", cl!"x"]) (by decide +kernel)
    (by rw [execSys_ok.2]; exact ⟨all_prefixes (by decide +kernel), by decide +kernel⟩) (by decide +kernel) 0o111).1

/-- by the link /l to /t, and in memory by the link /m to /l/f, which is /a/f -/
example : Any.uIsexec (sAt none [cl!"l", cl!"g"]) 0o100 execSys = (.ok true, execSys) ∧
    Any.uIsexec (sAt (some ()) [cl!"m"]) 0o100 execSys = (.ok true, execSys) := by
  refine ⟨(C128_links execSys_ok.1 (k := none) (p := [cl!"l", cl!"g"]) (q := [cl!"t", cl!"g"]) (by decide +kernel) ⟨by decide +kernel, 1, by decide, ?_⟩
    (x := 0o110) (by decide +kernel) (m := 0o100) (by unfold Flags; decide)).1,
    (C128_links execSys_ok.1 (k := some ()) (p := [cl!"m"]) (q := [cl!"a", cl!"f"]) (by decide +kernel) ⟨by decide +kernel, ?_⟩
    (x := 0o110) (by decide +kernel) (m := 0o100) (by unfold Flags; decide)).1⟩
  · exact .link (c := [cl!"l"]) (t := [cl!"t"]) (x := [cl!"g"]) (by decide +kernel) (by decide +kernel) (by decide +kernel) (.inr rfl) (.here _)
  · decide +kernel

example : Any.uIsexec (mu cl!"/m") 0o111 execSys = onMem (Mem.uIsexec (mu cl!"/m") 0o111) execSys := (C128_memory (by decide +kernel) _ _).1

/-- the flags of /t/g replaced -/
example : ∃ s', Any.uSetExec (sAt none [cl!"t", cl!"g"]) 0o001 execSys = (.ok (), s') ∧ eX s' none [cl!"t", cl!"g"] = some 0o001 ∧
    eX s' (some ()) [cl!"a", cl!"f"] = some 0o110 := by
  obtain ⟨s', h1, -, -, h2, h3⟩ := C128_set_exec unit_inj execSys_ok.1 (k := none) (q := [cl!"t", cl!"g"]) (by decide +kernel) (x := 0o110)
    (by decide +kernel) (m := 0o001) (by unfold Flags; decide)
  exact ⟨s', h1, h2, (h3 _ _ (by simp)).trans (by decide +kernel)⟩

/-- written again: the local file may still be executed, the one in memory may not -/
example : (∃ s', writeAll (sAt none [cl!"t", cl!"g"]) [[7], [8]] execSys = (.ok (), s') ∧ eX s' none [cl!"t", cl!"g"] = some 0o110) ∧
    ∃ s', writeAll (sAt (some ()) [cl!"a", cl!"f"]) [[7], [8]] execSys = (.ok (), s') ∧ eX s' (some ()) [cl!"a", cl!"f"] = some 0 := by
  obtain ⟨s', h1, -, -, -, h2, -⟩ := C128_write unit_inj execSys_ok.1 (k := none) (ds := [cl!"t"]) (n := cl!"g") (by decide +kernel)
    (by decide +kernel) (.inr (by decide +kernel)) [[7], [8]]
  obtain ⟨s2, h3, -, -, h4, -⟩ := C128_write unit_inj execSys_ok.1 (k := some ()) (ds := [cl!"a"]) (n := cl!"f") (by decide +kernel)
    (by decide +kernel) (.inr (by decide +kernel)) [[7], [8]]
  exact ⟨⟨s', h1, (h2 rfl (by decide +kernel)).trans (by decide +kernel)⟩, s2, h3, h4 (.inl (by simp))⟩

/-- /t/g copied to /t/h, and to /a/h in memory -/
example : (∃ s', uCopy sysOps 9 (sAt none [cl!"t", cl!"g"]) (sAt none [cl!"t", cl!"h"]) false [] true execSys = (.ok (), s') ∧
      eX s' none [cl!"t", cl!"h"] = some 0o110) ∧
    ∃ s', uCopy sysOps 9 (sAt none [cl!"t", cl!"g"]) (sAt (some ()) [cl!"a", cl!"h"]) false [] true execSys = (.ok (), s') ∧
      eX s' (some ()) [cl!"a", cl!"h"] = some 0 := by
  obtain ⟨s', h1, -, -, h2, -⟩ := C128_copy unit_inj execSys_ok.1 (k := none) (k' := none) (.inl rfl) (init := [cl!"t"]) (n := cl!"g") (m := cl!"h")
    (ds := [cl!"t", cl!"h"]) (e := [cl!"t"]) (ig := []) (d := [1, 2, 3]) (by decide +kernel) (by decide +kernel) (by decide +kernel) (by decide +kernel)
    (.at_ (by decide +kernel)) (by decide +kernel) (.inl (by decide +kernel)) (by simp) 9 true
  obtain ⟨s2, h3, -, -, h4, -⟩ := C128_copy unit_inj execSys_ok.1 (k := none) (k' := some ()) (.inl rfl) (init := [cl!"t"]) (n := cl!"g") (m := cl!"h")
    (ds := [cl!"a", cl!"h"]) (e := [cl!"a"]) (ig := []) (d := [1, 2, 3]) (by decide +kernel) (by decide +kernel) (by decide +kernel) (by decide +kernel)
    (.at_ (by decide +kernel)) (by decide +kernel) (.inl (by decide +kernel)) (by simp) 9 true
  refine ⟨⟨s', h1, h2.trans ?_⟩, s2, h3, h4.trans ?_⟩
  · unfold copyFlags; rw [if_pos rfl]; decide +kernel
  · unfold copyFlags; rw [if_neg (by simp), if_neg (by simp)]

theorem eCopyable {k : Option Unit} {q : List Str} (h : Laws.Copyable (sV k) q) : Laws.Copyable (siteV (fun _ : Unit => 0) execSys k) q := by
  rw [execSys_ok.2]; exact h

theorem eDepth {k : Option Unit} {q : List Str} {n : Nat} (h : ∀ x, sV k (q ++ x) = some .dir → x.length < n) :
    ∀ x, siteV (fun _ : Unit => 0) execSys k (q ++ x) = some .dir → x.length < n := by
  rw [execSys_ok.2]; exact h

/-- /a copied to /n, in memory -/
example : ∃ s', uCopy sysOps 9 (sAt (some ()) [cl!"a"]) (sAt (some ()) [cl!"n"]) true [] true execSys = (.ok (), s') ∧
    eX s' (some ()) [cl!"n", cl!"f"] = some 0o110 := by
  obtain ⟨s', h1, -, h2, -⟩ := C128_copy_tree unit_inj execSys_ok.1 (k := some ()) (init := []) (n := cl!"a") (ds := [cl!"n"]) (e := [cl!"n"]) (ig := [])
    (eCopyable (sCopyable (by decide +kernel) (by decide) (by decide +kernel) (by decide +kernel))) (by decide +kernel) (by decide +kernel) (by decide)
    (.new (by decide +kernel)) (all_prefixes (by decide +kernel)) (by rw [execSys_ok.2]; exact merges_of (s := sampleSys) rfl (by decide +kernel))
    (by decide +kernel) (depth := 9) (by decide) (eDepth (sDepth (by decide +kernel))) true
  refine ⟨s', h1, (h2 [cl!"f"] ?_ [104, 105] (by decide +kernel)).2.trans (by decide +kernel)⟩
  rintro ⟨a, n, b, -, h4, -⟩
  simp at h4

/-- /a copied to the local /n -/
example : ∃ s', uCopy sysOps 9 (sAt (some ()) [cl!"a"]) (sAt none [cl!"n"]) true [] true execSys = (.ok (), s') ∧
    eX s' none [cl!"n", cl!"f"] = some 0 := by
  obtain ⟨s', h1, -, h2⟩ := C128_across unit_inj execSys_ok.1 (k := some ()) (k' := none) (.inr (.inl rfl)) (by simp) (init := []) (n := cl!"a")
    (ds := [cl!"n"]) (e := [cl!"n"]) (ig := [])
    (eCopyable (sCopyable (by decide +kernel) (by decide) (by decide +kernel) (by decide +kernel))) (by decide +kernel) (by decide +kernel) (by decide)
    (.new (by decide +kernel)) (all_prefixes (by decide +kernel)) (by rw [execSys_ok.2]; exact merges_of (s := sampleSys) rfl (by decide +kernel))
    (fun x => .inl (siteX_none (by
      rw [execSys_ok.2]
      by_cases c : sV none ([cl!"n"] ++ x) = none
      · rw [c]; rfl
      · exact absurd (show [cl!"n"] <+: [cl!"n"] ++ x from List.prefix_append _ _)
          ((show ∀ p ∈ sPaths none, ¬ [cl!"n"] <+: p by decide +kernel) _ (mem_sPaths c)))))
    (depth := 9) (by decide) (eDepth (sDepth (by decide +kernel))) true
  refine ⟨s', h1, (h2 [cl!"f"] ?_ [104, 105] (by decide +kernel)).2⟩
  rintro ⟨a, n, b, -, h4, -⟩
  simp at h4

/-- /a/f moved to /h, /a moved to /n, in memory; /t/g moved to /t/d -/
example : ∃ s', uMove sysOps 9 (sAt (some ()) [cl!"a", cl!"f"]) (sAt (some ()) [cl!"h"]) execSys = (.ok (), s') ∧
    eX s' (some ()) [cl!"h"] = some 0o110 := by
  obtain ⟨s', h1, -, -, h2, -⟩ := C128_move_file unit_inj execSys_ok.1 (i := ()) (init := [cl!"a"]) (n := cl!"f") (m := cl!"h") (ds := [cl!"h"]) (e := [])
    (d := [104, 105]) (by decide +kernel) (by decide +kernel) (by decide +kernel) (by decide +kernel) (.at_ (by decide +kernel)) (by decide +kernel)
    (.inl (by decide +kernel)) (by decide) 9
  exact ⟨s', h1, h2.trans (by decide +kernel)⟩

example : ∃ s', uMove sysOps 9 (sAt (some ()) [cl!"a"]) (sAt (some ()) [cl!"n"]) execSys = (.ok (), s') ∧
    eX s' (some ()) [cl!"n", cl!"f"] = some 0o110 := by
  obtain ⟨s', h1, -, h2, -⟩ := C128_move_tree unit_inj execSys_ok.1 (i := ()) (init := []) (n := cl!"a") (ds := [cl!"n"]) (e := [cl!"n"])
    (eCopyable (sCopyable (by decide +kernel) (by decide) (by decide +kernel) (by decide +kernel))) (by decide +kernel) (by decide +kernel) (by decide)
    (.new (by decide +kernel)) (all_prefixes (by decide +kernel)) (by rw [execSys_ok.2]; exact merges_of (s := sampleSys) rfl (by decide +kernel))
    (by decide +kernel) (depth := 9) (by decide) (eDepth (sDepth (by decide +kernel)))
  exact ⟨s', h1, (h2 [cl!"f"] [104, 105] (by decide +kernel)).2.trans (by decide +kernel)⟩

example : ∃ s', uMove sysOps 9 (sAt none [cl!"t", cl!"g"]) (sAt none [cl!"t", cl!"d"]) execSys = (.ok (), s') ∧
    eX s' none [cl!"t", cl!"d", cl!"g"] = some 0o110 := by
  obtain ⟨s', h1, -, h2, -⟩ := C128_move_local execSys_ok.1 (a := [cl!"t"]) (n := cl!"g") (q := [cl!"t", cl!"d"]) (e := [cl!"t", cl!"d"]) (m := cl!"g")
    (o := .file 0o754 [1, 2, 3]) (by decide +kernel) (by decide +kernel) (by decide +kernel) (by decide +kernel)
    (.inl ⟨by decide +kernel, rfl, rfl⟩) (by decide +kernel) (by decide +kernel) (.inl (by decide +kernel)) 9
  exact ⟨s', h1, (h2 []).trans (by decide +kernel)⟩

/-- /a removed, in memory; /t/g may still be executed -/
example : ∃ s', uRemove sysOps 9 (sAt (some ()) [cl!"a"]) true execSys = (.ok (), s') ∧ eX s' none [cl!"t", cl!"g"] = some 0o110 := by
  obtain ⟨s', h1, -, h2⟩ := (C128_others unit_inj execSys_ok.1 (k := some ())).1 (q := [cl!"a"]) (depth := 9)
    (by rw [execSys_ok.2]; exact sSub (by decide +kernel)) (by decide) (by decide +kernel) (eDepth (sDepth (by decide +kernel)))
  exact ⟨s', h1, (h2 _ _ (by simp)).trans (by decide +kernel)⟩

/-! ## What does not hold -/

/-- **C128**: the flags of a file are not part of what the two backends agree on.  A file that is written again keeps them
    locally and loses them in memory (`MemoryFile.reset`); the copy of a file on the other backend does not have them; and
    `isexec` of a directory, which locally asks for the right to search it, is always false in memory. -/
theorem C128_backends_refuted : ∃ s : Sys, SysOk (fun _ : Unit => []) (fun _ => 0) s ∧
    (Any.uIsexec (sAt none [cl!"t", cl!"g"]) 0o100 s).1 = .ok true ∧
    (Any.uIsexec (sAt (some ()) [cl!"a", cl!"f"]) 0o100 s).1 = .ok true ∧
    (Any.uIsexec (sAt none [cl!"t", cl!"g"]) 0o100 (writeAll (sAt none [cl!"t", cl!"g"]) [[7]] s).2).1 = .ok true ∧
    (Any.uIsexec (sAt (some ()) [cl!"a", cl!"f"]) 0o100 (writeAll (sAt (some ()) [cl!"a", cl!"f"]) [[7]] s).2).1 = .ok false ∧
    (Any.uIsexec (sAt (some ()) [cl!"a", cl!"g"]) 0o111
      (uCopy sysOps 9 (sAt none [cl!"t", cl!"g"]) (sAt (some ()) [cl!"a"]) false [] true s).2).1 = .ok false ∧
    (Any.uIsexec (sAt none [cl!"t"]) 0o111 s).1 = .ok true ∧ (Any.uIsexec (sAt (some ()) [cl!"a"]) 0o111 s).1 = .ok false :=
  ⟨execSys, execSys_ok.1, by decide +kernel, by decide +kernel, by decide +kernel, by decide +kernel, by decide +kernel, by decide +kernel, by decide +kernel⟩

end Verif.Props
