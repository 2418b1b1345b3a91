import Verif.Any.Pack
import Verif.Any.ZysLemmas
import Verif.Props.Arc
/-!
# C122 Copying between archives and other places

A member of an archive is copied to a file, a file becomes a member; the archive is itself a file of one of the places, and
programs do this among all the calls of C121.
-/
namespace Verif.Props
open Verif.Spec Verif.Gen Verif.Any

section
variable {ι : Type} {E : ι → Dict} {r : ι → Nat} {C : Codec} {X : Str} {a : Uri} {y : Arc}

/-! ## Calls at places that are not archives -/

theorem arcSys_ok {α : Type} {m : OM Sys α} {x : Except PyErr α} {s' : Sys} (h : m y.sys = (x, s')) : arcSys m y = (x, { y with sys := s' }) := by
  unfold arcSys
  rw [h]

theorem arcSys_ask {α : Type} {m : OM Sys α} {x : Except PyErr α} (h : m y.sys = (x, y.sys)) : arcSys m y = (x, y) := arcSys_ok h

theorem asite_withConn (h : SysOk E r y.sys) {k : Option ι} {cs : List Str} (hn : Nm cs) {α : Type} (m : Mem.Meth) (body : ZConn → OM Arc α) :
    withConn (arcOps C) (siteAt E k cs) m body y = body (.sys (siteC r k)) y := by
  have h1 : sysConn (siteAt E k cs) y.sys = (.ok (siteC r k), y.sys) := site_conn h
  have h2 : ¬ (siteAt E k cs).allExtras.any (fun kv => kv.1 ∈ Mem.reservedNames) := by
    intro hc
    unfold sysConn at h1
    rw [if_pos hc] at h1
    exact absurd (congrArg Prod.fst h1) (by simp)
  have h3 : arcConn (siteAt E k cs) y = (.ok (.sys (siteC r k)), y) := by
    unfold arcConn
    rw [if_neg h2, if_neg (site_scheme _ _ _)]
    exact bind_ok (arcSys_ask h1)
  have h4 : (arcOps C).hook (.sys (siteC r k)) (siteAt E k cs) m y = (.ok (), y) := arcSys_ask (site_hook h hn m)
  unfold withConn
  refine (bind_ok (show (arcOps C).conn _ y = _ from h3)).trans ?_
  exact bind_ok h4

/-- opening a file for writing -/
theorem asite_openW (h : SysOk E r y.sys) {k : Option ι} {cs : List Str} (hn : Nm cs) {x : Except PyErr Hd} {s' : Sys}
    (e : sOpen .w (siteAt E k cs) y.sys = (x, s')) : uOpenW (arcOps C) (siteAt E k cs) y = (x.map ZHd.sys, { y with sys := s' }) := by
  refine (asite_withConn h hn _ _).trans ?_
  have e1 : sysOps.openW (siteC r k) (siteAt E k cs) y.sys = (x, s') := by
    rw [← e, sOpen_eq h hn]
    cases k <;> rfl
  show (arcSys (sysOps.openW (siteC r k) (siteAt E k cs)) >>= fun h => pure (ZHd.sys h)) y = _
  cases x with
  | error c => rw [bind_error (arcSys_ok e1)]; rfl
  | ok c => rw [bind_ok (arcSys_ok e1)]; rfl

theorem arcWriteBlocks_eq (hr : Function.Injective r) {k : Option ι} {q : List Str} {outf : Hd} : ∀ (bs : List Bytes) {y : Arc} {g : Bytes},
    SysOk E r y.sys → WrAt r y.sys k q outf g → siteV r y.sys k q = some (.file g) →
    ∃ s', arcWriteBlocks outf bs y = (.ok (), { y with sys := s' }) ∧ SysOk E r s' ∧ siteV r s' = upd (siteV r y.sys) k q (some (.file (g ++ bs.flatten)))
  | [], y, g, h, _, hg => ⟨y.sys, rfl, h, by rw [List.flatten_nil, List.append_nil, upd_self hg]⟩
  | b :: bs, y, g, h, hw, hg => by
    obtain ⟨s1, e1, ok1, v1, wr1, -⟩ := write_step h hr hw b
    obtain ⟨s2, e2, ok2, v2⟩ := arcWriteBlocks_eq hr bs (y := { y with sys := s1 }) ok1 wr1 (by show siteV r s1 k q = _; rw [v1, upd_same])
    refine ⟨s2, ?_, ok2, ?_⟩
    · unfold arcWriteBlocks
      rw [bind_ok (arcSys_ok e1)]
      exact e2
    · rw [v2]
      show upd (siteV r s1) k q _ = _
      rw [v1, upd_upd, List.append_assoc, List.flatten_cons]

/-- a file is read to its end; another file stays open at its end -/
theorem arcReadBlocks_eq (hr : Function.Injective r) {k k' : Option ι} {q q' : List Str} {inf hd' : Hd} {data g : Bytes} (hne : ¬ (k' = k ∧ q' = q)) (n : Nat) :
    ∀ {y : Arc} {buf : Bytes} {pos : Nat}, SysOk E r y.sys → RdAt r y.sys k q inf data pos → WrAt r y.sys k' q' hd' g → data.length - pos < n →
    ∃ s', arcReadBlocks inf n buf y = ((buf ++ data.drop pos, none), { y with sys := s' }) ∧ SysOk E r s' ∧ siteV r s' = siteV r y.sys ∧ WrAt r s' k' q' hd' g := by
  induction n with
  | zero => intro y buf pos _ _ _ h; omega
  | succ n ih =>
    intro y buf pos h hrd hw hlen
    obtain ⟨s1, e1, ok1, v1, rd1, k1⟩ := read_step h hr hrd 8192
    unfold arcReadBlocks
    rw [arcSys_ok e1]
    simp only
    by_cases hd : data.drop pos = []
    · refine ⟨s1, ?_, ok1, v1, k1 hne hw⟩
      simp [hd]
    · have hl : pos < data.length := by
        by_contra hc
        exact hd (List.drop_eq_nil_of_le (by omega))
      have hne' : (data.drop pos).take 8192 ≠ [] := by
        intro hx
        have := congrArg List.length hx
        rw [List.length_take, List.length_drop, List.length_nil] at this
        omega
      rw [if_neg hne']
      obtain ⟨s2, e2, ok2, v2, w2⟩ := ih (y := { y with sys := s1 }) (buf := buf ++ (data.drop pos).take 8192) ok1 rd1 (k1 hne hw)
        (by simp only [List.length_take, List.length_drop]; omega)
      refine ⟨s2, ?_, ok2, v2.trans v1, w2⟩
      have : data.drop (pos + ((data.drop pos).take 8192).length) = (data.drop pos).drop 8192 := by
        rw [List.drop_drop]
        rw [List.length_take, List.length_drop]
        by_cases hc : 8192 ≤ data.length - pos
        · rw [Nat.min_eq_left hc]
        · rw [Nat.min_eq_right (by omega), List.drop_eq_nil_of_le (by omega), List.drop_eq_nil_of_le (by omega)]
      rw [e2, this, List.append_assoc, List.take_append_drop]

/-! ## File objects -/

theorem wr_of_fat {s : Sys} {k : Option ι} {q : List Str} {hd : Hd} {m : OMode} {d : Bytes} (h : FAt r s k q hd m d d.length) : WrAt r s k q hd d := by
  obtain ⟨h, -, -⟩ := h
  cases k with
  | none =>
    cases hd with
    | mem _ => exact h.elim
    | loc fd => exact h
  | some i =>
    cases hd with
    | loc _ => exact h.elim
    | mem hh => exact h.2.2

theorem fat_of_wr {s : Sys} {k : Option ι} {q : List Str} {hd : Hd} {m : OMode} {d : Bytes} (h : WrAt r s k q hd d)
    (hf : ∀ h, hd = .mem h → h.readable = m.reads ∧ h.binary = true) : FAt r s k q hd m d d.length := by
  refine ⟨?_, hf, fun _ => rfl⟩
  cases k with
  | none =>
    cases hd with
    | mem _ => exact h.elim
    | loc fd => exact h
  | some i =>
    cases hd with
    | loc _ => exact h.elim
    | mem hh => exact ⟨rfl, rfl, h⟩

theorem fat_of_rd {s : Sys} {k : Option ι} {q : List Str} {hd : Hd} {d : Bytes} {pos : Nat} (h : RdAt r s k q hd d pos) : FAt r s k q hd .r d pos := by
  cases k with
  | none =>
    cases hd with
    | mem _ => exact h.elim
    | loc fd => exact ⟨h, (fun _ c => nomatch c), (fun c => nomatch c)⟩
  | some i =>
    cases hd with
    | loc _ => exact h.elim
    | mem hh => exact ⟨⟨rfl, rfl, h.2.2⟩, (fun _ c => by cases c; exact ⟨h.1, h.2.1⟩), (fun c => nomatch c)⟩

theorem rd_of_fat {s : Sys} {k : Option ι} {q : List Str} {hd : Hd} {d : Bytes} {pos : Nat} (h : FAt r s k q hd .r d pos) : RdAt r s k q hd d pos := by
  obtain ⟨h, hf, -⟩ := h
  cases k with
  | none =>
    cases hd with
    | mem _ => exact h.elim
    | loc fd => exact h
  | some i =>
    cases hd with
    | loc _ => exact h.elim
    | mem hh => exact ⟨(hf hh rfl).1, (hf hh rfl).2, h.2.2⟩

/-! ## Calls of a zip connection -/

theorem onArc_eq (hU : URI X = .ok a) (hz : a.scheme ≠ some cl!"zip") {α : Type} {m : Uri → AM α} {x : Except PyErr α} {s' : Sys} {o' : Option AHandle}
    (e : m a (y.sys, y.handle (zkey X)) = (x, s', o')) : onArc (zkey X) m y = (x, ⟨s', fun k => if k = zkey X then o' else y.handle k⟩) := by
  unfold onArc
  rw [show URI (zkey X).base.vpathConnector = _ from hU]
  dsimp only
  rw [if_neg hz, e]

theorem onArc_ask (hU : URI X = .ok a) (hz : a.scheme ≠ some cl!"zip") {α : Type} {m : Uri → AM α} {x : Except PyErr α}
    (e : m a (y.sys, y.handle (zkey X)) = (x, y.sys, y.handle (zkey X))) : onArc (zkey X) m y = (x, y) := by
  rw [onArc_eq hU hz e]
  cases y
  congr 2
  funext k
  dsimp only
  split_ifs with hk
  · rw [hk]
  · rfl

/-- what the connection answers about a member -/
def heard (o : Option (List Zip.Entry)) (m : List Str) (q : List Zip.Entry → Bool) : Except PyErr Bool :=
  match o with
  | some es => .ok (q es)
  | none => if m = [] then .ok true else .error .attributeError

theorem part_heard {s : Sys} {o : Option AHandle} {m : List Str} (hm : Nm m) {ex : List Zip.Cmp} {q : List Zip.Entry → Bool}
    (hq : ∀ es : List Zip.Entry, (decide (m = []) || es.any fun e => Zip.comparePathStrings (pathOf m) e.name ∈ ex) = q es) :
    aIspart (pathOf m) ex (s, o) = (heard (seenOf o) m q, s, o) := by
  cases o with
  | none => exact ispart_none hm ex
  | some x => rw [ispart_some hm, hq]; rfl

theorem exists_ask {es : List Zip.Entry} {m : List Str} :
    (decide (m = []) || es.any fun e => Zip.comparePathStrings (pathOf m) e.name ∈ [.isdir, .isfile]) = decide ((member es m).isSome = true ∨ hasDir es m) := by
  have e1 := seen_ask (es := es) (m := m)
  have e2 := dir_ask (es := es) (m := m)
  rw [Bool.decide_or, ← e2, Bool.decide_eq_true, ← e1, Bool.eq_iff_iff]
  simp only [Bool.or_eq_true, decide_eq_true_eq, List.any_eq_true, List.mem_cons, List.not_mem_nil, or_false, and_or_left, exists_or]
  rw [← or_assoc, or_comm]

theorem zmem_exists (hU : URI X = .ok a) (hz : a.scheme ≠ some cl!"zip") {m : List Str} (hm : Nm m) : uExists (arcOps C) (zat X m) y =
    (heard (seenOf (y.handle (zkey X))) m fun es => decide ((member es m).isSome = true ∨ hasDir es m), y) := by
  refine (arc_withConn X m _ _ y).trans ?_
  show onArc (zkey X) (fun _ => aIspart (zat X m).path [.isdir, .isfile]) y = _
  rw [zat_path hm]
  exact onArc_ask hU hz (part_heard hm fun _ => exists_ask)

theorem zmem_isfile (hU : URI X = .ok a) (hz : a.scheme ≠ some cl!"zip") {m : List Str} (hm : Nm m) : uIsfile (arcOps C) (zat X m) y =
    (heard (seenOf (y.handle (zkey X))) m fun es => decide (m = [] ∨ (member es m).isSome = true), y) := by
  refine (arc_withConn X m _ _ y).trans ?_
  show onArc (zkey X) (fun _ => aIspart (zat X m).path [.isfile]) y = _
  rw [zat_path hm]
  exact onArc_ask hU hz (part_heard hm fun _ => by rw [seen_ask, Bool.decide_or, Bool.decide_eq_true])

theorem zmem_isdir (hU : URI X = .ok a) (hz : a.scheme ≠ some cl!"zip") {m : List Str} (hm : Nm m) : uIsdir (arcOps C) (zat X m) y =
    (heard (seenOf (y.handle (zkey X))) m fun es => decide (hasDir es m), y) := by
  refine (arc_withConn X m _ _ y).trans ?_
  show onArc (zkey X) (fun _ => aIspart (zat X m).path [.isdir]) y = _
  rw [zat_path hm]
  exact onArc_ask hU hz (part_heard hm fun _ => dir_ask)

theorem zmem_islink {m : List Str} : uIslink (arcOps C) (zat X m) y = (.ok false, y) := (arc_withConn X m _ _ y).trans rfl

end

section
variable {ι : Type} {E : ι → Dict} {r : ι → Nat} {C : Codec} {s : Sys} {o : Option AHandle} {j : Option ι} {t : Tree} {p : List Str}

/-- opening a member for reading -/
theorem open_says_r (hr : Function.Injective r) (hok : SysOk E r s) (h : Holds r s j t) (hc : Clean o) (hp0 : p ≠ []) (hf : Any.Fit p) (hw : t.Way p)
    (m : List Str) :
    match found C t p with
    | .error e => e = .outside ∨ ∃ s' o', aOpen C (siteAt E j p) (pathOf m) (some cl!"rb") (s, o) = (.error e, s', o') ∧ SysOk E r s' ∧ siteV r s' = siteV r s ∧
        Clean o' ∧ seenOf o' = seenOf o
    | .ok es => ∃ s' o', aOpen C (siteAt E j p) (pathOf m) (some cl!"rb") (s, o) = (match member es m with
          | some b => .ok (.file b)
          | none => .error .fileDoesNotExist, s', o') ∧ SysOk E r s' ∧ siteV r s' = siteV r s ∧ Clean o' ∧ seenOf o' = some es := by
  have ho := openZip_says (C := C) hr hok h hc hp0 hf hw (opt := some cl!"rb") (by decide +kernel)
  cases hfd : found C t p with
  | error e =>
    rw [hfd] at ho
    rcases ho with rfl | ⟨s', o', e1, h1⟩
    · exact .inl rfl
    · refine .inr ⟨s', o', ?_, h1⟩
      unfold aOpen
      rw [bind_error e1]
  | ok es =>
    rw [hfd] at ho
    obtain ⟨s', hd, b, e1, h1, v1⟩ := ho
    refine ⟨s', some ⟨⟨.r, es, false, false⟩, b, ⟨hd, .r, true⟩⟩, ?_, h1, v1, clean_r rfl, rfl⟩
    unfold aOpen
    rw [bind_ok e1, if_pos (by decide +kernel), ← getinfo_member]
    cases hgi : Zip.getinfo es (pathOf m) with
    | none =>
      show OM.bnd _ _ _ = _
      simp only [OM.bnd, aGet, hgi]
      rfl
    | some x =>
      show OM.bnd _ _ _ = _
      simp only [OM.bnd, aGet, hgi]
      rfl

theorem wr_local {p : List Str} {hd : Hd} {d : Bytes} (h : WrAt r s j p hd d) {z : Zip.ZHandle} {b : Bytes} {md : OMode} {c : Bool} :
    (some (⟨z, b, ⟨hd, md, c⟩⟩ : AHandle)).any (·.local) = j.isNone := by
  cases j <;> cases hd <;> first | rfl | exact absurd h id

/-- opening a member for writing, and what leaving the statement does then -/
theorem open_says_w (hr : Function.Injective r) (hok : SysOk E r s) (h : Holds r s j t) (hc : Clean o) (hp0 : p ≠ []) (hf : Any.Fit p) (hw : t.Way p)
    {m : List Str} (hm : m ≠ []) (hm0 : '\x00' ∉ pathOf m) (b : Bytes) :
    ((ZAct.write m b).tells C p (t, seenOf o)).1 = .error .outside ∨
    (∃ e s' o', aOpen C (siteAt E j p) (pathOf m) (some cl!"wb") (s, o) = (.error e, s', o') ∧
      (ZAct.write m b).tells C p (t, seenOf o) = (.error e, t, seenOf o) ∧ SysOk E r s' ∧ siteV r s' = siteV r s ∧ Clean o' ∧ seenOf o' = seenOf o) ∨
    ∃ s1 o1 hd d, aOpen C (siteAt E j p) (pathOf m) (some cl!"wb") (s, o) = (.ok .statement, s1, o1) ∧ SysOk E r s1 ∧ o1.any (·.local) = j.isNone ∧ WrAt r s1 j p hd d ∧
      (∀ {k q hd' g pos}, ¬ (k = j ∧ q = p) → RdAt r s k q hd' g pos → RdAt r s1 k q hd' g pos) ∧
      ∀ s2, SysOk E r s2 → siteV r s2 = siteV r s1 → WrAt r s2 j p hd d →
        ∃ s3 o3, aExit C (siteAt E j p) (pathOf m) b (s2, o1) = (.ok (), s3, o3) ∧
          Told E r s j ((ZAct.write m b).tells C p (t, seenOf o)) (.ok .unit, s3, o3) := by
  have hcl := holds_clear hok h hw
  have hif : uIsfile sysOps (siteAt E j p) s = (.ok (isF (t.get p)), s) := by
    rw [← h.here]
    exact (site_wc hok hf.nm _ _).trans (site_isfile hok hf.nm hcl)
  obtain ⟨o', c', v', e'⟩ := openZip_w (C := C) hc _ hif
  unfold ZAct.tells
  dsimp only
  rw [if_neg (by push Not; exact ⟨hm, hm0⟩)]
  have hne : pathOf m ≠ [] := by
    cases m with
    | nil => exact absurd rfl hm
    | cons c l => simp [pathOf, slash]
  have fails : ∀ {e s'}, aOpenZip C (siteAt E j p) (some cl!"wb") (s, o) = (.error e, s', o') →
      aOpen C (siteAt E j p) (pathOf m) (some cl!"wb") (s, o) = (.error e, s', o') := by
    intro e s' e1
    unfold aOpen
    rw [bind_error e1]
  have done : ∀ {s1 zm es dirty base hd md d}, aOpenZip C (siteAt E j p) (some cl!"wb") (s, o) = (.ok (), s1, some ⟨⟨zm, es, dirty, false⟩, base, ⟨hd, md, false⟩⟩) →
      (md = .rw ∨ md = .w) → zm ≠ .r → SysOk E r s1 → FAt r s1 j p hd md d d.length → (∀ k q, ¬ (k = j ∧ q = p) → siteV r s1 k q = siteV r s k q) →
      (∀ {k q hd' g pos}, ¬ (k = j ∧ q = p) → RdAt r s k q hd' g pos → RdAt r s1 k q hd' g pos) →
      ∃ s1 o1 hd d, aOpen C (siteAt E j p) (pathOf m) (some cl!"wb") (s, o) = (.ok .statement, s1, o1) ∧ SysOk E r s1 ∧ o1.any (·.local) = j.isNone ∧ WrAt r s1 j p hd d ∧
        (∀ {k q hd' g pos}, ¬ (k = j ∧ q = p) → RdAt r s k q hd' g pos → RdAt r s1 k q hd' g pos) ∧
        ∀ s2, SysOk E r s2 → siteV r s2 = siteV r s1 → WrAt r s2 j p hd d →
          ∃ s3 o3, aExit C (siteAt E j p) (pathOf m) b (s2, o1) = (.ok (), s3, o3) ∧
            Told E r s j (.ok .unit, t.set p (.file (C.store base (es ++ [⟨pathOf m, b⟩]))), some (es ++ [⟨pathOf m, b⟩])) (.ok .unit, s3, o3) := by
    intro s1 zm es dirty base hd md d e1 hmd hzm h1 hat hv keep
    refine ⟨s1, some ⟨⟨zm, es, dirty, false⟩, base, ⟨hd, md, false⟩⟩, hd, d, ?_, h1, wr_local (wr_of_fat hat), wr_of_fat hat, keep, fun s2 h2 v2 w2 => ?_⟩
    · unfold aOpen
      rw [bind_ok e1, if_neg (by decide +kernel)]
      rfl
    · obtain ⟨s3, hd', h3, v3, e3⟩ := exit_done (C := C) h2 hr hf.nm hmd (fat_of_wr w2 hat.flags) hzm (es := es) (dirty := dirty) (base := base) hne hm0 (b := b)
      refine ⟨s3, _, e3, .inr ⟨rfl, h3, set_holds h hf hp0 (by rw [v3, upd_same]) fun x hx => ?_, fun k hk => funext fun q => ?_, clean_r rfl, rfl⟩⟩
      · rw [v3, upd_ne fun c => hx c.2, v2, hv _ _ fun c => hx c.2]
      · rw [v3, upd_ne fun c => hk c.1, v2, hv _ _ fun c => hk c.1]
  have hs := sOpen_says hr hok h p .w
  unfold Tree.opens at hs
  rw [if_neg (by push Not; exact ⟨hp0, hf, hw⟩)] at hs
  cases hg : t.get p with
  | none =>
    rw [hg] at e' hs
    dsimp only at hs ⊢
    by_cases hd : t.get p.dropLast = some .dir
    · rw [if_pos hd]
      rcases List.eq_nil_or_concat p with rfl | ⟨ds, n, rfl⟩
      · exact absurd rfl hp0
      rw [List.concat_eq_append] at *
      rw [List.dropLast_concat] at hd
      obtain ⟨hd1, s1, e1, h1, v1, f1, k1⟩ := opened_new hok hr hf.nm (by rw [h.here, hd]) (.inl (by rw [h.here, hg]))
      refine .inr (.inr (done (dirty := true) (zm := .w) (md := .w) (hd := hd1) (d := []) (s1 := s1) (e'.trans ?_) (.inr rfl) (by simp) h1 f1 (fun k q c => by rw [v1, upd_ne c])
        fun c hrd => rd_of_fat (k1 c (fat_of_rd hrd))))
      show aStart C _ .w .w _ = _
      unfold aStart
      rw [bind_ok (aSys_ok e1), if_pos rfl]
      rfl
    · rw [if_neg hd] at hs ⊢
      rcases hs with hs | hs
      · cases hs
      · refine .inr (.inl ⟨_, s, o', fails (e'.trans ?_), rfl, hok, rfl, c', v'⟩)
        show aStart C _ .w .w _ = _
        unfold aStart
        rw [bind_error (aSys_ok hs)]
  | some x =>
    cases x with
    | file d =>
      rw [hg] at e'
      obtain ⟨hd1, s1, e1, h1, v1, f1, k1⟩ := opened_there (m := .rw) hok hr hf.nm (show siteV r s j p = _ by rw [h.here, hg]) (by simp) (by simp)
      rw [if_neg (by simp)] at f1
      have he : (FOp.read (-1)).expect .rw d 0 = some (.bytes d, d, d.length) := by simp [FOp.expect, OMode.reads]
      obtain ⟨y, hy, a1, a2, a3, a4, a5⟩ := op_done h1 hr f1 he
      have hy' : y = .bytes d := hy
      subst hy'
      refine .inr (.inr (done (dirty := (C.unpack d).isNone) (zm := .a) (md := .rw) (hd := hd1) (d := d) (base := d) (e'.trans ?_) (.inl rfl) (by simp) a2 a4 (fun k q c => by rw [a3, upd_ne c, v1])
        fun c hrd => rd_of_fat (a5 c (k1 c (fat_of_rd hrd)))))
      show aStart C _ .rw .a _ = _
      unfold aStart
      rw [bind_ok (aSys_ok e1), if_neg (by simp), bind_ok (aSys_ok (Prod.ext a1 rfl))]
      dsimp only
      rw [if_neg (by simp)]
      cases C.unpack d <;> rfl
    | dir =>
      rw [hg] at e' hs
      rcases hs with hs | hs
      · cases hs
      · refine .inr (.inl ⟨_, s, o', fails (e'.trans ?_), rfl, hok, rfl, c', v'⟩)
        show aStart C _ .w .w _ = _
        unfold aStart
        rw [bind_error (aSys_ok hs)]
    | other => exact .inl rfl

end
/-! ## The two copies -/

section
variable {ι κ ζ : Type} [DecidableEq κ] [DecidableEq ζ] {E : ι → Dict} {r : ι → Nat} {site : κ → Option ι} {C : Codec} {arc : ζ → κ × List Str} {X : ζ → Str}
variable {F : Option ι → List Str → Option Any.Kind} {G : Reg.Key → Option AHandle}

/-- the connection of one archive and the file of one place have changed -/
theorem arel_of (hs : Function.Injective site) (hX : Function.Injective X) {T : κ → Tree} {M : ζ → Option (List Zip.Entry)} {y : Arc}
    (h : ARel E r site X F G (T, M) y) {z : ζ} {k : κ} {t : Tree} {s' : Sys} {o' : Option AHandle} {e : Option (List Zip.Entry)} (h1 : SysOk E r s')
    (h2 : Holds r s' (site k) t) (h3 : ∀ j, j ≠ site k → siteV r s' j = siteV r y.sys j) (h4 : Clean o') (h5 : seenOf o' = e) :
    ARel E r site X F G (setAt T k t, fun x => if x = z then e else M x) ⟨s', fun k => if k = zkey (X z) then o' else y.handle k⟩ := by
  refine ⟨⟨h1, fun k' => ?_, fun j hj => ?_⟩, fun z' => ?_, fun z' => ?_, fun k' hk => ?_⟩
  · show Holds r s' (site k') (setAt T k t k')
    unfold setAt
    split_ifs with hk
    · rw [hk]; exact h2
    · exact (h.rels.here k').stays fun q => by rw [h3 _ fun c => hk (hs c)]
  · show siteV r s' j = F j
    rw [h3 j fun c => hj _ c.symm]
    exact h.rels.there j hj
  · show Clean (if zkey (X z') = zkey (X z) then o' else y.handle (zkey (X z')))
    split_ifs
    · exact h4
    · exact h.clean z'
  · show seenOf (if zkey (X z') = zkey (X z) then o' else y.handle (zkey (X z'))) = if z' = z then e else M z'
    by_cases c : z' = z
    · rw [if_pos c, if_pos (by rw [c]), h5]
    · rw [if_neg c, if_neg fun e => c (hX (zkey_inj e))]
      exact h.seen z'
  · show (if k' = zkey (X z) then o' else y.handle k') = _
    rw [if_neg fun c => hk z c.symm]
    exact h.rest k' hk

omit [DecidableEq ζ] in
theorem setAt_self {T : κ → Tree} {k : κ} : setAt T k (T k) = T := by
  funext k'
  unfold setAt
  split_ifs with h
  · rw [h]
  · rfl

omit [DecidableEq κ] in
theorem seen_self {M : ζ → Option (List Zip.Entry)} {z : ζ} {e : Option (List Zip.Entry)} (h : M z = e) : (fun x => if x = z then e else M x) = M := by
  funext x
  split_ifs with hx
  · rw [hx, h]
  · rfl

/-- the connection of one archive has changed, nothing else -/
theorem arel_seen (hs : Function.Injective site) (hX : Function.Injective X) {T : κ → Tree} {M : ζ → Option (List Zip.Entry)} {y : Arc}
    (h : ARel E r site X F G (T, M) y) (k : κ) {z : ζ} {s' : Sys} {o' : Option AHandle} {e : Option (List Zip.Entry)} (h1 : SysOk E r s')
    (h2 : siteV r s' = siteV r y.sys) (h4 : Clean o') (h5 : seenOf o' = e) :
    ARel E r site X F G (T, fun x => if x = z then e else M x) ⟨s', fun k => if k = zkey (X z) then o' else y.handle k⟩ := by
  have := arel_of hs hX h (z := z) (k := k) (t := T k) h1 ((h.rels.here _).stays fun q => by rw [h2]) (fun j _ => by rw [h2]) h4 h5
  rwa [setAt_self] at this

theorem isD_false {x : Option Any.Kind} (h : x ≠ some .dir) : isD x = false := by
  cases x with
  | none => rfl
  | some x =>
    cases x with
    | dir => exact absurd rfl h
    | _ => rfl

theorem opens_w {t t' : Tree} {p : List Str} {pos : Nat} (h : t.opens p .w = .ok (t', pos)) : t' = t.set p (.file []) ∧ pos = 0 := by
  unfold Tree.opens at h
  by_cases hc : p = [] ∨ ¬ Any.Fit p ∨ ¬ t.Way p
  · rw [if_pos hc] at h; cases h
  · rw [if_neg hc] at h
    by_cases hd : t.get p.dropLast = some .dir
    · rw [if_pos hd] at h
      rcases hg : t.get p with _ | _ | _ | _ <;> rw [hg] at h <;> cases h <;> exact ⟨rfl, rfl⟩
    · rw [if_neg hd] at h
      rcases hg : t.get p with _ | _ | _ | _ <;> rw [hg] at h <;> cases h

/-- copying a member to a file -/
theorem pack_out (hr : Function.Injective r) (hs : Function.Injective site) (hX : Function.Injective X) {may : κ → κ → Bool}
    (hU : ∀ z, URI (X z) = .ok (siteAt E (site (arc z).1) (arc z).2)) (depth : Nat)
    (z : ζ) (m : List Str) (k : κ) (q ig : List Str) (fl : Bool) {x : (κ → Tree) × (ζ → Option (List Zip.Entry))} {y : Arc} (h : ARel E r site X F G x y) :
    ((PackAct.out z m k q ig fl).says C may arc depth x).1 = .error .outside ∨
      (((PackAct.out z m k q ig fl).run C E site X depth y).1 = ((PackAct.out z m k q ig fl).says C may arc depth x).1 ∧
        ARel E r site X F G ((PackAct.out z m k q ig fl).says C may arc depth x).2 ((PackAct.out z m k q ig fl).run C E site X depth y).2) := by
  obtain ⟨T, M⟩ := x
  unfold PackAct.says
  dsimp only
  by_cases hc : (arc z).2 = [] ∨ ¬ Any.Fit (arc z).2 ∨ ¬ (T (arc z).1).Way (arc z).2 ∨ m = [] ∨ ¬ Nm m ∨ ¬ Any.Fit q ∨ ¬ (T k).Way q ∨ ¬ Any.Fit ((T k).dest m q) ∨ arc z = (k, (T k).dest m q)
  · rw [if_pos hc]; exact .inl rfl
  rw [if_neg hc]
  push Not at hc
  obtain ⟨hp0, hf, hw, hm0, hm, hq, hqw, hfe, hne⟩ := hc
  have hzz : (siteAt E (site (arc z).1) (arc z).2).scheme ≠ some cl!"zip" := site_scheme _ _ _
  have hsee : seenOf (y.handle (zkey (X z))) = M z := h.seen z
  rcases List.eq_nil_or_concat m with rfl | ⟨mi, n, rfl⟩
  · exact absurd rfl hm0
  rw [List.concat_eq_append] at *
  have e1 := zmem_exists (C := C) (y := y) (hU z) hzz hm
  have e2 := zmem_isfile (C := C) (y := y) (hU z) hzz hm
  rw [hsee] at e1 e2
  have hrun : ∀ {a b}, uCopy (arcOps C) depth (zat (X z) (mi ++ [n])) (siteAt E (site k) q) false ig fl y = (a, b) →
      ((PackAct.out z (mi ++ [n]) k q ig fl).run C E site X depth y) = (a.map fun _ => Ans.unit, b) := by
    intro a b e
    show (uCopy (arcOps C) depth (zat (X z) (mi ++ [n])) (siteAt E (site k) q) false ig fl >>= fun _ => pure Ans.unit) y = _
    cases a with
    | error c => rw [bind_error e]; rfl
    | ok c => rw [bind_ok e]; rfl
  cases hM : M z with
  | none =>
    rw [hM] at e1
    refine .inr ?_
    rw [hrun (a := .error .attributeError) (b := y)]
    · exact ⟨rfl, h⟩
    · refine (arc_withConn (X z) (mi ++ [n]) _ _ y).trans ?_
      unfold Any.copy
      exact bind_error (e1.trans (by rw [heard, if_neg hm0]))
  | some es =>
    rw [hM] at e1 e2
    simp only [heard] at e1 e2
    dsimp only
    cases hme : member es (mi ++ [n]) with
    | none =>
      rw [if_pos rfl]
      rw [hme] at e1 e2
      refine .inr ?_
      rw [hrun (a := .error (if hasDir es (mi ++ [n]) then .assertionError else .fileDoesNotExist)) (b := y)]
      · exact ⟨rfl, h⟩
      · refine (arc_withConn (X z) (mi ++ [n]) _ _ y).trans ?_
        unfold Any.copy
        refine (bind_ok e1).trans ?_
        by_cases hd : hasDir es (mi ++ [n])
        · simp only [hd, or_true, decide_true, Bool.not_true, Bool.false_eq_true, if_false, Bool.not_false, if_true]
          refine (bind_ok e2).trans ?_
          simp only [hm0, Option.isSome_none, Bool.false_eq_true, or_self, decide_false, Bool.not_false, if_true]
          rfl
        · simp only [hd, Option.isSome_none, Bool.false_eq_true, or_self, decide_false, Bool.not_false, if_true, if_false]
          rfl
    | some b0 =>
      rw [if_neg (by simp)]
      rw [hme] at e1 e2
      simp only [Option.isSome_some, or_true, true_or, decide_true] at e1 e2
      -- where it goes
      have e3 : uIsdir (arcOps C) (siteAt E (site k) q) y = (.ok (isD ((T k).get q)), y) := by
        refine (asite_withConn h.rels.ok hq.nm _ _).trans ?_
        have hh := h.rels.here k
        rw [← hh.here]
        exact arcSys_ask (site_isdir h.rels.ok hq.nm (holds_clear h.rels.ok hh hqw))
      have hcopy : ∀ {a b}, copyContent (arcOps C) (zat (X z) (mi ++ [n])) (siteAt E (site k) ((T k).dest (mi ++ [n]) q)) y = (a, b) →
          uCopy (arcOps C) depth (zat (X z) (mi ++ [n])) (siteAt E (site k) q) false ig fl y = (a, b) := by
        intro a b e
        refine (arc_withConn (X z) (mi ++ [n]) _ _ y).trans ?_
        unfold Any.copy
        refine (bind_ok e1).trans ?_
        rw [Bool.not_true, if_neg Bool.false_ne_true, Bool.not_false, if_pos rfl]
        refine (bind_ok e2).trans ?_
        rw [Bool.not_true, if_neg Bool.false_ne_true]
        refine (bind_ok e3).trans ?_
        have fin : Any.copyOne (arcOps C) (.zip (zkey (X z))) (zat (X z) (mi ++ [n])) (siteAt E (site k) ((T k).dest (mi ++ [n]) q)) fl y = (a, b) := by
          unfold Any.copyOne
          refine (bind_ok zmem_islink).trans ?_
          rw [Bool.false_and, if_neg Bool.false_ne_true]
          cases a with
          | error c => exact bind_error e
          | ok c =>
            refine (bind_ok e).trans ?_
            rw [if_neg (fun hs => site_scheme E (site k) ((T k).dest (mi ++ [n]) q) (hs.symm.trans (zat_scheme (X z) _)))]
            rfl
        by_cases hd : (T k).get q = some .dir
        · have hde : (T k).dest (mi ++ [n]) q = q ++ [n] := by simp [Tree.dest, hd]
          rw [hde] at fin hfe
          rw [hd, show isD (some Any.Kind.dir) = true from rfl, if_pos rfl, zat_last hm, site_div hfe.nm (by simp) (by simp [slash])]
          exact fin
        · have hde : (T k).dest (mi ++ [n]) q = q := by simp [Tree.dest, hd]
          rw [hde] at fin
          rw [isD_false hd, if_neg Bool.false_ne_true]
          exact fin
      have hor := open_says_r (C := C) hr h.rels.ok (h.rels.here (arc z).1) (h.clean z) hp0 hf hw (mi ++ [n])
      have eopen : ∀ {a s' o'}, aOpen C (siteAt E (site (arc z).1) (arc z).2) (pathOf (mi ++ [n])) (some cl!"rb") (y.sys, y.handle (zkey (X z))) = (a, s', o') →
          uOpenR (arcOps C) (zat (X z) (mi ++ [n])) y = ((match a with
            | .error e => .error e
            | .ok (.file d) => .ok (.zipR (zkey (X z)) d)
            | .ok .statement => .ok (.zipW (zkey (X z)) (pathOf (mi ++ [n]))) : Except PyErr ZHd), ⟨s', fun k => if k = zkey (X z) then o' else y.handle k⟩) := by
        intro a s' o' e
        refine (arc_withConn (X z) (mi ++ [n]) _ _ y).trans ?_
        show (onArc (zkey (X z)) (fun a => aOpen C a (zat (X z) (mi ++ [n])).path (some cl!"rb")) >>= fun x => (match x with
          | .file d => pure (.zipR (zkey (X z)) d)
          | .statement => pure (.zipW (zkey (X z)) (zat (X z) (mi ++ [n])).path) : OM Arc ZHd)) y = _
        rw [zat_path hm]
        have e' := onArc_eq (y := y) (m := fun a => aOpen C a (pathOf (mi ++ [n])) (some cl!"rb")) (hU z) hzz e
        cases a with
        | error c => rw [bind_error e']
        | ok c =>
          rw [bind_ok e']
          cases c <;> rfl
      cases hfd : found C (T (arc z).1) (arc z).2 with
      | error c =>
        rw [hfd] at hor
        rcases hor with rfl | ⟨s', o', f1, f2, f3, f4, f5⟩
        · exact .inl rfl
        · refine .inr ?_
          rw [hrun (hcopy (a := .error c) (bind_error (eopen f1)))]
          refine ⟨rfl, ?_⟩
          have := arel_seen hs hX h k (z := z) f2 f3 f4 f5
          rwa [hsee, seen_self rfl] at this
      | ok es' =>
        rw [hfd] at hor
        obtain ⟨s', o', f1, f2, f3, f4, f5⟩ := hor
        have rel1 := arel_seen hs hX h k (z := z) f2 f3 f4 f5
        dsimp only
        cases hme' : member es' (mi ++ [n]) with
        | none =>
          rw [hme'] at f1
          refine .inr ?_
          rw [hrun (hcopy (a := .error .fileDoesNotExist) (bind_error (eopen f1)))]
          exact ⟨rfl, rel1⟩
        | some b =>
          rw [hme'] at f1
          have g1 := eopen f1
          dsimp only at g1 ⊢
          have hso := sOpen_says hr rel1.rels.ok (rel1.rels.here k) ((T k).dest (mi ++ [n]) q) .w
          dsimp only at hso
          cases hop : (T k).opens ((T k).dest (mi ++ [n]) q) .w with
          | error c =>
            rw [hop] at hso
            rcases hso with rfl | hso
            · exact .inl rfl
            · refine .inr ?_
              rw [hrun (hcopy (a := .error c) ((bind_ok g1).trans (bind_error (asite_openW rel1.rels.ok hfe.nm hso))))]
              exact ⟨rfl, rel1⟩
          | ok w =>
            obtain ⟨t', pos⟩ := w
            rw [hop] at hso
            obtain ⟨he0, d, V, a1, a2, ⟨outf, s2, b1, b2, b3, b4, -⟩, a4, a5⟩ := hso
            obtain ⟨rfl, rfl⟩ := opens_w hop
            rw [Tree.get_set he0, if_pos rfl] at a1
            cases a1
            have g2 := asite_openW (C := C) rel1.rels.ok hfe.nm b1
            have v2 : siteV r s2 (site k) ((T k).dest (mi ++ [n]) q) = some (.file []) := by
              rw [(a4 s2 b3).here, Tree.get_set he0, if_pos rfl]
            obtain ⟨s3, c1, c2, c3⟩ := arcWriteBlocks_eq (E := E) hr (blocksOf 8192 b.length b)
              (y := ⟨s2, fun k => if k = zkey (X z) then o' else y.handle k⟩) b2 (wr_of_fat (d := []) b4) v2
            have hcc := hcopy (a := .ok ()) ((bind_ok g1).trans ((bind_ok g2).trans c1))
            refine .inr ?_
            rw [hrun hcc]
            rw [List.nil_append, blocksOf_flatten (by decide) _ _ (Nat.le_refl _)] at c3
            refine ⟨rfl, arel_of hs hX h c2 ?_ ?_ f4 f5⟩
            · refine set_holds (h.rels.here k) hfe he0 (by rw [c3, upd_same]) fun x hx => ?_
              rw [c3, upd_ne fun c => hx c.2]
              show siteV r s2 _ _ = _
              rw [(a4 s2 b3).here, Tree.get_set he0, if_neg hx, (h.rels.here k).here]
            · intro j hj
              funext x
              rw [c3, upd_ne fun c => hj c.1]
              show siteV r s2 _ _ = _
              rw [b3, a5 _ _ hj]
              show siteV r s' _ _ = _
              rw [f3]

/-- copying a file to a member -/
theorem pack_into (hr : Function.Injective r) (hs : Function.Injective site) (hX : Function.Injective X) (hXc : ∀ z, ConnOk (X z)) {may : κ → κ → Bool}
    (hU : ∀ z, URI (X z) = .ok (siteAt E (site (arc z).1) (arc z).2)) (depth : Nat)
    (k : κ) (p : List Str) (z : ζ) (m ig : List Str) (fl : Bool) {x : (κ → Tree) × (ζ → Option (List Zip.Entry))} {y : Arc} (h : ARel E r site X F G x y) :
    ((PackAct.into k p z m ig fl).says C may arc depth x).1 = .error .outside ∨
      (((PackAct.into k p z m ig fl).run C E site X depth y).1 = ((PackAct.into k p z m ig fl).says C may arc depth x).1 ∧
        ARel E r site X F G ((PackAct.into k p z m ig fl).says C may arc depth x).2 ((PackAct.into k p z m ig fl).run C E site X depth y).2) := by
  obtain ⟨T, M⟩ := x
  unfold PackAct.says
  dsimp only
  by_cases hc : (arc z).2 = [] ∨ ¬ Any.Fit (arc z).2 ∨ ¬ (T (arc z).1).Way (arc z).2 ∨ ¬ Nm m ∨ p = [] ∨ ¬ Any.Fit p ∨ ¬ (T k).Way p ∨ arc z = (k, p)
  · rw [if_pos hc]; exact .inl rfl
  rw [if_neg hc]
  push Not at hc
  obtain ⟨ha0, hfa, hwa, hm, hp0, hf, hw, hne⟩ := hc
  have hzz : (siteAt E (site (arc z).1) (arc z).2).scheme ≠ some cl!"zip" := site_scheme _ _ _
  have hsee : seenOf (y.handle (zkey (X z))) = M z := h.seen z
  have hh := h.rels.here k
  have hcl := holds_clear h.rels.ok hh hw
  have e1 : uExists (arcOps C) (siteAt E (site k) p) y = (.ok ((T k).get p).isSome, y) := by
    refine (asite_withConn h.rels.ok hf.nm _ _).trans ?_
    rw [← hh.here]
    exact arcSys_ask (site_exists h.rels.ok hf.nm hcl)
  have e2 : uIsfile (arcOps C) (siteAt E (site k) p) y = (.ok (isF ((T k).get p)), y) := by
    refine (asite_withConn h.rels.ok hf.nm _ _).trans ?_
    rw [← hh.here]
    exact arcSys_ask (site_isfile h.rels.ok hf.nm hcl)
  have hrun : ∀ {a b}, uCopy (arcOps C) depth (siteAt E (site k) p) (zat (X z) m) false ig fl y = (a, b) →
      ((PackAct.into k p z m ig fl).run C E site X depth y) = (a.map fun _ => Ans.unit, b) := by
    intro a b e
    show (uCopy (arcOps C) depth (siteAt E (site k) p) (zat (X z) m) false ig fl >>= fun _ => pure Ans.unit) y = _
    cases a with
    | error c => rw [bind_error e]; rfl
    | ok c => rw [bind_ok e]; rfl
  have hgo : ∀ {a b}, Any.copy (arcOps C) depth (.sys (siteC r (site k))) (siteAt E (site k) p) (zat (X z) m) false ig fl y = (a, b) →
      ((PackAct.into k p z m ig fl).run C E site X depth y) = (a.map fun _ => Ans.unit, b) :=
    fun e => hrun ((asite_withConn h.rels.ok hf.nm _ _).trans e)
  cases hg : (T k).get p with
  | none =>
    rw [hg] at e1
    refine .inr ?_
    rw [hgo (a := .error .fileDoesNotExist) (b := y)]
    · exact ⟨rfl, h⟩
    · unfold Any.copy
      exact (bind_ok e1).trans rfl
  | some v =>
    rw [hg] at e1 e2
    cases v with
    | other => exact .inl rfl
    | dir =>
      refine .inr ?_
      rw [hgo (a := .error .assertionError) (b := y)]
      · exact ⟨rfl, h⟩
      · unfold Any.copy
        exact (bind_ok e1).trans ((bind_ok e2).trans rfl)
    | file d =>
      dsimp only
      have e3 := zmem_isdir (C := C) (y := y) (hU z) hzz hm
      rw [hsee] at e3
      by_cases hn : m ≠ [] ∧ M z = none
      · rw [if_pos hn]
        refine .inr ?_
        rw [hgo (a := .error .attributeError) (b := y)]
        · exact ⟨rfl, h⟩
        · unfold Any.copy
          refine (bind_ok e1).trans ((bind_ok e2).trans (bind_error (e3.trans ?_)))
          rw [hn.2, heard, if_neg hn.1]
      · rw [if_neg hn]
        rcases List.eq_nil_or_concat p with rfl | ⟨pi, n, rfl⟩
        · exact absurd rfl hp0
        rw [List.concat_eq_append] at *
        have e3' : uIsdir (arcOps C) (zat (X z) m) y = (.ok (decide (hasDir ((M z).getD []) m)), y) := by
          rw [e3]
          cases hM : M z with
          | none =>
            have : m = [] := by
              by_contra c
              exact hn ⟨c, hM⟩
            simp [heard, this, hasDir]
          | some es => rfl
        simp only [List.getLastD_concat]
        set e := (if hasDir ((M z).getD []) m then m ++ [n] else m) with hedef
        unfold ArcAct.says
        dsimp only
        by_cases hc2 : (arc z).2 = [] ∨ ¬ Any.Fit (arc z).2 ∨ ¬ (T (arc z).1).Way (arc z).2 ∨ ¬ Nm (ZAct.write e d).about
        · rw [if_pos hc2]; exact .inl rfl
        rw [if_neg hc2]
        have hen : Nm e := by
          by_contra c
          exact hc2 (.inr (.inr (.inr c)))
        by_cases hem : e = [] ∨ '\x00' ∈ pathOf e
        · refine .inl ?_
          unfold ZAct.tells
          dsimp only
          rw [if_pos hem]
        push Not at hem
        -- the source is opened
        obtain ⟨s1, inf, b1, b2, b3, b4⟩ := site_openR (E := E) h.rels.ok hf.nm (show siteV r y.sys (site k) (pi ++ [n]) = some (.file d) by rw [hh.here, hg])
        have g1 : uOpenR (arcOps C) (siteAt E (site k) (pi ++ [n])) y = (.ok (.sys inf), { y with sys := s1 }) :=
          (asite_withConn h.rels.ok hf.nm _ _).trans (bind_ok (arcSys_ok b1))
        have hcopy : ∀ {a b}, copyContent (arcOps C) (siteAt E (site k) (pi ++ [n])) (zat (X z) e) y = (a, b) →
            ((PackAct.into k (pi ++ [n]) z m ig fl).run C E site X depth y) = (a.map fun _ => Ans.unit, b) := by
          intro a b ec
          refine hgo ?_
          unfold Any.copy
          refine (bind_ok e1).trans ((bind_ok e2).trans ((bind_ok e3').trans ?_))
          have e4 : uIslink (arcOps C) (siteAt E (site k) (pi ++ [n])) y = (.ok false, y) :=
            (asite_withConn h.rels.ok hf.nm _ _).trans (arcSys_ask (site_islink h.rels.ok hf.nm hcl (by rw [hh.here, hg]; simp)))
          have fin : Any.copyOne (arcOps C) (.sys (siteC r (site k))) (siteAt E (site k) (pi ++ [n])) (zat (X z) e) fl y = (a, b) := by
            unfold Any.copyOne
            refine (bind_ok e4).trans ?_
            rw [Bool.false_and, if_neg Bool.false_ne_true]
            cases a with
            | error c => exact bind_error ec
            | ok c =>
              refine (bind_ok ec).trans ?_
              rw [if_neg (fun hs => site_scheme E (site k) (pi ++ [n]) (hs.trans (zat_scheme (X z) _)))]
              rfl
          by_cases hd : hasDir ((M z).getD []) m
          · rw [hedef, if_pos hd] at fin hen
            rw [decide_eq_true hd, if_pos rfl, site_last hf.nm, zat_div (hXc z) hen]
            exact fin
          · rw [hedef, if_neg hd] at fin
            rw [decide_eq_false hd, if_neg Bool.false_ne_true]
            exact fin
        have eopen : ∀ {a s' o'}, aOpen C (siteAt E (site (arc z).1) (arc z).2) (pathOf e) (some cl!"wb") (s1, y.handle (zkey (X z))) = (a, s', o') →
            uOpenW (arcOps C) (zat (X z) e) { y with sys := s1 } = ((match a with
              | .error e => .error e
              | .ok (.file d) => .ok (.zipR (zkey (X z)) d)
              | .ok .statement => .ok (.zipW (zkey (X z)) (pathOf e)) : Except PyErr ZHd), ⟨s', fun k => if k = zkey (X z) then o' else y.handle k⟩) := by
          intro a s' o' ea
          refine (arc_withConn (X z) e _ _ _).trans ?_
          show (onArc (zkey (X z)) (fun a => aOpen C a (zat (X z) e).path (some cl!"wb")) >>= fun x => (match x with
            | .file d => pure (.zipR (zkey (X z)) d)
            | .statement => pure (.zipW (zkey (X z)) (zat (X z) e).path) : OM Arc ZHd)) _ = _
          rw [zat_path hen]
          have e' := onArc_eq (y := { y with sys := s1 }) (m := fun a => aOpen C a (pathOf e) (some cl!"wb")) (hU z) hzz ea
          cases a with
          | error c => rw [bind_error e']
          | ok c =>
            rw [bind_ok e']
            cases c <;> rfl
        have hold1 : Holds r s1 (site (arc z).1) (T (arc z).1) := (h.rels.here _).stays fun q => by rw [b3]
        have hwr := open_says_w (C := C) (E := E) (o := y.handle (zkey (X z))) hr b2 hold1 (h.clean z) ha0 hfa hwa hem.1 hem.2 d
        rw [hsee] at hwr
        have hne' : ¬ (site k = site (arc z).1 ∧ pi ++ [n] = (arc z).2) := by
          rintro ⟨c1, c2⟩
          exact hne (Prod.ext (hs c1).symm c2.symm)
        rcases hwr with hout | ⟨c, s', o', f1, f2, f3, f4, f5, f6⟩ | ⟨s2, o2, hd2, d2, f1, f2, -, f3, f4, f5⟩
        · exact .inl hout
        · refine .inr ?_
          rw [hcopy (a := .error c) ((bind_ok g1).trans (bind_error (eopen f1))), f2]
          refine ⟨rfl, ?_⟩
          have := arel_of hs hX h (z := z) (k := (arc z).1) (t := T (arc z).1) f3 (hold1.stays fun q => by rw [f4]) (fun j _ => by rw [f4, b3]) f5 f6
          exact this
        · obtain ⟨s3, c1, c2, c3, c4⟩ := arcReadBlocks_eq (E := E) hr (fun c => hne' ⟨c.1.symm, c.2.symm⟩) (d.length + 1) (buf := [])
            (y := ⟨s2, fun k => if k = zkey (X z) then o2 else y.handle k⟩) f2 (f4 hne' b4) f3 (by omega)
          obtain ⟨s4, o4, d1, d2'⟩ := f5 s3 c2 c3 c4
          rw [List.drop_zero, List.nil_append] at c1
          have g2 := eopen f1
          dsimp only at g2
          have g3 : arcPump C (.sys inf) (.zipW (zkey (X z)) (pathOf e)) ⟨s2, fun k => if k = zkey (X z) then o2 else y.handle k⟩ =
              (.ok (), ⟨s4, fun k => if k = zkey (X z) then o4 else y.handle k⟩) := by
            unfold arcPump
            refine (bind_ok (arcSys_ask (y := ⟨s2, fun k => if k = zkey (X z) then o2 else y.handle k⟩) (hSize_eq (s := s2) (f4 hne' b4)))).trans ?_
            rw [c1]
            dsimp only
            unfold arcLeave
            have := onArc_eq (y := ⟨s3, fun k => if k = zkey (X z) then o2 else y.handle k⟩) (m := fun a => aExit C a (pathOf e) d) (x := .ok ()) (s' := s4) (o' := o4)
              (hU z) hzz (by dsimp only; rw [if_pos rfl]; exact d1)
            refine (bind_ok this).trans ?_
            show (_, _) = (_, _)
            congr 2
            funext k
            dsimp only
            split_ifs <;> rfl
          have hcc := hcopy (a := .ok ()) ((bind_ok g1).trans ((bind_ok g2).trans g3))
          rw [hcc]
          rcases d2' with d2' | ⟨h1, h2, h3, h4, h5, h6⟩
          · exact .inl d2'
          · refine .inr ⟨h1, arel_of hs hX h h2 h3 (fun j hj => ?_) h5 h6⟩
            rw [h4 j hj, b3]

/-- a call of a program -/
theorem pack_step (hr : Function.Injective r) (hs : Function.Injective site) (hX : Function.Injective X) (hXc : ∀ z, ConnOk (X z)) {may : κ → κ → Bool}
    (hmay : ∀ k k', may k k' = true → May (site k) (site k')) (hU : ∀ z, URI (X z) = .ok (siteAt E (site (arc z).1) (arc z).2)) (depth : Nat)
    (a : PackAct κ ζ) {x : (κ → Tree) × (ζ → Option (List Zip.Entry))} {y : Arc} (h : ARel E r site X F G x y) :
    (a.says C may arc depth x).1 = .error .outside ∨
      ((a.run C E site X depth y).1 = (a.says C may arc depth x).1 ∧ ARel E r site X F G (a.says C may arc depth x).2 (a.run C E site X depth y).2) := by
  cases a with
  | act a => exact arc_step hr hs hX hmay hU depth a h
  | out z m k q ig fl => exact pack_out hr hs hX hU depth z m k q ig fl h
  | into k p z m ig fl => exact pack_into hr hs hX hXc hU depth k p z m ig fl h

omit [DecidableEq κ] [DecidableEq ζ] in
theorem packExec_none {σ : Type} {step : PackAct κ ζ → OM σ Ans} {pr : PackPrg κ ζ} {n : Nat} {s : σ} (h : pr (pr.exec step n s).1 = none) :
    pr.exec step (n + 1) s = pr.exec step n s := by
  rw [PackPrg.exec]
  simp only [h]

omit [DecidableEq κ] [DecidableEq ζ] in
theorem packExec_some {σ : Type} {step : PackAct κ ζ → OM σ Ans} {pr : PackPrg κ ζ} {n : Nat} {s : σ} {a : PackAct κ ζ} (h : pr (pr.exec step n s).1 = some a) :
    pr.exec step (n + 1) s = ((pr.exec step n s).1 ++ [(step a (pr.exec step n s).2).1], (step a (pr.exec step n s).2).2) := by
  rw [PackPrg.exec]
  simp only [h]

theorem pack_rel (hr : Function.Injective r) (hs : Function.Injective site) (hX : Function.Injective X) (hXc : ∀ z, ConnOk (X z)) {may : κ → κ → Bool}
    (hmay : ∀ k k', may k k' = true → May (site k) (site k')) (hU : ∀ z, URI (X z) = .ok (siteAt E (site (arc z).1) (arc z).2)) (depth : Nat)
    (pr : PackPrg κ ζ) : ∀ (n : Nat) {x : (κ → Tree) × (ζ → Option (List Zip.Entry))} {y : Arc}, ARel E r site X F G x y →
    (∀ a ∈ (pr.exec (PackAct.says C may arc depth) n x).1, a ≠ .error .outside) →
    (pr.exec (PackAct.run C E site X depth) n y).1 = (pr.exec (PackAct.says C may arc depth) n x).1 ∧
      ARel E r site X F G (pr.exec (PackAct.says C may arc depth) n x).2 (pr.exec (PackAct.run C E site X depth) n y).2
  | 0, _, _, h, _ => ⟨rfl, h⟩
  | n + 1, x, y, h, hq => by
    cases hp : pr (pr.exec (PackAct.says C may arc depth) n x).1 with
    | none =>
      rw [packExec_none hp] at hq ⊢
      obtain ⟨h1, h2⟩ := pack_rel hr hs hX hXc hmay hU depth pr n h hq
      rw [packExec_none (by rw [h1, hp])]
      exact ⟨h1, h2⟩
    | some a =>
      rw [packExec_some hp] at hq ⊢
      obtain ⟨h1, h2⟩ := pack_rel hr hs hX hXc hmay hU depth pr n h fun x hx => hq x (by simp [hx])
      rw [packExec_some (by rw [h1, hp])]
      rcases pack_step (C := C) hr hs hX hXc hmay hU depth a h2 with h3 | ⟨h3, h4⟩
      · exact absurd h3 (hq _ (List.mem_append_right _ (List.mem_singleton.2 rfl)))
      · exact ⟨by rw [h1, h3], h4⟩

/-- A program that works with files and directories, with the members of archives that are some of these files, and copies files
    into the archives and members out of them: its calls answer what is expected, and leave the files and directories that are
    expected. -/
theorem C122_program (hr : Function.Injective r) (hs : Function.Injective site) (hX : Function.Injective X) (hXc : ∀ z, ConnOk (X z)) {may : κ → κ → Bool}
    (hmay : ∀ k k', may k k' = true → May (site k) (site k')) (hU : ∀ z, URI (X z) = .ok (siteAt E (site (arc z).1) (arc z).2)) {T : κ → Tree} {s : Arc}
    (hok : SysOk E r s.sys) (h : ∀ k, Holds r s.sys (site k) (T k)) (hc : ∀ z, Clean (s.handle (zkey (X z)))) (depth : Nat)
    (pr : PackPrg κ ζ) (n : Nat)
    (hq : ∀ x ∈ (pr.exec (PackAct.says C may arc depth) n (T, fun z => seenOf (s.handle (zkey (X z))))).1, x ≠ .error .outside) :
    (pr.exec (PackAct.run C E site X depth) n s).1 = (pr.exec (PackAct.says C may arc depth) n (T, fun z => seenOf (s.handle (zkey (X z))))).1 ∧
    (∀ k, Holds r (pr.exec (PackAct.run C E site X depth) n s).2.sys (site k)
      ((pr.exec (PackAct.says C may arc depth) n (T, fun z => seenOf (s.handle (zkey (X z))))).2.1 k)) ∧
    SysOk E r (pr.exec (PackAct.run C E site X depth) n s).2.sys ∧
    (∀ j, (∀ k, site k ≠ j) → siteV r (pr.exec (PackAct.run C E site X depth) n s).2.sys j = siteV r s.sys j) ∧
    ∀ k, (∀ z, zkey (X z) ≠ k) → (pr.exec (PackAct.run C E site X depth) n s).2.handle k = s.handle k := by
  obtain ⟨h1, h2⟩ := pack_rel (C := C) (F := siteV r s.sys) (G := s.handle) hr hs hX hXc hmay hU depth pr n
    (x := (T, fun z => seenOf (s.handle (zkey (X z))))) (y := s) ⟨⟨hok, h, fun _ _ => rfl⟩, hc, fun _ => rfl, fun _ _ => rfl⟩ hq
  exact ⟨h1, h2.rels.here, h2.rels.ok, h2.rels.there, h2.rest⟩

/-! ## There and back -/

omit [DecidableEq κ] [DecidableEq ζ] in
theorem way_of_there (hr : Function.Injective r) {s : Sys} (hok : SysOk E r s) {k : κ} {t : Tree} (h : Holds r s (site k) t) {p : List Str} (hp : t.get p ≠ none) :
    t.Way p := by
  intro x hx hxp
  have hc : Any.Clear (siteV r s (site k)) p := (sysLaws E r hr).clear_of hok (k := site k) (by show siteV r s (site k) p ≠ none; rw [h.here]; exact hp) (h.noLink p)
  rw [← h.here]
  rcases hc.above x ((List.mem_inits _ _).1 hx) hxp with e | e <;> rw [e] <;> rfl

/-- A file is copied to the root of an archive, whether it has been opened before or not, and the member is copied to a new name or
    over a file: the bytes are those of the file at the beginning, and nothing else than the two files has changed. -/
theorem C122_there_and_back (hr : Function.Injective r) (hs : Function.Injective site) (hX : Function.Injective X) (hXc : ∀ z, ConnOk (X z))
    (hU : ∀ z, URI (X z) = .ok (siteAt E (site (arc z).1) (arc z).2)) {T : κ → Tree} {s : Arc}
    (hok : SysOk E r s.sys) (h : ∀ k, Holds r s.sys (site k) (T k)) (hc : ∀ z, Clean (s.handle (zkey (X z)))) (depth : Nat) (ig ig' : List Str) (fl fl' : Bool)
    {z : ζ} {k k' : κ} {i q : List Str} {n : Str} {d : Bytes} (hv : siteV r s.sys (site k) (i ++ [n]) = some (.file d)) (hn : '\x00' ∉ n) (hnm : Nm [n])
    (ha0 : (arc z).2 ≠ []) (haf : Any.Fit (arc z).2) (haw : (T (arc z).1).Way (arc z).2) (har : (T (arc z).1).Room (arc z).2) (hne : arc z ≠ (k, i ++ [n]))
    (hq0 : q ≠ []) (hqf : Any.Fit q) (hqw : (T k').Way q) (hqr : (T k').Room q) (hne' : ¬ ((arc z).1 = k' ∧ (arc z).2 <+: q)) :
    ∃ s1 s2, uCopy (arcOps C) depth (siteAt E (site k) (i ++ [n])) (zat (X z) []) false ig fl s = (.ok (), s1) ∧
      uCopy (arcOps C) depth (zat (X z) [n]) (siteAt E (site k') q) false ig' fl' s1 = (.ok (), s2) ∧
      siteV r s2.sys (site k') q = some (.file d) ∧
      (∀ j p, ¬ (j = site k' ∧ p = q) → ¬ (j = site (arc z).1 ∧ p = (arc z).2) → siteV r s2.sys j p = siteV r s.sys j p) := by
  have hgk : (T k).get (i ++ [n]) = some (.file d) := by rw [← (h k).here, hv]
  have hif : Any.Fit (i ++ [n]) := (h k).fit _ (by rw [hv]; simp)
  have hiw : (T k).Way (i ++ [n]) := way_of_there hr hok (h k) (by rw [hgk]; simp)
  have hpn : pathOf [n] = '/' :: n := by simp [pathOf, slash]
  have hp0 : '\x00' ∉ pathOf [n] := by rw [hpn]; simp [hn]
  have hrun : ∀ {u v : Uri} {ig : List Str} {fl : Bool} {y y' : Arc}, (uCopy (arcOps C) depth u v false ig fl >>= fun _ => pure Ans.unit) y = (.ok .unit, y') →
      uCopy (arcOps C) depth u v false ig fl y = (.ok (), y') := by
    intro u v ig fl y y' e
    rcases hu : uCopy (arcOps C) depth u v false ig fl y with ⟨x, w⟩
    cases x with
    | error c => rw [bind_error hu] at e; cases e
    | ok c => rw [bind_ok hu] at e; cases e; rfl
  let M : ζ → Option (List Zip.Entry) := fun z => seenOf (s.handle (zkey (X z)))
  have rel0 : ARel E r site X (siteV r s.sys) s.handle (T, M) s := ⟨⟨hok, h, fun _ _ => rfl⟩, hc, fun _ => rfl, fun _ _ => rfl⟩
  -- into the archive
  have hu : ((ZAct.write [n] d).tells C (arc z).2 (T (arc z).1, M z)).1 = .ok .unit := by
    unfold ZAct.tells
    dsimp only
    rw [if_neg (by push Not; exact ⟨by simp, hp0⟩)]
    rcases har.2 with e | e
    · rw [e]; dsimp only; rw [if_pos har.1]
    · cases hg : (T (arc z).1).get (arc z).2 with
      | none => rw [hg] at e; cases e
      | some x =>
        rw [hg] at e
        cases x with
        | file d => rfl
        | _ => cases e
  obtain ⟨es, a1, a2, a3, -, a5⟩ := C121_expected ha0 hu
  set t1 := ((ZAct.write [n] d).tells C (arc z).2 (T (arc z).1, M z)).2.1 with ht1
  have hsay1 : (PackAct.into k (i ++ [n]) z [] ig fl).says C (fun _ _ => false) arc depth (T, M) =
      (.ok .unit, setAt T (arc z).1 t1, fun y => if y = z then some es else M y) := by
    unfold PackAct.says
    dsimp only
    rw [if_neg (by push Not; exact ⟨ha0, haf, haw, Nm.nil, by simp, hif, hiw, hne⟩), hgk]
    dsimp only
    rw [if_neg (by simp), List.getLastD_concat, if_pos (.inl rfl), List.nil_append]
    unfold ArcAct.says
    dsimp only
    rw [if_neg (by push Not; exact ⟨ha0, haf, haw, hnm⟩), hu, a2]
  have st1 := pack_step (C := C) (may := fun _ _ => false) hr hs hX hXc (fun _ _ c => nomatch c) hU depth (.into k (i ++ [n]) z [] ig fl) rel0
  rw [hsay1] at st1
  rcases st1 with st1 | ⟨b1, rel1⟩
  · cases st1
  -- and out of it
  have hT : (setAt T (arc z).1 t1) (arc z).1 = t1 := if_pos rfl
  have hk' : ∀ x, x <+: q → (setAt T (arc z).1 t1 k').get x = (T k').get x := by
    intro x hx
    by_cases c : k' = (arc z).1
    · have hxa : x ≠ (arc z).2 := fun e => hne' ⟨c.symm, e ▸ hx⟩
      rw [c, hT, a5 x hxa]
    · rw [show setAt T (arc z).1 t1 k' = T k' from if_neg c]
  have hq1 : (setAt T (arc z).1 t1 k').get q = (T k').get q := hk' q (List.prefix_refl _)
  have hq2 : (setAt T (arc z).1 t1 k').get q.dropLast = (T k').get q.dropLast := hk' _ (List.dropLast_prefix _)
  have hqd : (T k').get q ≠ some .dir := by
    intro c
    rcases hqr.2 with e | e <;> rw [c] at e <;> cases e
  have hdest : (setAt T (arc z).1 t1 k').dest [n] q = q := by
    unfold Tree.dest
    rw [hq1, if_neg hqd]
  have hw1 : (setAt T (arc z).1 t1 k').Way q := by
    intro x hx hxq
    rw [hk' x ((List.mem_inits _ _).1 hx)]
    exact hqw x hx hxq
  have haw1 : (setAt T (arc z).1 t1 (arc z).1).Way (arc z).2 := by
    intro x hx hxq
    rw [hT, a5 x hxq]
    exact haw x hx hxq
  have hop : ∃ w, (setAt T (arc z).1 t1 k').opens q .w = .ok w := by
    unfold Tree.opens
    rw [if_neg (by push Not; exact ⟨hq0, hqf, hw1⟩), hq1, hq2, if_pos hqr.1]
    rcases hqr.2 with e | e
    · rw [e]; exact ⟨_, rfl⟩
    · cases hg : (T k').get q with
      | none => exact ⟨_, rfl⟩
      | some x =>
        rw [hg] at e
        cases x with
        | file d => exact ⟨_, rfl⟩
        | _ => cases e
  obtain ⟨w, hop⟩ := hop
  have hsay2 : (PackAct.out z [n] k' q ig' fl').says C (fun _ _ => false) arc depth (setAt T (arc z).1 t1, fun y => if y = z then some es else M y) =
      (.ok .unit, setAt (setAt T (arc z).1 t1) k' ((setAt T (arc z).1 t1 k').set q (.file d)),
        fun y => if y = z then some es else if y = z then some es else M y) := by
    unfold PackAct.says
    dsimp only
    rw [hdest, if_neg (by
      push Not
      exact ⟨ha0, haf, haw1, by simp, hnm, hqf, hw1, hqf, fun c => hne' ⟨congrArg Prod.fst c, by rw [c]⟩⟩), if_pos rfl]
    dsimp only
    rw [if_neg (by rw [a3]; simp), hT, a1]
    dsimp only
    rw [a3]
    dsimp only
    rw [hop]
  have st2 := pack_step (C := C) (may := fun _ _ => false) hr hs hX hXc (fun _ _ c => nomatch c) hU depth (.out z [n] k' q ig' fl') rel1
  rw [hsay2] at st2
  rcases st2 with st2 | ⟨b2, rel2⟩
  · cases st2
  refine ⟨_, _, hrun (Prod.ext b1 rfl), hrun (Prod.ext b2 rfl), ?_, fun j p hj1 hj2 => ?_⟩
  · have := (rel2.rels.here k').here q
    dsimp only at this
    rw [show setAt (setAt T (arc z).1 t1) k' ((setAt T (arc z).1 t1 k').set q (.file d)) k' = _ from if_pos rfl, Tree.get_set hq0, if_pos rfl] at this
    exact this
  · by_cases hj : ∃ l, site l = j
    · obtain ⟨l, rfl⟩ := hj
      refine ((rel2.rels.here l).here p).trans (Eq.trans ?_ ((h l).here p).symm)
      dsimp only
      by_cases c : l = k'
      · have hpq : p ≠ q := fun e => hj1 ⟨by rw [c], e⟩
        rw [c, show setAt (setAt T (arc z).1 t1) k' ((setAt T (arc z).1 t1 k').set q (.file d)) k' = _ from if_pos rfl, Tree.get_set hq0, if_neg hpq]
        by_cases c2 : k' = (arc z).1
        · have hpa : p ≠ (arc z).2 := fun e => hj2 ⟨by rw [c, c2], e⟩
          rw [c2, hT, a5 p hpa]
        · rw [show setAt T (arc z).1 t1 k' = T k' from if_neg c2]
      · rw [show setAt (setAt T (arc z).1 t1) k' ((setAt T (arc z).1 t1 k').set q (.file d)) l = _ from if_neg c]
        by_cases c2 : l = (arc z).1
        · have hpa : p ≠ (arc z).2 := fun e => hj2 ⟨by rw [c2], e⟩
          rw [c2, hT, a5 p hpa]
        · rw [show setAt T (arc z).1 t1 l = T l from if_neg c2]
    · push Not at hj
      exact congrFun (rel2.rels.there j hj) p

end
/-! ## Concrete cases -/

/-- the program that makes the calls of a list -/
def listK {κ ζ : Type} (l : List (PackAct κ ζ)) : PackPrg κ ζ := fun h => l[h.length]?

/-- files are copied into an archive and out of it -/
def packPrgL : List (PackAct Bool (Option Bool)) :=
  [.into false [cl!"a", cl!"f"] (some true) [cl!"m"] [] true, .into false [cl!"a", cl!"f"] (some true) [] [] true, .act (.zip (some true) (.read [cl!"f"])),
   .into false [cl!"a", cl!"f"] (some true) [cl!"m", cl!"n"] [] false, .into true [cl!"a", cl!"f"] (some true) [cl!"m"] [] true,
   .act (.zip (some true) (.listdir [cl!"m"])), .into false [cl!"a"] (some true) [] [] true, .into false [cl!"x"] (some true) [] [] true,
   .out (some true) [cl!"m", cl!"n"] true [cl!"a"] [] true, .act (.call (.one true (.read [cl!"a", cl!"n"]))),
   .out (some true) [cl!"m"] false [cl!"y"] [] true, .out (some true) [cl!"q"] false [cl!"y"] [] true,
   .out (some true) [cl!"m", cl!"n"] false [cl!"d", cl!"e"] [] true, .out (some true) [cl!"m", cl!"n"] false [cl!"y"] [] true,
   .act (.call (.one false (.read [cl!"y"]))), .out (some true) [cl!"f"] false [cl!"y"] [] false, .act (.call (.one true (.remove [cl!"z"] false))),
   .out (some true) [cl!"f"] false [cl!"w"] [] true, .out none [cl!"m"] false [cl!"w"] [] true, .into false [cl!"a", cl!"f"] none [] [] true,
   .act (.zip none (.read [cl!"f"]))]

theorem pack_answers : ((listK packPrgL).exec (PackAct.says toy (fun _ _ => true) toyArc 50) 30 ((fun _ => twinTree), fun _ => none)).1 =
    [.error .attributeError, .ok .unit, .ok (.bytes [104, 105]), .ok .unit, .ok .unit, .ok (.names [cl!"f", cl!"n"]), .error .assertionError,
     .error .fileDoesNotExist, .ok .unit, .ok (.bytes [104, 105]), .error .assertionError, .error .fileDoesNotExist, .error (.os .ENOENT), .ok .unit,
     .ok (.bytes [104, 105]), .ok .unit, .ok .unit, .error (.os .ENOENT), .error .attributeError, .ok .unit, .ok (.bytes [104, 105])] := by
  decide +kernel

theorem toyText_conn (sw : Bool) (z : Option Bool) : ConnOk (toyText sw z) := by
  rcases z with _ | _ | _ <;> cases sw <;> decide +kernel

/-- whichever of the two places is the local one -/
example (sw : Bool) : ((listK packPrgL).exec (PackAct.run toy (fun _ : Unit => []) (twinSite sw) (toyText sw) 50) 30 toyStart).1 =
    ((listK packPrgL).exec (PackAct.says toy (fun _ _ => true) toyArc 50) 30 ((fun _ => twinTree), fun _ => none)).1 :=
  (C122_program unit_inj (twinSite_inj sw) (toyText_inj sw) (toyText_conn sw) (may := fun _ _ => true) (by revert sw; unfold May; decide) (toyText_uri sw)
    (s := toyStart) twin_ok (fun k => twin_holds _) (fun _ _ c => nomatch c) 50 (listK packPrgL) 30 (by
      intro x hx e
      change x ∈ ((listK packPrgL).exec (PackAct.says toy (fun _ _ => true) toyArc 50) 30 ((fun _ => twinTree), fun _ => none)).1 at hx
      rw [pack_answers, e] at hx
      revert hx
      decide)).1

example (sw : Bool) : ∃ s1 s2, uCopy (arcOps toy) 50 (siteAt (fun _ : Unit => []) (twinSite sw false) [cl!"a", cl!"f"]) (zat (toyText sw (some true)) []) false [] true toyStart = (.ok (), s1) ∧
    uCopy (arcOps toy) 50 (zat (toyText sw (some true)) [cl!"f"]) (siteAt (fun _ : Unit => []) (twinSite sw true) [cl!"g"]) false [] true s1 = (.ok (), s2) ∧
    siteV (fun _ => 0) s2.sys (twinSite sw true) [cl!"g"] = some (.file [104, 105]) ∧
    (∀ j p, ¬ (j = twinSite sw true ∧ p = [cl!"g"]) → ¬ (j = twinSite sw true ∧ p = [cl!"z"]) → siteV (fun _ => 0) s2.sys j p = siteV (fun _ => 0) toyStart.sys j p) :=
  C122_there_and_back (arc := toyArc) (T := fun _ => twinTree) (i := [cl!"a"]) (n := cl!"f") unit_inj (twinSite_inj sw) (toyText_inj sw) (toyText_conn sw) (toyText_uri sw) (s := toyStart) twin_ok
    (fun k => twin_holds _) (fun _ _ c => nomatch c) 50 [] [] true true (((twin_holds _).here _).trans (by decide +kernel)) (by decide) (by decide +kernel) (by decide)
    (by decide +kernel) (by decide +kernel) (by decide +kernel) (by decide) (by decide) (by decide +kernel) (by decide +kernel) (by decide +kernel) (by decide)

/-- Refuted: "a file can be copied to a member of an archive".  Copying asks whether the target is a directory, and a connection
    that has not opened its archive has no answer: the same call succeeds after the archive was opened. -/
theorem C122_unopened_refuted (sw : Bool) : ((listK [.act (.zip (some true) (.write [cl!"k"] [1])), .act (.call (.copy true [cl!"z"] false [cl!"z"] false [] true)),
      .into false [cl!"a", cl!"f"] (some false) [cl!"m"] [] true, .act (.zip (some false) (.listdir [])), .into false [cl!"a", cl!"f"] (some false) [cl!"m"] [] true]
      : PackPrg Bool (Option Bool)).exec (PackAct.run toy (fun _ : Unit => []) (twinSite sw) (toyText sw) 50) 10 toyStart).1 =
    [.ok .unit, .ok .unit, .error .attributeError, .ok (.names [cl!"k"]), .ok .unit] := by
  revert sw
  decide +kernel

end Verif.Props
