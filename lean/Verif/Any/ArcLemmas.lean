import Verif.Any.Arc
import Verif.Any.FilesLemmas
import Verif.Zip.Lemmas
/-! # Archives that are files: the single methods -/
namespace Verif.Any
open Verif.Spec Verif.Gen

theorem aSys_ok {α : Type} {m : OM Sys α} {s s' : Sys} {x : Except PyErr α} {o : Option AHandle} (h : m s = (x, s')) : aSys m (s, o) = (x, s', o) := by
  unfold aSys
  rw [h]

/-! ## The other backends in the table of all -/

/-- the part of the state that belongs to the other backends -/
def arcLens : Lens Arc Sys := ⟨Arc.sys, fun s a => { s with sys := a }, fun _ _ => rfl, fun _ => rfl, fun _ _ _ => rfl⟩

/-- `arcOps` contains `sysOps` -/
def arcPart (C : Codec) : OpsIn sysOps (arcOps C) where
  toLens := arcLens
  Here := Stays
  cn := ZConn.sys
  hd := ZHd.sys
  div := StaysIn.div
  split := StaysIn.split
  conn := by
    intro u hu
    show arcConn u = arcSys (sysConn u >>= fun c => pure (ZConn.sys c))
    unfold arcConn
    by_cases h : (u.allExtras.any fun kv => kv.1 ∈ Mem.reservedNames) = true
    · rw [if_pos h]
      funext s
      have : sysConn u s.sys = (.error .typeError, s.sys) := by unfold sysConn; rw [if_pos h]; rfl
      unfold arcSys
      rw [bind_error this]
      rfl
    · rw [if_neg h, if_neg hu.not_zip]
      exact up_bind arcLens fun _ => up_pure arcLens _
  hook _ _ _ := rfl
  exists_ _ _ := rfl
  isfile _ _ := rfl
  isdir _ _ := rfl
  islink _ _ := rfl
  readlink _ _ := rfl
  symlink _ _ _ := rfl
  listdir _ _ := rfl
  mkdir _ _ := rfl
  removefile _ _ := rfl
  removedir _ _ := rfl
  copystat _ _ _ := rfl
  openR _ _ := up_bind arcLens fun _ => up_pure arcLens _
  openW _ _ := up_bind arcLens fun _ => up_pure arcLens _
  pump _ _ := rfl
  blocks _ := rfl
  moveSelf _ _ _ := rfl

theorem mRead_part (C : Codec) {u : Uri} (h : Stays u) : mRead C u = arcSys (sRead u) := by
  unfold mRead sRead
  rw [(arcPart C).uOpenR h]
  funext s
  show OM.bnd (arcSys (OM.bnd (uOpenR sysOps u) fun a => OM.ret (ZHd.sys a))) _ s = arcSys (OM.bnd (uOpenR sysOps u) _) s
  simp only [OM.bnd, arcSys, OM.ret]
  cases uOpenR sysOps u s.sys with
  | mk x w => cases x with
    | error e => rfl
    | ok a => rfl

theorem mWrite_part (C : Codec) {u : Uri} (h : Stays u) (l : List Bytes) : mWrite C u l = arcSys (sWrite u l) := by
  unfold mWrite sWrite
  rw [(arcPart C).uOpenW h]
  funext s
  show OM.bnd (arcSys (OM.bnd (uOpenW sysOps u) fun a => OM.ret (ZHd.sys a))) _ s = arcSys (OM.bnd (uOpenW sysOps u) _) s
  simp only [OM.bnd, arcSys, OM.ret]
  cases uOpenW sysOps u s.sys with
  | mk x w => cases x with
    | error e => rfl
    | ok a => rfl

/-- a call on files and directories, with the table of all backends -/
theorem acts_arc (C : Codec) {ι κ : Type} (E : ι → Dict) (site : κ → Option ι) (depth : Nat) (a : Acts κ) :
    a.over (arcOps C) (mRead C) (mWrite C) E site depth = arcSys (a.run E site depth) := by
  rw [← acts_over_sys]
  exact acts_over_part (arcPart C) (mRead_part C) (mWrite_part C) (stays_site E) site depth a

/-- `close_zip` has nothing to write -/
def Clean (o : Option AHandle) : Prop := ∀ h, o = some h → h.z.dirty = false

/-- the names and data that the connection knows -/
def seenOf (o : Option AHandle) : Option (List Zip.Entry) := o.map (·.z.entries)

variable {C : Codec}

theorem Codec.store_ne (b : Bytes) (es : List Zip.Entry) : C.store b es ≠ [] := by
  intro h
  have := C.back b es
  rw [h, C.nothing] at this
  cases this

theorem aClose_clean {s : Sys} {o : Option AHandle} (h : Clean o) : ∃ o', aClose C (s, o) = (.ok (), s, o') ∧ Clean o' ∧ seenOf o' = seenOf o := by
  cases o with
  | none => exact ⟨none, rfl, h, rfl⟩
  | some x =>
    have hd := h x rfl
    unfold aClose
    rw [bind_ok (show aGet (s, some x) = (.ok (some x), (s, some x)) from rfl)]
    dsimp only
    by_cases hc : x.z.closed = true
    · rw [if_pos hc]
      exact ⟨_, rfl, h, rfl⟩
    · rw [if_neg hc, hd]
      refine ⟨_, rfl, ?_, rfl⟩
      intro y e
      cases e
      rfl

section
variable {ι : Type} {E : ι → Dict} {r : ι → Nat} {s : Sys} {k : Option ι} {cs : List Str} {d : Bytes} {o : Option AHandle}

/-- reading all of a file that was just opened -/
theorem read_all (h : SysOk E r s) (hr : Function.Injective r) {hd : Hd} {m : OMode} (hm : m.reads = true) (hat : FAt r s k cs hd m d 0) :
    ∃ s', FObj.op ⟨hd, m, false⟩ (.read (-1)) s = (.ok (.bytes d), s') ∧ SysOk E r s' ∧ siteV r s' = siteV r s ∧ FAt r s' k cs hd m d d.length := by
  have he : (FOp.read (-1)).expect m d 0 = some (.bytes d, d, d.length) := by simp [FOp.expect, hm]
  obtain ⟨y, hy, h1, h2, h3, h4, -⟩ := op_done h hr hat he
  have hy' : y = .bytes d := hy
  subst hy'
  refine ⟨_, ?_, h2, ?_, h4⟩
  · exact Prod.ext h1 rfl
  · rw [h3, upd_self hat.at_.siteV]

/-- the bytes are replaced -/
theorem put_done (h : SysOk E r s) (hr : Function.Injective r) {hd : Hd} {m : OMode} (hm : m = .rw ∨ m = .w) {pos : Nat} (hat : FAt r s k cs hd m d pos)
    {b : Bytes} (hb : b ≠ []) : ∃ s', FObj.put ⟨hd, m, false⟩ b s = (.ok (), s') ∧ SysOk E r s' ∧ siteV r s' = upd (siteV r s) k cs (some (.file b)) := by
  have ha : m ≠ .a := by rcases hm with rfl | rfl <;> simp
  have e1 : (FOp.seek 0 0).expect m d pos = some (.unit, d, 0) := by simp [FOp.expect, ha]
  obtain ⟨y1, -, a1, a2, a3, a4, -⟩ := op_done h hr hat e1
  have e2 : (FOp.write b).expect m d 0 = some (.unit, putAt d 0 b, b.length) := by
    rcases hm with rfl | rfl <;> simp [FOp.expect, hb]
  obtain ⟨y2, -, b1, b2, b3, b4, -⟩ := op_done a2 hr a4 e2
  have hp : putAt d 0 b = b ++ d.drop b.length := by simp [putAt]
  have e3 : (FOp.truncate none).expect m (putAt d 0 b) b.length = some (.num b.length, b, b.length) := by
    rw [hp]
    have hl : (b.length : Int) ≤ ((b ++ d.drop b.length).length : Nat) := by rw [List.length_append]; omega
    simp only [FOp.expect, Option.getD_none, hm.symm, true_and, if_pos hl, Int.natCast_nonneg, Int.toNat_natCast, List.take_left]
  obtain ⟨y3, -, c1, c2, c3, c4, -⟩ := op_done b2 hr b4 e3
  obtain ⟨s', d1, d2, d3, -⟩ := close_step (f := ⟨hd, m, false⟩) c2 hr c4
  refine ⟨s', ?_, d2, ?_⟩
  · unfold FObj.put
    rw [bind_ok (Prod.ext a1 rfl), bind_ok (Prod.ext b1 rfl), bind_ok (Prod.ext c1 rfl)]
    exact d1
  · rw [d3, c3, b3, a3, upd_upd, upd_upd]

/-- opening an archive for reading -/
theorem start_r (h : SysOk E r s) (hr : Function.Injective r) (hn : Nm cs) (hv : siteV r s k cs = some (.file d)) :
    ∃ s' hd, SysOk E r s' ∧ siteV r s' = siteV r s ∧ aStart C (siteAt E k cs) .r .r (s, o) =
      match C.unpack d with
      | some es => (.ok (), s', some ⟨⟨.r, es, false, false⟩, d, ⟨hd, .r, true⟩⟩)
      | none => (.error .badZip, s', o) := by
  obtain ⟨hd, s1, e1, h1, v1, f1, -⟩ := opened_there (m := .r) h hr hn hv (by simp) (by simp)
  rw [if_neg (by simp)] at f1
  obtain ⟨s2, e2, h2, v2, f2⟩ := read_all h1 hr rfl f1
  obtain ⟨s3, e3, h3, v3, -⟩ := close_step (f := ⟨hd, .r, false⟩) h2 hr f2
  refine ⟨s3, hd, h3, by rw [v3, v2, v1], ?_⟩
  unfold aStart
  rw [bind_ok (aSys_ok e1), if_neg (by simp), bind_ok (aSys_ok e2)]
  dsimp only
  rw [if_pos rfl, bind_ok (aSys_ok e3)]
  cases C.unpack d <;> rfl

/-- opening a file for adding to it -/
theorem start_a (h : SysOk E r s) (hr : Function.Injective r) (hn : Nm cs) (hv : siteV r s k cs = some (.file d)) :
    ∃ s' hd, SysOk E r s' ∧ siteV r s' = siteV r s ∧ FAt r s' k cs hd .rw d d.length ∧ aStart C (siteAt E k cs) .rw .a (s, o) =
      (.ok (), s', some ⟨⟨.a, (C.unpack d).getD [], (C.unpack d).isNone, false⟩, d, ⟨hd, .rw, false⟩⟩) := by
  obtain ⟨hd, s1, e1, h1, v1, f1, -⟩ := opened_there (m := .rw) h hr hn hv (by simp) (by simp)
  rw [if_neg (by simp)] at f1
  obtain ⟨s2, e2, h2, v2, f2⟩ := read_all h1 hr rfl f1
  refine ⟨s2, hd, h2, by rw [v2, v1], f2, ?_⟩
  unfold aStart
  rw [bind_ok (aSys_ok e1), if_neg (by simp), bind_ok (aSys_ok e2)]
  dsimp only
  rw [if_neg (by simp)]
  cases C.unpack d <;> rfl

/-- making a new archive -/
theorem start_w (h : SysOk E r s) (hr : Function.Injective r) {n : Str} (hn : Nm (cs ++ [n])) (hp : siteV r s k cs = some .dir)
    (hv : siteV r s k (cs ++ [n]) = none) :
    ∃ s' hd, SysOk E r s' ∧ siteV r s' = upd (siteV r s) k (cs ++ [n]) (some (.file [])) ∧ FAt r s' k (cs ++ [n]) hd .w [] 0 ∧
      aStart C (siteAt E k (cs ++ [n])) .w .w (s, o) = (.ok (), s', some ⟨⟨.w, [], true, false⟩, [], ⟨hd, .w, false⟩⟩) := by
  obtain ⟨hd, s1, e1, h1, v1, f1, -⟩ := opened_new h hr hn hp (.inl hv)
  refine ⟨s1, hd, h1, v1, f1, ?_⟩
  unfold aStart
  rw [bind_ok (aSys_ok e1), if_pos rfl]
  rfl

theorem openZip_r (hc : Clean o) (a : Uri) {opt : Option Str} (ho : (opt.all fun o => o.contains 'r') = true) :
    ∃ o', Clean o' ∧ seenOf o' = seenOf o ∧ aOpenZip C a opt (s, o) = aStart C a .r .r (s, o') := by
  obtain ⟨o', e, c, v⟩ := aClose_clean (C := C) (s := s) hc
  refine ⟨o', c, v, ?_⟩
  unfold aOpenZip
  rw [bind_ok e, if_pos ho]

theorem openZip_w (hc : Clean o) (a : Uri) {b : Bool} (hb : uIsfile sysOps a s = (.ok b, s)) :
    ∃ o', Clean o' ∧ seenOf o' = seenOf o ∧
      aOpenZip C a (some cl!"wb") (s, o) = if b then aStart C a .rw .a (s, o') else aStart C a .w .w (s, o') := by
  obtain ⟨o', e, c, v⟩ := aClose_clean (C := C) (s := s) hc
  refine ⟨o', c, v, ?_⟩
  unfold aOpenZip
  rw [bind_ok e, if_neg (by decide +kernel), if_pos (by decide +kernel), bind_ok (aSys_ok hb)]
  cases b <;> rfl

/-- leaving a write statement -/
theorem exit_done (h : SysOk E r s) (hr : Function.Injective r) (hn : Nm cs) {hd : Hd} {m : OMode} (hm : m = .rw ∨ m = .w) {base : Bytes} {pos : Nat}
    (hat : FAt r s k cs hd m d pos) {zm : Zip.ZMode} (hz : zm ≠ .r) {es : List Zip.Entry} {dirty : Bool} {p : Str} (hp : p ≠ []) (h0 : '\x00' ∉ p) {b : Bytes} :
    ∃ s' hd', SysOk E r s' ∧ siteV r s' = upd (siteV r s) k cs (some (.file (C.store base (es ++ [⟨p, b⟩])))) ∧
      aExit C (siteAt E k cs) p b (s, some ⟨⟨zm, es, dirty, false⟩, base, ⟨hd, m, false⟩⟩) =
        (.ok (), s', some ⟨⟨.r, es ++ [⟨p, b⟩], false, false⟩, C.store base (es ++ [⟨p, b⟩]), ⟨hd', .r, true⟩⟩) := by
  obtain ⟨s1, e1, h1, v1⟩ := put_done h hr hm hat (Codec.store_ne (C := C) base (es ++ [⟨p, b⟩]))
  have hv : siteV r s1 k cs = some (.file (C.store base (es ++ [⟨p, b⟩]))) := by rw [v1, upd_same]
  obtain ⟨o', c', -, e2⟩ := openZip_r (C := C) (s := s1) (o := some ⟨⟨zm, es ++ [⟨p, b⟩], false, true⟩, base, ⟨hd, m, false⟩⟩) (by intro y e; cases e; rfl)
    (siteAt E k cs) (opt := none) rfl
  obtain ⟨s2, hd', h2, v2, e3⟩ := start_r (C := C) (o := o') h1 hr hn hv
  rw [C.back] at e3
  refine ⟨s2, hd', h2, by rw [v2, v1], ?_⟩
  have hzn : Zip.zipName p = p := by
    have := takeWhile_stop (p := fun c => decide (c ≠ '\x00')) (a := p) (b := []) (fun c hc => by simpa using fun (e : c = '\x00') => h0 (e ▸ hc)) (by simp)
    simpa [Zip.zipName] using this
  unfold aExit
  rw [bind_ok (show aGet _ = (.ok _, _) from rfl)]
  dsimp only
  rw [if_neg (by simp), if_neg hz, hzn, if_neg hp, bind_ok (show aSet _ _ = (.ok _, _) from rfl)]
  have e4 : aClose C (s, some ⟨⟨zm, es ++ [⟨p, b⟩], true, false⟩, base, ⟨hd, m, false⟩⟩) =
      (.ok (), s1, some ⟨⟨zm, es ++ [⟨p, b⟩], false, true⟩, base, ⟨hd, m, false⟩⟩) := by
    unfold aClose
    rw [bind_ok (show aGet _ = (.ok _, _) from rfl)]
    dsimp only
    rw [if_neg (by simp), if_pos rfl, bind_ok (aSys_ok e1)]
    rfl
  rw [bind_ok e4, e2]
  exact e3

end

/-! ## The names -/

section
variable {es : List Zip.Entry} {m : List Str}

theorem pathOf_root (hm : Nm m) : pathOf m = ['/'] ↔ m = [] := by
  constructor
  · intro h
    cases m with
    | nil => rfl
    | cons c m =>
      have hc := (hm.ok.clean c (by simp)).ne
      rw [pathOf, if_neg (by simp), slash] at h
      simp only [List.flatMap_cons, List.cons_append, List.cons.injEq, true_and, List.append_eq_nil_iff] at h
      exact absurd h.1 hc
  · rintro rfl; rfl

theorem member_isSome : (member es m).isSome = es.any (fun e => decide (e.name = pathOf m)) := by
  unfold member
  rw [Option.isSome_map, Bool.eq_iff_iff, List.any_eq_true]
  rw [Option.isSome_iff_ne_none, ne_eq, List.getLast?_eq_none_iff, List.filter_eq_nil_iff]
  push Not
  simp

theorem getinfo_member : (Zip.getinfo es (pathOf m)).map (·.data) = member es m := by
  unfold Zip.getinfo member
  rw [← List.head?_filter, List.filter_reverse, List.head?_reverse]

theorem dir_iff (hm : m ≠ []) : hasDir es m ↔ ∃ e ∈ es, Zip.comparePathStrings (pathOf m) e.name = .isdir := by
  unfold hasDir
  simp only [hm, false_or, Zip.comparePathStrings_isdir]
  constructor
  · rintro ⟨e, he, t, ht⟩
    exact ⟨e, he, t, by rw [← ht]; simp⟩
  · rintro ⟨e, he, t, ht⟩
    exact ⟨e, he, t, by rw [ht]; simp⟩

theorem names_eq (hm : Nm m) (hh : m = [] → ∀ e ∈ es, e.name.head? = some '/') :
    sortStr ((es.map fun e => Zip.contentItem (pathOf m) e.name).filter fun c => c ≠ []).dedup = namesIn es m := by
  unfold namesIn
  have hs : slash m ++ cl!"/" = (if pathOf m = ['/'] then [] else pathOf m) ++ cl!"/" := by
    by_cases h0 : m = []
    · subst h0; rfl
    · rw [if_neg (fun c => h0 ((pathOf_root hm).1 c)), pathOf, if_neg h0]
  refine pairwise_ext (pairwise_sortStr (List.nodup_dedup _)) (pairwise_sortStr (List.nodup_dedup _)) fun c => ?_
  simp only [mem_sortStr, List.mem_dedup, List.mem_filter, List.mem_map, List.mem_filterMap, decide_eq_true_eq]
  refine and_congr_left fun hc => exists_congr fun e => and_congr_right fun he => ?_
  rw [Zip.contentItem_iff hc fun h => by
    have := hh ((pathOf_root hm).1 h) e he
    cases hn : e.name with
    | nil => rw [hn] at this; cases this
    | cons x l => rw [hn] at this; simp at this; exact ⟨l, by rw [this]⟩]
  unfold Zip.Next
  constructor
  · rintro ⟨h1, t, h2, h3⟩
    have h4 : slash m ++ cl!"/" <+: e.name := ⟨c ++ t, by rw [hs, h2]; simp⟩
    have h5 : e.name.drop ((slash m).length + 1) = c ++ t := by
      have : e.name = (slash m ++ cl!"/") ++ (c ++ t) := by rw [hs, h2]; simp
      rw [this, show (slash m).length + 1 = (slash m ++ cl!"/").length by simp, List.drop_left]
    rw [if_pos h4, h5]
    congr 1
    refine takeWhile_stop (p := fun x => decide (x ≠ '/')) (fun x hx => by simpa using fun (e : x = '/') => h1 (e ▸ hx)) ?_
    rcases h3 with rfl | ⟨r, rfl⟩ <;> simp
  · intro h
    split at h
    · rename_i h4
      obtain ⟨t, ht⟩ := h4
      have h5 : e.name.drop ((slash m).length + 1) = t := by
        rw [← ht, show (slash m).length + 1 = (slash m ++ cl!"/").length by simp, List.drop_left]
      rw [h5] at h
      simp only [Option.some.injEq] at h
      refine ⟨fun hx => ?_, t.dropWhile (· ≠ '/'), ?_, ?_⟩
      · rw [← h] at hx
        have := List.all_eq_true.1 (List.all_takeWhile (p := fun x : Char => decide (x ≠ '/')) (l := t)) _ hx
        simp at this
      · rw [← h, List.takeWhile_append_dropWhile, ← ht, hs]
        simp
      · cases hd : t.dropWhile (· ≠ '/') with
        | nil => exact .inl rfl
        | cons x l =>
          have := List.head_dropWhile_not (p := fun x : Char => decide (x ≠ '/')) (l := t) (by rw [hd]; simp)
          simp only [hd] at this
          exact .inr ⟨l, by rw [List.head_cons] at this; simpa using of_decide_eq_false this⟩
    · cases h

end
end Verif.Any
