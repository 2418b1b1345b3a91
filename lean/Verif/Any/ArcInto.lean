import Verif.Any.Chute
import Verif.Any.ArcFlow
import Verif.Props.ArcTrees
import Verif.Props.Freight
/-! # Copying trees into archives that are files -/
namespace Verif.Any
open Verif.Spec Verif.Gen Verif.Props

section
variable {ι : Type} {C : Codec} {E : ι → Dict} {r : ι → Nat} {X : Str} {j : Option ι} {q : List Str} {es : List Zip.Entry}

theorem arcReadBlocks_links (inf : Hd) : ∀ (n : Nat) (buf : Bytes) (y : Arc), LinksStay y.sys (arcReadBlocks inf n buf y).2.sys
  | 0, _, y => LinksStay.refl _
  | n + 1, buf, y => by
    unfold arcReadBlocks
    have h1 := links_hRead 8192 inf y.sys
    unfold arcSys
    rcases hm : hRead 8192 inf y.sys with ⟨x, s'⟩
    rw [hm] at h1
    cases x with
    | error e => exact h1
    | ok x =>
      cases x with
      | str _ => exact h1
      | bytes b =>
        dsimp only
        split
        · exact h1
        · exact h1.trans (arcReadBlocks_links inf n _ { y with sys := s' })

/-- the bytes of a file are added to an archive that was used -/
theorem arc_add (hr : Function.Injective r) (hU : URI X = .ok (siteAt E j q)) (hq : Nm q) {y : Arc} (ho : AOpened C E r X j q es y)
    {k : Option ι} {p : List Str} {d : Bytes} (hp : Nm p) (hv : siteV r y.sys k p = some (.file d)) (hne : ¬ (k = j ∧ p = q))
    {m : List Str} (hm : Nm m) (hm0 : m ≠ []) (h0 : '\x00' ∉ slash m) :
    ∃ y' D, copyContent (arcOps C) (siteAt E k p) (zat X m) y = (.ok (), y') ∧ siteV r y'.sys = upd (siteV r y.sys) j q (some (.file D)) ∧
      LinksStay y.sys y'.sys ∧ (∀ c, c ≠ zkey X → y'.handle c = y.handle c) ∧ AOpened C E r X j q (es ++ [⟨slash m, d⟩]) y' := by
  let L := sysLaws E r hr
  have hz : (siteAt E j q).scheme ≠ some cl!"zip" := Props.site_scheme _ _ _
  have h6 : (zat X m).path = slash m := by rw [zat_path hm, pathOf_ne hm0]
  have hne0 : slash m ≠ [] := by cases m with | nil => exact absurd rfl hm0 | cons c l => simp [slash]
  obtain ⟨d0, hf, hu⟩ := ho.file
  -- the source
  obtain ⟨s1, inf, b1, b2, b3, b4⟩ := site_openR (E := E) ho.ok hp hv
  have l1 : LinksStay y.sys s1 := by
    have := links_openR (siteC r k) (siteAt E k p) y.sys
    rwa [b1] at this
  have g1 : uOpenR (arcOps C) (siteAt E k p) y = (.ok (.sys inf), { y with sys := s1 }) :=
    (asite_withConn ho.ok hp _ _).trans (bind_ok (arcSys_ok b1))
  -- the archive
  have hf1 : siteV r s1 j q = some (.file d0) := by rw [b3]; exact hf
  have hcl := L.clear_of (k := j) (s := s1) b2 (cs := q) (by rw [show L.V s1 j q = _ from hf1]; simp) (by rw [show L.V s1 j q = _ from hf1]; simp)
  have hif : uIsfile sysOps (siteAt E j q) s1 = (.ok true, s1) := by
    have := (site_wc b2 hq .isfile (fun c => sysOps.isfile c (siteAt E j q))).trans (site_isfile b2 hq hcl)
    rw [hf1] at this
    exact this
  obtain ⟨o1, -, -, e1⟩ := openZip_w (C := C) ho.clean _ hif
  rw [if_pos rfl] at e1
  obtain ⟨hd1, s2, e2, c2, v2, f2, k2⟩ := opened_there (m := .rw) b2 hr hq hf1 (by simp) (by simp)
  rw [if_neg (by simp)] at f2
  have he : (FOp.read (-1)).expect .rw d0 0 = some (.bytes d0, d0, d0.length) := by simp [FOp.expect, OMode.reads]
  obtain ⟨a, ha, a1, a2, a3, a4, a5⟩ := op_done c2 hr f2 he
  have ha' : a = .bytes d0 := ha
  subst ha'
  set s3 := ((⟨hd1, .rw, false⟩ : FObj).op (.read (-1)) s2).2 with hs3
  have v3 : siteV r s3 = siteV r y.sys := by
    rw [a3, v2, b3, upd_self hf]
  let g : AHandle := ⟨⟨.a, es, false, false⟩, d0, ⟨hd1, .rw, false⟩⟩
  have e3 : aOpenZip C (siteAt E j q) (some cl!"wb") (s1, y.handle (zkey X)) = (.ok (), s3, some g) := by
    rw [e1]
    unfold aStart
    rw [bind_ok (aSys_ok e2), if_neg (by simp), bind_ok (aSys_ok (Prod.ext a1 rfl))]
    dsimp only
    rw [if_neg (by simp), hu]
    rfl
  have e4 : aOpen C (siteAt E j q) (slash m) (some cl!"wb") (s1, y.handle (zkey X)) = (.ok .statement, s3, some g) := by
    unfold aOpen
    rw [bind_ok e3, if_neg (by decide +kernel)]
    rfl
  have l2 : LinksStay s1 s3 := by
    have := links_aOpen (C := C) (siteAt E j q) (slash m) (some cl!"wb") (s1, y.handle (zkey X))
    rw [e4] at this
    exact this
  let y3 : Arc := ⟨s3, fun c => if c = zkey X then some g else y.handle c⟩
  have g2 : uOpenW (arcOps C) (zat X m) { y with sys := s1 } = (.ok (.zipW (zkey X) (slash m)), y3) := by
    refine (arc_withConn X m _ _ _).trans ?_
    show (onArc (zkey X) (fun a => aOpen C a (zat X m).path (some cl!"wb")) >>= fun x => (match x with
      | .file d => pure (.zipR (zkey X) d)
      | .statement => pure (.zipW (zkey X) (zat X m).path) : OM Arc ZHd)) _ = _
    rw [h6, bind_ok (onArc_eq (y := { y with sys := s1 }) (m := fun a => aOpen C a (slash m) (some cl!"wb")) hU hz e4)]
    rfl
  -- reading, and leaving the statement
  have hrd : RdAt r s3 k p inf d 0 := rd_of_fat (a5 hne (k2 hne (fat_of_rd b4)))
  obtain ⟨s4, c1, c2', c3, c4⟩ := arcReadBlocks_eq (E := E) hr (fun c => hne ⟨c.1.symm, c.2.symm⟩) (d.length + 1) (buf := []) (y := y3) a2 hrd (wr_of_fat a4) (by omega)
  have l3 : LinksStay s3 s4 := by
    have := arcReadBlocks_links inf (d.length + 1) [] y3
    rw [c1] at this
    exact this
  rw [List.drop_zero, List.nil_append] at c1
  obtain ⟨s5, hd5, h5, v5, e5⟩ := exit_done (C := C) c2' hr hq (.inl rfl) (fat_of_wr c4 a4.flags) (zm := .a) (by simp) (es := es) (dirty := false) (base := d0) hne0 h0 (b := d)
  have l4 : LinksStay s4 s5 := by
    have := links_aExit (C := C) (siteAt E j q) (slash m) d (s4, some g)
    rw [e5] at this
    exact this
  let g' : AHandle := ⟨⟨.r, es ++ [⟨slash m, d⟩], false, false⟩, C.store d0 (es ++ [⟨slash m, d⟩]), ⟨hd5, .r, true⟩⟩
  have v6 : siteV r s5 = upd (siteV r y.sys) j q (some (.file (C.store d0 (es ++ [⟨slash m, d⟩])))) := by
    rw [v5]
    show upd (siteV r s4) j q _ = _
    rw [c3]
    show upd (siteV r s3) j q _ = _
    rw [v3]
  refine ⟨⟨s5, fun c => if c = zkey X then some g' else y3.handle c⟩, _, ?_, v6, ((l1.trans l2).trans l3).trans l4, fun c hc => ?_, h5,
    ⟨_, by rw [v6, upd_same], C.back _ _⟩, ?_, ?_⟩
  · unfold copyContent
    rw [bind_ok g1, bind_ok g2]
    show arcPump C (.sys inf) (.zipW (zkey X) (slash m)) y3 = _
    unfold arcPump
    refine (bind_ok (arcSys_ask (y := y3) (hSize_eq (s := s3) hrd))).trans ?_
    rw [c1]
    dsimp only
    unfold arcLeave
    exact bind_ok (onArc_eq (y := ⟨s4, y3.handle⟩) (m := fun a => aExit C a (slash m) d) hU hz (by dsimp only [y3]; rw [if_pos rfl]; exact e5))
  · dsimp only [y3]; rw [if_neg hc, if_neg hc]
  · dsimp only; rw [if_pos rfl]; exact clean_r rfl
  · dsimp only; rw [if_pos rfl]; rfl

/-! ## The tree that is read -/

/-- the tree below `p`, for the copy -/
def entK : Kind → Ent
  | .dir => .dir
  | .file d => .file d
  | .other => .link []

theorem entK_dir {o : Option Kind} (h : o.map entK = some .dir) : o = some .dir := by
  rcases o with _ | _ | _ | _ <;> first | rfl | cases h

theorem entK_file {o : Option Kind} {d : Bytes} (h : o.map entK = some (.file d)) : o = some (.file d) := by
  rcases o with _ | _ | _ | _ <;> cases h
  rfl

/-- While files are added to the archive: only its file and its connection change -/
structure AAdding (C : Codec) (E : ι → Dict) (r : ι → Nat) (X : Str) (j : Option ι) (q : List Str) (es : List Zip.Entry) (y0 y : Arc) (fs : List (List Str × Bytes)) : Prop where
  view : ∃ D, siteV r y.sys = upd (siteV r y0.sys) j q (some (.file D))
  links : LinksStay y0.sys y.sys
  rest : ∀ c, c ≠ zkey X → y.handle c = y0.handle c
  opened : AOpened C E r X j q (es ++ entriesOf fs) y

theorem AAdding.same {k : Option ι} {src x : List Str} {y0 y : Arc} {fs : List (List Str × Bytes)} (h : AAdding C E r X j q es y0 y fs)
    (hout : ¬ (k = j ∧ src <+: q)) : siteV r y.sys k (src ++ x) = siteV r y0.sys k (src ++ x) := by
  obtain ⟨D, hD⟩ := h.view
  rw [hD, upd_ne]
  rintro ⟨rfl, rfl⟩
  exact hout ⟨rfl, List.prefix_append _ _⟩

/-- a directory of one of the places, that does not hold the archive, while files are added to the archive -/
def siteSource (fl : Bool) (hr : Function.Injective r) {k : Option ι} {src : List Str} {y0 : Arc} (h0 : SysOk E r y0.sys) (C : Codec) (X : Str) (j : Option ι) (q : List Str)
    (es : List Zip.Entry) (H : Laws.Copyable (siteV r y0.sys k) src) (hout : ¬ (k = j ∧ src <+: q)) :
    Source (arcOps C) fl where
  c := .sys (siteC r k)
  J y := ∃ fs, AAdding C E r X j q es y0 y fs
  T x := (siteV r y0.sys k (src ++ x)).map entK
  src x := siteAt E k (src ++ x)
  ld _ := false
  names x := (sysLaws E r hr).names y0.sys k (src ++ x)
  parent {x n} h := by
    have : siteV r y0.sys k (src ++ x ++ [n]) ≠ none := by
      rw [List.append_assoc]; intro hc; rw [hc] at h; exact h rfl
    rw [show siteV r y0.sys k (src ++ x) = some .dir from (sysLaws E r hr).tree (k := k) h0 this]
    rfl
  sorted {x} := (sysLaws E r hr).names_sorted h0
  mem_names {x n} := by
    rw [(sysLaws E r hr).mem_names h0]
    show siteV r y0.sys k (src ++ x ++ [n]) ≠ none ↔ _
    rw [List.append_assoc]
    simp
  listdir {y x} h hd := by
    obtain ⟨fs, h⟩ := h
    let L := sysLaws E r hr
    have hd0 : siteV r y0.sys k (src ++ x) = some .dir := by
      cases hk : siteV r y0.sys k (src ++ x) with
      | none => rw [hk] at hd; cases hd
      | some o => rw [hk] at hd; cases o <;> first | rfl | cases hd
    have hd1 : L.V y.sys k (src ++ x) = some .dir := (h.same hout).trans hd0
    refine ⟨L.names y.sys k (src ++ x), arcSys_ask (L.listdir (k := k) h.opened.ok (H.sub.nm x (by rw [hd0]; simp)) hd1), ?_⟩
    rw [sortStr_of_pairwise (L.names_sorted h.opened.ok)]
    refine pairwise_ext (L.names_sorted h.opened.ok) (L.names_sorted h0) fun n => ?_
    rw [L.mem_names h.opened.ok, L.mem_names h0]
    show siteV r y.sys k (src ++ x ++ [n]) ≠ none ↔ siteV r y0.sys k (src ++ x ++ [n]) ≠ none
    rw [List.append_assoc, h.same hout]
  div {x n} h := by
    have hn : Nm (src ++ x ++ [n]) := by
      rw [List.append_assoc]; exact H.sub.nm _ (by intro hc; rw [hc] at h; exact h rfl)
    have := site_div (E := E) (k := k) (cs := src ++ x) (ns := [n]) (p := n) hn (by simp) (by simp [slash])
    rwa [List.append_assoc] at this
  isdir {y x n o} h ho := by
    obtain ⟨fs, h⟩ := h
    let L := sysLaws E r hr
    cases hk : siteV r y0.sys k (src ++ (x ++ [n])) with
    | none => rw [hk] at ho; cases ho
    | some v =>
      have hv : L.V y.sys k (src ++ (x ++ [n])) = some v := (h.same hout).trans hk
      have hno : v ≠ .other := by rintro rfl; exact H.sub.noLink _ hk
      rw [hk] at ho
      cases ho
      have := L.isdir (k := k) h.opened.ok (H.sub.nm (x ++ [n]) (by rw [hk]; simp)) (L.clear_of (k := k) h.opened.ok (by rw [hv]; simp) (by rw [hv]; simpa using hno))
      rw [hv] at this
      refine (arcSys_ask this).trans ?_
      cases v <;> rfl
  islink {y x n o} h ho := by
    obtain ⟨fs, h⟩ := h
    let L := sysLaws E r hr
    cases hk : siteV r y0.sys k (src ++ (x ++ [n])) with
    | none => rw [hk] at ho; cases ho
    | some v =>
      have hv : L.V y.sys k (src ++ (x ++ [n])) = some v := (h.same hout).trans hk
      have hno : v ≠ .other := by rintro rfl; exact H.sub.noLink _ hk
      have hn := H.sub.nm (x ++ [n]) (by rw [hk]; simp)
      have := L.uIslink (k := k) h.opened.ok hn (L.clear_of (k := k) h.opened.ok (by rw [hv]; simp) (by rw [hv]; simpa using hno)) (by rw [hv]; simp)
      refine ⟨false, ?_, ?_⟩
      · rw [(arcPart C).uIslink (stays_site E k _)]
        exact arcSys_ask this
      · rw [hk] at ho
        cases ho
        cases v <;> first | rfl | exact absurd rfl hno

/-! ## Adding to the archive -/

theorem below_up {p x : List Str} (h : Below es (p ++ x)) : Below es p := by
  obtain ⟨e, he, rest, hn⟩ := h
  refine ⟨e, he, ?_⟩
  cases x with
  | nil => exact ⟨rest, by simpa using hn⟩
  | cons n x => exact ⟨n ++ slash x ++ '/' :: rest, by rw [hn]; simp [slash_append, slash_cons]⟩

/-- a directory cannot be made in a directory of an archive -/
theorem arc_makedirs1 (hX : ConnOk X) (hU : URI X = .ok (siteAt E j q)) {y : Arc} (ho : AOpened C E r X j q es y) {c : List Str} {n : Str} (hn : Nm (c ++ [n])) (hc0 : c ≠ [])
    (hc : Below es c) (hb : ¬ Below es (c ++ [n])) {depth : Nat} (hd : 0 < depth) :
    uMakedirs (arcOps C) depth (zat X (c ++ [n])) y = (.error .notImplemented, y) := by
  obtain ⟨depth, rfl⟩ := Nat.exists_eq_succ_of_ne_zero (Nat.pos_iff_ne_zero.1 hd)
  refine (arc_withConn X _ _ _ y).trans ?_
  have h1 := aopened_isdir hU ho hn (by simp)
  rw [decide_eq_false hb] at h1
  have h2 := aopened_isdir hU ho hn.of_prefix hc0
  rw [decide_eq_true hc] at h2
  unfold makedirs
  rw [bind_ok h1, if_neg Bool.false_ne_true, bind_lift (zat_split hX hn hc0)]
  simp only
  rw [bind_ok h2, Bool.not_true, if_neg Bool.false_ne_true, if_pos (hn.noSlash n (by simp)).1]
  exact (arc_withConn X _ _ _ y).trans rfl

/-- nothing is done where the directory is there -/
theorem arc_makedirs0 (hU : URI X = .ok (siteAt E j q)) {y : Arc} (ho : AOpened C E r X j q es y) {c : List Str} (hn : Nm c) (hc0 : c ≠ [])
    (hc : Below es c) {depth : Nat} (hd : 0 < depth) : uMakedirs (arcOps C) depth (zat X c) y = (.ok (), y) := by
  obtain ⟨depth, rfl⟩ := Nat.exists_eq_succ_of_ne_zero (Nat.pos_iff_ne_zero.1 hd)
  refine (arc_withConn X _ _ _ y).trans ?_
  have h1 := aopened_isdir hU ho hn hc0
  rw [decide_eq_true hc] at h1
  unfold makedirs
  rw [bind_ok h1]
  rfl

theorem into_dbase (hX : ConnOk X) {p t d : List Str} {k : Option ι} {y : Arc} (hn : Nm (p ++ t)) (hp : p ≠ []) (hd : Nm (d ++ t)) (ht : ∀ n ∈ t, Trimmed n) :
    (if stripW ((siteAt E k (p ++ t)).path.drop ((siteAt E k p).path.length + 1)) ≠ [] then
        OM.lift ((zat X d).div (stripW ((siteAt E k (p ++ t)).path.drop ((siteAt E k p).path.length + 1)))) else pure (zat X d) : OM Arc Uri) y
      = (.ok (zat X (d ++ t)), y) := by
  have e1 : pathOf (p ++ t) = slash p ++ slash t := by rw [pathOf_ne (by simp [hp]), slash_append]
  rw [site_path hn, site_path hn.of_prefix, e1, pathOf_ne hp]
  by_cases h : t = []
  · subst h
    have : stripW ((slash p ++ slash []).drop ((slash p).length + 1)) = [] := by
      rw [List.drop_eq_nil_of_le (by simp [slash])]; rfl
    rw [this]
    simp
  · obtain ⟨u, h1, h2, h3⟩ := slash_trimmed h (fun n hn' => ⟨(hn.ok.clean n (by simp [hn'])).ne, ht n hn'⟩)
    have : (slash p ++ slash t).drop ((slash p).length + 1) = u := by
      rw [h1, show slash p ++ '/' :: u = (slash p ++ ['/']) ++ u by simp, List.drop_left' (by simp)]
    rw [this, h3, if_pos h2, zat_div_path hX hd h h1]
    rfl

/-- files under the names `x`, put below `e` -/
def under (e : List Str) (fs : List (List Str × Bytes)) : List (List Str × Bytes) := fs.map fun f => (e ++ f.1, f.2)

/-- the archive, when trees are copied into it -/
def arcChute (fl : Bool) (hr : Function.Injective r) (hX : ConnOk X) (hU : URI X = .ok (siteAt E j q)) (hq : Nm q) {k : Option ι} {src e : List Str} {y0 : Arc}
    (h0 : SysOk E r y0.sys) (H : Laws.Copyable (siteV r y0.sys k) src) (hout : ¬ (k = j ∧ src <+: q)) (he : Nm e) (he0 : e ≠ [])
    (hnul : ∀ x d, siteV r y0.sys k (src ++ x) = some (.file d) → '\x00' ∉ slash (e ++ x)) {depth : Nat} (hd : 0 < depth) :
    Chute (siteSource fl hr h0 C X j q es H hout) depth where
  L y fs := AAdding C E r X j q es y0 y (under e fs) ∧ ∀ p, Nm p → (Below (es ++ entriesOf (under e fs)) p ↔ Below es p)
  has x := Below es (e ++ x)
  err := .notImplemented
  dst x := zat X (e ++ x)
  keep h := ⟨_, h.1⟩
  noLink {x t} hc := by
    have hc : (siteV r y0.sys k (src ++ x)).map entK = some (.link t) := hc
    cases hk : siteV r y0.sys k (src ++ x) with
    | none => rw [hk] at hc; cases hc
    | some v =>
      rw [hk] at hc
      cases v with
      | other => exact H.sub.noLink _ hk
      | _ => cases hc
  div {x n} hv := by
    have hn : Nm (src ++ (x ++ [n])) := H.sub.nm _ (by intro hc; exact hv (congrArg (Option.map entK) hc))
    rw [← List.append_assoc]
    have := he.append he0 hn
    rw [← List.append_assoc] at this
    exact zat_div hX this
  base {y x} hv := by
    have hdx : siteV r y0.sys k (src ++ x) = some .dir := entK_dir hv
    have hnm := H.sub.nm x (by rw [hdx]; simp)
    have := into_dbase (E := E) (k := k) (y := y) hX hnm H.ne (he.append he0 hnm) ((sysLaws E r hr).trims (k := k) h0 H hdx)
    show (if stripW ((siteAt E k (src ++ x)).path.drop ((siteAt E k (src ++ [])).path.length + 1)) ≠ [] then
        OM.lift ((zat X (e ++ [])).div (stripW ((siteAt E k (src ++ x)).path.drop ((siteAt E k (src ++ [])).path.length + 1)))) else pure (zat X (e ++ [])) : OM Arc Uri) y
      = (.ok (zat X (e ++ x)), y)
    rw [List.append_nil, List.append_nil]
    exact this
  there {y fs x n} h hv _ hb := by
    have hnm := he.append he0 (H.sub.nm (x ++ [n]) (by rw [entK_dir hv]; simp))
    exact arc_makedirs0 hU h.1.opened hnm (by simp) ((h.2 _ hnm).2 hb) hd
  refuse {y fs x n} h hv hb hb' := by
    have hnm := he.append he0 (H.sub.nm (x ++ [n]) (by rw [entK_dir hv]; simp))
    rw [← List.append_assoc] at hnm hb' ⊢
    exact arc_makedirs1 hX hU h.1.opened hnm (by simp [he0]) ((h.2 _ hnm.of_prefix).2 hb) (fun hc => hb' ((h.2 _ hnm).1 hc)) hd
  file {y fs x n d} h hv hb := by
    have hf : siteV r y0.sys k (src ++ (x ++ [n])) = some (.file d) := entK_file hv
    have hns := H.sub.nm (x ++ [n]) (by rw [hf]; simp)
    have hnm := he.append he0 hns
    have hf' : siteV r y.sys k (src ++ (x ++ [n])) = some (.file d) := (h.1.same hout).trans hf
    obtain ⟨y', D, a1, a2, a3, a4, a5⟩ := arc_add (C := C) hr hU hq h.1.opened hns hf' (by
      rintro ⟨rfl, rfl⟩; exact hout ⟨rfl, List.prefix_append _ _⟩) hnm (by simp) (hnul _ _ hf)
    have hes : es ++ entriesOf (under e (fs ++ [(x ++ [n], d)])) = es ++ entriesOf (under e fs) ++ [⟨slash (e ++ (x ++ [n])), d⟩] := by
      simp [under, entriesOf]
    refine ⟨y', ?_, ⟨?_, a3 |> h.1.links.trans, fun c hc => (a4 c hc).trans (h.1.rest c hc), by rw [hes]; exact a5⟩, fun p hp => ?_⟩
    · refine (bind_ok a1).trans ?_
      rw [if_neg]
      · rfl
      · intro hc
        exact Props.site_scheme E k _ (hc.trans (zat_scheme X _))
    · obtain ⟨D0, hD0⟩ := h.1.view
      exact ⟨D, by rw [a2, hD0, upd_upd]⟩
    · rw [hes, below_added hnm hp, h.2 p hp]
      constructor
      · rintro (h | ⟨h1, h2⟩)
        · exact h
        · rw [← List.append_assoc] at h1 h2
          rcases prefix_snoc_iff.1 h1 with ⟨z, hz⟩ | h1
          · exact below_up (x := z) (by rw [hz]; exact hb)
          · exact absurd h1 h2
      · exact .inl

end
end Verif.Any
