import Verif.Any.ZipFlow
import Verif.Props.Pack
/-!
# Reading trees out of archives that are files

As Verif/Any/ZipFlow.lean, where the archive is itself a file of one of the places (Verif/Any/Arc.lean).
-/
namespace Verif.Any
open Verif.Spec Verif.Gen Verif.Props

/-! ## Nothing is done to links -/

section
variable {C : Codec}

/-- what a method of a zip connection does to the other backends -/
def KeepsA (R : Sys → Sys → Prop) {α : Type} (m : AM α) : Prop := ∀ x, R x.1 (m x).2.1

theorem KeepsA.bind {α β : Type} {m : AM α} {f : α → AM β} (h : KeepsA LinksStay m) (hf : ∀ a, KeepsA LinksStay (f a)) : KeepsA LinksStay (m >>= f) := by
  intro x
  show LinksStay x.1 (OM.bnd m f x).2.1
  unfold OM.bnd
  have := h x
  rcases hm : m x with ⟨r, y⟩
  rw [hm] at this
  cases r with
  | error e => exact this
  | ok a => exact this.trans (hf a y)

theorem KeepsA.sys {α : Type} {m : OM Sys α} (h : Keeps LinksStay m) : KeepsA LinksStay (aSys m) := fun x => h x.1

theorem links_look {α : Type} (fd : Nat) (g : Bytes → Nat → Except PyErr (α × Nat)) : Keeps LinksStay (onDisk (fdLook fd g)) := by
  intro s
  unfold onDisk fdLook
  cases s.disk.fds[fd]? with
  | none => exact LinksStay.refl s
  | some x =>
    dsimp only
    cases s.disk.tree x.1 with
    | none => exact LinksStay.refl s
    | some o => cases o with
      | file _ b =>
        dsimp only
        cases g b x.2 with
        | error e => exact LinksStay.refl s
        | ok y => exact links_fds rfl
      | dir _ => exact LinksStay.refl s
      | link _ => exact LinksStay.refl s

theorem links_change {α : Type} (fd : Nat) (g : Bytes → Nat → Except PyErr (α × Bytes × Nat)) : Keeps LinksStay (onDisk (fdChange fd g)) := by
  intro s
  unfold onDisk fdChange
  cases s.disk.fds[fd]? with
  | none => exact LinksStay.refl s
  | some x =>
    dsimp only
    cases hv : s.disk.tree x.1 with
    | none => exact LinksStay.refl s
    | some o => cases o with
      | file m b =>
        dsimp only
        cases g b x.2 with
        | error e => exact LinksStay.refl s
        | ok y => exact links_set (q := x.1) (o := .file m y.2.1) rfl (.inl (by rw [hv]; rfl))
      | dir _ => exact LinksStay.refl s
      | link _ => exact LinksStay.refl s

theorem links_fdOp (fd : Nat) (m : OMode) (o : FOp) : Keeps LinksStay (onDisk (fdOp fd m o)) := by
  have hr : ∀ e : PyErr, Keeps LinksStay (onDisk (OM.raise e : OM Disk FAns)) := fun e s => LinksStay.refl s
  cases o with
  | read n =>
    show Keeps LinksStay (onDisk (if _ then _ else _))
    split
    · exact hr _
    · exact links_look _ _
  | readline =>
    show Keeps LinksStay (onDisk (if _ then _ else _))
    split
    · exact hr _
    · exact links_look _ _
  | next =>
    show Keeps LinksStay (onDisk (if _ then _ else _))
    split
    · exact hr _
    · exact links_look _ _
  | readlines =>
    show Keeps LinksStay (onDisk (if _ then _ else _))
    split
    · exact hr _
    · exact links_look _ _
  | seek _ _ => exact links_look _ _
  | tell => exact links_look _ _
  | flush => exact links_look _ _
  | seekable => exact links_look _ _
  | write _ =>
    show Keeps LinksStay (onDisk (if _ then _ else _))
    split
    · exact hr _
    · exact links_change _ _
  | truncate _ =>
    show Keeps LinksStay (onDisk (if _ then _ else _))
    split
    · exact hr _
    · exact links_change _ _

theorem links_op (f : FObj) (o : FOp) : Keeps LinksStay (f.op o) := by
  unfold FObj.op
  cases f.hd with
  | mem h => exact quiet_links.mem _
  | loc fd =>
    dsimp only
    split
    · exact quiet_links.raise _
    · exact links_fdOp _ _ _

theorem links_sOpen {m : OMode} (hm : m ≠ .a) (u : Uri) : Keeps LinksStay (sOpen m u) := by
  unfold sOpen
  refine quiet_links.withConn fun c => ?_
  cases c with
  | mem r => exact quiet_links.bind (quiet_links.mem _) fun _ => quiet_links.pure _
  | loc =>
    cases m with
    | r => exact links_openR .loc u
    | rw => exact links_openR .loc u
    | w => exact links_openW .loc u
    | a => exact absurd rfl hm

theorem links_fclose (f : FObj) : Keeps LinksStay f.close := by
  unfold FObj.close
  cases f.hd with
  | mem h => exact quiet_links.mem _
  | loc fd => exact quiet_links.pure _

theorem KeepsA.ok {α : Type} {m : AM α} (h : ∀ x, (m x).2.1 = x.1) : KeepsA LinksStay m := fun x => by rw [h x]; exact LinksStay.refl _

theorem links_put (f : FObj) (b : Bytes) : Keeps LinksStay (f.put b) := by
  unfold FObj.put
  exact quiet_links.bind (links_op _ _) fun _ => quiet_links.bind (links_op _ _) fun _ => quiet_links.bind (links_op _ _) fun _ => links_fclose _

theorem links_aClose : KeepsA LinksStay (aClose C) := by
  unfold aClose
  refine (KeepsA.ok (m := aGet) fun _ => rfl).bind fun o => ?_
  cases o with
  | none => exact .ok fun _ => rfl
  | some h =>
    dsimp only
    split
    · exact .ok fun _ => rfl
    · split
      · exact (KeepsA.sys (links_put _ _)).bind fun _ => .ok fun _ => rfl
      · exact .ok fun _ => rfl

theorem links_aStart (a : Uri) {m : OMode} (hm : m ≠ .a) (zm : Zip.ZMode) : KeepsA LinksStay (aStart C a m zm) := by
  unfold aStart
  refine (KeepsA.sys (links_sOpen hm a)).bind fun hd => ?_
  split
  · exact .ok fun _ => rfl
  refine (KeepsA.sys (links_op _ _)).bind fun x => ?_
  cases x with
  | bytes b =>
    dsimp only
    split
    · refine (KeepsA.sys (links_fclose _)).bind fun _ => ?_
      cases C.unpack b <;> exact .ok fun _ => rfl
    · cases C.unpack b <;> exact .ok fun _ => rfl
  | _ => exact .ok fun _ => rfl

theorem links_aOpenZip (a : Uri) (opt : Option Str) : KeepsA LinksStay (aOpenZip C a opt) := by
  unfold aOpenZip
  refine links_aClose.bind fun _ => ?_
  split
  · exact links_aStart a (by simp) _
  · split
    · refine (KeepsA.sys (quiet_links.withConn (u := a) (m := .isfile) fun c => quiet_links.isfile c a)).bind fun b => ?_
      split
      · exact links_aStart a (by simp) _
      · exact links_aStart a (by simp) _
    · exact .ok fun _ => rfl

/-- zip.py:134-155 -/
theorem links_aOpen (a : Uri) (p : Str) (opt : Option Str) : KeepsA LinksStay (aOpen C a p opt) := by
  unfold aOpen
  refine (links_aOpenZip a opt).bind fun _ => ?_
  split
  · refine (KeepsA.ok (m := aGet) fun _ => rfl).bind fun o => ?_
    cases o with
    | none => exact .ok fun _ => rfl
    | some h =>
      dsimp only
      split <;> exact .ok fun _ => rfl
  · exact .ok fun _ => rfl

/-- zip.py:24-29 -/
theorem links_aExit (a : Uri) (p : Str) (b : Bytes) : KeepsA LinksStay (aExit C a p b) := by
  unfold aExit
  refine (KeepsA.ok (m := aGet) fun _ => rfl).bind fun o => ?_
  cases o with
  | none => exact .ok fun _ => rfl
  | some h =>
    dsimp only
    split
    · exact .ok fun _ => rfl
    · split
      · exact .ok fun _ => rfl
      · split
        · exact .ok fun _ => rfl
        · exact (KeepsA.ok fun _ => rfl).bind fun _ => links_aClose.bind fun _ => links_aOpenZip _ _

end

/-! ## Archives that were used -/

section
variable {ι : Type}

/-- the file at the path `q` of the place `j` is an archive with the entries `es`, and its connection (`X` is the text of its URI) has been used since -/
structure AOpened (C : Codec) (E : ι → Dict) (r : ι → Nat) (X : Str) (j : Option ι) (q : List Str) (es : List Zip.Entry) (y : Arc) : Prop where
  ok : SysOk E r y.sys
  file : ∃ d, siteV r y.sys j q = some (.file d) ∧ C.unpack d = some es
  clean : Clean (y.handle (zkey X))
  seen : seenOf (y.handle (zkey X)) = some es

variable {C : Codec} {E : ι → Dict} {r : ι → Nat} {X : Str} {j : Option ι} {q : List Str} {es : List Zip.Entry} {y : Arc}

theorem hasDir_below {p : List Str} (hp : p ≠ []) : hasDir es p ↔ Below es p := by
  unfold hasDir Below
  rw [pathOf_ne hp]
  simp only [hp, false_or]
  constructor
  · rintro ⟨e, he, t, ht⟩; exact ⟨e, he, t, by rw [← ht]; simp⟩
  · rintro ⟨e, he, t, ht⟩; exact ⟨e, he, t, by rw [ht]; simp⟩

theorem aopened_isdir (hU : URI X = .ok (siteAt E j q)) (ho : AOpened C E r X j q es y) {p : List Str} (hn : Nm p) (hp : p ≠ []) :
    uIsdir (arcOps C) (zat X p) y = (.ok (decide (Below es p)), y) := by
  rw [zmem_isdir hU (Props.site_scheme _ _ _) hn, ho.seen]
  simp only [heard, hasDir_below hp]

theorem aopened_exists (hU : URI X = .ok (siteAt E j q)) (ho : AOpened C E r X j q es y) {p : List Str} (hn : Nm p) (hp : p ≠ [])
    (hb : Below es p) : uExists (arcOps C) (zat X p) y = (.ok true, y) := by
  rw [zmem_exists hU (Props.site_scheme _ _ _) hn, ho.seen]
  simp only [heard, hasDir_below hp, hb, or_true, decide_true]

theorem aopened_listdir (hr : Function.Injective r) (hU : URI X = .ok (siteAt E j q)) (hq : Nm q) (ho : AOpened C E r X j q es y) {p : List Str} (hn : Nm p)
    (hd : p = [] ∨ Below es p) : (arcOps C).listdir (.zip (zkey X)) (zat X p) y = (.ok (zipNames es p), y) := by
  obtain ⟨d, hf, hu⟩ := ho.file
  have hh : ∃ h, y.handle (zkey X) = some h ∧ h.z.entries = es := by
    have := ho.seen
    unfold seenOf at this
    simpa using this
  obtain ⟨h, h1, rfl⟩ := hh
  let L := sysLaws E r hr
  have hex : uExists sysOps (siteAt E j q) y.sys = (.ok true, y.sys) := by
    have := L.uExists (k := j) (s := y.sys) ho.ok hq (L.clear_of (k := j) ho.ok (by rw [show L.V y.sys j q = _ from hf]; simp) (by rw [show L.V y.sys j q = _ from hf]; simp))
    rwa [show L.V y.sys j q = _ from hf] at this
  have hhd : hasDir h.z.entries p := by
    rcases hd with rfl | hd
    · exact .inl rfl
    · by_cases hp : p = []
      · exact .inl hp
      · exact (hasDir_below hp).2 hd
  show onArc (zkey X) (fun a => aListdir C a (zat X p).path) y = _
  rw [zat_path hn]
  refine onArc_ask hU (Props.site_scheme _ _ _) ?_
  unfold aListdir
  rw [bind_ok (aSys_ok hex), h1]
  simp only [Bool.not_true, Bool.false_eq_true, if_false]
  rw [bind_ok (show aGet (y.sys, some h) = (.ok (some h), (y.sys, some h)) from rfl)]
  simp only [Option.isNone_some, Bool.false_eq_true, if_false]
  refine (list_tail hn).trans ?_
  rw [if_neg (not_not.2 hhd)]
  rfl

/-- opening a member for reading opens the archive again -/
theorem aopened_openR (hr : Function.Injective r) (hU : URI X = .ok (siteAt E j q)) (hq : Nm q) (ho : AOpened C E r X j q es y) {p : List Str} (hn : Nm p) (hp : p ≠ [])
    {e : Zip.Entry} (he : Zip.getinfo es (slash p) = some e) :
    ∃ s' o', uOpenR (arcOps C) (zat X p) y = (.ok (.zipR (zkey X) e.data), ⟨s', fun k => if k = zkey X then o' else y.handle k⟩) ∧
      SysOk E r s' ∧ siteV r s' = siteV r y.sys ∧ LinksStay y.sys s' ∧ Clean o' ∧ seenOf o' = some es := by
  obtain ⟨d, hf, hu⟩ := ho.file
  obtain ⟨o1, c1, v1, e1⟩ := openZip_r (C := C) (s := y.sys) ho.clean (siteAt E j q) (opt := some cl!"rb") (by decide +kernel)
  obtain ⟨s', hd, h2, v2, e2⟩ := start_r (C := C) (o := o1) ho.ok hr hq hf
  have hl : LinksStay y.sys s' := by
    have := links_aStart (C := C) (siteAt E j q) (m := .r) (by simp) .r (y.sys, o1)
    rw [e2, hu] at this
    exact this
  rw [hu] at e2
  dsimp only at e2
  refine ⟨s', some ⟨⟨.r, es, false, false⟩, d, ⟨hd, .r, true⟩⟩, ?_, h2, v2, hl, clean_r rfl, rfl⟩
  refine (arc_withConn X p _ _ y).trans ?_
  have h6 : (zat X p).path = slash p := by rw [zat_path hn, pathOf_ne hp]
  have e3 : aOpen C (siteAt E j q) (slash p) (some cl!"rb") (y.sys, y.handle (zkey X)) =
      (.ok (.file e.data), s', some ⟨⟨.r, es, false, false⟩, d, ⟨hd, .r, true⟩⟩) := by
    unfold aOpen
    rw [bind_ok (e1.trans e2), if_pos (by decide +kernel)]
    show OM.bnd _ _ _ = _
    simp only [OM.bnd, aGet, he]
    rfl
  show (onArc (zkey X) (fun a => aOpen C a (zat X p).path (some cl!"rb")) >>= fun x => (match x with
    | .file d => pure (.zipR (zkey X) d)
    | .statement => pure (.zipW (zkey X) (zat X p).path) : OM Arc ZHd)) y = _
  rw [h6, bind_ok (onArc_eq (m := fun a => aOpen C a (slash p) (some cl!"rb")) hU (Props.site_scheme _ _ _) e3)]
  rfl

end

/-! ## Reading -/

section
variable {ι : Type} {C : Codec} {E : ι → Dict} {r : ι → Nat} {X : Str} {j : Option ι} {q : List Str} {es : List Zip.Entry} {src : List Str}

/-- an archive that was used can be read, `src` being a directory in it -/
def arcSource (fl : Bool) (hr : Function.Injective r) (hX : ConnOk X) (hU : URI X = .ok (siteAt E j q)) (hq : Nm q) (J : Arc → Prop)
    (hJ : ∀ {y}, J y → AOpened C E r X j q es y) (ht : Tidy es src) (hn : Nm src) (hroot : src = [] ∨ Below es src) : Source (arcOps C) fl where
  c := .zip (zkey X)
  J := J
  T := zipPart es src
  src x := zat X (src ++ x)
  ld _ := false
  names x := if zipPart es src x = some .dir then zipNames es (src ++ x) else []
  parent {x n} h := by
    unfold zipPart at h ⊢
    rw [if_neg (by simp)] at h
    split
    · rfl
    · rename_i hx; exact zipTree_parent ht h hx
  sorted {x} := by
    split
    · exact pairwise_sortStr (List.nodup_dedup _)
    · exact .nil
  mem_names {x n} := by
    have e : zipPart es src (x ++ [n]) = zipTree es (src ++ (x ++ [n])) := if_neg (by simp)
    rw [e]
    split
    · rename_i hd
      refine mem_zipNames ht ?_
      unfold zipPart at hd
      split at hd
      · rename_i hx; rw [hx, List.append_nil]; exact hn
      · exact zipTree_nm (by rw [hd]; simp)
    · rename_i hd
      simp only [List.not_mem_nil, false_iff, not_not]
      by_contra hc
      refine hd ?_
      unfold zipPart
      split
      · rfl
      · rename_i hx; exact zipTree_parent ht hc hx
  listdir {y x} h hd := by
    refine ⟨_, aopened_listdir hr hU hq (hJ h) (p := src ++ x) ?_ ?_, ?_⟩
    · unfold zipPart at hd
      split at hd
      · rename_i hx; rw [hx, List.append_nil]; exact hn
      · exact zipTree_nm (by rw [hd]; simp)
    · unfold zipPart at hd
      split at hd
      · rename_i hx; rw [hx, List.append_nil]; exact hroot
      · rename_i hx; exact .inr (zipTree_dir (by simp [hx]) hd).2.1
    · rw [if_pos hd]
      exact sortStr_of_pairwise (pairwise_sortStr (List.nodup_dedup _))
  div {x n} h := by
    have e : zipPart es src (x ++ [n]) = zipTree es (src ++ (x ++ [n])) := if_neg (by simp)
    rw [e] at h
    have hn' := zipTree_nm h
    rw [← List.append_assoc] at hn' ⊢
    exact zat_div hX hn'
  isdir {y x n o} h ho := by
    have e : zipPart es src (x ++ [n]) = zipTree es (src ++ (x ++ [n])) := if_neg (by simp)
    rw [e] at ho
    have hn' : Nm (src ++ (x ++ [n])) := zipTree_nm (by rw [ho]; simp)
    rw [(arc_withConn X (src ++ (x ++ [n])) _ _ y).symm.trans (aopened_isdir hU (hJ h) hn' (by simp))]
    cases o with
    | dir => rw [decide_eq_true (zipTree_dir (by simp) ho).2.1]
    | file d =>
      obtain ⟨-, -, e, he, -⟩ := zipTree_file ho
      rw [decide_eq_false (ht.single (x ++ [n]) (by simp) hn' ⟨e, getinfo_mem he⟩)]
    | link t => exact absurd ho zipTree_link
  islink {y x n o} h ho := by
    have e : zipPart es src (x ++ [n]) = zipTree es (src ++ (x ++ [n])) := if_neg (by simp)
    rw [e] at ho
    refine ⟨false, zmem_islink, ?_⟩
    cases o with
    | dir => rfl
    | file d => rfl
    | link t => exact absurd ho zipTree_link

end

/-! ## Copying out of an archive -/

section
variable {ι : Type} {C : Codec} {E : ι → Dict} {r : ι → Nat} {X : Str} {j : Option ι} {q : List Str} {es : List Zip.Entry}

/-- While something is written to the new name `e` at the place `k'`, out of the archive `X` -/
structure AHeld (C : Codec) (E : ι → Dict) (r : ι → Nat) (X : Str) (j : Option ι) (q : List Str) (es : List Zip.Entry) (k' : Option ι) (e : List Str) (y0 y : Arc) : Prop where
  held : Held E r k' e y0.sys y.sys
  rest : ∀ k, k ≠ zkey X → y.handle k = y0.handle k
  opened : AOpened C E r X j q es y

/-- fs.py:945-950 where the contents of a directory of an archive go -/
theorem arc_dbase {p t d : List Str} {k' : Option ι} {y : Arc} (hn : Nm (p ++ t)) (hp : p ≠ []) (hd : Nm (d ++ t)) (ht : ∀ n ∈ t, Trimmed n) :
    (if stripW ((zat X (p ++ t)).path.drop ((zat X p).path.length + 1)) ≠ [] then
        OM.lift ((siteAt E k' d).div (stripW ((zat X (p ++ t)).path.drop ((zat X p).path.length + 1)))) else pure (siteAt E k' d) : OM Arc Uri) y
      = (.ok (siteAt E k' (d ++ t)), y) := by
  have e1 : pathOf (p ++ t) = slash p ++ slash t := by rw [pathOf_ne (by simp [hp]), slash_append]
  rw [zat_path hn, zat_path hn.of_prefix, e1, pathOf_ne hp]
  by_cases h : t = []
  · subst h
    have : stripW ((slash p ++ slash []).drop ((slash p).length + 1)) = [] := by
      rw [List.drop_eq_nil_of_le (by simp [slash])]; rfl
    rw [this]
    simp
  · obtain ⟨u, h1, h2, h3⟩ := slash_trimmed h (fun n hn' => ⟨(hn.ok.clean n (by simp [hn'])).ne, ht n hn'⟩)
    have : (slash p ++ slash t).drop ((slash p).length + 1) = u := by
      rw [h1, show slash p ++ '/' :: u = (slash p ++ ['/']) ++ u by simp, List.drop_left' (by simp)]
    rw [this, h3, if_pos h2, site_div hd h h1]
    rfl

theorem arcWriteBlocks_links (outf : Hd) : ∀ (bs : List Bytes) (y : Arc), LinksStay y.sys (arcWriteBlocks outf bs y).2.sys
  | [], y => LinksStay.refl _
  | b :: bs, y => by
    unfold arcWriteBlocks
    show LinksStay y.sys (OM.bnd _ _ y).2.sys
    unfold OM.bnd
    have h1 := links_hWrite outf (.bytes b) y.sys
    unfold arcSys
    rcases hm : hWrite outf (.bytes b) y.sys with ⟨x, s'⟩
    rw [hm] at h1
    cases x with
    | error e => exact h1
    | ok x => exact h1.trans (arcWriteBlocks_links outf bs { y with sys := s' })

/-- makedirs in one of the other places -/
theorem asite_makedirs (depth : Nat) {k' : Option ι} {p : List Str} {y : Arc} {x : Except PyErr Unit} {s' : Sys}
    (h : Any.uMakedirs sysOps depth (siteAt E k' p) y.sys = (x, s')) : Any.uMakedirs (arcOps C) depth (siteAt E k' p) y = (x, { y with sys := s' }) := by
  rw [(arcPart C).uMakedirs depth (stays_site E k' p)]
  exact arcSys_ok h

variable {k' : Option ι} {e : List Str} {y0 : Arc}

/-- the bytes of a member are copied to a new file -/
theorem arc_content {y : Arc} (hr : Function.Injective r) (hU : URI X = .ok (siteAt E j q)) (hq : Nm q) (ho : AOpened C E r X j q es y)
    {p a : List Str} {n : Str} {d : Bytes} (hv : zipTree es p = some (.file d)) (he : Nm (a ++ [n])) (hp : siteV r y.sys k' a = some .dir)
    (hfree : siteV r y.sys k' (a ++ [n]) = none) :
    ∃ s' o', copyContent (arcOps C) (zat X p) (siteAt E k' (a ++ [n])) y = (.ok (), ⟨s', fun k => if k = zkey X then o' else y.handle k⟩) ∧
      SysOk E r s' ∧ siteV r s' = upd (siteV r y.sys) k' (a ++ [n]) (some (.file d)) ∧ LinksStay y.sys s' ∧
      AOpened C E r X j q es ⟨s', fun k => if k = zkey X then o' else y.handle k⟩ := by
  obtain ⟨hp0, hn, f, he1, rfl⟩ := zipTree_file hv
  obtain ⟨s1, o', c1, ok1, v1, l1, cl1, se1⟩ := aopened_openR hr hU hq ho hn hp0 he1
  obtain ⟨s2, outf, e2, ok2, v2, wr2, -⟩ := site_openW (E := E) ok1 hr he (by rw [v1]; exact hp) (.inl (by rw [v1]; exact hfree))
  have l2 : LinksStay s1 s2 := by
    have := links_openW (siteC r k') (siteAt E k' (a ++ [n])) s1
    rwa [e2] at this
  let y1 : Arc := ⟨s1, fun k => if k = zkey X then o' else y.handle k⟩
  have c2 : uOpenW (arcOps C) (siteAt E k' (a ++ [n])) y1 = (.ok (.sys outf), { y1 with sys := s2 }) := by
    refine (asite_withConn (y := y1) ok1 he _ _).trans ?_
    show (arcSys (sysOps.openW (siteC r k') (siteAt E k' (a ++ [n]))) >>= fun h => pure (ZHd.sys h)) y1 = _
    rw [bind_ok (arcSys_ok (y := y1) e2)]
    rfl
  obtain ⟨s3, e3, ok3, v3⟩ := arcWriteBlocks_eq hr (blocksOf 8192 f.data.length f.data) (y := { y1 with sys := s2 }) ok2 wr2
    (by show siteV r s2 k' _ = _; rw [v2, upd_same])
  have l3 : LinksStay s2 s3 := by
    have := arcWriteBlocks_links outf (blocksOf 8192 f.data.length f.data) { y1 with sys := s2 }
    rwa [e3] at this
  have hv3 : siteV r s3 = upd (siteV r y.sys) k' (a ++ [n]) (some (.file f.data)) := by
    rw [v3]
    show upd (siteV r s2) k' _ _ = _
    rw [v2, upd_upd, List.nil_append, blocksOf_flatten (by decide) _ _ (Nat.le_refl _), v1]
  refine ⟨s3, o', ?_, ok3, hv3, (l1.trans l2).trans l3, ok3, ?_, ?_, ?_⟩
  · unfold copyContent
    rw [bind_ok c1, bind_ok c2]
    exact e3
  · obtain ⟨b, hb, hu⟩ := ho.file
    refine ⟨b, ?_, hu⟩
    show siteV r s3 j q = _
    rw [hv3, upd_ne, hb]
    rintro ⟨rfl, rfl⟩
    rw [hfree] at hb; cases hb
  · dsimp only; rw [if_pos rfl]; exact cl1
  · dsimp only; rw [if_pos rfl]; exact se1

theorem zipTree_trimmed {src : List Str} (ht : Tidy es src) (htrim : ∀ {x n}, zipTree es (src ++ (x ++ [n])) = some .dir → Trimmed n) {x : List Str}
    (hx : zipPart es src x = some .dir) : ∀ n ∈ x, Trimmed n := by
  induction x using List.reverseRecOn with
  | nil => simp
  | append_singleton x m ih =>
    unfold zipPart at hx
    rw [if_neg (by simp)] at hx
    have hx' : zipPart es src x = some .dir := by
      unfold zipPart
      split
      · rfl
      · rename_i h0; exact zipTree_parent ht (by rw [hx]; simp) h0
    intro n hn
    rcases List.mem_append.1 hn with hn | hn
    · exact ih hx' n hn
    · rw [List.mem_singleton.1 hn]; exact htrim hx

/-- a tree of an archive can be written to a new name -/
def arcSink {src : List Str} {fl : Bool} (hX : ConnOk X) (hU : URI X = .ok (siteAt E j q)) (hq : Nm q) (ht : Tidy es src) (hn : Nm src) (hb : Below es src) (hsrc : src ≠ [])
    (htrim : ∀ {x n}, zipTree es (src ++ (x ++ [n])) = some .dir → Trimmed n) (hr : Function.Injective r) (he : Nm e) (he0 : e ≠ [])
    (hnew : ∀ x, siteV r y0.sys k' (e ++ x) = none) {depth : Nat} (hdep : 0 < depth) :
    Sink (arcSource (C := C) fl hr hX hU hq (AHeld C E r X j q es k' e y0) (fun h => h.opened) ht hn (.inr hb)) depth where
  D y x := siteE r y.sys k' (e ++ x)
  dst x := siteAt E k' (e ++ x)
  div {x n} hx := by
    have hx' : zipTree es (src ++ (x ++ [n])) ≠ none := by
      have : zipPart es src (x ++ [n]) ≠ none := hx
      unfold zipPart at this
      rwa [if_neg (by simp)] at this
    have := site_div (E := E) (k := k') (cs := e ++ x) (ns := [n]) (p := n) (by
      rw [List.append_assoc]; exact he.append he0 (zipTree_nm hx')) (by simp) (by simp [slash])
    rw [List.append_assoc] at this
    exact this
  base {y x} hx := by
    have hx : zipPart es src x = some .dir := hx
    have hnm : Nm (src ++ x) := by
      unfold zipPart at hx
      split at hx
      · rename_i hx0; rw [hx0, List.append_nil]; exact hn
      · exact zipTree_nm (by rw [hx]; simp)
    have := arc_dbase (E := E) (X := X) (k' := k') (y := y) hnm hsrc (he.append he0 hnm) (zipTree_trimmed ht htrim hx)
    show (if stripW ((zat X (src ++ x)).path.drop ((zat X (src ++ [])).path.length + 1)) ≠ [] then
        OM.lift ((siteAt E k' (e ++ [])).div (stripW ((zat X (src ++ x)).path.drop ((zat X (src ++ [])).path.length + 1)))) else pure (siteAt E k' (e ++ [])) : OM Arc Uri) y
      = (.ok (siteAt E k' (e ++ x)), y)
    rw [List.append_nil, List.append_nil]
    exact this
  mkdir {y x n} h ht' hd hv := by
    have ht1 : zipTree es (src ++ (x ++ [n])) = some .dir := by
      have : zipPart es src (x ++ [n]) = some .dir := ht'
      unfold zipPart at this
      rwa [if_neg (by simp)] at this
    have hn' : Nm (e ++ x ++ [n]) := by
      rw [List.append_assoc]; exact he.append he0 (zipTree_nm (by rw [ht1]; simp))
    have hv' : siteV r y.sys k' (e ++ x ++ [n]) = none := by rw [List.append_assoc]; exact siteE_none.1 hv
    obtain ⟨s', h1, h2, h3⟩ := (sysLaws E r hr).uMakedirs1 (k := k') (s := y.sys) hdep h.held.ok hn' (siteE_dir.1 hd) hv'
    have hl : LinksStay y.sys s' := by
      have := links_makedirs depth (siteAt E k' (e ++ x ++ [n])) y.sys
      rwa [show Any.uMakedirs sysOps depth (siteAt E k' (e ++ x ++ [n])) y.sys = _ from h1] at this
    change siteV r s' = upd (siteV r y.sys) k' (e ++ x ++ [n]) (some .dir) at h3
    have h1' := asite_makedirs (C := C) depth (show Any.uMakedirs sysOps depth (siteAt E k' (e ++ x ++ [n])) y.sys = _ from h1)
    rw [List.append_assoc] at h1' h3
    refine ⟨{ y with sys := s' }, h1', ⟨h.held.step hnew h2 hl (by simp) h3, h.rest, h2, ?_, h.opened.clean, h.opened.seen⟩, funext fun p => ?_⟩
    · obtain ⟨b, hb, hu⟩ := h.opened.file
      refine ⟨b, ?_, hu⟩
      show siteV r s' j q = _
      rw [h3, upd_ne, hb]
      rintro ⟨rfl, rfl⟩
      rw [siteE_none.1 hv] at hb; cases hb
    by_cases hp : p = x ++ [n]
    · subst hp; rw [put_same]; exact siteE_dir.2 (by dsimp only; rw [h3, upd_same])
    · rw [put_ne hp]; exact siteE_upd hl h3 _ (by simpa using hp)
  file {y x n d} h ht' hd hv := by
    have ht1 : zipTree es (src ++ (x ++ [n])) = some (.file d) := by
      have : zipPart es src (x ++ [n]) = some (.file d) := ht'
      unfold zipPart at this
      rwa [if_neg (by simp)] at this
    have hn' : Nm (e ++ x ++ [n]) := by
      rw [List.append_assoc]; exact he.append he0 (zipTree_nm (by rw [ht1]; simp))
    have hv' : siteV r y.sys k' (e ++ x ++ [n]) = none := by rw [List.append_assoc]; exact siteE_none.1 hv
    obtain ⟨s', o', h1, h2, h3, hl, h4⟩ := arc_content (C := C) hr hU hq h.opened ht1 hn' (siteE_dir.1 hd) hv'
    rw [List.append_assoc] at h1 h3
    refine ⟨⟨s', fun k => if k = zkey X then o' else y.handle k⟩, ?_,
      ⟨h.held.step hnew h2 hl (x := x ++ [n]) (by simp) h3, fun k hk => ?_, h4⟩, funext fun p => ?_⟩
    · refine (bind_ok h1).trans ?_
      rw [if_neg (fun hs => Props.site_scheme E k' (e ++ (x ++ [n])) (by rw [← zat_scheme X (src ++ (x ++ [n]))]; exact hs.symm))]
      rfl
    · show (if k = zkey X then _ else y.handle k) = _
      rw [if_neg hk]; exact h.rest k hk
    by_cases hp : p = x ++ [n]
    · subst hp; rw [put_same]; exact siteE_file.2 (by dsimp only; rw [h3, upd_same])
    · rw [put_ne hp]; exact siteE_upd hl h3 _ (by simpa using hp)
  link {y x n t} h ht' hd hv := by
    have ht1 : zipTree es (src ++ (x ++ [n])) = some (.link t) := by
      have : zipPart es src (x ++ [n]) = some (.link t) := ht'
      unfold zipPart at this
      rwa [if_neg (by simp)] at this
    exact absurd ht1 zipTree_link

/-- copying a tree out of an archive to a new name -/
theorem arc_copy {init : List Str} {n : Str} (fl : Bool) (hX : ConnOk X) (hU : URI X = .ok (siteAt E j q)) (hq : Nm q) (ho : AOpened C E r X j q es y0)
    (ht : Tidy es (init ++ [n])) (hn : Nm (init ++ [n]))
    (hb : Below es (init ++ [n])) (htrim : ∀ {x m}, zipTree es (init ++ [n] ++ (x ++ [m])) = some .dir → Trimmed m)
    (hr : Function.Injective r) {ds ig : List Str} {depth : Nat} (hds : Nm ds) (he : Nm e)
    (htg : Target (siteV r y0.sys k') ds n e) (hclear : ∀ p, p <+: e → siteV r y0.sys k' p = some .dir ∨ siteV r y0.sys k' p = none)
    (hnew : siteV r y0.sys k' e = none) (hl : e.length < depth) (hh : ∀ x, zipPart es (init ++ [n]) x = some .dir → x.length < depth) :
    ∃ y', uCopy (arcOps C) depth (zat X (init ++ [n])) (siteAt E k' ds) true ig fl y0 = (.ok (), y') ∧ AHeld C E r X j q es k' e y0 y' ∧
      siteV r y'.sys k' e = some .dir ∧
      ∀ x, x ≠ [] → siteE r y'.sys k' (e ++ x) =
        (arcSource (C := C) fl hr hX hU hq (AHeld C E r X j q es k' e y0) (fun h => h.opened) ht hn (.inr hb)).kept ig x := by
  let L := sysLaws E r hr
  have h := ho.ok
  have he0 : e ≠ [] := by rintro rfl; rw [site_root h] at hnew; simp at hnew
  have hnone : ∀ x, siteV r y0.sys k' (e ++ x) = none := fun x => L.none_below (k := k') (s := y0.sys) h hnew
  have hcds : Clear (siteV r y0.sys k') ds := by
    cases htg with
    | into hd => exact L.clear_dir (k := k') (s := y0.sys) h hd
    | new hd => exact ⟨fun p hp _ => hclear p hp, by rw [hd]; simp⟩
  have hdep : 0 < depth := Nat.zero_lt_of_lt hl
  obtain ⟨s1, a1, a2, a3⟩ := L.uMakedirs (k := k') (s := y0.sys) h he hclear hl
  change siteV r s1 = mkdirs (siteV r y0.sys) k' e at a3
  have hl1 : LinksStay y0.sys s1 := by
    have := links_makedirs depth (siteAt E k' e) y0.sys
    rwa [show Any.uMakedirs sysOps depth (siteAt E k' e) y0.sys = _ from a1] at this
  have a1' := asite_makedirs (C := C) depth (show Any.uMakedirs sysOps depth (siteAt E k' e) y0.sys = _ from a1)
  let y1 : Arc := { y0 with sys := s1 }
  have hold : ∀ j p, siteV r y0.sys j p ≠ none → siteV r s1 j p = siteV r y0.sys j p := by
    intro j p hp
    rw [a3]; unfold mkdirs; split
    · rename_i hc
      obtain ⟨rfl, hc⟩ := hc
      rcases hclear p hc with h | h
      · exact h.symm
      · exact absurd h hp
    · rfl
  have h1 : AHeld C E r X j q es k' e y0 y1 := by
    refine ⟨⟨a2, hl1, hold, fun j p hp => ?_, fun p hp => .inl (by show siteV r s1 k' p = _; rw [a3]; simp [mkdirs, hp])⟩, fun k _ => rfl, a2, ?_, ho.clean, ho.seen⟩
    · show siteV r s1 j p = _
      rw [a3]; unfold mkdirs; rw [if_neg]; rintro ⟨rfl, hc⟩; exact hp ⟨rfl, .inr hc⟩
    · obtain ⟨b, hb, hu⟩ := ho.file
      exact ⟨b, by show siteV r s1 j q = _; rw [hold _ _ (by rw [hb]; simp), hb], hu⟩
  let S := arcSource (C := C) fl hr hX hU hq (AHeld C E r X j q es k' e y0) (fun h => h.opened) ht hn (.inr hb)
  let K : Sink S depth := arcSink (fl := fl) hX hU hq ht hn hb (by simp) htrim hr he he0 hnone hdep
  have hroot : S.T [] = some .dir := rfl
  obtain ⟨y2, b1, b2, b3⟩ := K.walk (ig := ig) depth [] h1 hroot S.cut_nil (by
      show siteE r s1 k' (e ++ []) = some .dir
      rw [List.append_nil, siteE_dir, a3]; simp [mkdirs]) (by
      intro y hy
      show siteE r s1 k' (e ++ ([] ++ y)) = none
      rw [List.nil_append, siteE_none, a3]
      unfold mkdirs
      rw [if_neg, hnone]
      rintro ⟨-, hc⟩
      have := hc.length_le
      have h2 : 0 < y.length := List.length_pos_iff.2 hy
      simp only [List.length_append] at this
      omega) (fun y hy => hh y (by rw [List.nil_append] at hy; exact hy))
  have e1 := aopened_exists hU ho hn (by simp) hb
  have e2 : Any.uIsdir (arcOps C) (zat X (init ++ [n])) y0 = (.ok true, y0) :=
    (aopened_isdir hU ho hn (by simp)).trans (by rw [decide_eq_true hb])
  have fin : (do
      if (← Any.uIslink (arcOps C) (zat X (init ++ [n]))) && !fl then copyLink (arcOps C) (.zip (zkey X)) (zat X (init ++ [n])) (siteAt E k' e)
      else
        Any.uMakedirs (arcOps C) depth (siteAt E k' e)
        copyWalk (arcOps C) depth (.zip (zkey X)) ig fl (zat X (init ++ [n])) (siteAt E k' e) : OM Arc Unit) y0 = (.ok (), y2) := by
    refine (bind_ok zmem_islink).trans ?_
    rw [Bool.false_and, if_neg Bool.false_ne_true]
    refine (bind_ok a1').trans ?_
    refine (arc_withConn X (init ++ [n]) _ _ y1).trans ?_
    have b1' := b1
    unfold Sink.copier at b1'
    have c1 : S.src [] = zat X (init ++ [n]) := by show zat X (init ++ [n] ++ []) = _; rw [List.append_nil]
    have c2 : K.dst [] = siteAt E k' e := by show siteAt E k' (e ++ []) = _; rw [List.append_nil]
    rw [c1, c2] at b1'
    exact b1'
  have hD : ∀ p, siteE r y2.sys k' (e ++ p) = if [] <+: p ∧ p ≠ [] then S.kept ig p else siteE r s1 k' (e ++ p) := b3
  refine ⟨y2, ?_, b2, ?_, fun x hx => ?_⟩
  · refine (arc_withConn X (init ++ [n]) _ _ y0).trans ?_
    unfold Any.copy
    refine (bind_ok e1).trans ?_
    rw [Bool.not_true, if_neg Bool.false_ne_true]
    refine (bind_ok e2).trans ?_
    rw [Bool.not_true, if_neg Bool.false_ne_true]
    have e3 : uIsdir (arcOps C) (siteAt E k' ds) y0 = (.ok (isD (siteV r y0.sys k' ds)), y0) := by
      rw [(arcPart C).uIsdir (stays_site E k' ds)]
      exact arcSys_ask (L.uIsdir (k := k') (s := y0.sys) h hds hcds)
    refine (bind_ok e3).trans ?_
    cases htg with
    | into hd =>
      rw [hd, show isD (some Kind.dir) = true from rfl, if_pos rfl, zat_last hn]
      have : (siteAt E k' ds).div n = .ok (siteAt E k' (ds ++ [n])) := site_div he (by simp) (by simp [slash])
      rw [this]
      exact fin
    | new hd =>
      rw [hd, show isD none = false from rfl, if_neg Bool.false_ne_true]
      exact fin
  · have := hD []
    rw [if_neg (by simp), List.append_nil] at this
    refine siteE_dir.1 (this.trans (siteE_dir.2 ?_))
    rw [a3]; simp [mkdirs]
  · rw [hD, if_pos ⟨List.nil_prefix, hx⟩]

end
end Verif.Any
