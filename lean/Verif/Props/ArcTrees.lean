import Verif.Any.ArcFlow
import Verif.Props.Pack
import Verif.Props.ZipTrees
/-!
# C124 Trees of archives that are files

`walk`, `glob`, `md5`, `copy(recursive=True)` and `remove` on members of an archive which is itself a file of a memory file
system or a local file, and packing a list of files and unpacking it again.
-/
namespace Verif.Props
open Verif.Spec Verif.Any Verif.Gen

section
variable {ι : Type} {C : Codec} {E : ι → Dict} {r : ι → Nat} {X : Str} {j : Option ι} {q : List Str} {es : List Zip.Entry} {y : Arc}

/-! ## Reading -/

/-- the state after the archive `X` was read: what the file systems have is as before, the links too, and so are the other connections -/
structure ARead (C : Codec) (E : ι → Dict) (r : ι → Nat) (X : Str) (j : Option ι) (q : List Str) (es : List Zip.Entry) (y y' : Arc) : Prop where
  view : siteV r y'.sys = siteV r y.sys
  links : LinksStay y.sys y'.sys
  rest : ∀ k, k ≠ zkey X → y'.handle k = y.handle k
  opened : AOpened C E r X j q es y'

/-- the file is an archive with the entries `es`, and its connection was not used yet or has seen these -/
structure AReady (C : Codec) (E : ι → Dict) (r : ι → Nat) (X : Str) (j : Option ι) (q : List Str) (es : List Zip.Entry) (y : Arc) : Prop where
  ok : SysOk E r y.sys
  file : ∃ d, siteV r y.sys j q = some (.file d) ∧ C.unpack d = some es
  clean : Clean (y.handle (zkey X))
  seen : y.handle (zkey X) ≠ none → seenOf (y.handle (zkey X)) = some es

/-- the first listing opens the archive -/
theorem arc_first (hr : Function.Injective r) (hU : URI X = .ok (siteAt E j q)) (hq : Nm q) (h : AReady C E r X j q es y) :
    ∃ y', ARead C E r X j q es y y' ∧ ∀ u : Uri, (arcOps C).listdir (.zip (zkey X)) u y = (arcOps C).listdir (.zip (zkey X)) u y' := by
  cases hh : y.handle (zkey X) with
  | some x => exact ⟨y, ⟨rfl, LinksStay.refl _, fun _ _ => rfl, h.ok, h.file, h.clean, h.seen (by rw [hh]; simp)⟩, fun _ => rfl⟩
  | none =>
    obtain ⟨d, hf, hu⟩ := h.file
    let L := sysLaws E r hr
    have hex : ∀ {s : Sys}, SysOk E r s → siteV r s j q = some (.file d) → uExists sysOps (siteAt E j q) s = (.ok true, s) := by
      intro s ok hf
      have := L.uExists (k := j) (s := s) ok hq (L.clear_of (k := j) ok (by rw [show L.V s j q = _ from hf]; simp) (by rw [show L.V s j q = _ from hf]; simp))
      rwa [show L.V s j q = _ from hf] at this
    obtain ⟨o1, -, -, e1⟩ := openZip_r (C := C) (s := y.sys) h.clean (siteAt E j q) (opt := none) rfl
    obtain ⟨s', hd, h2, v2, e2⟩ := start_r (C := C) (o := o1) h.ok hr hq hf
    have hl : LinksStay y.sys s' := by
      have := links_aStart (C := C) (siteAt E j q) (m := .r) (by simp) .r (y.sys, o1)
      rw [e2, hu] at this
      exact this
    rw [hu] at e2
    dsimp only at e2
    have e3 := e1.trans e2
    rw [hh] at e3
    let g : AHandle := ⟨⟨.r, es, false, false⟩, d, ⟨hd, .r, true⟩⟩
    let y' : Arc := ⟨s', fun k => if k = zkey X then some g else y.handle k⟩
    refine ⟨y', ⟨v2, hl, fun k hk => if_neg hk, h2, ⟨d, by rw [v2]; exact hf, hu⟩, ?_, ?_⟩, fun u => ?_⟩
    · dsimp only [y']; rw [if_pos rfl]; exact clean_r rfl
    · dsimp only [y']; rw [if_pos rfl]; rfl
    · show onArc (zkey X) (fun a => aListdir C a u.path) y = onArc (zkey X) (fun a => aListdir C a u.path) y'
      have hz : (siteAt E j q).scheme ≠ some cl!"zip" := Props.site_scheme _ _ _
      have e4 : aListdir C (siteAt E j q) u.path (y.sys, y.handle (zkey X)) = aListdir C (siteAt E j q) u.path (y'.sys, y'.handle (zkey X)) := by
        have : y'.handle (zkey X) = some g := if_pos rfl
        rw [this, hh]
        unfold aListdir
        rw [bind_ok (aSys_ok (hex h.ok hf)), bind_ok (aSys_ok (o := some g) (hex (s := y'.sys) h2 (by show siteV r s' j q = _; rw [v2]; exact hf)))]
        simp only [Bool.not_true, Bool.false_eq_true, if_false]
        rw [bind_ok (show aGet (y.sys, none) = (.ok none, (y.sys, none)) from rfl), bind_ok (show aGet (y'.sys, some g) = (.ok (some g), (y'.sys, some g)) from rfl)]
        simp only [Option.isNone_none, Option.isNone_some, Bool.false_eq_true, if_false, if_true]
        rw [bind_ok e3]
      rcases he : aListdir C (siteAt E j q) u.path (y'.sys, y'.handle (zkey X)) with ⟨x, s2, o2⟩
      rw [onArc_eq hU hz (m := fun a => aListdir C a u.path) (e4.trans he), onArc_eq hU hz (m := fun a => aListdir C a u.path) he]
      congr 2
      funext k
      dsimp only [y']
      by_cases hk : k = zkey X <;> simp [hk]

/-- `walk` of an archive yields every directory in it once; the archive need not have been used before. -/
theorem C124_walk (hr : Function.Injective r) (hX : ConnOk X) (hU : URI X = .ok (siteAt E j q)) (hq : Nm q) (h : AReady C E r X j q es y)
    {src : List Str} (ht : Tidy es src) (hn : Nm src)
    (hroot : src = [] ∨ Below es src) {depth : Nat} (hd : 0 < depth) (hh : ∀ x, zipTree es (src ++ x) = some .dir → x.length < depth) (td fl : Bool) :
    ∃ y' ps rows, uWalk (arcOps C) depth (zat X src) td fl y = (.ok rows, y') ∧ List.Forall₂ (fun p row => ZipRow es X (src ++ p) row) ps rows ∧
      (∀ p, p ∈ ps ↔ p = [] ∨ zipTree es (src ++ p) = some .dir) ∧ ps.Pairwise (Order td) ∧ ARead C E r X j q es y y' := by
  obtain ⟨y', hR, hl⟩ := arc_first hr hU hq h
  let S := arcSource (C := C) fl hr hX hU hq (· = y') (fun h => by rw [h]; exact hR.opened) ht hn hroot
  have hT : ∀ p, S.T p = some .dir ↔ p = [] ∨ zipTree es (src ++ p) = some .dir := by
    intro p
    show (if p = [] then some Ent.dir else zipTree es (src ++ p)) = some .dir ↔ _
    by_cases h : p = [] <;> simp [h]
  have hT' : ∀ p n, S.T (p ++ [n]) = zipTree es (src ++ p ++ [n]) := by
    intro p n
    show (if p ++ [n] = [] then some Ent.dir else zipTree es (src ++ (p ++ [n]))) = _
    rw [if_neg (by simp), List.append_assoc]
  obtain ⟨ps, h1, h2, h3⟩ := S.walk_collect td (s := y') rfl depth [] [] ((hT []).2 (.inl rfl)) (fun x hy => by
    rcases (hT _).1 hy with hy | hy
    · rw [List.nil_append] at hy; rw [hy]; exact hd
    · exact hh x hy)
  have h2' : ∀ p, p ∈ ps ↔ p = [] ∨ zipTree es (src ++ p) = some .dir := fun p => by rw [h2, hT]; simp
  have hsrc : S.src [] = zat X src := by show zat X (src ++ []) = _; rw [List.append_nil]
  have hw : ∀ t : List (Uri × List Str × List Str), Any.walk (arcOps C) (.zip (zkey X)) td fl Laws.collect depth (zat X src) t y =
      Any.walk (arcOps C) (.zip (zkey X)) td fl Laws.collect depth (zat X src) t y' := by
    intro t
    obtain ⟨d', rfl⟩ : ∃ d', depth = d' + 1 := ⟨depth - 1, by omega⟩
    exact walk_same (hl _)
  refine ⟨y', ps, ps.map S.row, ?_, ?_, h2', h3, hR⟩
  · rw [hsrc, List.nil_append] at h1
    refine (arc_withConn X src _ _ y).trans ?_
    exact (hw []).trans h1
  · rw [List.forall₂_map_right_iff, List.forall₂_same]
    intro p hp
    have hdir := (hT p).2 ((h2' p).1 hp)
    have hnames : S.names p = zipNames es (src ++ p) := if_pos hdir
    have hsort : (S.names p).Pairwise strLt := by rw [hnames]; exact pairwise_sortStr (List.nodup_dedup _)
    refine ⟨rfl, hsort.filter _, fun n => ?_, hsort.filter _, fun n => ?_⟩
    · show n ∈ S.dirs p ↔ _
      rw [S.mem_dirs, ← hT']
      unfold Source.asDir
      cases ho : S.T (p ++ [n]) with
      | none => simp
      | some o =>
        cases o with
        | dir => simp
        | file d => simp
        | link t => rw [hT'] at ho; exact absurd ho zipTree_link
    · show n ∈ S.files p ↔ _
      rw [S.mem_files, ← hT']
      unfold Source.asDir
      cases ho : S.T (p ++ [n]) with
      | none => simp
      | some o =>
        cases o with
        | dir => simp
        | file d => simp
        | link t => rw [hT'] at ho; exact absurd ho zipTree_link

theorem arc_glob_map (hX : ConnOk X) {p : List Str} {y : Arc} : ∀ l : List Str, (∀ n ∈ l, Nm (p ++ [n])) →
    (l.mapM fun f => (OM.lift ((zat X p).div f) : OM Arc Uri)) y = (.ok (l.map fun n => zat X (p ++ [n])), y)
  | [], _ => rfl
  | n :: l, h => by
    rw [List.mapM_cons, bind_lift (zat_div hX (h n (by simp))), bind_ok (arc_glob_map hX l fun m hm => h m (by simp [hm]))]
    rfl

/-- `glob` in a directory of an archive gives exactly the matching names in it, sorted -/
theorem C124_glob (hr : Function.Injective r) (hX : ConnOk X) (hU : URI X = .ok (siteAt E j q)) (hq : Nm q) (h : AReady C E r X j q es y)
    {src : List Str} (ht : Tidy es src) (hn : Nm src) (hroot : src = [] ∨ Below es src) (match_ : Str → Bool) :
    ∃ (y' : Arc) (l : List Str), uGlob (arcOps C) (zat X src) match_ y = (.ok (l.map fun n => zat X (src ++ [n])), y') ∧ l.Pairwise strLt ∧
      (∀ n, n ∈ l ↔ match_ n = true ∧ zipTree es (src ++ [n]) ≠ none) ∧ ARead C E r X j q es y y' := by
  obtain ⟨y', hR, hl⟩ := arc_first hr hU hq h
  have hm : ∀ n, n ∈ zipNames es src ↔ zipTree es (src ++ [n]) ≠ none := by
    intro n
    have := mem_zipNames (n := n) ht (x := []) (by rwa [List.append_nil])
    rwa [List.append_nil, List.nil_append] at this
  have e1 : uListdir (arcOps C) (zat X src) y = (.ok (zipNames es src), y') :=
    (arc_withConn X src _ _ y).trans ((hl _).trans (aopened_listdir hr hU hq hR.opened hn hroot))
  refine ⟨y', (zipNames es src).filter match_, ?_, (pairwise_sortStr (List.nodup_dedup _)).filter _, fun n => ?_, hR⟩
  · refine (arc_withConn X src _ _ y).trans ?_
    refine (bind_ok e1).trans ?_
    refine arc_glob_map hX _ fun n hn' => ?_
    exact zipTree_nm ((hm n).1 (List.mem_filter.1 hn').1)
  · rw [List.mem_filter, hm, and_comm]

/-- `md5` of a member reads its bytes, in blocks of at most 4096 -/
theorem C124_md5 (hr : Function.Injective r) (hU : URI X = .ok (siteAt E j q)) (hq : Nm q) (ho : AOpened C E r X j q es y) {p : List Str} {d : Bytes}
    (hv : zipTree es p = some (.file d)) :
    ∃ y' bs, uMd5 (arcOps C) (zat X p) y = (.ok bs, y') ∧ bs.flatten = d ∧ (∀ b ∈ bs, b ≠ [] ∧ b.length ≤ 4096) ∧ ARead C E r X j q es y y' := by
  obtain ⟨hp, hn, e, he, rfl⟩ := zipTree_file hv
  obtain ⟨s', o', c1, h1, v1, l1, cl, se⟩ := aopened_openR hr hU hq ho hn hp he
  obtain ⟨d, hf, hu⟩ := ho.file
  refine ⟨⟨s', fun k => if k = zkey X then o' else y.handle k⟩, blocksOf 4096 e.data.length e.data, ?_, blocksOf_flatten (by omega) _ _ (le_refl _), blocksOf_length (by omega) _ _,
    ⟨v1, l1, fun k hk => if_neg hk, h1, ⟨d, by rw [v1]; exact hf, hu⟩, ?_, ?_⟩⟩
  · refine (arc_withConn X p _ _ y).trans ?_
    exact (bind_ok c1).trans rfl
  · dsimp only; rw [if_pos rfl]; exact cl
  · dsimp only; rw [if_pos rfl]; exact se

/-! ## Copying out -/

/-- Copying a directory of an archive to a new name: the directories and files of the archive, without what is to be left
    out; nothing else changes, in the archive neither, wherever it is. -/
theorem C124_copy_tree (hr : Function.Injective r) (hX : ConnOk X) (hU : URI X = .ok (siteAt E j q)) (hq : Nm q) (ho : AOpened C E r X j q es y)
    {k' : Option ι} {init ds e : List Str}
    {n : Str} (ht : Tidy es (init ++ [n])) (hn : Nm (init ++ [n])) (hb : Below es (init ++ [n]))
    (htrim : ∀ x m, zipTree es (init ++ [n] ++ (x ++ [m])) = some .dir → Trimmed m) (hds : Nm ds) (he : Nm e) (htg : Target (siteV r y.sys k') ds n e)
    (hclear : ∀ p, p <+: e → siteV r y.sys k' p = some .dir ∨ siteV r y.sys k' p = none) (hnew : siteV r y.sys k' e = none) {depth : Nat}
    (hl : e.length < depth) (hh : ∀ x, zipTree es (init ++ [n] ++ x) = some .dir → x.length < depth) (ig : List Str) (fl : Bool) :
    ∃ y', uCopy (arcOps C) depth (zat X (init ++ [n])) (siteAt E k' ds) true ig fl y = (.ok (), y') ∧
      (∀ p, p <+: e → siteV r y'.sys k' p = some .dir) ∧
      (∀ x, x ≠ [] → LeftZ es (init ++ [n]) ig x → siteV r y'.sys k' (e ++ x) = none) ∧
      (∀ x, x ≠ [] → ¬ LeftZ es (init ++ [n]) ig x →
        (siteV r y'.sys k' (e ++ x) = some .dir ↔ zipTree es (init ++ [n] ++ x) = some .dir) ∧
        (∀ d, siteV r y'.sys k' (e ++ x) = some (.file d) ↔ zipTree es (init ++ [n] ++ x) = some (.file d)) ∧
        (siteV r y'.sys k' (e ++ x) = none ↔ zipTree es (init ++ [n] ++ x) = none)) ∧
      (∀ i p, ¬ (i = k' ∧ (e <+: p ∨ p <+: e)) → siteV r y'.sys i p = siteV r y.sys i p) ∧ LinksStay y.sys y'.sys ∧
      (∀ k, k ≠ zkey X → y'.handle k = y.handle k) ∧ AOpened C E r X j q es y' := by
  obtain ⟨y', a1, a2, a3, a4⟩ := arc_copy fl hX hU hq ho ht hn hb (htrim _ _) hr (ig := ig) hds he htg hclear hnew hl (fun x hx => by
    unfold zipPart at hx
    split at hx
    · rename_i hx0; rw [hx0]; exact Nat.zero_lt_of_lt hl
    · exact hh x hx)
  let L := sysLaws E r hr
  let S := arcSource (C := C) fl hr hX hU hq (AHeld C E r X j q es k' e y) (fun h => h.opened) ht hn (.inr hb)
  have hcut : ∀ x, S.Cut ig x ↔ LeftZ es (init ++ [n]) ig x := by
    intro x
    refine exists_congr fun a => exists_congr fun m => and_congr_right fun _ => and_congr_right fun _ => ?_
    have hT : S.T (a ++ [m]) = zipTree es (init ++ [n] ++ (a ++ [m])) := if_neg (by simp)
    unfold Source.asDir
    rw [hT]
    cases hv : zipTree es (init ++ [n] ++ (a ++ [m])) with
    | none => simp
    | some o =>
      cases o with
      | dir => simp
      | file d => simp
      | link t => exact absurd hv zipTree_link
  refine ⟨y', a1, fun p hp => ?_, fun x hx hL => ?_, fun x hx hL => ?_, a2.held.rest, a2.held.links, a2.rest, a2.opened⟩
  · by_cases hpe : p = e
    · rw [hpe]; exact a3
    · exact L.above (k := k') (s := y'.sys) a2.held.ok (by rw [show L.V y'.sys k' e = _ from a3]; simp) p hp hpe
  · refine siteE_none.1 ((a4 x hx).trans ?_)
    exact if_pos ((hcut x).2 hL)
  · have e4 : siteE r y'.sys k' (e ++ x) = zipTree es (init ++ [n] ++ x) := by
      refine (a4 x hx).trans ?_
      refine (if_neg (fun hc => hL ((hcut x).1 hc))).trans ?_
      exact if_neg hx
    exact ⟨by rw [← e4, siteE_dir], fun d => by rw [← e4, siteE_file], by rw [← e4, siteE_none]⟩

/-! ## Removing -/

/-- What is in an archive cannot be removed: NotImplementedError, and nothing changes. -/
theorem C124_remove (hr : Function.Injective r) (hX : ConnOk X) (hU : URI X = .ok (siteAt E j q)) (hq : Nm q) (ho : AOpened C E r X j q es y)
    {p : List Str} (hp : p ≠ []) (hv : zipTree es p ≠ none) {depth : Nat} {rec : Bool}
    (hrec : rec = true → Tidy es p ∧ 0 < depth ∧ ∀ x, zipTree es (p ++ x) = some .dir → x.length < depth) :
    uRemove (arcOps C) depth (zat X p) rec y = (.error .notImplemented, y) := by
  have hn := zipTree_nm hv
  obtain ⟨e, he, t, h1, h2⟩ := zipTree_entry hp hv
  have hz : (siteAt E j q).scheme ≠ some cl!"zip" := Props.site_scheme _ _ _
  have hor : (member es p).isSome = true ∨ Below es p := by
    rcases h2 with rfl | ⟨r, rfl⟩
    · rw [member_isSome, List.any_eq_true, pathOf_ne hp]
      exact .inl ⟨e, he, by simpa using h1⟩
    · exact .inr ⟨e, he, r, h1⟩
  have e1 : (arcOps C).exists_ (.zip (zkey X)) (zat X p) y = (.ok true, y) := by
    refine (arc_withConn X p _ _ y).symm.trans ((zmem_exists hU hz hn).trans ?_)
    rw [ho.seen]
    simp only [heard, hasDir_below hp, hor, decide_true]
  have e2 : (arcOps C).isdir (.zip (zkey X)) (zat X p) y = (.ok (decide (Below es p)), y) :=
    (arc_withConn X p _ _ y).symm.trans (aopened_isdir hU ho hn hp)
  have e3 : ¬ Below es p → (arcOps C).isfile (.zip (zkey X)) (zat X p) y = (.ok true, y) := by
    intro hb
    refine (arc_withConn X p _ _ y).symm.trans ((zmem_isfile hU hz hn).trans ?_)
    rw [ho.seen]
    simp only [heard, hor.resolve_right hb, or_true, decide_true]
  refine (arc_withConn X p _ _ y).trans ?_
  refine (bind_ok (s' := y) (a := false) rfl).trans ?_
  rw [if_neg Bool.false_ne_true]
  refine (bind_ok e1).trans ?_
  rw [Bool.not_true, if_neg Bool.false_ne_true]
  refine (bind_ok e2).trans ?_
  by_cases hb : Below es p
  · rw [decide_eq_true hb, if_pos rfl]
    cases rec with
    | false => rfl
    | true =>
      obtain ⟨ht, hd, hh⟩ := hrec rfl
      rw [if_pos rfl]
      let S := arcSource (C := C) false hr hX hU hq (· = y) (fun h => by rw [h]; exact ho) ht hn (.inr hb)
      have hsrc : S.src [] = zat X p := by show zat X (p ++ []) = _; rw [List.append_nil]
      have hw := zip_remove_walk (S := S) (z := y) ⟨fun _ _ => rfl, fun _ _ => rfl, fun _ _ => rfl⟩ rfl depth [] rfl (fun x hy => by
        rw [List.nil_append] at hy
        by_cases h0 : x = []
        · rw [h0]; exact hd
        · exact hh x ((if_neg h0 : S.T x = _).symm.trans hy))
      rw [hsrc] at hw
      unfold Any.removeDirRec
      rcases hw with h | h
      · exact (bind_ok h).trans rfl
      · exact bind_error h
  · rw [decide_eq_false hb, if_neg Bool.false_ne_true]
    refine (bind_ok (e3 hb)).trans ?_
    rfl

end

/-! ## Packing and unpacking -/

section
variable {ι : Type} {C : Codec} {E : ι → Dict} {r : ι → Nat} {X : Str} {j : Option ι} {q : List Str} {es : List Zip.Entry} {y : Arc}

/-- `for p, b in fs: with (archive / p).open('wb') as f: f.write(b)` -/
def packAll (C : Codec) (X : Str) (fs : List (List Str × Bytes)) : OM Arc Unit := fs.forM fun f => mWrite C (zat X f.1) [f.2]

/-- the bytes that come last under the name `p` -/
def lastOf (fs : List (List Str × Bytes)) (p : List Str) : Option Bytes := (fs.reverse.find? fun f => f.1 = p).map (·.2)

/-- some file lies below `p` -/
def Over (fs : List (List Str × Bytes)) (p : List Str) : Prop := ∃ f ∈ fs, p <+: f.1 ∧ p ≠ f.1

instance (fs : List (List Str × Bytes)) (p : List Str) : Decidable (Over fs p) := by unfold Over; infer_instance

/-- names of files: proper ones, none of them a directory of another one -/
structure Files (fs : List (List Str × Bytes)) : Prop where
  names : ∀ f ∈ fs, Nm f.1 ∧ f.1 ≠ [] ∧ '\x00' ∉ slash f.1
  single : ∀ f ∈ fs, ∀ g ∈ fs, f.1 <+: g.1 → f.1 = g.1

/-- what is stored for the files -/
def entriesOf (fs : List (List Str × Bytes)) : List Zip.Entry := fs.map fun f => ⟨slash f.1, f.2⟩

/-- a file with the bytes `d`; or no file, where one can be made -/
def Place (v : List Str → Option Any.Kind) (q : List Str) (d : Bytes) : Prop :=
  v q = some (.file d) ∨ d = [] ∧ v q = none ∧ ∃ ds n, q = ds ++ [n] ∧ v ds = some .dir

/-- Writing a member: to a new archive, to one that is there, or behind the bytes of another file. -/
theorem C124_add (hr : Function.Injective r) (hU : URI X = .ok (siteAt E j q)) (hq : Nm q) (hok : SysOk E r y.sys) (hc : Clean (y.handle (zkey X)))
    {d : Bytes} (hf : Place (siteV r y.sys j) q d) {m : List Str} (hm : Nm m) (hm0 : m ≠ []) (h0 : '\x00' ∉ slash m) (b : Bytes) :
    ∃ y', mWrite C (zat X m) [b] y = (.ok (), y') ∧ siteV r y'.sys = upd (siteV r y.sys) j q (some (.file (C.store d ((C.unpack d).getD [] ++ [⟨slash m, b⟩])))) ∧
      LinksStay y.sys y'.sys ∧ (∀ k, k ≠ zkey X → y'.handle k = y.handle k) ∧ AOpened C E r X j q ((C.unpack d).getD [] ++ [⟨slash m, b⟩]) y' := by
  let L := sysLaws E r hr
  have hz : (siteAt E j q).scheme ≠ some cl!"zip" := Props.site_scheme _ _ _
  have h6 : (zat X m).path = slash m := by rw [zat_path hm, pathOf_ne hm0]
  have hne : slash m ≠ [] := by cases m with | nil => exact absurd rfl hm0 | cons c l => simp [slash]
  have hop : ∃ s1 zm dirty hd md d' pos, aOpenZip C (siteAt E j q) (some cl!"wb") (y.sys, y.handle (zkey X)) =
      (.ok (), s1, some ⟨⟨zm, (C.unpack d).getD [], dirty, false⟩, d, ⟨hd, md, false⟩⟩) ∧ (md = .rw ∨ md = .w) ∧ zm ≠ .r ∧ SysOk E r s1 ∧
      FAt r s1 j q hd md d' pos ∧ ∀ v, upd (siteV r s1) j q v = upd (siteV r y.sys) j q v := by
    rcases hf with hf | ⟨rfl, hf, ds, n, rfl, hd⟩
    · have hcl := L.clear_of (k := j) hok (cs := q) (by rw [show L.V y.sys j q = _ from hf]; simp) (by rw [show L.V y.sys j q = _ from hf]; simp)
      have hif : uIsfile sysOps (siteAt E j q) y.sys = (.ok true, y.sys) := by
        have := (site_wc hok hq .isfile (fun c => sysOps.isfile c (siteAt E j q))).trans (site_isfile hok hq hcl)
        rw [hf] at this
        exact this
      obtain ⟨o1, -, -, e1⟩ := openZip_w (C := C) hc _ hif
      obtain ⟨s1, hd, h1, v1, f1, e2⟩ := start_a (C := C) (o := o1) hok hr hq hf
      exact ⟨s1, _, _, hd, _, _, _, e1.trans e2, .inl rfl, by simp, h1, f1, fun v => by rw [v1]⟩
    · have hcl := L.clear_in (k := j) hok (cs := ds) (n := n) hd (by rw [show L.V y.sys j (ds ++ [n]) = _ from hf]; simp)
      have hif : uIsfile sysOps (siteAt E j (ds ++ [n])) y.sys = (.ok false, y.sys) := by
        have := (site_wc hok hq .isfile (fun c => sysOps.isfile c (siteAt E j (ds ++ [n])))).trans (site_isfile hok hq hcl)
        rw [hf] at this
        exact this
      obtain ⟨o1, -, -, e1⟩ := openZip_w (C := C) hc _ hif
      obtain ⟨s1, hd, h1, v1, f1, e2⟩ := start_w (C := C) (o := o1) hok hr hq hd hf
      rw [C.nothing]
      exact ⟨s1, _, _, hd, _, _, _, e1.trans e2, .inr rfl, by simp, h1, f1, fun v => by rw [v1, upd_upd]⟩
  obtain ⟨s1, zm, dirty, hd, md, d', pos, e1, hmd, hzm, h1, hat, hv⟩ := hop
  have e2 : aOpen C (siteAt E j q) (slash m) (some cl!"wb") (y.sys, y.handle (zkey X)) = (.ok .statement, s1, some ⟨⟨zm, (C.unpack d).getD [], dirty, false⟩, d, ⟨hd, md, false⟩⟩) := by
    unfold aOpen
    rw [bind_ok e1, if_neg (by decide +kernel)]
    rfl
  have l1 : LinksStay y.sys s1 := by
    have := links_aOpen (C := C) (siteAt E j q) (slash m) (some cl!"wb") (y.sys, y.handle (zkey X))
    rw [e2] at this
    exact this
  obtain ⟨s2, hd', h2, v2, e3⟩ := exit_done (C := C) h1 hr hq hmd hat hzm (es := (C.unpack d).getD []) (dirty := dirty) (base := d) hne h0 (b := b)
  have l2 : LinksStay s1 s2 := by
    have := links_aExit (C := C) (siteAt E j q) (slash m) b (s1, some ⟨⟨zm, (C.unpack d).getD [], dirty, false⟩, d, ⟨hd, md, false⟩⟩)
    rw [e3] at this
    exact this
  let y1 : Arc := ⟨s1, fun k => if k = zkey X then some ⟨⟨zm, (C.unpack d).getD [], dirty, false⟩, d, ⟨hd, md, false⟩⟩ else y.handle k⟩
  let g : AHandle := ⟨⟨.r, (C.unpack d).getD [] ++ [⟨slash m, b⟩], false, false⟩, C.store d ((C.unpack d).getD [] ++ [⟨slash m, b⟩]), ⟨hd', .r, true⟩⟩
  have e4 : uOpenW (arcOps C) (zat X m) y = (.ok (.zipW (zkey X) (slash m)), y1) := by
    refine (arc_withConn X m _ _ y).trans ?_
    show (onArc (zkey X) (fun a => aOpen C a (zat X m).path (some cl!"wb")) >>= fun x => (match x with
      | .file d => pure (.zipR (zkey X) d)
      | .statement => pure (.zipW (zkey X) (zat X m).path) : OM Arc ZHd)) y = _
    rw [h6, bind_ok (onArc_eq (m := fun a => aOpen C a (slash m) (some cl!"wb")) hU hz e2)]
    rfl
  have hb : ([b] : List Bytes).flatten = b := by simp
  have e5 : onArc (zkey X) (fun a => aExit C a (slash m) b) y1 = (.ok (), ⟨s2, fun k => if k = zkey X then some g else y1.handle k⟩) :=
    onArc_eq (m := fun a => aExit C a (slash m) b) hU hz (by dsimp only [y1]; rw [if_pos rfl]; exact e3)
  have v3 : siteV r s2 = upd (siteV r y.sys) j q (some (.file (C.store d ((C.unpack d).getD [] ++ [⟨slash m, b⟩])))) := by rw [v2, hv]
  refine ⟨⟨s2, fun k => if k = zkey X then some g else y1.handle k⟩, ?_, v3, l1.trans l2, fun k hk => ?_, h2, ⟨_, by rw [v3, upd_same], C.back _ _⟩, ?_, ?_⟩
  · unfold mWrite
    rw [bind_ok e4]
    dsimp only
    rw [hb]
    exact e5
  · dsimp only [y1]; rw [if_neg hk, if_neg hk]
  · dsimp only; rw [if_pos rfl]; exact clean_r rfl
  · dsimp only; rw [if_pos rfl]; rfl

/-- Packing: the file is an archive afterwards, with the entries it had and the new ones in their order; nothing else changes. -/
theorem C124_pack (hr : Function.Injective r) (hU : URI X = .ok (siteAt E j q)) (hq : Nm q) (fs : List (List Str × Bytes)) (hfs : ∀ f ∈ fs, Nm f.1 ∧ f.1 ≠ [] ∧ '\x00' ∉ slash f.1)
    (h0 : fs ≠ []) (hok : SysOk E r y.sys) (hc : Clean (y.handle (zkey X))) {d : Bytes} (hf : Place (siteV r y.sys j) q d) :
    ∃ y' D, packAll C X fs y = (.ok (), y') ∧ siteV r y'.sys = upd (siteV r y.sys) j q (some (.file D)) ∧ C.unpack D = some ((C.unpack d).getD [] ++ entriesOf fs) ∧
      LinksStay y.sys y'.sys ∧ (∀ k, k ≠ zkey X → y'.handle k = y.handle k) ∧ AOpened C E r X j q ((C.unpack d).getD [] ++ entriesOf fs) y' := by
  induction fs generalizing y d with
  | nil => exact absurd rfl h0
  | cons f fs ih =>
    obtain ⟨n1, n2, n3⟩ := hfs f (List.mem_cons_self ..)
    obtain ⟨y1, a1, a2, a3, a4, a5⟩ := C124_add (C := C) hr hU hq hok hc hf n1 n2 n3 f.2
    by_cases hn : fs = []
    · subst hn
      refine ⟨y1, _, ?_, a2, C.back _ _, a3, a4, a5⟩
      show OM.bnd _ _ _ = _
      simp only [OM.bnd, a1]
      rfl
    · obtain ⟨y2, D, b1, b2, b3, b4, b5, b6⟩ := ih (fun g hg => hfs g (List.mem_cons_of_mem _ hg)) hn a5.ok a5.clean
        (d := C.store d ((C.unpack d).getD [] ++ [⟨slash f.1, f.2⟩])) (.inl (by rw [a2, upd_same]))
      have he : (C.unpack d).getD [] ++ [⟨slash f.1, f.2⟩] ++ entriesOf fs = (C.unpack d).getD [] ++ entriesOf (f :: fs) := by simp [entriesOf]
      rw [C.back, Option.getD_some, he] at b3 b6
      refine ⟨y2, D, ?_, by rw [b2, a2, upd_upd], b3, a3.trans b4, fun k hk => by rw [b5 k hk, a4 k hk], b6⟩
      show (mWrite C (zat X f.1) [f.2] >>= fun _ => packAll C X fs) y = _
      rw [bind_ok a1]
      exact b1

theorem below_entries {fs : List (List Str × Bytes)} (hfs : ∀ f ∈ fs, Nm f.1) {p : List Str} (hp : Nm p) : Any.Below (entriesOf fs) p ↔ Over fs p := by
  unfold Any.Below Over entriesOf
  constructor
  · rintro ⟨x, hx, rest, hr⟩
    obtain ⟨f, hf, rfl⟩ := List.mem_map.1 hx
    have hr' : slash p ++ '/' :: rest = slash f.1 ++ [] := by rw [List.append_nil]; exact hr.symm
    refine ⟨f, hf, slash_le hp.noSlash (fun c hc => ((hfs f hf).noSlash c hc).2) (.inr ⟨_, rfl⟩) (.inl rfl) hr', ?_⟩
    rintro rfl
    simp at hr'
  · rintro ⟨f, hf, ⟨t, ht⟩, hne⟩
    cases t with
    | nil => rw [List.append_nil] at ht; exact absurd ht hne
    | cons n t => exact ⟨_, List.mem_map.2 ⟨f, hf, rfl⟩, n ++ slash t, by simp [← ht, slash_append, slash_cons]⟩

theorem find_entries {fs : List (List Str × Bytes)} (hfs : ∀ f ∈ fs, Nm f.1) {p : List Str} (hp : Nm p) :
    ((entriesOf fs).reverse.find? fun e => e.name = slash p).map (·.data) = lastOf fs p := by
  unfold lastOf entriesOf
  rw [← List.map_reverse, List.find?_map, Option.map_map]
  have : ∀ l : List (List Str × Bytes), (∀ f ∈ l, Nm f.1) → l.find? ((fun e : Zip.Entry => decide (e.name = slash p)) ∘ fun f => ⟨slash f.1, f.2⟩) = l.find? fun f => decide (f.1 = p) := by
    intro l hl
    induction l with
    | nil => rfl
    | cons f l ih =>
      have : slash f.1 = slash p ↔ f.1 = p := ⟨slash_inj' (hl f (List.mem_cons_self ..)) hp, fun e => by rw [e]⟩
      simp only [List.find?_cons, Function.comp_apply, this, ih fun g hg => hl g (List.mem_cons_of_mem _ hg)]
  rw [this _ fun f hf => hfs f (List.mem_reverse.1 hf)]
  rfl

/-- What an archive has that was packed: the files, with what was written last, and the directories over them. -/
theorem C124_tree {fs : List (List Str × Bytes)} (hfs : Files fs) {p : List Str} (hp : p ≠ []) :
    (∀ d, zipTree (entriesOf fs) p = some (.file d) ↔ lastOf fs p = some d) ∧ (zipTree (entriesOf fs) p = some .dir ↔ Over fs p) := by
  have hnm : ∀ f ∈ fs, Nm f.1 := fun f hf => (hfs.names f hf).1
  have hlast : ∀ d, lastOf fs p = some d → ∃ f ∈ fs, f.1 = p := by
    intro d hd
    unfold lastOf at hd
    obtain ⟨f, hf, -⟩ := Option.map_eq_some_iff.1 hd
    exact ⟨f, List.mem_reverse.1 (List.mem_of_find?_eq_some hf), by simpa using List.find?_some hf⟩
  by_cases hn : Nm p
  · have hfind := find_entries hnm hn
    have hb := below_entries hnm hn
    unfold zipTree
    rw [if_neg hp, if_pos hn]
    cases hv : (entriesOf fs).reverse.find? fun e => e.name = slash p with
    | some e =>
      rw [hv] at hfind
      dsimp only
      refine ⟨fun d => ?_, ?_⟩
      · rw [← hfind]; simp
      · obtain ⟨f, hf, e1⟩ := hlast _ hfind.symm
        refine ⟨fun h => by simp at h, ?_⟩
        rintro ⟨g, hg, h1, h2⟩
        rw [← e1] at h1 h2
        exact absurd (hfs.single f hf g hg h1) h2
    | none =>
      rw [hv] at hfind
      dsimp only
      refine ⟨fun d => ?_, ?_⟩
      · rw [← hfind]
        split_ifs <;> simp
      · rw [← hb]
        split_ifs with h <;> simp [h]
  · have hz : zipTree (entriesOf fs) p = none := by unfold zipTree; rw [if_neg hp, if_neg hn]
    rw [hz]
    refine ⟨fun d => ⟨fun h => by simp at h, fun h => ?_⟩, fun h => by simp at h, ?_⟩
    · obtain ⟨f, hf, rfl⟩ := hlast d h
      exact absurd (hnm f hf) hn
    · rintro ⟨f, hf, ⟨t, ht⟩, -⟩
      exact absurd (by have := hnm f hf; rw [← ht] at this; exact this.of_prefix) hn

theorem files_tidy {fs : List (List Str × Bytes)} (hfs : Files fs) {p : List Str} (hp : Nm p) : Tidy (entriesOf fs) p := by
  have hnm : ∀ f ∈ fs, Nm f.1 := fun f hf => (hfs.names f hf).1
  refine ⟨?_, ?_, ?_⟩
  · rintro e he rest hr
    obtain ⟨f, hf, rfl⟩ := List.mem_map.1 he
    have hr' : slash p ++ '/' :: rest = slash f.1 ++ [] := by rw [List.append_nil]; exact hr.symm
    obtain ⟨t, ht⟩ := slash_le hp.noSlash (fun c hc => ((hnm f hf).noSlash c hc).2) (.inr ⟨_, rfl⟩) (.inl rfl) hr'
    refine ⟨t, by rw [ht]; exact hnm f hf, .inl ⟨?_, by dsimp only; rw [ht]⟩⟩
    rintro rfl
    rw [List.append_nil] at ht
    rw [ht] at hr'
    simp at hr'
  · rintro cs - hn ⟨e, he, h⟩ hb
    obtain ⟨f, hf, rfl⟩ := List.mem_map.1 he
    have := slash_inj' (hnm f hf) hn h
    obtain ⟨g, hg, h1, h2⟩ := (below_entries hnm hn).1 hb
    rw [← this] at h1 h2
    exact absurd (hfs.single f hf g hg h1) h2
  · rintro - e he
    obtain ⟨f, hf, rfl⟩ := List.mem_map.1 he
    cases hv : f.1 with
    | nil => exact absurd hv (hfs.names f hf).2.1
    | cons c l => exact ⟨c ++ slash l, by simp [slash_cons]⟩

/-- Packing files into a new archive and unpacking a directory of it: the files with what was written last, the directories over
    them, and nothing else. -/
theorem C124_pack_unpack (hr : Function.Injective r) (hX : ConnOk X) (hU : URI X = .ok (siteAt E j q)) (hq : Nm q) {fs : List (List Str × Bytes)} (hfs : Files fs)
    (hok : SysOk E r y.sys) (hc : Clean (y.handle (zkey X))) (hf : Place (siteV r y.sys j) q []) {k' : Option ι} {init ds e : List Str} {n : Str}
    (hb : Over fs (init ++ [n])) (htrim : ∀ f ∈ fs, ∀ c ∈ f.1.dropLast, Trimmed c) (hds : Nm ds) (he : Nm e) (htg : Target (siteV r y.sys k') ds n e)
    (hclear : ∀ p, p <+: e → siteV r y.sys k' p = some .dir ∨ siteV r y.sys k' p = none) (hnew : siteV r y.sys k' e = none) (hnot : k' = j → ¬ q <+: e) {depth : Nat}
    (hl : e.length < depth) (hh : ∀ f ∈ fs, f.1.length ≤ depth) (fl : Bool) :
    ∃ y1 y2, packAll C X fs y = (.ok (), y1) ∧ uCopy (arcOps C) depth (zat X (init ++ [n])) (siteAt E k' ds) true [] fl y1 = (.ok (), y2) ∧
      (∀ p, p <+: e → siteV r y2.sys k' p = some .dir) ∧
      (∀ x, x ≠ [] → (∀ d, siteV r y2.sys k' (e ++ x) = some (.file d) ↔ lastOf fs (init ++ [n] ++ x) = some d) ∧
        (siteV r y2.sys k' (e ++ x) = some .dir ↔ Over fs (init ++ [n] ++ x)) ∧ siteV r y2.sys k' (e ++ x) ≠ some .other) ∧
      (∀ i p, ¬ (i = k' ∧ (e <+: p ∨ p <+: e)) → ¬ (i = j ∧ p = q) → siteV r y2.sys i p = siteV r y.sys i p) ∧ LinksStay y.sys y2.sys := by
  have h0 : fs ≠ [] := by
    rintro rfl
    obtain ⟨f, hf, -⟩ := hb
    simp at hf
  have hnm : ∀ f ∈ fs, Nm f.1 := fun f hf => (hfs.names f hf).1
  have hn : Nm (init ++ [n]) := by
    obtain ⟨f, hf, ⟨t, ht⟩, -⟩ := hb
    have := hnm f hf
    rw [← ht] at this
    exact this.of_prefix
  obtain ⟨y1, D, a1, a2, -, a4, a5, a6⟩ := C124_pack (C := C) hr hU hq fs hfs.names h0 hok hc hf
  rw [C.nothing] at a6
  change AOpened C E r X j q (entriesOf fs) y1 at a6
  have hsame : ∀ p, p <+: e → siteV r y1.sys k' p = siteV r y.sys k' p := by
    intro p hp
    rw [a2, upd_ne]
    rintro ⟨h1, rfl⟩
    exact hnot h1 hp
  have hx0 : ∀ x, init ++ [n] ++ x ≠ [] := by simp
  obtain ⟨y2, b1, b2, -, b4, b5, b6, -, -⟩ := C124_copy_tree (C := C) (depth := depth) (k' := k') (ds := ds) (e := e) hr hX hU hq a6 (files_tidy hfs hn) hn
    ((below_entries hnm hn).2 hb) (fun x m h => by
      obtain ⟨f, hf, ⟨t, ht⟩, h2⟩ := (C124_tree hfs (hx0 _)).2.1 h
      refine htrim f hf m ?_
      rw [← ht]
      cases t with
      | nil => rw [List.append_nil] at ht; exact absurd ht h2
      | cons a t =>
        rw [List.dropLast_append_of_ne_nil (by simp)]
        simp) hds he (by
      cases htg with
      | into h => exact .into (by rw [hsame _ (List.prefix_append ..)]; exact h)
      | new h => exact .new (by rw [hsame _ (List.prefix_refl _)]; exact h)) (fun p hp => by rw [hsame p hp]; exact hclear p hp)
    (by rw [hsame _ (List.prefix_refl _)]; exact hnew) hl (fun x h => by
      obtain ⟨f, hf, h1, h2⟩ := (C124_tree hfs (hx0 _)).2.1 h
      have h3 := h1.length_le
      have h4 := hh f hf
      simp only [List.length_append, List.length_singleton] at h3
      omega) [] fl
  have hleft : ∀ x, ¬ LeftZ (entriesOf fs) (init ++ [n]) [] x := by
    rintro x ⟨a, m, -, hm, -⟩
    simp at hm
  refine ⟨y1, y2, a1, b1, b2, fun x hx => ?_, fun i p h1 h2 => ?_, a4.trans b6⟩
  · obtain ⟨c1, c2, c3⟩ := b4 x hx (hleft x)
    obtain ⟨d1, d2⟩ := C124_tree hfs (hx0 x) 
    refine ⟨fun d => by rw [c2, d1], by rw [c1, d2], fun h => ?_⟩
    cases hv : zipTree (entriesOf fs) (init ++ [n] ++ x) with
    | none => rw [c3.2 hv] at h; simp at h
    | some o =>
      cases o with
      | dir => rw [c1.2 hv] at h; simp at h
      | file d => rw [(c2 d).2 hv] at h; simp at h
      | link t => exact absurd hv zipTree_link
  · rw [b5 i p h1, a2, upd_ne h2]

end

/-! ## Examples -/

/-- three files, one of them written twice -/
def toyFs : List (List Str × Bytes) := [([cl!"d", cl!"a"], [1]), ([cl!"d", cl!"e", cl!"b"], [2, 3]), ([cl!"k"], []), ([cl!"d", cl!"a"], [4])]

theorem toyFs_files : Files toyFs := ⟨by decide +kernel, by decide +kernel⟩

theorem toyFs_depth (x : List Str) (h : zipTree (entriesOf toyFs) x = some .dir) : x.length < 3 := by
  by_cases hx : x = []
  · rw [hx]; simp
  · obtain ⟨f, hf, h1, h2⟩ := (C124_tree toyFs_files hx).2.1 h
    have : f.1.length ≤ 3 := (by decide +kernel : ∀ f ∈ toyFs, f.1.length ≤ 3) f hf
    rcases Nat.lt_or_ge x.length f.1.length with h3 | h3
    · omega
    · exact absurd (h1.eq_of_length (Nat.le_antisymm h1.length_le h3)) h2

theorem toy_place (sw : Bool) : Place (siteV (fun _ : Unit => 0) toyStart.sys (twinSite sw true)) [cl!"z"] [] :=
  .inr ⟨rfl, ((twin_holds _).here _).trans (by decide +kernel), [], cl!"z", rfl, ((twin_holds _).here _).trans (by decide +kernel)⟩

/-- whichever of the two places is the local one -/
theorem toy_packed (sw : Bool) : ∃ y, packAll toy (toyText sw (some true)) toyFs toyStart = (.ok (), y) ∧
    AOpened toy (fun _ : Unit => []) (fun _ => 0) (toyText sw (some true)) (twinSite sw true) [cl!"z"] (entriesOf toyFs) y := by
  obtain ⟨y, D, a1, -, -, -, -, a6⟩ := C124_pack (C := toy) unit_inj (toyText_uri sw (some true)) (by decide +kernel) toyFs toyFs_files.names (by decide)
    (y := toyStart) twin_ok (fun _ h => nomatch h) (toy_place sw)
  exact ⟨y, a1, a6⟩

theorem aopened_ready {ι : Type} {C : Codec} {E : ι → Dict} {r : ι → Nat} {X : Str} {j : Option ι} {q : List Str} {es : List Zip.Entry} {y : Arc}
    (h : AOpened C E r X j q es y) : AReady C E r X j q es y := ⟨h.ok, h.file, h.clean, fun _ => h.seen⟩

example (sw td fl : Bool) : ∃ y y' rows, packAll toy (toyText sw (some true)) toyFs toyStart = (.ok (), y) ∧
    uWalk (arcOps toy) 3 (zat (toyText sw (some true)) []) td fl y = (.ok rows, y') ∧ rows.length = 3 := by
  obtain ⟨y, a, ho⟩ := toy_packed sw
  obtain ⟨y', ps, rows, b1, b2, b3, b4, -⟩ := C124_walk unit_inj (toyText_conn sw _) (toyText_uri sw (some true)) (by decide +kernel) (aopened_ready ho) (src := []) (files_tidy toyFs_files (by decide +kernel))
    (by decide +kernel) (.inl rfl) (depth := 3) (by decide) (fun x h => toyFs_depth x h) td fl
  refine ⟨y, y', rows, a, b1, ?_⟩
  rw [← b2.length_eq]
  have hnd : ps.Nodup := b4.imp fun h e => by
    subst e
    exact Order.irrefl h
  have hin : ∀ p, p ∈ ps ↔ p ∈ [[], [cl!"d"], [cl!"d", cl!"e"]] := by
    intro p
    rw [b3, List.nil_append]
    by_cases hp : p = []
    · simp [hp]
    · rw [(C124_tree toyFs_files hp).2]
      constructor
      · rintro (h | ⟨f, hf, h1, h2⟩)
        · exact absurd h hp
        · have : ∀ f ∈ toyFs, ∀ p ∈ f.1.inits, p ≠ f.1 → p ∈ [[], [cl!"d"], [cl!"d", cl!"e"]] := by decide +kernel
          exact this f hf p ((List.mem_inits _ _).2 h1) h2
      · intro h
        refine .inr ?_
        have : ∀ p ∈ [[], [cl!"d"], [cl!"d", cl!"e"]], Over toyFs p := by decide +kernel
        exact this p h
  exact ((List.perm_ext_iff_of_nodup hnd (by decide +kernel)).2 hin).length_eq

example (sw : Bool) : ∃ (y y' : Arc) (l : List Str), packAll toy (toyText sw (some true)) toyFs toyStart = (.ok (), y) ∧
    uGlob (arcOps toy) (zat (toyText sw (some true)) []) (fun _ => true) y = (.ok (l.map fun n => zat (toyText sw (some true)) [n]), y') ∧ cl!"k" ∈ l := by
  obtain ⟨y, a, ho⟩ := toy_packed sw
  obtain ⟨y', l, b1, -, b3, -⟩ := C124_glob unit_inj (toyText_conn sw _) (toyText_uri sw (some true)) (by decide +kernel) (aopened_ready ho) (src := []) (files_tidy toyFs_files (by decide +kernel))
    (by decide +kernel) (.inl rfl) (fun _ => true)
  exact ⟨y, y', l, a, b1, (b3 _).2 ⟨rfl, by decide +kernel⟩⟩

example (sw : Bool) : ∃ (y y' : Arc) (bs : List Bytes), packAll toy (toyText sw (some true)) toyFs toyStart = (.ok (), y) ∧
    uMd5 (arcOps toy) (zat (toyText sw (some true)) [cl!"d", cl!"a"]) y = (.ok bs, y') ∧ bs.flatten = [4] := by
  obtain ⟨y, a, ho⟩ := toy_packed sw
  obtain ⟨y', bs, b1, b2, -⟩ := C124_md5 unit_inj (toyText_uri sw (some true)) (by decide +kernel) ho (p := [cl!"d", cl!"a"]) (d := [4]) (by decide +kernel)
  exact ⟨y, y', bs, a, b1, b2⟩

example (sw rec : Bool) : ∃ y, packAll toy (toyText sw (some true)) toyFs toyStart = (.ok (), y) ∧
    uRemove (arcOps toy) 3 (zat (toyText sw (some true)) [cl!"d"]) rec y = (.error .notImplemented, y) := by
  obtain ⟨y, a, ho⟩ := toy_packed sw
  refine ⟨y, a, C124_remove unit_inj (toyText_conn sw _) (toyText_uri sw (some true)) (by decide +kernel) ho (by decide) (by decide +kernel) fun _ =>
    ⟨files_tidy toyFs_files (by decide +kernel), by decide, fun x h => ?_⟩⟩
  have := toyFs_depth _ h
  simp only [List.length_append, List.length_singleton] at this
  omega

example (sw fl : Bool) : ∃ y1 y2, packAll toy (toyText sw (some true)) toyFs toyStart = (.ok (), y1) ∧
    uCopy (arcOps toy) 3 (zat (toyText sw (some true)) [cl!"d"]) (siteAt (fun _ : Unit => []) (twinSite sw false) [cl!"a"]) true [] fl y1 = (.ok (), y2) ∧
    siteV (fun _ => 0) y2.sys (twinSite sw false) [cl!"a", cl!"d", cl!"a"] = some (.file [4]) ∧
    siteV (fun _ => 0) y2.sys (twinSite sw false) [cl!"a", cl!"d", cl!"e", cl!"b"] = some (.file [2, 3]) ∧
    siteV (fun _ => 0) y2.sys (twinSite sw false) [cl!"a", cl!"d", cl!"e"] = some .dir ∧
    siteV (fun _ => 0) y2.sys (twinSite sw false) [cl!"a", cl!"f"] = some (.file [104, 105]) := by
  have hv : ∀ p, siteV (fun _ : Unit => 0) toyStart.sys (twinSite sw false) p = twinTree.get p := fun p => (twin_holds _).here p
  obtain ⟨y1, y2, a1, a2, -, a4, a5, -⟩ := C124_pack_unpack (C := toy) unit_inj (toyText_conn sw (some true)) (toyText_uri sw (some true)) (by decide +kernel) toyFs_files
    (y := toyStart) twin_ok (fun _ h => nomatch h) (toy_place sw) (k' := twinSite sw false) (init := []) (n := cl!"d") (ds := [cl!"a"]) (e := [cl!"a", cl!"d"]) (by decide +kernel)
    (by decide +kernel) (by decide +kernel) (by decide +kernel) (.into (by rw [hv]; decide +kernel)) (fun p hp => by
      rw [hv]
      have : ∀ p ∈ [cl!"a", cl!"d"].inits, twinTree.get p = some .dir ∨ twinTree.get p = none := by decide +kernel
      exact this p ((List.mem_inits _ _).2 hp)) (by rw [hv]; decide +kernel) (fun h => absurd (twinSite_inj sw h) (by decide)) (depth := 3) (by decide) (by decide +kernel) fl
  refine ⟨y1, y2, a1, a2, ?_, ?_, ?_, ?_⟩
  · exact ((a4 [cl!"a"] (by decide)).1 [4]).2 (by decide +kernel)
  · exact ((a4 [cl!"e", cl!"b"] (by decide)).1 [2, 3]).2 (by decide +kernel)
  · exact (a4 [cl!"e"] (by decide)).2.1.2 (by decide +kernel)
  · rw [a5 _ _ (by rintro ⟨-, h⟩; revert h; decide +kernel) (fun h => absurd (twinSite_inj sw h.1) (by decide)), hv]
    decide +kernel

end Verif.Props
