import Verif.Any.ZipInto
import Verif.Props.Across
import Verif.Props.Refusals
/-!
# C101, C102: archives together with the other backends

`zipTree es p` is what an archive with the entries `es` has at the path `p`: the data of the last entry with that name, or a
directory, if some entry lies below it.  `Tidy es src` says that the entries below `src` have proper names and that none is
both a file and a directory.
-/
namespace Verif.Props
open Verif.Spec Verif.Any Verif.Gen

/-! ## C101: reading -/

/-- what `walk` has to yield for the directory `p` of an archive -/
structure ZipRow (es : List Zip.Entry) (X : Str) (p : List Str) (row : Uri × List Str × List Str) : Prop where
  uri : row.1 = zat X p
  dirs_sorted : row.2.1.Pairwise strLt
  dirs : ∀ n, n ∈ row.2.1 ↔ zipTree es (p ++ [n]) = some .dir
  files_sorted : row.2.2.Pairwise strLt
  files : ∀ n, n ∈ row.2.2 ↔ ∃ d, zipTree es (p ++ [n]) = some (.file d)

/-- the state after the archive `X` was read: another handle of its connection, everything else as before -/
structure Read (X : Str) (es : List Zip.Entry) (z z' : Zys) : Prop where
  sys : z'.sys = z.sys
  file : z'.file = z.file
  rest : ∀ k, k ≠ zkey X → z'.handle k = z.handle k
  opened : Opened z' X es

/-- a walk begins with a listing -/
theorem walk_same {σ τ : Type} {O : Ops σ} {c : O.Conn} {u : Uri} {s s' : σ} (h : O.listdir c u s = O.listdir c u s') {td fl : Bool}
    {body : τ → Uri → List Str → List Str → OM σ (τ × List Str)} {depth : Nat} {t : τ} :
    Any.walk O c td fl body (depth + 1) u t s = Any.walk O c td fl body (depth + 1) u t s' := by
  rw [Any.walk]
  show OM.bnd _ _ s = OM.bnd _ _ s'
  unfold OM.bnd
  rw [h]

section
variable {X : Str} {es : List Zip.Entry} {z : Zys}

/-- the first listing opens the archive -/
theorem first_listing (hs : Zip.Ok (z.st (zkey X))) (hf : z.file X = .archive es) :
    ∃ z', Read X es z z' ∧ (z.handle (zkey X) ≠ none → z' = z) ∧
      ∀ u : Uri, zysOps.listdir (.zip (zkey X)) u z = zysOps.listdir (.zip (zkey X)) u z' := by
  cases hh : z.handle (zkey X) with
  | some h =>
    refine ⟨z, ⟨rfl, rfl, fun _ _ => rfl, hf, h, hh, ?_⟩, fun _ => rfl, fun _ => rfl⟩
    rcases hs h hh with ⟨h1, h2⟩ | ⟨-, -, -, -, h2⟩
    · have h2 : z.file X = _ := h2
      rw [hf] at h2
      exact ⟨by simpa using h2.symm, h1⟩
    · have h2 : z.file X = _ := h2
      rw [hf] at h2
      cases h2
  | none =>
    have hf' : (z.st (zkey X)).file = .archive es := hf
    have hh' : (z.st (zkey X)).handle = none := hh
    let t : Zip.St := ⟨.archive es, some ⟨.r, es, false, false⟩⟩
    have hx : (z.putSt (zkey X) t).file = z.file := by
      funext c
      show (if c = X then t.file else z.file c) = z.file c
      split
      · rename_i hc; rw [hc, hf]
      · rfl
    have ho : Zip.openZip none (z.st (zkey X)) = (.ok (), t) := by
      simp only [Zip.openZip, Zip.closeZip, hh', hf', Option.all_none, if_true]
      rfl
    refine ⟨z.putSt (zkey X) t, ⟨rfl, hx, fun k hk => if_neg hk, by rw [hx]; exact hf, _, if_pos rfl, rfl, rfl⟩, fun h => absurd rfl h, fun u => ?_⟩
    show onZip (zkey X) (Zip.listdir u.path) z = onZip (zkey X) (Zip.listdir u.path) (z.putSt (zkey X) t)
    have e1 : Zip.listdir u.path (z.st (zkey X)) = Zip.listdirOpen u.path t := by
      unfold Zip.listdir
      rw [if_neg (by rw [hf']; simp), hh', ho]
    have e2 : Zip.listdir u.path t = Zip.listdirOpen u.path t := by
      unfold Zip.listdir
      rw [if_neg (by simp [t])]
    unfold onZip
    rw [st_putSt, e1, e2, putSt_putSt]

/-- `walk` of an archive yields every directory in it once; the archive need not have been used before. -/
theorem C101_walk (hX : ConnOk X) (hs : Zip.Ok (z.st (zkey X))) (hf : z.file X = .archive es) {src : List Str} (ht : Tidy es src) (hn : Nm src)
    (hroot : src = [] ∨ Below es src) {depth : Nat} (hd : 0 < depth) (hh : ∀ x, zipTree es (src ++ x) = some .dir → x.length < depth) (td fl : Bool) :
    ∃ z' ps rows, uWalk zysOps depth (zat X src) td fl z = (.ok rows, z') ∧ List.Forall₂ (fun p row => ZipRow es X (src ++ p) row) ps rows ∧
      (∀ p, p ∈ ps ↔ p = [] ∨ zipTree es (src ++ p) = some .dir) ∧ ps.Pairwise (Order td) ∧ Read X es z z' := by
  obtain ⟨z', hR, -, hl⟩ := first_listing hs hf
  let S := zipSource fl hX (· = z') (fun h => by rw [h]; exact hR.opened) ht hn hroot
  have hT : ∀ p, S.T p = some .dir ↔ p = [] ∨ zipTree es (src ++ p) = some .dir := by
    intro p
    show (if p = [] then some Ent.dir else zipTree es (src ++ p)) = some .dir ↔ _
    by_cases h : p = [] <;> simp [h]
  have hT' : ∀ p n, S.T (p ++ [n]) = zipTree es (src ++ p ++ [n]) := by
    intro p n
    show (if p ++ [n] = [] then some Ent.dir else zipTree es (src ++ (p ++ [n]))) = _
    rw [if_neg (by simp), List.append_assoc]
  obtain ⟨ps, h1, h2, h3⟩ := S.walk_collect td (s := z') rfl depth [] [] ((hT []).2 (.inl rfl)) (fun y hy => by
    rcases (hT _).1 hy with hy | hy
    · rw [List.nil_append] at hy; rw [hy]; exact hd
    · exact hh y hy)
  have h2' : ∀ p, p ∈ ps ↔ p = [] ∨ zipTree es (src ++ p) = some .dir := fun p => by rw [h2, hT]; simp
  have hsrc : S.src [] = zat X src := by show zat X (src ++ []) = _; rw [List.append_nil]
  have hw : ∀ t : List (Uri × List Str × List Str), Any.walk zysOps (.zip (zkey X)) td fl Laws.collect depth (zat X src) t z =
      Any.walk zysOps (.zip (zkey X)) td fl Laws.collect depth (zat X src) t z' := by
    intro t
    obtain ⟨d', rfl⟩ : ∃ d', depth = d' + 1 := ⟨depth - 1, by omega⟩
    exact walk_same (hl _)
  refine ⟨z', ps, ps.map S.row, ?_, ?_, h2', h3, hR⟩
  · rw [hsrc, List.nil_append] at h1
    refine (zys_withConn X src _ _ z).trans ?_
    exact (hw []).trans h1
  · rw [List.forall₂_map_right_iff, List.forall₂_same]
    intro p hp
    have hdir := (hT p).2 ((h2' p).1 hp)
    have hnames : S.names p = zipNames es (src ++ p) := if_pos hdir
    have hsort : (S.names p).Pairwise strLt := by rw [hnames]; exact pairwise_sortStr (List.nodup_dedup _)
    refine ⟨rfl, hsort.filter _, fun n => ?_, hsort.filter _, fun n => ?_⟩
    · show n ∈ S.dirs p ↔ _
      rw [S.mem_dirs, ← hT']
      unfold Source.asDir
      cases ho : S.T (p ++ [n]) with
      | none => simp
      | some o =>
        cases o with
        | dir => simp
        | file d => simp
        | link t => rw [hT'] at ho; exact absurd ho zipTree_link
    · show n ∈ S.files p ↔ _
      rw [S.mem_files, ← hT']
      unfold Source.asDir
      cases ho : S.T (p ++ [n]) with
      | none => simp
      | some o =>
        cases o with
        | dir => simp
        | file d => simp
        | link t => rw [hT'] at ho; exact absurd ho zipTree_link

/-- the URIs of the names in a directory of an archive -/
theorem zip_glob_map (hX : ConnOk X) {q : List Str} {z : Zys} : ∀ l : List Str, (∀ n ∈ l, Nm (q ++ [n])) →
    (l.mapM fun f => (OM.lift ((zat X q).div f) : OM Zys Uri)) z = (.ok (l.map fun n => zat X (q ++ [n])), z)
  | [], _ => rfl
  | n :: l, h => by
    rw [List.mapM_cons, bind_lift (zat_div hX (h n (by simp))), bind_ok (zip_glob_map hX l fun m hm => h m (by simp [hm]))]
    rfl

/-- `glob` in a directory of an archive gives exactly the matching names in it, sorted -/
theorem C101_glob (hX : ConnOk X) (hs : Zip.Ok (z.st (zkey X))) (hf : z.file X = .archive es) {src : List Str} (ht : Tidy es src) (hn : Nm src)
    (hroot : src = [] ∨ Below es src) (match_ : Str → Bool) :
    ∃ (z' : Zys) (l : List Str), uGlob zysOps (zat X src) match_ z = (.ok (l.map fun n => zat X (src ++ [n])), z') ∧ l.Pairwise strLt ∧
      (∀ n, n ∈ l ↔ match_ n = true ∧ zipTree es (src ++ [n]) ≠ none) ∧ Read X es z z' := by
  obtain ⟨z', hR, -, hl⟩ := first_listing hs hf
  have hm : ∀ n, n ∈ zipNames es src ↔ zipTree es (src ++ [n]) ≠ none := by
    intro n
    have := mem_zipNames (n := n) ht (x := []) (by rwa [List.append_nil])
    rwa [List.append_nil, List.nil_append] at this
  have e1 : uListdir zysOps (zat X src) z = (.ok (zipNames es src), z') :=
    (zys_withConn X src _ _ z).trans ((hl _).trans (opened_listdir hR.opened hn hroot))
  refine ⟨z', (zipNames es src).filter match_, ?_, (pairwise_sortStr (List.nodup_dedup _)).filter _, fun n => ?_, hR⟩
  · refine (zys_withConn X src _ _ z).trans ?_
    refine (bind_ok e1).trans ?_
    refine zip_glob_map hX _ fun n hn' => ?_
    exact zipTree_nm ((hm n).1 (List.mem_filter.1 hn').1)
  · rw [List.mem_filter, hm, and_comm]

/-- `md5` of a member reads its bytes, in blocks of at most 4096 -/
theorem C101_md5 (ho : Opened z X es) {p : List Str} {d : Bytes} (hv : zipTree es p = some (.file d)) :
    ∃ z' bs, uMd5 zysOps (zat X p) z = (.ok bs, z') ∧ bs.flatten = d ∧ (∀ b ∈ bs, b ≠ [] ∧ b.length ≤ 4096) ∧ Read X es z z' := by
  obtain ⟨hp, hn, e, he, rfl⟩ := zipTree_file hv
  refine ⟨{ z with handle := fun k => if k = zkey X then some ⟨.r, es, false, false⟩ else z.handle k }, blocksOf 4096 e.data.length e.data, ?_, blocksOf_flatten (by omega) _ _ (le_refl _), blocksOf_length (by omega) _ _,
    ⟨rfl, rfl, fun k hk => if_neg hk, ho.1, _, if_pos rfl, rfl, rfl⟩⟩
  refine (zys_withConn X p _ _ z).trans ?_
  have c1 : uOpenR zysOps (zat X p) z = _ := (zys_withConn X _ _ _ z).trans (opened_openR ho hn hp he)
  exact (bind_ok c1).trans rfl

end

section
variable {ι : Type} {E : ι → Dict} {r : ι → Nat} {X : Str} {es : List Zip.Entry} {z : Zys}

/-- Copying a member to a file: the file has the bytes of the member, nothing else changes, in the archive neither. -/
theorem C101_copy_file (hr : Function.Injective r) (h : SysOk E r z.sys) (ho : Opened z X es) {k' : Option ι} {init ds e ig : List Str} {n m : Str}
    {d : Bytes} (hv : zipTree es (init ++ [n]) = some (.file d)) (hds : Nm ds) (he : Nm (e ++ [m]))
    (ht : FileTarget (siteV r z.sys k') ds n (e ++ [m])) (hp : siteV r z.sys k' e = some .dir)
    (hfree : siteV r z.sys k' (e ++ [m]) = none ∨ isF (siteV r z.sys k' (e ++ [m])) = true) (fl : Bool) (depth : Nat) :
    ∃ z', uCopy zysOps depth (zat X (init ++ [n])) (siteAt E k' ds) false ig fl z = (.ok (), z') ∧ SysOk E r z'.sys ∧
      siteV r z'.sys k' (e ++ [m]) = some (.file d) ∧ (∀ j q, ¬ (j = k' ∧ q = e ++ [m]) → siteV r z'.sys j q = siteV r z.sys j q) ∧
      LinksStay z.sys z'.sys ∧ z'.file = z.file ∧ (∀ k, k ≠ zkey X → z'.handle k = z.handle k) ∧ Opened z' X es := by
  obtain ⟨hp0, hn, en, hen, rfl⟩ := zipTree_file hv
  obtain ⟨s', a1, a2, a3, a4⟩ := zip_content (E := E) h hr ho (k' := k') hv he hp hfree
  have hmem : ∃ e ∈ es, e.name = slash (init ++ [n]) := ⟨en, getinfo_mem hen⟩
  refine ⟨⟨s', z.file, fun k => if k = zkey X then some ⟨.r, es, false, false⟩ else z.handle k⟩, ?_, a2, by rw [a3]; exact upd_same .., fun j q hq => by rw [a3]; exact upd_ne hq, a4, rfl, fun k hk => if_neg hk,
    ho.1, _, if_pos rfl, rfl, rfl⟩
  let L := zysLaws E r hr (fun _ _ => True)
  have hI : SysOk E r z.sys ∧ True := ⟨h, trivial⟩
  have e1 : uExists zysOps (zat X (init ++ [n])) z = (.ok true, z) := (zys_withConn X _ _ _ z).trans (opened_exists ho hn (by simp) (.inl hmem))
  have e2 : uIsfile zysOps (zat X (init ++ [n])) z = (.ok true, z) := (zys_withConn X _ _ _ z).trans (opened_isfile ho hn (by simp) hmem)
  have hcds : Clear (siteV r z.sys k') ds := by
    generalize hg : e ++ [m] = g at *
    cases ht with
    | into h => exact L.clear_dir (k := k') (s := z) hI h
    | at_ h' =>
      subst hg
      refine L.clear_in (k := k') (s := z) hI hp ?_
      show siteV r z.sys k' (e ++ [m]) ≠ _
      rcases hfree with hf | hf
      · rw [hf]; simp
      · intro h'; rw [h'] at hf; simp [isF] at hf
  have fin : Any.copyOne zysOps (.zip (zkey X)) (zat X (init ++ [n])) (siteAt E k' (e ++ [m])) fl z =
      (.ok (), ⟨s', z.file, fun k => if k = zkey X then some ⟨.r, es, false, false⟩ else z.handle k⟩) := by
    unfold Any.copyOne
    refine (bind_ok opened_uIslink).trans ?_
    rw [Bool.false_and, if_neg Bool.false_ne_true]
    refine (bind_ok a1).trans ?_
    rw [if_neg (fun hs => site_scheme (E := E) (k := k') (cs := e ++ [m]) (hs.symm.trans (zat_scheme X _)))]
    rfl
  refine (zys_withConn X _ _ _ z).trans ?_
  unfold Any.copy
  refine (bind_ok e1).trans ?_
  rw [Bool.not_true, if_neg Bool.false_ne_true, Bool.not_false, if_pos rfl]
  refine (bind_ok e2).trans ?_
  rw [Bool.not_true, if_neg Bool.false_ne_true]
  refine (bind_ok (L.uIsdir (k := k') (s := z) hI hds hcds)).trans ?_
  generalize hg : e ++ [m] = g at *
  cases ht with
  | into hd =>
    have : isD (L.V z k' ds) = true := by rw [show L.V z k' ds = _ from hd]; rfl
    rw [this, if_pos rfl, zat_last hn]
    have : (siteAt E k' ds).div n = .ok (siteAt E k' (ds ++ [n])) := site_div he (by simp) (by simp [slash])
    rw [this]
    exact fin
  | at_ hd =>
    have : isD (L.V z k' ds) = false := by
      cases hb : isD (L.V z k' ds) with
      | false => rfl
      | true => exact absurd (isD_iff.1 hb) hd
    rw [this, if_neg Bool.false_ne_true]
    exact fin

/-- on the way to `x` there is a directory that is to be left out -/
def LeftZ (es : List Zip.Entry) (src ig x : List Str) : Prop := ∃ a n, a ++ [n] <+: x ∧ n ∈ ig ∧ zipTree es (src ++ (a ++ [n])) = some .dir

/-- Copying a directory of an archive to a new name: the directories and files of the archive, without what is to be left
    out; nothing else changes, in the archive neither. -/
theorem C101_copy_tree (hr : Function.Injective r) (h : SysOk E r z.sys) (hX : ConnOk X) (ho : Opened z X es) {k' : Option ι} {init ds e : List Str}
    {n : Str} (ht : Tidy es (init ++ [n])) (hn : Nm (init ++ [n])) (hb : Below es (init ++ [n]))
    (htrim : ∀ x m, zipTree es (init ++ [n] ++ (x ++ [m])) = some .dir → Trimmed m) (hds : Nm ds) (he : Nm e) (htg : Target (siteV r z.sys k') ds n e)
    (hclear : ∀ p, p <+: e → siteV r z.sys k' p = some .dir ∨ siteV r z.sys k' p = none) (hnew : siteV r z.sys k' e = none) {depth : Nat}
    (hl : e.length < depth) (hh : ∀ x, zipTree es (init ++ [n] ++ x) = some .dir → x.length < depth) (ig : List Str) (fl : Bool) :
    ∃ z', uCopy zysOps depth (zat X (init ++ [n])) (siteAt E k' ds) true ig fl z = (.ok (), z') ∧ SysOk E r z'.sys ∧
      (∀ p, p <+: e → siteV r z'.sys k' p = some .dir) ∧
      (∀ x, x ≠ [] → LeftZ es (init ++ [n]) ig x → siteV r z'.sys k' (e ++ x) = none) ∧
      (∀ x, x ≠ [] → ¬ LeftZ es (init ++ [n]) ig x →
        (siteV r z'.sys k' (e ++ x) = some .dir ↔ zipTree es (init ++ [n] ++ x) = some .dir) ∧
        (∀ d, siteV r z'.sys k' (e ++ x) = some (.file d) ↔ zipTree es (init ++ [n] ++ x) = some (.file d)) ∧
        (siteV r z'.sys k' (e ++ x) = none ↔ zipTree es (init ++ [n] ++ x) = none)) ∧
      (∀ j p, ¬ (j = k' ∧ (e <+: p ∨ p <+: e)) → siteV r z'.sys j p = siteV r z.sys j p) ∧ LinksStay z.sys z'.sys ∧
      z'.file = z.file ∧ (∀ k, k ≠ zkey X → z'.handle k = z.handle k) ∧ Opened z' X es := by
  obtain ⟨z', a1, a2, a3, a4⟩ := zip_copy fl hX ho ht hn hb (htrim _ _) h hr (ig := ig) hds he htg hclear hnew hl (fun x hx => by
    unfold zipPart at hx
    split at hx
    · rename_i hx0; rw [hx0]; exact Nat.zero_lt_of_lt hl
    · exact hh x hx)
  let L := zysLaws E r hr (fun _ _ => True)
  have hI : SysOk E r z'.sys ∧ True := ⟨a2.held.ok, trivial⟩
  let S := zipSource fl hX (ZHeld E r X es k' e z) (fun h => h.opened) ht hn (.inr hb)
  have hcut : ∀ x, S.Cut ig x ↔ LeftZ es (init ++ [n]) ig x := by
    intro x
    refine exists_congr fun a => exists_congr fun m => and_congr_right fun _ => and_congr_right fun _ => ?_
    have hT : S.T (a ++ [m]) = zipTree es (init ++ [n] ++ (a ++ [m])) := if_neg (by simp)
    unfold Source.asDir
    rw [hT]
    cases hv : zipTree es (init ++ [n] ++ (a ++ [m])) with
    | none => simp
    | some o =>
      cases o with
      | dir => simp
      | file d => simp
      | link t => exact absurd hv zipTree_link
  refine ⟨z', a1, a2.held.ok, fun p hp => ?_, fun x hx hL => ?_, fun x hx hL => ?_, a2.held.rest, a2.held.links, a2.file, a2.rest, a2.opened⟩
  · by_cases hpe : p = e
    · rw [hpe]; exact a3
    · exact L.above (k := k') (s := z') hI (by rw [show L.V z' k' e = _ from a3]; simp) p hp hpe
  · refine siteE_none.1 ((a4 x hx).trans ?_)
    exact if_pos ((hcut x).2 hL)
  · have e4 : siteE r z'.sys k' (e ++ x) = zipTree es (init ++ [n] ++ x) := by
      refine (a4 x hx).trans ?_
      refine (if_neg (fun hc => hL ((hcut x).1 hc))).trans ?_
      exact if_neg hx
    exact ⟨by rw [← e4, siteE_dir], fun d => by rw [← e4, siteE_file], by rw [← e4, siteE_none]⟩

end

/-! ## C101: what archives refuse -/

section
variable {X : Str} {es : List Zip.Entry} {z : Zys}

/-- A member cannot be copied through a connection that was not used before: the backend has not opened the archive, and
    the first question raises AttributeError. -/
theorem C101_unopened_refuted (hh : z.handle (zkey X) = none) {p : List Str} (hn : Nm p) (hp : p ≠ []) (dest : Uri) (depth : Nat) (rec : Bool)
    (ig : List Str) (fl : Bool) : uCopy zysOps depth (zat X p) dest rec ig fl z = (.error .attributeError, z) := by
  have h1 : Zip.exists_ (zat X p).path (z.st (zkey X)) = (.error .attributeError, z.st (zkey X)) := by
    have e : z.st (zkey X) = ⟨z.file X, none⟩ := by unfold Zys.st; rw [hh]; rfl
    rw [e, zat_path hn]
    exact (Zip.C61_unopened_refuted (hn.pathOf_ne_root hp)).2.2
  have h2 : uExists zysOps (zat X p) z = (.error .attributeError, z) := (zys_withConn X _ _ _ z).trans (onZip_ask h1)
  refine (zys_withConn X _ _ _ z).trans ?_
  unfold Any.copy
  exact bind_error h2

/-- the connection has no links and refuses to remove anything -/
structure Unremovable {σ : Type} (O : Ops σ) (c : O.Conn) : Prop where
  file : ∀ u z, O.removefile c u z = (.error .notImplemented, z)
  dir : ∀ u z, O.removedir c u z = (.error .notImplemented, z)
  link : ∀ u z, O.islink c u z = (.ok false, z)

/-- in an archive nothing can be removed: a loop over files or directories ends at the first -/
theorem zip_removes {σ : Type} {O : Ops σ} {S : Source O false} (hc : Unremovable O S.c) {z : σ} {x : List Str} :
    ∀ ds fs : List Str, (∀ n ∈ ds, S.T (x ++ [n]) ≠ none) → (∀ n ∈ fs, S.T (x ++ [n]) ≠ none) →
    Any.removeBody O S.c (S.src x) ds fs z = (.ok (), z) ∨ Any.removeBody O S.c (S.src x) ds fs z = (.error .notImplemented, z) := by
  intro ds fs hd hf
  unfold Any.removeBody
  cases fs with
  | cons f fs =>
    right
    have : (OM.lift ((S.src x).div f) >>= fun p => O.removefile S.c p : OM σ Unit) z = (.error .notImplemented, z) := by
      rw [bind_lift (S.div (hf f (by simp)))]
      exact hc.file _ _
    refine bind_error ?_
    exact bind_error this
  | nil =>
    cases ds with
    | nil => left; rfl
    | cons f ds =>
      right
      have : (OM.lift ((S.src x).div f) >>= fun p => (O.islink S.c p >>= fun b =>
          if b then O.removefile S.c p else O.removedir S.c p) : OM σ Unit) z = (.error .notImplemented, z) := by
        rw [bind_lift (S.div (hd f (by simp))), bind_ok (hc.link _ _)]
        exact hc.dir _ _
      refine (bind_ok (s' := z) (a := ()) rfl).trans ?_
      exact bind_error this

/-- removing recursively leaves everything in place -/
theorem zip_remove_walk {σ : Type} {O : Ops σ} {S : Source O false} (hc : Unremovable O S.c) {z : σ} (hz : S.J z) (depth : Nat) : ∀ x : List Str, S.T x = some .dir →
    (∀ y, S.T (x ++ y) = some .dir → y.length < depth) →
    Any.walk O S.c false false (fun (_ : Unit) top dirs files => do
      Any.removeBody O S.c top dirs files
      pure ((), dirs)) depth (S.src x) () z = (.ok (), z) ∨
    Any.walk O S.c false false (fun (_ : Unit) top dirs files => do
      Any.removeBody O S.c top dirs files
      pure ((), dirs)) depth (S.src x) () z = (.error .notImplemented, z) := by
  induction depth with
  | zero => intro x hx hh; exact absurd (hh [] (by rwa [List.append_nil])) (by simp)
  | succ depth ih =>
    intro x hx hh
    rw [S.walk_eq hz hx, if_neg Bool.false_ne_true]
    have loop : ∀ l : List Str, (∀ n ∈ l, n ∈ S.dirs x) →
        Any.walkDirs O false (Any.walk O S.c false false (fun (_ : Unit) top dirs files => do
          Any.removeBody O S.c top dirs files
          pure ((), dirs)) depth) (S.src x) l () z = (.ok (), z) ∨
        Any.walkDirs O false (Any.walk O S.c false false (fun (_ : Unit) top dirs files => do
          Any.removeBody O S.c top dirs files
          pure ((), dirs)) depth) (S.src x) l () z = (.error .notImplemented, z) := by
      intro l
      induction l with
      | nil => intro _; left; rfl
      | cons n l ihl =>
        intro hl
        obtain ⟨hn1, hn2⟩ := S.mem_dirs.1 (hl n (by simp))
        obtain ⟨o, ho⟩ := Option.ne_none_iff_exists'.1 hn1
        obtain ⟨b, hb1, hb2⟩ := S.islink hz ho
        have rest := ihl fun m hm => hl m (by simp [hm])
        unfold Any.walkDirs
        rw [bind_lift (S.div hn1), bind_ok hb1]
        cases b with
        | true =>
          rw [Bool.not_true, Bool.false_or, if_neg Bool.false_ne_true]
          exact rest
        | false =>
          rw [Bool.not_false, Bool.true_or, if_pos rfl]
          have hdir : S.T (x ++ [n]) = some .dir := by
            rw [ho]
            cases o with
            | dir => rfl
            | file d => unfold Source.asDir at hn2; rw [ho] at hn2; simp at hn2
            | link t => simp at hb2
          rcases ih (x ++ [n]) hdir (fun y hy => by
              have := hh (n :: y) (by simpa using hy)
              simp at this; omega) with h | h
          · rw [bind_ok h]; exact rest
          · rw [bind_error h]; exact .inr rfl
    rcases loop (S.dirs x) fun n hn => hn with h | h
    · rw [bind_ok h]
      rcases zip_removes (z := z) hc (x := x) (S.dirs x) (S.files x) (fun n hn => (S.mem_dirs.1 hn).1) (fun n hn => (S.mem_files.1 hn).1) with g | g
      · left
        refine (bind_ok (s' := z) (a := ((), S.dirs x)) ((bind_ok g).trans rfl)).trans rfl
      · right
        refine bind_error (bind_error g)
    · rw [bind_error h]; exact .inr rfl

/-- What is in an archive cannot be removed: NotImplementedError, and nothing changes. -/
theorem C101_remove (hX : ConnOk X) (ho : Opened z X es) {p : List Str} (hp : p ≠ []) (hv : zipTree es p ≠ none) {depth : Nat} {rec : Bool}
    (hrec : rec = true → Tidy es p ∧ 0 < depth ∧ ∀ x, zipTree es (p ++ x) = some .dir → x.length < depth) :
    uRemove zysOps depth (zat X p) rec z = (.error .notImplemented, z) := by
  have hn := zipTree_nm hv
  obtain ⟨e, he, t, h1, h2⟩ := zipTree_entry hp hv
  have hor : (∃ e ∈ es, e.name = slash p) ∨ Below es p := by
    rcases h2 with rfl | ⟨r, rfl⟩
    · exact .inl ⟨e, he, by simpa using h1⟩
    · exact .inr ⟨e, he, r, h1⟩
  refine (zys_withConn X _ _ _ z).trans ?_
  refine (bind_ok (s' := z) (a := false) rfl).trans ?_
  rw [if_neg Bool.false_ne_true]
  refine (bind_ok (opened_exists ho hn hp hor)).trans ?_
  rw [Bool.not_true, if_neg Bool.false_ne_true]
  refine (bind_ok (opened_isdir ho hn hp)).trans ?_
  by_cases hb : Below es p
  · rw [decide_eq_true hb, if_pos rfl]
    cases rec with
    | false => rfl
    | true =>
      obtain ⟨ht, hd, hh⟩ := hrec rfl
      rw [if_pos rfl]
      let S := zipSource false hX (· = z) (fun h => by rw [h]; exact ho) ht hn (.inr hb)
      have hsrc : S.src [] = zat X p := by show zat X (p ++ []) = _; rw [List.append_nil]
      have hw := zip_remove_walk (S := S) (z := z) ⟨fun _ _ => rfl, fun _ _ => rfl, fun _ _ => rfl⟩ rfl depth [] rfl (fun y hy => by
        rw [List.nil_append] at hy
        by_cases h0 : y = []
        · rw [h0]; exact hd
        · exact hh y ((if_neg h0 : S.T y = _).symm.trans hy))
      rw [hsrc] at hw
      unfold Any.removeDirRec
      rcases hw with h | h
      · exact (bind_ok h).trans rfl
      · exact bind_error h
  · rw [decide_eq_false hb, if_neg Bool.false_ne_true]
    refine (bind_ok (opened_isfile ho hn hp (hor.resolve_right hb))).trans ?_
    rfl

end

section
variable {ι : Type} {E : ι → Dict} {r : ι → Nat} {X : Str} {es : List Zip.Entry} {z : Zys}

/-- Moving a member out of an archive copies it, and then raises NotImplementedError. -/
theorem C101_move_refuted (hr : Function.Injective r) (h : SysOk E r z.sys) (hX : ConnOk X) (ho : Opened z X es) {k' : Option ι} {init ds e : List Str}
    {n m : Str} {d : Bytes} (hv : zipTree es (init ++ [n]) = some (.file d)) (hds : Nm ds) (he : Nm (e ++ [m]))
    (ht : FileTarget (siteV r z.sys k') ds n (e ++ [m])) (hp : siteV r z.sys k' e = some .dir)
    (hfree : siteV r z.sys k' (e ++ [m]) = none ∨ isF (siteV r z.sys k' (e ++ [m])) = true) (depth : Nat) :
    ∃ z', uMove zysOps depth (zat X (init ++ [n])) (siteAt E k' ds) z = (.error .notImplemented, z') ∧
      siteV r z'.sys k' (e ++ [m]) = some (.file d) ∧ z'.file = z.file ∧ Opened z' X es := by
  obtain ⟨z', a1, -, a2, -, -, a3, -, a4⟩ := C101_copy_file hr h ho hv hds he ht hp hfree (ig := []) true depth
  have a5 := C101_remove hX a4 (p := init ++ [n]) (depth := depth) (rec := false) (by simp) (by rw [hv]; simp) (by simp)
  obtain ⟨hp0, hn, en, hen, -⟩ := zipTree_file hv
  have e2 : uIsfile zysOps (zat X (init ++ [n])) z = (.ok true, z) :=
    (zys_withConn X _ _ _ z).trans (opened_isfile ho hn (by simp) ⟨en, getinfo_mem hen⟩)
  refine ⟨z', ?_, a2, a3, a4⟩
  refine (zys_withConn X _ _ _ z).trans ?_
  show Any.move zysOps depth _ _ z = _
  unfold Any.move
  rw [bind_ok e2, if_pos rfl, bind_ok a1]
  exact a5

end

/-! ## C102: writing -/

section
variable {es : List Zip.Entry} {d : Bytes}

theorem below_added {e p : List Str} (he : Nm e) (hp : Nm p) : Below (es ++ [⟨slash e, d⟩]) p ↔ Below es p ∨ p <+: e ∧ p ≠ e := by
  unfold Any.Below
  constructor
  · rintro ⟨x, hx, rest, hr⟩
    rcases List.mem_append.1 hx with hx | hx
    · exact .inl ⟨x, hx, rest, hr⟩
    · rw [List.mem_singleton] at hx
      subst hx
      have hr' : slash p ++ '/' :: rest = slash e ++ [] := by rw [List.append_nil]; exact hr.symm
      refine .inr ⟨slash_le hp.noSlash (fun c hc => (he.noSlash c hc).2) (.inr ⟨_, rfl⟩) (.inl rfl) hr', ?_⟩
      rintro rfl
      simp at hr'
  · rintro (⟨x, hx, h⟩ | ⟨⟨y, rfl⟩, h2⟩)
    · exact ⟨x, List.mem_append_left _ hx, h⟩
    · cases y with
      | nil => simp at h2
      | cons n y => exact ⟨_, List.mem_append_right _ (List.mem_singleton.2 rfl), n ++ slash y, by simp [slash_append, slash_cons]⟩

theorem slash_inj' {e p : List Str} (he : Nm e) (hp : Nm p) (h : slash e = slash p) : e = p := by
  have a := slash_le (t := []) (u := []) hp.noSlash (fun c hc => (he.noSlash c hc).2) (.inl rfl) (.inl rfl) (by rw [h])
  have b := slash_le (t := []) (u := []) he.noSlash (fun c hc => (hp.noSlash c hc).2) (.inl rfl) (.inl rfl) (by rw [h])
  exact (b.eq_of_length (Nat.le_antisymm b.length_le a.length_le))

/-- What an archive has after the member `e` was written: the member; directories above it, where there was no file; and
    everything else as before. -/
theorem C102_tree {e : List Str} (he : Nm e) (he0 : e ≠ []) : zipTree (es ++ [⟨slash e, d⟩]) e = some (.file d) ∧
    (∀ p, p <+: e → p ≠ e → zipTree (es ++ [⟨slash e, d⟩]) p = some ((zipTree es p).getD .dir)) ∧
    ∀ p, ¬ p <+: e → zipTree (es ++ [⟨slash e, d⟩]) p = zipTree es p := by
  have hfind : ∀ p, Nm p → p ≠ e → (es ++ [(⟨slash e, d⟩ : Zip.Entry)]).reverse.find? (fun x => x.name = slash p) = es.reverse.find? (fun x => x.name = slash p) := by
    intro p hp hne
    rw [List.reverse_append, List.reverse_singleton, List.singleton_append, List.find?_cons_of_neg]
    simpa using fun h => hne (slash_inj' he hp h).symm
  refine ⟨?_, fun p hp hne => ?_, fun p hp => ?_⟩
  · unfold zipTree
    rw [if_neg he0, if_pos he, List.reverse_append, List.reverse_singleton, List.singleton_append, List.find?_cons_of_pos (by simp)]
  · have hnp : Nm p := by obtain ⟨y, rfl⟩ := hp; exact he.of_prefix
    unfold zipTree
    by_cases hp0 : p = []
    · rw [if_pos hp0, if_pos hp0]; rfl
    · rw [if_neg hp0, if_neg hp0, if_pos hnp, if_pos hnp, hfind p hnp hne, if_pos ((below_added he hnp).2 (.inr ⟨hp, hne⟩))]
      cases es.reverse.find? (fun x => x.name = slash p) with
      | some x => rfl
      | none => simp only; split <;> rfl
  · have hne : p ≠ e := fun h => hp (h ▸ List.prefix_refl _)
    have hp0 : p ≠ [] := fun h => hp (h ▸ List.nil_prefix)
    unfold zipTree
    rw [if_neg hp0, if_neg hp0]
    by_cases hnp : Nm p
    · rw [if_pos hnp, if_pos hnp, hfind p hnp hne]
      have : Below (es ++ [⟨slash e, d⟩]) p ↔ Below es p := by rw [below_added he hnp]; simp [hp]
      simp only [this]
    · rw [if_neg hnp, if_neg hnp]

end

section
variable {ι : Type} {E : ι → Dict} {r : ι → Nat} {X : Str} {es : List Zip.Entry} {z : Zys}

/-- The state after the member `e` with the data `d` was written to the archive `X`, which had the entries `es`: the archive
    has one more entry, the other archives and all files of the other backends are as before. -/
structure Wrote (E : ι → Dict) (r : ι → Nat) (X : Str) (es : List Zip.Entry) (e : List Str) (d : Bytes) (z z' : Zys) : Prop where
  ok : SysOk E r z'.sys
  same : siteV r z'.sys = siteV r z.sys
  links : LinksStay z.sys z'.sys
  file : ∀ Y, z'.file Y = if Y = X then .archive (es ++ [⟨slash e, d⟩]) else z.file Y
  rest : ∀ k, k ≠ zkey X → z'.handle k = z.handle k
  opened : Opened z' X (es ++ [⟨slash e, d⟩])

theorem wrote_of {s' : Sys} {e : List Str} {d : Bytes} (h1 : SysOk E r s') (h2 : siteV r s' = siteV r z.sys) (h3 : LinksStay z.sys s') :
    Wrote E r X es e d z ((z.withSys s').putSt (zkey X) (added es (slash e) d)) :=
  ⟨h1, h2, h3, fun _ => rfl, fun _ hk => if_neg hk, if_pos rfl, _, if_pos rfl, rfl, rfl⟩

/-- Copying a file of another backend into the root of an archive, which may be new, or not used before. -/
theorem C102_copy_root (hr : Function.Injective r) (h : SysOk E r z.sys) (hX : ConnOk X) (hs : Zip.Ok (z.st (zkey X))) (hd : z.file X ≠ .dir)
    {k : Option ι} {init ig : List Str} {n : Str} {d : Bytes} (hn : Nm (init ++ [n])) (hn1 : Nm [n]) (hv : siteV r z.sys k (init ++ [n]) = some (.file d))
    (hz : '\x00' ∉ n) (fl : Bool) (depth : Nat) :
    ∃ z', uCopy zysOps depth (siteAt E k (init ++ [n])) (zat X []) false ig fl z = (.ok (), z') ∧
      Wrote E r X (Zip.stored (z.st (zkey X))) [n] d z z' := by
  have hb : uIsdir zysOps (zat X []) z = (.ok true, z) := (zys_withConn X _ _ _ z).trans (onZip_ask (Zip.C61_root _).2.1)
  obtain ⟨s', h1, h2, h3, h4⟩ := zip_copyTo (depth := depth) (fl := fl) (ig := ig) h hr hn hv hX hs hd hb (by simpa using hn1) (by simp) (by simpa [slash] using hz)
  exact ⟨_, h1, wrote_of h2 h3 h4⟩

/-- where a file goes that is copied to an archive: into a directory, under its name, or to the name given -/
inductive ZipTarget (es : List Zip.Entry) (ds : List Str) (n : Str) : List Str → Prop
  | into : Below es ds → ZipTarget es ds n (ds ++ [n])
  | at_ : ¬ Below es ds → ZipTarget es ds n ds

/-- Copying a file of another backend to a path in an archive that was used before. -/
theorem C102_copy (hr : Function.Injective r) (h : SysOk E r z.sys) (hX : ConnOk X) (ho : Opened z X es)
    {k : Option ι} {init ds e ig : List Str} {n : Str} {d : Bytes} (hn : Nm (init ++ [n])) (hv : siteV r z.sys k (init ++ [n]) = some (.file d))
    (hds : Nm ds) (hds0 : ds ≠ []) (he : Nm e) (ht : ZipTarget es ds n e) (hz : '\x00' ∉ slash e) (fl : Bool) (depth : Nat) :
    ∃ z', uCopy zysOps depth (siteAt E k (init ++ [n])) (zat X ds) false ig fl z = (.ok (), z') ∧ Wrote E r X es e d z z' := by
  have hs : Zip.Ok (z.st (zkey X)) := by
    obtain ⟨h1, g, h2, h3, h4⟩ := ho
    intro g' hg'
    have : some g = some g' := h2.symm.trans hg'
    cases this
    exact .inl ⟨h4, by rw [h3]; exact h1⟩
  have hst : Zip.stored (z.st (zkey X)) = es := by
    unfold Zip.stored
    rw [show (z.st (zkey X)).file = .archive es from ho.1]
  have hb : uIsdir zysOps (zat X ds) z = (.ok (decide (Below es ds)), z) := (zys_withConn X _ _ _ z).trans (opened_isdir ho hds hds0)
  have he' : (if decide (Below es ds) = true then ds ++ [n] else ds) = e := by
    cases ht with
    | into h => rw [if_pos (by simpa using h)]
    | at_ h => rw [if_neg (by simpa using h)]
  have he0 : e ≠ [] := by
    cases ht with
    | into h => simp
    | at_ h => exact hds0
  obtain ⟨s', h1, h2, h3, h4⟩ := zip_copyTo (depth := depth) (fl := fl) (ig := ig) h hr hn hv hX hs (by rw [ho.1]; simp) hb (by rwa [he'])
    (by rwa [he']) (by rwa [he'])
  rw [he', hst] at h1
  exact ⟨_, h1, wrote_of h2 h3 h4⟩

/-- What was copied into an archive and out again has the same bytes. -/
theorem C102_roundtrip (hr : Function.Injective r) (h : SysOk E r z.sys) (hX : ConnOk X) (ho : Opened z X es)
    {k k' : Option ι} {init ds c : List Str} {n m : Str} {d : Bytes} (hn : Nm (init ++ [n])) (hv : siteV r z.sys k (init ++ [n]) = some (.file d))
    (he : Nm (ds ++ [m])) (hb : ¬ Below es (ds ++ [m])) (hz : '\x00' ∉ slash (ds ++ [m])) (hc : Nm (c ++ [m])) (hp : siteV r z.sys k' c = some .dir)
    (hnew : siteV r z.sys k' (c ++ [m]) = none) (depth : Nat) :
    ∃ z1 z2, uCopy zysOps depth (siteAt E k (init ++ [n])) (zat X (ds ++ [m])) false [] true z = (.ok (), z1) ∧
      uCopy zysOps depth (zat X (ds ++ [m])) (siteAt E k' c) false [] true z1 = (.ok (), z2) ∧ siteV r z2.sys k' (c ++ [m]) = some (.file d) := by
  obtain ⟨z1, a1, a2⟩ := C102_copy hr h hX ho (ig := []) hn hv he (by simp) he (.at_ hb) hz true depth
  obtain ⟨z2, b1, -, b2, -⟩ := C101_copy_file (E := E) hr a2.ok a2.opened (k' := k') (init := ds) (n := m) (ds := c) (e := c) (m := m) (d := d) (ig := [])
    (C102_tree he (by simp)).1 hc.of_prefix hc (.into (by rw [a2.same]; exact hp)) (by rw [a2.same]; exact hp)
    (.inl (by rw [a2.same]; exact hnew)) true depth
  exact ⟨z1, z2, a1, b1, b2⟩

/-- Moving a file of another backend into an archive: it is there, and gone where it was. -/
theorem C102_move (hr : Function.Injective r) (h : SysOk E r z.sys) (hX : ConnOk X) (ho : Opened z X es)
    {k : Option ι} {init ds e : List Str} {n : Str} {d : Bytes} (hn : Nm (init ++ [n])) (hv : siteV r z.sys k (init ++ [n]) = some (.file d))
    (hds : Nm ds) (hds0 : ds ≠ []) (he : Nm e) (ht : ZipTarget es ds n e) (hz : '\x00' ∉ slash e) (depth : Nat) :
    ∃ z', uMove zysOps depth (siteAt E k (init ++ [n])) (zat X ds) z = (.ok (), z') ∧ SysOk E r z'.sys ∧
      siteV r z'.sys k (init ++ [n]) = none ∧ (∀ j q, ¬ (j = k ∧ q = init ++ [n]) → siteV r z'.sys j q = siteV r z.sys j q) ∧
      (∀ Y, z'.file Y = if Y = X then .archive (es ++ [⟨slash e, d⟩]) else z.file Y) ∧ Opened z' X (es ++ [⟨slash e, d⟩]) := by
  obtain ⟨z1, a1, a2⟩ := C102_copy hr h hX ho (ig := []) hn hv hds hds0 he ht hz true depth
  let L := zysLaws E r hr (fun f g => f = z1.file ∧ g = z1.handle)
  have hI : SysOk E r z1.sys ∧ z1.file = z1.file ∧ z1.handle = z1.handle := ⟨a2.ok, rfl, rfl⟩
  obtain ⟨z2, b1, ⟨b2, b4, b5⟩, b3⟩ := L.uRemove_file (depth := depth) (rec := false) (k := k) (s := z1) (q := init ++ [n]) (d := d) hI hn
    (by show siteV r z1.sys k (init ++ [n]) = _; rw [a2.same]; exact hv)
  have b3 : siteV r z2.sys = upd (siteV r z1.sys) k (init ++ [n]) none := b3
  let L0 := zysLaws E r hr (fun _ _ => True)
  have hI0 : SysOk E r z.sys ∧ True := ⟨h, trivial⟩
  have hv' : L0.V z k (init ++ [n]) = some (.file d) := hv
  have e2 := L0.uIsfile (k := k) (s := z) hI0 hn (L0.clear_of hI0 (by rw [hv']; simp) (by rw [hv']; simp))
  rw [hv'] at e2
  refine ⟨z2, ?_, b2, by rw [b3]; exact upd_same .., fun j q hq => by rw [b3, upd_ne hq, a2.same], fun Y => by rw [b4]; exact a2.file Y, ?_⟩
  · refine (zsite_withConn h hn _ _).trans ?_
    have hm : Any.move zysOps depth (siteAt E k (init ++ [n])) (zat X ds) z = (.ok (), z2) := by
      unfold Any.move
      refine (bind_ok e2).trans ?_
      rw [show Any.isF (some (Any.Kind.file d)) = true from rfl, if_pos rfl]
      exact (bind_ok a1).trans b1
    cases k <;> exact hm
  · obtain ⟨c1, c2⟩ := a2.opened
    exact ⟨by rw [b4]; exact c1, by rw [b5]; exact c2⟩

/-- A tree cannot be copied to a new directory of an archive: directories cannot be made in it.  NotImplementedError, and
    nothing changes. -/
theorem C102_tree_refuted (hr : Function.Injective r) (h : SysOk E r z.sys) (hX : ConnOk X) (ho : Opened z X es) (hne : Below es [])
    {k : Option ι} {init ds e ig : List Str} {n : Str} (hn : Nm (init ++ [n])) (hv : siteV r z.sys k (init ++ [n]) = some .dir)
    (hds : Nm ds) (hds0 : ds ≠ []) (he : Nm e) (ht : ZipTarget es ds n e) (hb : ¬ Below es e) (fl : Bool) {depth : Nat} (hl : e.length ≤ depth) :
    uCopy zysOps depth (siteAt E k (init ++ [n])) (zat X ds) true ig fl z = (.error .notImplemented, z) := by
  let L := zysLaws E r hr (fun _ _ => True)
  have hI : SysOk E r z.sys ∧ True := ⟨h, trivial⟩
  have hv' : L.V z k (init ++ [n]) = some .dir := hv
  have hc := L.clear_dir (k := k) (s := z) hI hv'
  have e1 := L.uExists (k := k) (s := z) hI hn hc
  have e2 := L.uIsdir (k := k) (s := z) hI hn hc
  have e3 := L.uIslink (k := k) (s := z) hI hn hc (by rw [hv']; simp)
  rw [hv'] at e1 e2
  have hb' : uIsdir zysOps (zat X ds) z = (.ok (decide (Below es ds)), z) := (zys_withConn X _ _ _ z).trans (opened_isdir ho hds hds0)
  have he0 : e ≠ [] := by
    cases ht with
    | into h => simp
    | at_ h => exact hds0
  have hm : uMakedirs zysOps depth (zat X e) z = (.error .notImplemented, z) :=
    (zys_withConn X _ _ _ z).trans (zip_makedirs hX ho hne depth e he he0 hb hl)
  have fin : (do
      if (← Any.uIslink zysOps (siteAt E k (init ++ [n]))) && !fl then Any.copyLink zysOps (.sys (siteC r k)) (siteAt E k (init ++ [n])) (zat X e)
      else
        Any.uMakedirs zysOps depth (zat X e)
        Any.copyWalk zysOps depth (.sys (siteC r k)) ig fl (siteAt E k (init ++ [n])) (zat X e) : OM Zys Unit) z = (.error .notImplemented, z) := by
    refine (bind_ok e3).trans ?_
    rw [Bool.false_and, if_neg Bool.false_ne_true]
    exact bind_error hm
  refine (zsite_withConn h hn _ _).trans ?_
  unfold Any.copy
  refine (bind_ok e1).trans ?_
  rw [show (some Any.Kind.dir).isSome = true from rfl, Bool.not_true, if_neg Bool.false_ne_true]
  refine (bind_ok e2).trans ?_
  rw [show Any.isD (some Any.Kind.dir) = true from rfl, Bool.not_true, if_neg Bool.false_ne_true]
  refine (bind_ok hb').trans ?_
  cases ht with
  | into h' =>
    rw [decide_eq_true h', if_pos rfl, site_last hn, zat_div hX he]
    exact fin
  | at_ h' =>
    rw [decide_eq_false h', if_neg Bool.false_ne_true]
    exact fin

/-- There are no links in archives: islink answers False, readlink and symlink raise OperationIsNotSupportedOnPlatform; nothing changes. -/
theorem C102_links (X : Str) (cs : List Str) (v : Uri) (z : Zys) : uIslink zysOps (zat X cs) z = (.ok false, z) ∧
    uReadlink zysOps (zat X cs) z = (.error .unsupported, z) ∧ uSymlink zysOps (zat X cs) v z = (.error .unsupported, z) :=
  ⟨zys_withConn X _ _ _ z, zys_withConn X _ _ _ z, zys_withConn X _ _ _ z⟩

/-- Copying a member to another archive writes it, and then raises NotImplementedError: permissions are to be copied. -/
theorem C102_between_refuted {Y : Str} (hXY : X ≠ Y) (hY : ConnOk Y) (ho : Opened z X es) (hs : Zip.Ok (z.st (zkey Y))) (hd : z.file Y ≠ .dir)
    {init ig : List Str} {n : Str} {d : Bytes} (hv : zipTree es (init ++ [n]) = some (.file d)) (hn1 : Nm [n]) (hz : '\x00' ∉ n) (fl : Bool) (depth : Nat) :
    ∃ z', uCopy zysOps depth (zat X (init ++ [n])) (zat Y []) false ig fl z = (.error .notImplemented, z') ∧ z'.sys = z.sys ∧
      ∀ W, z'.file W = if W = Y then .archive (Zip.stored (z.st (zkey Y)) ++ [⟨slash [n], d⟩]) else z.file W := by
  obtain ⟨hp0, hn, en, hen, rfl⟩ := zipTree_file hv
  have hmem : ∃ e ∈ es, e.name = slash (init ++ [n]) := ⟨en, getinfo_mem hen⟩
  have e1 : uExists zysOps (zat X (init ++ [n])) z = (.ok true, z) := (zys_withConn X _ _ _ z).trans (opened_exists ho hn (by simp) (.inl hmem))
  have e2 : uIsfile zysOps (zat X (init ++ [n])) z = (.ok true, z) := (zys_withConn X _ _ _ z).trans (opened_isfile ho hn (by simp) hmem)
  have hb : uIsdir zysOps (zat Y []) z = (.ok true, z) := (zys_withConn Y _ _ _ z).trans (onZip_ask (Zip.C61_root _).2.1)
  have hk : zkey Y ≠ zkey X := fun h => hXY (zkey_inj h).symm
  let z1 : Zys := { z with handle := fun k => if k = zkey X then some ⟨.r, es, false, false⟩ else z.handle k }
  have c1 : uOpenR zysOps (zat X (init ++ [n])) z = (.ok (.zipR (zkey X) en.data), z1) := (zys_withConn X _ _ _ z).trans (opened_openR ho hn hp0 hen)
  have hst : z1.st (zkey Y) = z.st (zkey Y) := by
    show Zip.St.mk _ (if zkey Y = zkey X then _ else _) = _
    rw [if_neg hk]
    rfl
  obtain ⟨t, c2, c3⟩ := zip_openW (z := z1) (X := Y) (e := [n]) (by rw [hst]; exact hs) hd hn1 (by simp) (by simpa [slash] using hz)
  have c4 := c3 z.sys en.data none
  rw [hst] at c4
  have hcc : Any.copyContent zysOps (zat X (init ++ [n])) (zat Y [n]) z =
      (.ok (), (z1.withSys z.sys).putSt (zkey Y) (added (Zip.stored (z.st (zkey Y))) (slash [n]) en.data)) := by
    unfold Any.copyContent
    rw [bind_ok c1, bind_ok c2]
    show (if X = Y then OM.raise .outside else leave (zkey Y) (slash [n]) (en.data, none) : OM Zys Unit) (z1.putSt (zkey Y) t) = _
    rw [if_neg hXY]
    exact c4
  refine ⟨(z1.withSys z.sys).putSt (zkey Y) (added (Zip.stored (z.st (zkey Y))) (slash [n]) en.data), ?_, ?_, ?_⟩
  · refine (zys_withConn X _ _ _ z).trans ?_
    unfold Any.copy
    refine (bind_ok e1).trans ?_
    rw [Bool.not_true, if_neg Bool.false_ne_true, Bool.not_false, if_pos rfl]
    refine (bind_ok e2).trans ?_
    rw [Bool.not_true, if_neg Bool.false_ne_true]
    refine (bind_ok hb).trans ?_
    rw [if_pos rfl, zat_last hn, zat_div hY (cs := []) (n := n) hn1]
    show Any.copyOne zysOps (.zip (zkey X)) (zat X (init ++ [n])) (zat Y [n]) fl z = _
    unfold Any.copyOne
    refine (bind_ok opened_uIslink).trans ?_
    rw [Bool.false_and, if_neg Bool.false_ne_true]
    refine (bind_ok hcc).trans ?_
    rfl
  · rfl
  · intro W; rfl

end

/-! ## An archive beside the sample -/

/-- the sample archive -/
def wX : Str := cl!"file:///w.zip"

/-- /abc/x, written twice, /abc/b/y and /c -/
def wEs : List Zip.Entry := [⟨cl!"/abc/x", [1]⟩, ⟨cl!"/abc/b/y", [2, 3]⟩, ⟨cl!"/c", [4]⟩, ⟨cl!"/abc/x", [5]⟩]

/-- the archive and the files of the sample, before the archive was used -/
def wZ0 : Zys := ⟨sampleSys, fun c => if c = wX then .archive wEs else .missing, fun _ => none⟩

/-- after its root was listed -/
def wZ : Zys := ⟨sampleSys, fun c => if c = wX then .archive wEs else .missing, fun k => if k = zkey wX then some ⟨.r, wEs, false, false⟩ else none⟩

theorem wX_ok : ConnOk wX := by decide +kernel

theorem wZ_opened : Opened wZ wX wEs :=
  opened_of ⟨.archive wEs, [.listdir ['/']], by decide +kernel⟩ (by decide +kernel) rfl

theorem wV_ok : Zip.Ok (wZ.st (zkey cl!"file:///v.zip")) := by
  have : (wZ.st (zkey cl!"file:///v.zip")).handle = none := by decide +kernel
  intro h hh
  rw [this] at hh
  cases hh

theorem wZ0_ok : Zip.Ok (wZ0.st (zkey wX)) := by intro h hh; cases hh

/-- how to see that an archive is tidy -/
theorem tidy_of {es : List Zip.Entry} {src : List Str}
    (h1 : ∀ e ∈ es, slash src ++ ['/'] <+: e.name → Nm (src ++ (comps e.name).drop src.length) ∧
      ((comps e.name).drop src.length ≠ [] ∧ e.name = slash (src ++ (comps e.name).drop src.length) ∨
        e.name = slash (src ++ (comps e.name).drop src.length) ++ cl!"/"))
    (h2 : ∀ e ∈ es, ∀ e' ∈ es, ¬ e.name ++ ['/'] <+: e'.name) (h3 : ∀ e ∈ es, e.name.head? = some '/') : Tidy es src := by
  refine ⟨fun e he rest hr => ⟨_, h1 e he ⟨rest, by rw [hr]; simp⟩⟩, fun cs _ _ ⟨e, he, h⟩ ⟨e', he', rest, hr⟩ => ?_, fun _ e he => ?_⟩
  · exact h2 e he e' he' ⟨rest, by rw [hr, h]; simp⟩
  · have := h3 e he
    cases hn : e.name with
    | nil => rw [hn] at this; simp at this
    | cons c r => rw [hn] at this; simp at this; exact ⟨r, by rw [this]⟩

/-- what there is in an archive is on the way to an entry -/
theorem tree_prefix {es : List Zip.Entry} {p : List Str}
    (hf : ∀ e ∈ es, Nm (comps e.name) ∧ (e.name = slash (comps e.name) ∨ e.name = slash (comps e.name) ++ cl!"/")) (hp : p ≠ [])
    (h : zipTree es p ≠ none) : ∃ e ∈ es, p <+: comps e.name := by
  obtain ⟨e, he, t, h1, h2⟩ := zipTree_entry hp h
  refine ⟨e, he, ?_⟩
  obtain ⟨h3, h4⟩ := hf e he
  rcases h4 with h4 | h4
  · exact slash_le (u := []) (zipTree_nm h).noSlash (fun c hc => (h3.noSlash c hc).2) h2 (.inl rfl) (by rw [← h1, List.append_nil]; exact h4)
  · exact slash_le (zipTree_nm h).noSlash (fun c hc => (h3.noSlash c hc).2) h2 (.inr rfl) (h1.symm.trans h4)

theorem wEs_names : ∀ e ∈ wEs, Nm (comps e.name) ∧ (e.name = slash (comps e.name) ∨ e.name = slash (comps e.name) ++ cl!"/") := by decide +kernel

theorem wEs_depth {src x : List Str} (h : zipTree wEs (src ++ x) = some .dir) : x.length < 100 := by
  by_cases hx : x = []
  · rw [hx]; decide
  · obtain ⟨e, he, hp⟩ := tree_prefix wEs_names (p := src ++ x) (by simp [hx]) (by rw [h]; simp)
    have h1 := hp.length_le
    have h2 : (comps e.name).length < 100 := (show ∀ e ∈ wEs, (comps e.name).length < 100 by decide +kernel) e he
    rw [List.length_append] at h1
    omega

theorem wEs_tidy : Tidy wEs [] := tidy_of (by decide +kernel) (by decide +kernel) (by decide +kernel)
theorem wEs_tidy' : Tidy wEs ([] ++ [cl!"abc"]) := tidy_of (by decide +kernel) (by decide +kernel) (by decide +kernel)

/-- walking the archive, which was not used before -/
example : ∃ z' ps rows, uWalk zysOps 100 (zat wX []) true true wZ0 = (.ok rows, z') ∧
    List.Forall₂ (fun p row => ZipRow wEs wX ([] ++ p) row) ps rows ∧ [cl!"abc", cl!"b"] ∈ ps := by
  obtain ⟨z', ps, rows, h1, h2, h3, -⟩ := C101_walk wX_ok wZ0_ok rfl wEs_tidy (by decide +kernel) (.inl rfl) (depth := 100) (by decide)
    (fun x hx => wEs_depth hx) true true
  exact ⟨z', ps, rows, h1, h2, (h3 _).2 (.inr (by decide +kernel))⟩

example : (uWalk zysOps 100 (zat wX []) true true wZ0).1 =
    .ok [(zat wX [], [cl!"abc"], [cl!"c"]), (zat wX [cl!"abc"], [cl!"b"], [cl!"x"]), (zat wX [cl!"abc", cl!"b"], [], [cl!"y"])] := by decide +kernel

example : ∃ z', uGlob zysOps (zat wX [cl!"abc"]) (fun n => n = cl!"x") wZ0 = (.ok [zat wX [cl!"abc", cl!"x"]], z') := by
  obtain ⟨z', l, h1, h2, h3, -⟩ := C101_glob (src := [cl!"abc"]) wX_ok wZ0_ok rfl wEs_tidy' (by decide +kernel) (.inr (by decide +kernel))
    (fun n => n = cl!"x")
  have : l = [cl!"x"] := by
    have hm : ∀ n, n ∈ l ↔ n = cl!"x" := fun n => (h3 n).trans ⟨fun h => by simpa using h.1, fun h => by subst h; decide +kernel⟩
    cases l with
    | nil => exact absurd ((hm _).2 rfl) (by simp)
    | cons a l =>
      obtain rfl := (hm a).1 (by simp)
      cases l with
      | nil => rfl
      | cons b l =>
        obtain rfl := (hm b).1 (by simp)
        exact absurd rfl ((List.pairwise_cons.1 h2).1 cl!"x" (by simp)).2
  subst this
  exact ⟨z', h1⟩

example : ∃ z' bs, uMd5 zysOps (zat wX [cl!"abc", cl!"x"]) wZ = (.ok bs, z') ∧ bs.flatten = [5] := by
  obtain ⟨z', bs, h1, h2, -⟩ := C101_md5 wZ_opened (p := [cl!"abc", cl!"x"]) (d := [5]) (by decide +kernel)
  exact ⟨z', bs, h1, h2⟩

/-- /abc/x of the archive to the local directory /t/d -/
example : ∃ z', uCopy zysOps 100 (zat wX [cl!"abc", cl!"x"]) (sAt none [cl!"t", cl!"d"]) false [] true wZ = (.ok (), z') ∧
    siteV (fun _ : Unit => 0) z'.sys none [cl!"t", cl!"d", cl!"x"] = some (.file [5]) := by
  obtain ⟨z', h1, -, h2, -⟩ := C101_copy_file unit_inj sampleSys_ok wZ_opened (k' := none) (init := [cl!"abc"]) (n := cl!"x") (ds := [cl!"t", cl!"d"])
    (e := [cl!"t", cl!"d"]) (m := cl!"x") (d := [5]) (ig := []) (by decide +kernel) (by decide +kernel) (by decide +kernel) (.into (by decide +kernel))
    (by decide +kernel) (.inl (by decide +kernel)) true 100
  exact ⟨z', h1, h2⟩

/-- /abc of the archive to /n in memory, without /abc/b -/
example : ∃ z', uCopy zysOps 100 (zat wX [cl!"abc"]) (sAt (some ()) [cl!"n"]) true [cl!"b"] true wZ = (.ok (), z') ∧
    siteV (fun _ : Unit => 0) z'.sys (some ()) [cl!"n", cl!"x"] = some (.file [5]) ∧
    siteV (fun _ : Unit => 0) z'.sys (some ()) [cl!"n", cl!"b", cl!"y"] = none := by
  obtain ⟨z', h1, -, -, h2, h3, -⟩ := C101_copy_tree unit_inj sampleSys_ok wX_ok wZ_opened (k' := some ()) (init := []) (n := cl!"abc") (ds := [cl!"n"])
    (e := [cl!"n"]) wEs_tidy' (by decide +kernel) (by decide +kernel) (fun x m hx => by
      obtain ⟨e, he, hp⟩ := tree_prefix wEs_names (p := [] ++ [cl!"abc"] ++ (x ++ [m])) (by simp) (by rw [hx]; simp)
      exact (show ∀ e ∈ wEs, ∀ c ∈ comps e.name, Trimmed c by decide +kernel) e he m (hp.subset (by simp))) (by decide +kernel) (by decide +kernel) (.new (by decide +kernel))
    (all_prefixes (by decide +kernel)) (by decide +kernel) (depth := 100) (by decide) (fun x hx => wEs_depth hx) [cl!"b"] true
  refine ⟨z', h1, ((h3 [cl!"x"] (by simp) ?_).2.1 [5]).2 (by decide +kernel), h2 [cl!"b", cl!"y"] (by simp) ⟨[], cl!"b", by simp, by simp, by decide +kernel⟩⟩
  rintro ⟨a, m, hp, hm, -⟩
  rw [List.mem_singleton] at hm
  subst hm
  have := hp.subset (show cl!"b" ∈ a ++ [cl!"b"] by simp)
  simp at this

example : uCopy zysOps 100 (zat wX [cl!"c"]) (sAt none [cl!"n"]) false [] true wZ0 = (.error .attributeError, wZ0) :=
  C101_unopened_refuted rfl (by decide +kernel) (by simp) _ _ _ _ _

example : uRemove zysOps 100 (zat wX [cl!"abc"]) true wZ = (.error .notImplemented, wZ) :=
  C101_remove wX_ok wZ_opened (by simp) (by decide +kernel) fun _ => ⟨wEs_tidy', by decide, fun x hx => wEs_depth hx⟩

example : ∃ z', uMove zysOps 100 (zat wX [cl!"c"]) (sAt none [cl!"t"]) wZ = (.error .notImplemented, z') ∧
    siteV (fun _ : Unit => 0) z'.sys none [cl!"t", cl!"c"] = some (.file [4]) := by
  obtain ⟨z', h1, h2, -⟩ := C101_move_refuted unit_inj sampleSys_ok wX_ok wZ_opened (k' := none) (init := []) (n := cl!"c") (ds := [cl!"t"])
    (e := [cl!"t"]) (m := cl!"c") (d := [4]) (by decide +kernel) (by decide +kernel) (by decide +kernel) (.into (by decide +kernel))
    (by decide +kernel) (.inl (by decide +kernel)) 100
  exact ⟨z', h1, h2⟩

/-- Copying a whole archive cuts the first letter off the names in its root that are directories: /abc/x arrives as
    /n/bc/x, without any error, and /n/abc is empty. -/
theorem C101_root_refuted : ∃ z, Opened z wX wEs ∧ SysOk (fun _ : Unit => []) (fun _ => 0) z.sys ∧
    siteV (fun _ : Unit => 0) z.sys none [cl!"n"] = none ∧
    (uCopy zysOps 100 (zat wX []) (sAt none [cl!"n"]) true [] true z).1 = .ok () ∧
    siteV (fun _ : Unit => 0) (uCopy zysOps 100 (zat wX []) (sAt none [cl!"n"]) true [] true z).2.sys none [cl!"n", cl!"abc", cl!"x"] = none ∧
    siteV (fun _ : Unit => 0) (uCopy zysOps 100 (zat wX []) (sAt none [cl!"n"]) true [] true z).2.sys none [cl!"n", cl!"bc", cl!"x"] = some (.file [5]) :=
  ⟨wZ, wZ_opened, sampleSys_ok, by decide +kernel, by decide +kernel, by decide +kernel, by decide +kernel⟩

/-- the local /t/g to a new archive -/
example : ∃ z', uCopy zysOps 100 (sAt none [cl!"t", cl!"g"]) (zat cl!"file:///v.zip" []) false [] true wZ = (.ok (), z') ∧
    z'.file cl!"file:///v.zip" = .archive [⟨cl!"/g", [1, 2, 3]⟩] ∧ z'.file wX = .archive wEs := by
  obtain ⟨z', h1, h2⟩ := C102_copy_root unit_inj (z := wZ) sampleSys_ok (X := cl!"file:///v.zip") (by decide +kernel) wV_ok
    (by decide +kernel) (k := none) (init := [cl!"t"]) (n := cl!"g") (d := [1, 2, 3]) (ig := []) (by decide +kernel) (by decide +kernel) (by decide +kernel)
    (by decide +kernel) true 100
  exact ⟨z', h1, (h2.file _).trans (by decide +kernel), (h2.file _).trans (by decide +kernel)⟩

/-- /a/f in memory into the directory /abc of the archive; and to the name /abc/x, which is in use -/
example : ∃ z', uCopy zysOps 100 (sAt (some ()) [cl!"a", cl!"f"]) (zat wX [cl!"abc"]) false [] true wZ = (.ok (), z') ∧
    z'.file wX = .archive (wEs ++ [⟨cl!"/abc/f", [104, 105]⟩]) := by
  obtain ⟨z', h1, h2⟩ := C102_copy unit_inj sampleSys_ok wX_ok wZ_opened (k := some ()) (init := [cl!"a"]) (n := cl!"f") (ds := [cl!"abc"])
    (e := [cl!"abc", cl!"f"]) (d := [104, 105]) (ig := []) (by decide +kernel) (by decide +kernel) (by decide +kernel) (by simp) (by decide +kernel)
    (.into (by decide +kernel)) (by decide +kernel) true 100
  exact ⟨z', h1, (h2.file _).trans (by decide +kernel)⟩

example : ∃ z', uCopy zysOps 100 (sAt (some ()) [cl!"a", cl!"f"]) (zat wX [cl!"abc", cl!"x"]) false [] true wZ = (.ok (), z') ∧
    ∃ es, Opened z' wX es ∧ zipTree es [cl!"abc", cl!"x"] = some (.file [104, 105]) ∧ zipTree es [cl!"c"] = some (.file [4]) := by
  obtain ⟨z', h1, h2⟩ := C102_copy unit_inj sampleSys_ok wX_ok wZ_opened (k := some ()) (init := [cl!"a"]) (n := cl!"f") (ds := [cl!"abc", cl!"x"])
    (e := [cl!"abc", cl!"x"]) (d := [104, 105]) (ig := []) (by decide +kernel) (by decide +kernel) (by decide +kernel) (by simp) (by decide +kernel)
    (.at_ (by decide +kernel)) (by decide +kernel) true 100
  have h3 := C102_tree (es := wEs) (d := [104, 105]) (e := [cl!"abc", cl!"x"]) (by decide +kernel) (by simp)
  exact ⟨z', h1, _, h2.opened, h3.1, (h3.2.2 [cl!"c"] (by decide +kernel)).trans (by decide +kernel)⟩

example : ∃ z1 z2, uCopy zysOps 100 (sAt none [cl!"t", cl!"g"]) (zat wX [cl!"k", cl!"l"]) false [] true wZ = (.ok (), z1) ∧
    uCopy zysOps 100 (zat wX [cl!"k", cl!"l"]) (sAt (some ()) [cl!"a"]) false [] true z1 = (.ok (), z2) ∧
    siteV (fun _ : Unit => 0) z2.sys (some ()) [cl!"a", cl!"l"] = some (.file [1, 2, 3]) :=
  C102_roundtrip unit_inj sampleSys_ok wX_ok wZ_opened (k := none) (k' := some ()) (init := [cl!"t"]) (n := cl!"g") (ds := [cl!"k"]) (m := cl!"l")
    (c := [cl!"a"]) (d := [1, 2, 3]) (by decide +kernel) (by decide +kernel) (by decide +kernel) (by decide +kernel) (by decide +kernel) (by decide +kernel)
    (by decide +kernel) (by decide +kernel) 100

example : ∃ z', uMove zysOps 100 (sAt none [cl!"t", cl!"g"]) (zat wX [cl!"abc"]) wZ = (.ok (), z') ∧
    siteV (fun _ : Unit => 0) z'.sys none [cl!"t", cl!"g"] = none ∧ z'.file wX = .archive (wEs ++ [⟨cl!"/abc/g", [1, 2, 3]⟩]) := by
  obtain ⟨z', h1, -, h2, -, h3, -⟩ := C102_move unit_inj sampleSys_ok wX_ok wZ_opened (k := none) (init := [cl!"t"]) (n := cl!"g") (ds := [cl!"abc"])
    (e := [cl!"abc", cl!"g"]) (d := [1, 2, 3]) (by decide +kernel) (by decide +kernel) (by decide +kernel) (by simp) (by decide +kernel)
    (.into (by decide +kernel)) (by decide +kernel) 100
  exact ⟨z', h1, h2, (h3 _).trans (by decide +kernel)⟩

example : uCopy zysOps 100 (sAt none [cl!"t"]) (zat wX [cl!"abc"]) true [] true wZ = (.error .notImplemented, wZ) :=
  C102_tree_refuted unit_inj sampleSys_ok wX_ok wZ_opened (by decide +kernel) (k := none) (init := []) (n := cl!"t") (ds := [cl!"abc"])
    (e := [cl!"abc", cl!"t"]) (by decide +kernel) (by decide +kernel) (by decide +kernel) (by simp) (by decide +kernel) (.into (by decide +kernel))
    (by decide +kernel) true (by decide)

example : ∃ z', uCopy zysOps 100 (zat wX [cl!"c"]) (zat cl!"file:///v.zip" []) false [] true wZ = (.error .notImplemented, z') ∧
    z'.file cl!"file:///v.zip" = .archive [⟨cl!"/c", [4]⟩] := by
  obtain ⟨z', h1, -, h2⟩ := C102_between_refuted (Y := cl!"file:///v.zip") (by decide +kernel) (by decide +kernel) wZ_opened
    wV_ok (by decide +kernel) (init := []) (n := cl!"c") (d := [4]) (ig := []) (by decide +kernel) (by decide +kernel)
    (by decide +kernel) true 100
  exact ⟨z', h1, (h2 _).trans (by decide +kernel)⟩

example : (uSymlink zysOps (zat wX [cl!"c"]) (zat wX [cl!"l"]) wZ).1 = .error .unsupported := congrArg Prod.fst (C102_links wX [cl!"c"] _ wZ).2.2

/-! ## C73 for the other backends -/

theorem reserved_any {u : Uri} {k v : Str} (h : (k, v) ∈ u.allExtras) (hk : k ∈ partNames) :
    u.allExtras.any (fun kv => kv.1 ∈ Mem.reservedNames) = true := by
  rw [List.any_eq_true]
  refine ⟨_, h, ?_⟩
  simp only [partNames, List.mem_cons, List.not_mem_nil, or_false] at hk
  simp only [decide_eq_true_eq]
  rcases hk with rfl | rfl | rfl | rfl | rfl | rfl | rfl <;> decide

/-- **C73**: nor can a local URI with such a parameter be used -/
theorem C73_part_name_local {u : Uri} {k v : Str} (h : (k, v) ∈ u.allExtras) (hk : k ∈ partNames) (s : Sys) {α : Type} (m : Mem.Meth)
    (body : Any.Conn → OM Sys α) : Any.withConn sysOps u m body s = (.error .typeError, s) := by
  have h1 : sysConn u s = (.error .typeError, s) := by
    unfold sysConn
    rw [if_pos (reserved_any h hk)]; rfl
  exact Any.bind_error (m := sysConn u) h1

/-- **C73**: nor can a zip URI -/
theorem C73_part_name_zip {u : Uri} {k v : Str} (h : (k, v) ∈ u.allExtras) (hk : k ∈ partNames) (z : Zys) {α : Type} (m : Mem.Meth)
    (body : ZConn → OM Zys α) : Any.withConn zysOps u m body z = (.error .typeError, z) := by
  have h1 : zysConn u z = (.error .typeError, z) := by
    unfold zysConn
    rw [if_pos (reserved_any h hk)]; rfl
  exact Any.bind_error (m := zysConn u) h1

example : (cl!"port", cl!"1") ∈ (uri! cl!"zip://((file:///x.zip))/a?port=1").allExtras ∧
    (Any.uExists zysOps (uri! cl!"zip://((file:///x.zip))/a?port=1") wZ).1 = .error .typeError ∧
    (Any.uExists sysOps (uri! cl!"file:///a?port=1") sampleSys).1 = .error .typeError := by decide +kernel

end Verif.Props
