import Verif.Any.LinkAlg
import Mathlib.Data.List.Nodup
/-!
# A file system of the repository and the plain file system with links: copying

`copy` of fs.py (Verif/Any/Ops.lean), by paths that may lead over links, is that of
Verif/Any/LinkPlain.lean.
-/
namespace Verif.Any
open Verif.Spec Verif.Gen Verif.Props
open Mem (World Meth)

/-! ## Paths after a file was written -/

section
variable {t : LTree}

/-- only directories have something below them -/
def LTree.Wf (t : LTree) : Prop := ∀ a b, b ≠ [] → t.get (a ++ b) ≠ none → t.get a = some .dir

theorem hop_set (wf : t.Wf) {g : List Str} {d : Bytes} (hne : g ≠ []) (hg : t.get g = none ∨ ∃ d, t.get g = some (.file d))
    {jump jump' : List Str → Option (List Str)}
    (hj : ∀ x y, jump x = some y → (t.get y ≠ none ∨ y = g) → jump' x = some y) :
    ∀ (rest cur q : List Str), t.hop jump cur rest = some q → (t.get q ≠ none ∨ q = g) → (t.set g (.file d)).hop jump' cur rest = some q := by
  intro rest
  induction rest with
  | nil => intro cur q e _; exact e
  | cons n rest ih =>
    intro cur q e hq
    rw [LTree.hop] at e ⊢
    rw [LTree.get_set hne]
    by_cases c : cur ++ [n] = g
    · rw [if_pos c]
      dsimp only
      rw [c] at e
      have hgr : cur ++ n :: rest = g ++ rest := by rw [← c]; simp
      rcases hg with hg | ⟨d', hg⟩
      · rw [hg] at e
        dsimp only at e
        rw [hgr] at e
        have e := Option.some.inj e
        have hr : rest = [] := by
          by_contra hr
          rcases hq with hq | hq
          · rw [← e] at hq
            have := wf g rest hr hq
            rw [hg] at this; simp at this
          · rw [hq] at e
            exact hr (by simpa using e)
        rw [if_pos hr, ← e, hr, List.append_nil, c]
      · rw [hg] at e
        dsimp only at e
        split at e
        · rename_i hr; rw [if_pos hr, c]; exact e
        · simp at e
    · rw [if_neg c]
      cases hv : t.get (cur ++ [n]) with
      | none => rw [hv] at e; exact e
      | some o =>
        rw [hv] at e
        cases o with
        | dir => exact ih _ _ e hq
        | file d' => exact e
        | link x =>
          simp only [Option.ite_none_right_eq_some] at e ⊢
          obtain ⟨⟨h1, h2⟩, e⟩ := e
          refine ⟨⟨h1, h2.imp_right fun h2 => ?_⟩, hj _ _ e hq⟩
          cases hx : jump x with
          | none => rw [hx] at h2; simp at h2
          | some z =>
            rw [hx] at h2
            have h3 : (t.get z).isSome = true := h2
            rw [hj x z hx (.inl (by intro c; rw [c] at h3; simp at h3))]
            show ((t.set g (.file d)).get z).isSome = true
            rw [LTree.get_set hne]
            split
            · rfl
            · exact h3

/-- a path that leads to something, or to the new file, leads there after it was written -/
theorem lead_set (wf : t.Wf) {g : List Str} {d : Bytes} (hne : g ≠ []) (hg : t.get g = none ∨ ∃ d, t.get g = some (.file d)) :
    ∀ (j : Nat) (p q : List Str), t.lead j p = some q → (t.get q ≠ none ∨ q = g) → (t.set g (.file d)).lead j p = some q
  | 0, p, q, e, hq => hop_set wf hne hg (fun _ _ h => by simp at h) p [] q e hq
  | j + 1, p, q, e, hq => hop_set wf hne hg (fun x y h h' => lead_set wf hne hg j x y h h') p [] q e hq

theorem lhop_snoc (wf : t.Wf) {a : List Str} {n : Str} (ha : t.get a = some .dir)
    (hv : t.get (a ++ [n]) = none ∨ ∃ d, t.get (a ++ [n]) = some (.file d)) (hn : Nm (a ++ [n]))
    {jump : List Str → Option (List Str)} (h0 : ∀ y, jump [] = some y → y = [])
    (hj : ∀ x, jump x = some a → jump (x ++ [n]) = some (a ++ [n])) :
    ∀ (rest cur : List Str), t.hop jump cur rest = some a → t.hop jump cur (rest ++ [n]) = some (a ++ [n]) := by
  intro rest
  induction rest with
  | nil =>
    intro cur e
    have e := Option.some.inj e
    subst e
    show t.hop jump cur [n] = _
    rw [LTree.hop]
    rcases hv with hv | ⟨d, hv⟩
    · rw [hv]
    · rw [hv]; simp
  | cons m rest ih =>
    intro cur e
    rw [List.cons_append]
    rw [LTree.hop] at e ⊢
    cases hc : t.get (cur ++ [m]) with
    | none =>
      rw [hc] at e
      have e := Option.some.inj e
      exfalso
      by_cases hr : rest = []
      · rw [hr] at e; rw [e, ha] at hc; simp at hc
      · have := wf (cur ++ [m]) rest hr (by rw [List.append_assoc]; show t.get (cur ++ m :: rest) ≠ none; rw [e, ha]; simp)
        rw [hc] at this; simp at this
    | some o =>
      rw [hc] at e
      cases o with
      | dir => exact ih _ e
      | file d =>
        dsimp only at e
        split at e
        · rw [Option.some.inj e, ha] at hc; simp at hc
        · simp at e
      | link x =>
        simp only [Option.ite_none_right_eq_some] at e ⊢
        obtain ⟨⟨h1, h2⟩, e⟩ := e
        rw [← List.append_assoc]
        refine ⟨⟨?_, .inr ?_⟩, hj _ e⟩
        · by_cases hx : x ++ rest = []
          · rw [hx] at e ⊢
            rw [h0 a e] at hn
            exact hn
          · exact h1.snoc hn hx
        · rcases h2 with h2 | h2
          · rw [h2, List.append_nil] at e
            rw [e]
            show (t.get a).isSome = true
            rw [ha]; rfl
          · exact h2

theorem lead_snoc (wf : t.Wf) {a : List Str} {n : Str} (ha : t.get a = some .dir)
    (hv : t.get (a ++ [n]) = none ∨ ∃ d, t.get (a ++ [n]) = some (.file d)) (hn : Nm (a ++ [n])) :
    ∀ (j : Nat) (p : List Str), t.lead j p = some a → t.lead j (p ++ [n]) = some (a ++ [n])
  | 0, p, e => lhop_snoc wf ha hv hn (by simp) (fun x h => by simp at h) p [] e
  | j + 1, p, e => lhop_snoc wf ha hv hn (fun y h => by
      have : t.lead j [] = some [] := by cases j <;> rfl
      rw [this] at h
      exact (Option.some.inj h).symm) (fun x h => lead_snoc wf ha hv hn j x h) p [] e

end

section
variable {ι : Type} {E : ι → Dict} {r : ι → Nat} {k : Option ι} {F : Others ι} {t : LTree} {s : Sys}

theorem LRel.wf (h : LRel E r k F t s) : t.Wf := fun a b hb hc =>
  h.isDir (site_dirs h.ok (h.held hc) (List.prefix_append _ _) (by simpa using hb))

/-! ## Opening for writing -/

/-- opening by a path for writing -/
inductive OpenW {ι : Type} (E : ι → Dict) (r : ι → Nat) (k : Option ι) (t : LTree) (s : Sys) (p : List Str) : Prop
  | out : (∀ d, lWrite p d t = (.error .outside, t)) → OpenW E r k t s p
  | err (e) : (∀ d, lWrite p d t = (.error e, t)) → uOpenW sysOps (siteAt E k p) s = (.error e, s) → OpenW E r k t s p
  | ok (g) : t.goal p = some g → g ≠ [] → (∀ d, lWrite p d t = (.ok (), t.set g (.file d))) → OpenedW E r k g s (uOpenW sysOps (siteAt E k p) s) →
      t.lead 32 p = some g → (t.get g = none ∨ ∃ d, t.get g = some (.file d)) → OpenW E r k t s p

theorem openW_cases (h : LRel E r k F t s) (hr : Function.Injective r) {p : List Str} (hn : Nm p) : OpenW E r k t s p := by
  cases he : t.entry p with
  | none => exact .out fun d => by unfold lWrite; rw [he]
  | some x =>
    obtain ⟨q, n⟩ := x
    obtain ⟨init, rfl, e, hq⟩ := entry_some he
    have w : ∀ d, lWrite (init ++ [n]) d t = _ := fun d => by unfold lWrite; rw [he]
    have gl : t.goal (init ++ [n]) = (match t.get (q ++ [n]) with | some (.link _) => t.lead 32 (init ++ [n]) | _ => some (q ++ [n])) := by
      unfold LTree.goal; rw [he]; rfl
    dsimp only at w
    cases hd : t.get q with
    | none =>
      rw [hd] at w
      exact .err _ w (openW_nodir h hn e hq hd)
    | some o =>
      rw [hd] at w
      cases o with
      | file d => exact .out w
      | link x => exact .out w
      | dir =>
        dsimp only at w
        cases hv : t.get (q ++ [n]) with
        | none =>
          rw [hv] at w gl
          exact .ok _ gl (by simp) w (openW_entry h hr hn e hq hd (.inl hv)) (lead_snoc h.wf hd (.inl hv) hq 32 init e) (.inl hv)
        | some o =>
          rw [hv] at w gl
          cases o with
          | file d =>
            exact .ok _ gl (by simp) w (openW_entry h hr hn e hq hd (.inr ⟨d, hv⟩)) (lead_snoc h.wf hd (.inr ⟨d, hv⟩) hq 32 init e) (.inr ⟨d, hv⟩)
          | dir =>
            obtain ⟨hq', hc, hw⟩ := lead_way h 32 hn.of_prefix e
            refine .err _ w (openW_isdir h hn e hd hv hq (h.clear_in hc (.inl hd) (by rw [h.dir hv]; simp)) ?_ hv)
            cases k with
            | none =>
              obtain ⟨j, hj, hl⟩ := hw
              exact ⟨j, hj, Props.Leads.follow (leads_snoc h.ok.disk hl hn hq)⟩
            | some i =>
              have g := h.goes hn.of_prefix e
              rw [hd] at g
              obtain ⟨o, ho, ho'⟩ := NS.isDir_iff.1 (siteV_dir.1 (h.dir hv))
              exact Goes.snoc (show Goes (view s.mem (r i)) 32 [] init (.found q) from g) (siteV_dir.1 (h.dir hd)) ho
                (by cases o <;> simp_all [Obj.isDir, Obj.isLink])
          | link x =>
            dsimp only at w gl
            cases e' : t.lead 32 (init ++ [n]) with
            | none => rw [e'] at w; exact .out w
            | some q' =>
              rw [e'] at w gl
              dsimp only at w
              cases hv' : t.get q' with
              | none => rw [hv'] at w; exact .out w
              | some o =>
                rw [hv'] at w
                cases o with
                | link x => exact .out w
                | dir =>
                  obtain ⟨hq', hc', hw'⟩ := lead_way h 32 hn e'
                  rw [hv'] at hw'
                  exact .err _ w (openW_isdir h hn e hd hv hq' hc' hw' hv')
                | file d =>
                  exact .ok _ gl (by rintro rfl; simp [LTree.get] at hv') w (openW_link h hr hn e hd hv e' hv') e' (.inr ⟨d, hv'⟩)

/-! ## Copying a file -/

theorem keep_pump (hr : Function.Injective r) {f g : List Str} {inf outf : Hd} {data : Bytes} (hne : g ≠ f) (n : Nat) :
    ∀ {s : Sys} {b : Bytes} {pos : Nat}, SysOk E r s → RdAt r s k f inf data pos → WrAt r s k g outf b →
      Keep E r k g s (pumpLoop inf outf n s).2 := by
  induction n with
  | zero => intro s b pos _ _ _; exact ⟨fun p x _ hl => hl, fun _ _ _ _ => rfl⟩
  | succ n ih =>
    intro s b pos h hrd hwr
    obtain ⟨s1, e1, ok1, v1, rd1, keep1⟩ := read_step h hr hrd 8192
    have k1 : Keep E r k f s s1 := keep_read h hr hrd e1
    have k1' : Keep E r k g s s1 := by
      refine ⟨fun p x hp hl => ?_, k1.2⟩
      refine k1.1 p x ?_ hl
      rintro rfl
      have hv := hrd.siteV
      cases k with
      | none =>
        have hl : s.disk.tree p = some (.link (pathOf x)) := hl
        rw [siteV_lfile] at hv
        rw [hl] at hv
        simp at hv
      | some i =>
        obtain ⟨m, z, hl⟩ := hl
        rw [siteV_file] at hv
        rw [hl] at hv
        simp at hv
    unfold pumpLoop
    rw [bind_ok e1]
    split
    · exact k1'
    · have w1 := keep1 (fun e => hne e.2) hwr
      obtain ⟨s2, e2, ok2, v2, wr2, keep2⟩ := write_step ok1 hr w1 ((data.drop pos).take 8192)
      have k2 : Keep E r k g s1 s2 := keep_write ok1 hr w1 e2
      rw [bind_ok e2]
      exact (k1'.trans k2).trans (ih ok2 (keep2 (fun e => hne e.2.symm) rd1) wr2)

theorem keep_blocks (hr : Function.Injective r) {f : List Str} {inf : Hd} {data : Bytes} (n : Nat) :
    ∀ {s : Sys} {pos : Nat}, SysOk E r s → RdAt r s k f inf data pos → Keep E r k f s (blockLoop inf n s).2 := by
  induction n with
  | zero => intro s pos _ _; exact ⟨fun p x _ hl => hl, fun _ _ _ _ => rfl⟩
  | succ n ih =>
    intro s pos h hrd
    obtain ⟨s1, e1, ok1, v1, rd1, -⟩ := read_step h hr hrd 4096
    have k1 : Keep E r k f s s1 := keep_read h hr hrd e1
    unfold blockLoop
    rw [bind_ok e1]
    dsimp only
    split
    · exact k1
    · have := ih ok1 rd1
      generalize hy : blockLoop inf n s1 = y at this
      obtain ⟨x, s2⟩ := y
      cases x with
      | error e => rw [bind_error hy]; exact k1.trans this
      | ok x => rw [bind_ok hy]; exact k1.trans this

/-- the bytes that are hashed -/
theorem lalike_md5 (hr : Function.Injective r) {p : List Str} (hn : Nm p) :
    LAlike E r k F (lRead p) (uMd5 sysOps (siteAt E k p) >>= fun l => pure l.flatten) := by
  intro t s h
  have hm : uMd5 sysOps (siteAt E k p) s = (uOpenR sysOps (siteAt E k p) >>= fun h => hSize h >>= fun n => blockLoop h (n + 1)) s := site_wc h.ok hn _ _
  unfold lRead
  cases e : t.lead 32 p with
  | none => exact .out _ _
  | some q =>
    obtain ⟨hq, hc, -⟩ := lead_way h 32 hn e
    have hw : uOpenR sysOps (siteAt E k p) s = sysOps.openR (siteC r k) (siteAt E k q) s :=
      (follow h hn e).2.2.2.2.trans (site_wc h.ok hq _ _)
    dsimp only
    split
    · rename_i d hg
      obtain ⟨s1, hd, e1, ok1, v1, rd1⟩ := site_openR h.ok hq (h.file hg)
      obtain ⟨s2, e2, ok2, v2⟩ := blockLoop_eq hr (d.length + 1) ok1 rd1 (by omega)
      have k1 : Keep E r k q s s1 := keep_openR h.ok hr hq (h.file hg) e1
      have k2 := keep_blocks (E := E) hr (d.length + 1) ok1 rd1
      rw [e2] at k2
      rw [bind_ok (hw.trans e1), bind_ok (hSize_eq rd1), e2] at hm
      rw [bind_ok hm]
      show LRes E r k F _ (Except.ok (pieces (d.drop 0)).flatten, s2)
      rw [List.drop_zero, pieces_flatten]
      exact .ok (h.same ok2 (by rw [v2, v1]) (k1.trans k2) (.inr ⟨d, hg⟩))
    · rename_i hg
      rw [bind_error (hw.trans (site_openR_none h.ok hq hc (h.gone hg)))] at hm
      rw [bind_error hm]
      exact .err h
    · exact .out _ _

theorem lcopystat (h : LRel E r k F t s) (hr : Function.Injective r) {p q f g : List Str} {d d' : Bytes} (hn : Nm p) (hn' : Nm q)
    (e : t.lead 32 p = some f) (hf : t.get f = some (.file d)) (e' : t.lead 32 q = some g) (hg : t.get g = some (.file d')) :
    ∃ s', sysOps.copystat (siteC r k) (siteAt E k p) (siteAt E k q) s = (.ok (), s') ∧ LRel E r k F t s' := by
  obtain ⟨hq1, hc1, hw1⟩ := lead_way h 32 hn e
  obtain ⟨hq2, hc2, hw2⟩ := lead_way h 32 hn' e'
  cases k with
  | none =>
    obtain ⟨j1, hj1, hl1⟩ := hw1
    obtain ⟨j2, hj2, hl2⟩ := hw2
    obtain ⟨s', a1, a2, a3⟩ := site_copystat h.ok hr hq1 hq2 (h.file hf) (h.file hg)
    rw [List.nil_append] at hl1 hl2
    have f1 := find_leads h.ok.disk hl1 (by omega) hn hq1 fun p hp _ => hc1.noLink p hp
    have f2 := find_leads h.ok.disk hl2 (by omega) hn' hq2 fun p hp _ => hc2.noLink p hp
    have e1 : sysOps.copystat (siteC r none) (siteAt E none p) (siteAt E none q) s =
        sysOps.copystat (siteC r none) (siteAt E none f) (siteAt E none g) s := by
      show onDisk (osCopystat (loc p).path (loc q).path) s = onDisk (osCopystat (loc f).path (loc g).path) s
      unfold onDisk
      have : osCopystat (loc p).path (loc q).path s.disk = osCopystat (loc f).path (loc g).path s.disk := by
        unfold osCopystat; rw [f1, f2]
      rw [this]
    have := links_copystat (siteC r (none : Option ι)) (siteAt E none f) (siteAt E none g) s
    rw [a1] at this
    exact ⟨s', e1.trans a1, h.same a2 a3 (q := g) (keep_loc this) (.inr ⟨_, hg⟩)⟩
  | some i =>
    have g1 := h.goes hn e
    have g2 := h.goes hn' e'
    rw [hf] at g1
    rw [hg] at g2
    obtain ⟨m, z, hvf⟩ := siteV_file.1 (h.file hf)
    obtain ⟨m', z', hvg⟩ := siteV_file.1 (h.file hg)
    obtain ⟨w, h5, h6⟩ := Mem.copystat_at h.ok.inv ((h.ok.fs i).serves p) (stepsOf_mem hn.ok (E i)) (stepsOf_mem hn'.ok (E i)) g1 g2 hvf hvg
    obtain ⟨h7, h8⟩ := h.ok.set_mem hr h6
    refine ⟨_, onMem_ok h5, h.same h7 ?_ (keep_set h.ok hr h6) (.inr ⟨_, hg⟩)⟩
    rw [h8]
    exact upd_self (h.file hg)

theorem lalike_copyFile (hr : Function.Injective r) {p q : List Str} (hn : Nm p) (hn' : Nm q) :
    LAlike E r k F (lCopyFile p q) (do
      copyContent sysOps (siteAt E k p) (siteAt E k q)
      if (siteAt E k p).scheme = (siteAt E k q).scheme then sysOps.copystat (siteC r k) (siteAt E k p) (siteAt E k q)) := by
  intro t s h
  unfold lCopyFile
  cases e : t.lead 32 p with
  | none => exact .out _ _
  | some f =>
    obtain ⟨hf, hc, -⟩ := lead_way h 32 hn e
    have hw : uOpenR sysOps (siteAt E k p) s = sysOps.openR (siteC r k) (siteAt E k f) s :=
      (follow h hn e).2.2.2.2.trans (site_wc h.ok hf _ _)
    dsimp only
    cases hg : t.get f with
    | none =>
      have : copyContent sysOps (siteAt E k p) (siteAt E k q) s = (.error (.os .ENOENT), s) :=
        bind_error (hw.trans (site_openR_none h.ok hf hc (h.gone hg)))
      rw [bind_error this]
      exact .err h
    | some o =>
      cases o with
      | dir => exact .out _ _
      | link x => exact .out _ _
      | file d =>
        dsimp only
        obtain ⟨s1, hd, e1, ok1, v1, rd1⟩ := site_openR h.ok hf (h.file hg)
        have h1 : LRel E r k F t s1 := h.same ok1 v1 (keep_openR h.ok hr hf (h.file hg) e1) (.inr ⟨d, hg⟩)
        split
        · rename_i heq
          rcases openW_cases h1 hr hn' with hw' | ⟨er, hw', ho⟩ | ⟨g, gl, hg0, hw', ho, hlead, hgv⟩
          · rw [hw' []]; exact .out _ _
          · have : copyContent sysOps (siteAt E k p) (siteAt E k q) s = (.error er, s1) := by
              unfold copyContent
              rw [bind_ok (hw.trans e1), bind_error ho]
            rw [hw' [], bind_error this]
            exact .err h1
          · have hgf : g = f := Option.some.inj (gl.symm.trans heq)
            subst hgf
            obtain ⟨s2, outf, e2, ok2, v2, w2, k2, rk⟩ := ho
            have rd2 := rk.2 _ _ rd1
            obtain ⟨s3, e3, ok3, v3, -, -⟩ := read_step ok2 hr rd2 8192
            have k3 : Keep E r k g s2 s3 := keep_read ok2 hr rd2 e3
            have h3 : LRel E r k F (t.set g (.file [])) s3 := by
              refine h1.set ok3 ?_ hg0 (k2.trans k3) (by simp)
              rw [v3, v2]; rfl
            have hwf := h.wf
            have l1 := lead_set hwf (d := []) hg0 hgv 32 p g e (.inr rfl)
            have l2 := lead_set hwf (d := []) hg0 hgv 32 q g hlead (.inr rfl)
            have hgs : (t.set g (.file [])).get g = some (.file []) := by rw [LTree.get_set hg0, if_pos rfl]
            obtain ⟨s4, e4, h4⟩ := lcopystat h3 hr hn hn' l1 hgs l2 hgs
            have c0 : ∀ n, pumpLoop hd outf (n + 1) s2 = (.ok (), s3) := fun n => by
              show (hRead 8192 hd >>= _) s2 = _
              rw [bind_ok e3]
              rfl
            have c1 : copyContent sysOps (siteAt E k p) (siteAt E k q) s = (.ok (), s3) := by
              unfold copyContent
              rw [bind_ok (hw.trans e1), bind_ok e2]
              show (hSize hd >>= fun n => pumpLoop hd outf (n + 1)) s2 = _
              rw [bind_ok (hSize_eq rd2)]
              exact c0 0
            rw [hw' [], bind_ok c1, if_pos (by cases k <;> rfl), e4]
            exact .ok h4
        · rename_i hne
          rcases openW_cases h1 hr hn' with hw' | ⟨er, hw', ho⟩ | ⟨g, gl, hg0, hw', ho, hlead, hgv⟩
          · rw [hw' d]; exact .out _ _
          · have : copyContent sysOps (siteAt E k p) (siteAt E k q) s = (.error er, s1) := by
              unfold copyContent
              rw [bind_ok (hw.trans e1), bind_error ho]
            rw [hw' d, bind_error this]
            exact .err h1
          · have hgf : g ≠ f := fun c => hne (by rw [gl, c])
            obtain ⟨s2, outf, e2, ok2, v2, w2, k2, rk⟩ := ho
            have rd2 := rk.1 _ _ _ _ _ (fun c => hgf c.2.symm) rd1
            obtain ⟨s3, e3, ok3, v3⟩ := pumpLoop_eq hr (fun c => hgf c.2) (d.length + 1) ok2 rd2 w2 (by rw [v2, upd_same]) (by omega)
            have k3 := keep_pump (E := E) hr hgf (d.length + 1) ok2 rd2 w2
            rw [e3] at k3
            have h3 : LRel E r k F (t.set g (.file d)) s3 := by
              refine h1.set ok3 ?_ hg0 (k2.trans k3) (by simp)
              rw [v3, v2, upd_upd]; rfl
            have hwf := h.wf
            have l1 := lead_set hwf (d := d) hg0 hgv 32 p f e (.inl (by rw [hg]; simp))
            have l2 := lead_set hwf (d := d) hg0 hgv 32 q g hlead (.inr rfl)
            obtain ⟨s4, e4, h4⟩ := lcopystat h3 hr hn hn' l1 (by rw [LTree.get_set hg0, if_neg (fun c => hgf c.symm)]; exact hg) l2
              (by rw [LTree.get_set hg0, if_pos rfl])
            have c1 : copyContent sysOps (siteAt E k p) (siteAt E k q) s = (.ok (), s3) := by
              unfold copyContent
              rw [bind_ok (hw.trans e1), bind_ok e2]
              show (hSize hd >>= fun n => pumpLoop hd outf (n + 1)) s2 = _
              rw [bind_ok (hSize_eq rd2)]
              exact e3
            rw [hw' d, bind_ok c1, if_pos (by cases k <;> rfl), e4]
            exact .ok h4

theorem LLike.mono {α β : Type} {R R' : α → β → Prop} {a : OM LTree α} {b : OM Sys β} (h : LLike E r k F R a b) (hR : ∀ x y, R x y → R' x y) :
    LLike E r k F R' a b := by
  intro t s hr
  have := h t s hr
  revert this
  generalize a t = x
  generalize b s = y
  intro this
  cases this with
  | out => exact .out _ _
  | ok e h => exact .ok (hR _ _ e) h
  | err h => exact .err h

theorem llike_mapR {α β γ : Type} {R : α → β → Prop} {R' : α → γ → Prop} {a : OM LTree α} {b : OM Sys β} {f : β → γ} (h : LLike E r k F R a b)
    (hR : ∀ x y, R x y → R' x (f y)) : LLike E r k F R' a (b >>= fun y => pure (f y)) := by
  have h3 := llike_bind (R' := R') (f := fun x => pure x) (g := fun y => pure (f y)) h fun x y hxy => llike_pure (hR x y hxy)
  rwa [bind_pure] at h3

/-! ## Copying a link -/

theorem llike_target {p : List Str} (hn : Nm p) :
    LLike E r k F (fun x u => Nm x ∧ u = siteAt E k x) (lTarget p) (sysOps.readlink (siteC r k) (siteAt E k p)) := by
  intro t s h
  unfold lTarget
  rcases bare_cases t p with hb | ⟨q, n, hb, hd⟩ | ⟨init, q, n, rfl, hb, e, hq, hor, hd⟩
  · rw [hb]; exact .out _ _
  · rw [hb]; dsimp only; rw [if_neg hd]; exact .out _ _
  · rw [hb]
    dsimp only
    rw [if_pos hd]
    have e1 := h.readlink (k := k) hn e hq hor hd
    have e2 : sysOps.readlink (siteC r k) (siteAt E k (init ++ [n])) s = _ := (site_wc h.ok hn _ _).symm.trans e1
    rw [e2]
    cases hg : t.get (q ++ [n]) with
    | none => exact .err h
    | some o =>
      cases o with
      | dir => exact .err h
      | file d => exact .err h
      | link x => exact .ok ⟨(h.links _ x hg).1, rfl⟩ h

/-- fs.py:898 -/
theorem llike_removeFile (hr : Function.Injective r) {q : List Str} (hn : Nm q) :
    LLike E r k F (fun _ _ => True) (lRemoveFile q)
      (uIsfile sysOps (siteAt E k q) >>= fun b => if b then sysOps.removefile (siteC r k) (siteAt E k q) else pure ()) := by
  intro t s h
  unfold lRemoveFile
  cases ef : t.lead 32 q with
  | none =>
    have : lAsk isF q t = (.error .outside, t) := by unfold lAsk; rw [ef]
    rw [bind_error this]
    exact .out _ _
  | some f =>
    obtain ⟨hq, hc, -⟩ := lead_way h 32 hn ef
    have fw := follow h hn ef
    have a1 : lAsk isF q t = (.ok (isF ((t.get f).map LKind.kind)), t) := by unfold lAsk; rw [ef]
    have e1 : uIsfile sysOps (siteAt E k q) s = (.ok (isF ((t.get f).map LKind.kind)), s) := by
      rw [fw.2.1, show uIsfile sysOps (siteAt E k f) s = _ from (site_wc h.ok hq _ _).trans (site_isfile h.ok hq hc), h.here]
    have e2 : uIsdir sysOps (siteAt E k q) s = (.ok (isD ((t.get f).map LKind.kind)), s) := by
      rw [fw.2.2.1, show uIsdir sysOps (siteAt E k f) s = _ from (site_wc h.ok hq _ _).trans (site_isdir h.ok hq hc), h.here]
    have e3 : uExists sysOps (siteAt E k q) s = (.ok (((t.get f).map LKind.kind).isSome), s) := by
      rw [fw.1, show uExists sysOps (siteAt E k f) s = _ from (site_wc h.ok hq _ _).trans (site_exists h.ok hq hc), h.here]
    rw [bind_ok a1, bind_ok e1]
    cases hf : isF ((t.get f).map LKind.kind) with
    | false => exact .ok trivial h
    | true =>
      rw [if_pos rfl, if_pos rfl]
      rcases bare_cases t q with hb | ⟨c, n, hb, hd⟩ | ⟨init, c, n, rfl, hb, e, hcn, hor, hd⟩
      · have e0 : lRemove q t = (.error .outside, t) := by unfold lRemove; rw [hb]
        rw [e0]; exact .out _ _
      · have e0 : lRemove q t = (.error .outside, t) := by unfold lRemove; rw [hb]; dsimp only; rw [if_neg hd]
        rw [e0]; exact .out _ _
      · obtain ⟨d, hgd⟩ : ∃ d, t.get f = some (.file d) := by
          cases hg : t.get f with
          | none => rw [hg] at hf; simp [isF] at hf
          | some o => cases o with
            | dir => rw [hg] at hf; simp [isF, LKind.kind] at hf
            | link x => rw [hg] at hf; simp [isF, LKind.kind] at hf
            | file d => exact ⟨d, rfl⟩
        rw [hgd] at e1 e2 e3
        have i1 := h.islink (k := k) hn e hcn hor hd
        have i2 : sysOps.islink (siteC r k) (siteAt E k (init ++ [n])) s = _ := (site_wc h.ok hn _ _).symm.trans i1
        have x1 : sysOps.isfile (siteC r k) (siteAt E k (init ++ [n])) s = (.ok true, s) := (site_wc h.ok hn _ _).symm.trans e1
        have x2 : sysOps.isdir (siteC r k) (siteAt E k (init ++ [n])) s = (.ok false, s) := (site_wc h.ok hn _ _).symm.trans e2
        have x3 : sysOps.exists_ (siteC r k) (siteAt E k (init ++ [n])) s = (.ok true, s) := (site_wc h.ok hn _ _).symm.trans e3
        have key : uRemove sysOps 0 (siteAt E k (init ++ [n])) false s = sysOps.removefile (siteC r k) (siteAt E k (init ++ [n])) s := by
          refine (site_wc h.ok hn _ _).trans ?_
          rw [bind_ok i2]
          split
          · rfl
          · rw [bind_ok x3]
            show (sysOps.isdir (siteC r k) (siteAt E k (init ++ [n])) >>= _) s = _
            rw [bind_ok x2]
            show (sysOps.isfile (siteC r k) (siteAt E k (init ++ [n])) >>= _) s = _
            rw [bind_ok x1]
            rfl
        have := (lalike_remove (E := E) (F := F) hr hn 0).like t s h
        rw [key] at this
        revert this
        generalize lRemove (init ++ [n]) t = x
        generalize sysOps.removefile (siteC r k) (siteAt E k (init ++ [n])) s = y
        intro this
        cases this with
        | out => exact .out _ _
        | ok e h => exact .ok trivial h
        | err h => exact .err h

theorem copyLink_eq {σ : Type} (O : Ops σ) (c : O.Conn) (u v : Uri) : copyLink O c u v = (O.islink c u >>= fun b =>
    if !b then OM.raise .assertionError else (uIsfile O v >>= fun b => if b then O.removefile c v else pure ()) >>= fun _ =>
      O.readlink c u >>= fun t => O.symlink c t v) := by
  unfold copyLink
  congr 1; funext b; cases b
  · rfl
  · rw [if_neg (by simp), if_neg (by simp), bind_assoc]
    show (uIsfile O v >>= _) = _
    congr 1; funext b; cases b <;> rfl

theorem lalike_copyLink (hr : Function.Injective r) {p q : List Str} (hn : Nm p) (hn' : Nm q) :
    LAlike E r k F (lCopyLink p q) (copyLink sysOps (siteC r k) (siteAt E k p) (siteAt E k q)) := by
  have e : copyLink sysOps (siteC r k) (siteAt E k p) (siteAt E k q) = _ := copyLink_eq sysOps (siteC r k) (siteAt E k p) (siteAt E k q)
  rw [e]
  unfold lCopyLink
  refine LLike.alike (llike_bind ((llike_conn hn .islink).2 (lalike_islink hn).like) ?_)
  rintro b _ rfl
  refine llike_ite (fun _ => llike_raise _) fun _ => ?_
  refine llike_bind (llike_removeFile hr hn') fun _ _ _ => ?_
  refine llike_bind (llike_target hn) ?_
  rintro x _ ⟨hx, rfl⟩
  exact (llike_conn hx .symlink).2 (lalike_symlink hr hx hn').like

theorem llike_copyOne (hr : Function.Injective r) {p q : List Str} (fl : Bool) (hn : Nm p) (hn' : Nm q) :
    LLike E r k F Eq (lCopyOne fl p q) (copyOne sysOps (siteC r k) (siteAt E k p) (siteAt E k q) fl) := by
  unfold lCopyOne copyOne
  refine llike_bind (lalike_islink hn).like ?_
  rintro b _ rfl
  exact llike_ite (fun _ => (lalike_copyLink hr hn hn').like) fun _ => (lalike_copyFile hr hn hn').like

/-! ## Copying trees -/

theorem copyDirs_cons {σ : Type} (O : Ops σ) (depth : Nat) (c : O.Conn) (ig : List Str) (fl : Bool) (top dbase : Uri) (n : Str) (l dirs : List Str) :
    copyDirs O depth c ig fl top dbase (n :: l) dirs = if n ∈ ig then copyDirs O depth c ig fl top dbase l (dirs.erase n) else
      OM.lift (dbase.div n) >>= fun ddir => OM.lift (top.div n) >>= fun srcp => uIslink O srcp >>= fun b =>
        (if b && !fl then copyLink O c srcp ddir else uMakedirs O depth ddir) >>= fun _ => copyDirs O depth c ig fl top dbase l dirs := by
  rw [copyDirs]
  split
  · rfl
  · congr 1; funext ddir
    congr 1; funext srcp
    congr 1; funext b
    split <;> rfl

theorem walk_top {σ τ : Type} (O : Ops σ) (c : O.Conn) (fl : Bool) (body : τ → Uri → List Str → List Str → OM σ (τ × List Str)) (depth : Nat)
    (top : Uri) (t : τ) : walk O c true fl body (depth + 1) top t = (O.listdir c top >>= fun names => Any.classify O c top (sortStr names) >>= fun x =>
      body t top x.1 x.2 >>= fun y => walkDirs O fl (walk O c true fl body depth) top y.2 y.1) := rfl

theorem copyFiles_cons {σ : Type} (O : Ops σ) (c : O.Conn) (fl : Bool) (top dbase : Uri) (n : Str) (l : List Str) :
    copyFiles O c fl top dbase (n :: l) = (OM.lift (top.div n) >>= fun srcf => OM.lift (dbase.div n) >>= fun destf =>
      copyOne O c srcf destf fl >>= fun _ => copyFiles O c fl top dbase l) := rfl

theorem llike_copyDirs (hr : Function.Injective r) (depth : Nat) (fl : Bool) {p q ig : List Str} : ∀ (l dirs : List Str),
    (∀ n ∈ l, Nm (p ++ [n])) → (∀ n ∈ l, Nm (q ++ [n])) →
    LLike E r k F (fun _ b => b = dirs.diff (l.filter (· ∈ ig))) (lCopyDirs fl depth p q (l.filter (· ∉ ig)))
      (copyDirs sysOps depth (siteC r k) ig fl (siteAt E k p) (siteAt E k q) l dirs)
  | [], dirs, _, _ => llike_pure (by simp)
  | n :: l, dirs, h1, h2 => by
    have hp := h1 n (by simp)
    have hq := h2 n (by simp)
    rw [copyDirs_cons sysOps depth (siteC r k) ig fl (siteAt E k p) (siteAt E k q) n l dirs]
    by_cases hi : n ∈ ig
    · rw [if_pos hi, show (n :: l).filter (· ∉ ig) = l.filter (· ∉ ig) from List.filter_cons_of_neg (by simpa using hi),
        show (n :: l).filter (· ∈ ig) = n :: l.filter (· ∈ ig) from List.filter_cons_of_pos (by simpa using hi),
        show dirs.diff (n :: l.filter (· ∈ ig)) = (dirs.erase n).diff (l.filter (· ∈ ig)) from List.diff_cons _ _ _]
      exact llike_copyDirs hr depth fl l _ (fun x hx => h1 x (by simp [hx])) fun x hx => h2 x (by simp [hx])
    · rw [if_neg hi, show (n :: l).filter (· ∉ ig) = n :: l.filter (· ∉ ig) from List.filter_cons_of_pos (by simpa using hi),
        show (n :: l).filter (· ∈ ig) = l.filter (· ∈ ig) from List.filter_cons_of_neg (by simpa using hi), lCopyDirs]
      refine llike_lift (nm_div hq) ?_
      refine llike_lift (nm_div hp) ?_
      refine llike_bind (lalike_islink hp).like ?_
      rintro b _ rfl
      refine llike_bind (R := fun _ _ => True) (llike_ite (fun _ => (lalike_copyLink hr hp hq).like.mono fun _ _ _ => trivial) fun _ => ?_) ?_
      · exact (lalike_makedirs hr hq depth).like.mono fun _ _ _ => trivial
      · rintro _ _ -
        exact llike_copyDirs hr depth fl l _ (fun x hx => h1 x (by simp [hx])) fun x hx => h2 x (by simp [hx])

theorem llike_copyFiles (hr : Function.Injective r) (fl : Bool) {p q : List Str} : ∀ (l : List Str),
    (∀ n ∈ l, Nm (p ++ [n])) → (∀ n ∈ l, Nm (q ++ [n])) →
    LLike E r k F (fun _ _ => True) (lCopyFiles fl p q l) (copyFiles sysOps (siteC r k) fl (siteAt E k p) (siteAt E k q) l)
  | [], _, _ => llike_pure trivial
  | n :: l, h1, h2 => by
    have hp := h1 n (by simp)
    have hq := h2 n (by simp)
    rw [copyFiles_cons sysOps (siteC r k) fl (siteAt E k p) (siteAt E k q) n l, lCopyFiles]
    refine llike_lift (nm_div hp) ?_
    refine llike_lift (nm_div hq) ?_
    refine llike_bind (llike_copyOne hr fl hp hq) fun _ _ _ => ?_
    exact llike_copyFiles hr fl l (fun x hx => h1 x (by simp [hx])) fun x hx => h2 x (by simp [hx])

theorem llike_down {fl : Bool} {p q : List Str} {v : List Str → List Str → OM LTree Unit} {w : Uri → Unit → OM Sys Unit} :
    ∀ (l : List Str), (∀ n ∈ l, Nm (p ++ [n])) →
    (∀ n ∈ l, LLike E r k F (fun _ _ => True) (v (p ++ [n]) (q ++ [n])) (w (siteAt E k (p ++ [n])) ())) →
    LLike E r k F (fun _ _ => True) (lDown fl v p q l) (walkDirs sysOps fl w (siteAt E k p) l ())
  | [], _, _ => llike_pure trivial
  | n :: l, h1, h2 => by
    have hp := h1 n (by simp)
    rw [walkDirs_cons, lDown]
    refine llike_lift (nm_div hp) ?_
    refine llike_bind (lalike_islink hp).like ?_
    rintro b _ rfl
    refine llike_bind (R := fun _ _ => True) (llike_ite (fun _ => h2 n (by simp)) fun _ => llike_pure trivial) fun _ _ _ => ?_
    exact llike_down l (fun x hx => h1 x (by simp [hx])) fun x hx => h2 x (by simp [hx])

theorem diff_ignored {l ig : List Str} (h : l.Nodup) : l.diff (l.filter (· ∈ ig)) = l.filter (· ∉ ig) := by
  rw [List.Nodup.sdiff_eq_filter h]
  refine List.filter_congr fun x hx => ?_
  simp [hx]

/-- fs.py:944-971 -/
theorem llike_copyBody (hr : Function.Injective r) (depth : Nat) (fl : Bool) {p t d ig : List Str} {dirs files : List Str} (hf : Fit (p ++ t)) (hp : p ≠ [])
    (hd : Fit d) (hne : d ≠ []) (h1 : ∀ n ∈ dirs, Fit (p ++ t ++ [n])) (h2 : ∀ n ∈ files, Fit (p ++ t ++ [n])) (hu : dirs.Nodup) :
    LLike E r k F (fun _ b => b = dirs.filter (· ∉ ig))
      (lCopyDirs fl depth (p ++ t) (d ++ t) (dirs.filter (· ∉ ig)) >>= fun _ => lCopyFiles fl (p ++ t) (d ++ t) files)
      (copyBody sysOps depth (siteC r k) ig fl ((siteAt E k p).path.length + 1) (siteAt E k d) (siteAt E k (p ++ t)) dirs files) := by
  have ha : ∀ {n}, Fit (p ++ t ++ [n]) → Nm (d ++ t ++ [n]) := fun {n} h => by
    rw [List.append_assoc] at h ⊢; exact (hd.append hne h).nm
  have hdt := (hd.append hne hf).nm
  have go : LLike E r k F (fun _ b => b = dirs.filter (· ∉ ig))
      (lCopyDirs fl depth (p ++ t) (d ++ t) (dirs.filter (· ∉ ig)) >>= fun _ => lCopyFiles fl (p ++ t) (d ++ t) files)
      (copyDirs sysOps depth (siteC r k) ig fl (siteAt E k (p ++ t)) (siteAt E k (d ++ t)) dirs dirs >>= fun dirs' =>
        copyFiles sysOps (siteC r k) fl (siteAt E k (p ++ t)) (siteAt E k (d ++ t)) files >>= fun _ => pure dirs') := by
    refine llike_bind (llike_copyDirs hr depth fl dirs dirs (fun n hn => (h1 n hn).nm) fun n hn => ha (h1 n hn)) ?_
    intro x b hb
    rw [diff_ignored hu] at hb
    have h3 := llike_bind (R' := fun _ b => b = dirs.filter (· ∉ ig)) (f := fun x => pure x) (g := fun _ => pure b)
      (llike_copyFiles (E := E) (k := k) (F := F) hr fl files (fun n hn => (h2 n hn).nm) fun n hn => ha (h2 n hn)) fun _ _ _ => llike_pure hb
    rwa [bind_pure] at h3
  have e : copyBody sysOps depth (siteC r k) ig fl ((siteAt E k p).path.length + 1) (siteAt E k d) (siteAt E k (p ++ t)) dirs files = _ :=
    copyBody_eq (O := sysOps) depth (siteC r k) ig fl ((siteAt E k p).path.length + 1) (siteAt E k d) (siteAt E k (p ++ t)) dirs files
  rw [e]
  rcases at_tojoin (E := E) (k := k) hf hp with ⟨rfl, e⟩ | ⟨x, g1, g2, g3, e⟩
  · rw [e, if_neg (by simp), pure_bind]
    have ed : d ++ [] = d := List.append_nil d
    rw [ed] at go ⊢
    exact go
  · rw [e, if_pos g2]
    exact llike_lift (site_div hdt g1 g3) go

theorem llike_copyWalk (hr : Function.Injective r) (depth : Nat) (fl : Bool) {p d ig : List Str} (hp : p ≠ []) (hd : Fit d) (hne : d ≠ []) :
    ∀ (m : Nat) (t : List Str), Fit (p ++ t) →
    LLike E r k F (fun _ _ => True) (lCopyBelow fl ig depth m (p ++ t) (d ++ t))
      (walk sysOps (siteC r k) true fl (fun (_ : Unit) top dirs files => do
        let dirs' ← copyBody sysOps depth (siteC r k) ig fl ((siteAt E k p).path.length + 1) (siteAt E k d) top dirs files
        pure ((), dirs')) m (siteAt E k (p ++ t)) ())
  | 0, _, _ => llike_raise _
  | m + 1, t, hf => by
    rw [walk_top sysOps (siteC r k) fl _ m (siteAt E k (p ++ t)) (), lCopyBelow]
    refine llike_bind ((llike_conn hf.nm .listdir).2 (llike_listdir hf.nm)) ?_
    rintro l _ ⟨rfl, hs, hl⟩
    rw [sortStr_of_pairwise hs]
    split
    · rename_i hfit
      refine llike_bind (llike_split l hl) ?_
      rintro ⟨dirs, files⟩ _ ⟨rfl, h1, h2⟩
      dsimp only at h1 h2 ⊢
      have hb := llike_copyBody (E := E) (k := k) (F := F) (ig := ig) hr depth fl hf hp hd hne (dirs := dirs) (files := files)
        (fun n hn => hfit n (h1.subset hn)) (fun n hn => hfit n (h2.subset hn)) ((nodup_of_pairwise hs).sublist h1)
      rw [← bind_assoc]
      refine llike_bind (R := fun _ b => b = ((), dirs.filter (· ∉ ig))) (llike_mapR hb fun _ b hb => by rw [hb]) ?_
      rintro _ _ rfl
      refine llike_down _ (fun n hn => hl n (h1.subset (List.mem_of_mem_filter hn))) fun n hn => ?_
      have := llike_copyWalk hr depth fl (ig := ig) hp hd hne m (t ++ [n]) (by rw [← List.append_assoc]; exact hfit n (h1.subset (List.mem_of_mem_filter hn)))
      rw [← List.append_assoc, ← List.append_assoc] at this
      exact this
    · intro t s _
      exact .out _ _

/-! ## Copying -/

/-- fs.py:919-922, 936-939: into a directory under the last name of the path -/
theorem llike_dest {p q : List Str} {d : Bool} (hp : p ≠ []) (hn : Nm p) (hq : Nm (if d then q ++ [p.getLastD []] else q)) {β : Type}
    {a : OM LTree Unit} {g : Uri → OM Sys β} {R : Unit → β → Prop} (h : LLike E r k F R a (g (siteAt E k (if d then q ++ [p.getLastD []] else q)))) :
    LLike E r k F R a ((if d then OM.lift ((siteAt E k q).div (siteAt E k p).last) else pure (siteAt E k q)) >>= g) := by
  rcases List.eq_nil_or_concat p with rfl | ⟨i, n, rfl⟩
  · exact absurd rfl hp
  · rw [List.concat_eq_append] at *
    have e : (siteAt E k (i ++ [n])).last = n := site_last hn
    have e' : (i ++ [n]).getLastD [] = n := by simp
    rw [e'] at hq h
    cases d
    · exact h
    · rw [if_pos rfl, e]
      exact llike_lift (nm_div hq) h

theorem lalike_copy (hr : Function.Injective r) {p q : List Str} (fl : Bool) (ig : List Str) (depth : Nat) (hn : Nm p) (hn' : Nm q) :
    LAlike E r k F (lCopy fl p q) (uCopy sysOps depth (siteAt E k p) (siteAt E k q) false ig fl) := by
  refine LLike.alike ((llike_conn hn .copy).1 ?_)
  have e : copy sysOps depth (siteC r k) (siteAt E k p) (siteAt E k q) false ig fl = _ :=
    copy_eq (O := sysOps) depth (siteC r k) (siteAt E k p) (siteAt E k q) false ig fl
  rw [e]
  unfold lCopy
  refine llike_bind (lalike_exists hn).like ?_
  rintro b _ rfl
  refine llike_ite (fun _ => llike_raise _) fun _ => ?_
  rw [if_pos (show (!false) = true from rfl)]
  refine llike_bind (lalike_isfile hn).like ?_
  rintro b _ rfl
  refine llike_ite (fun _ => llike_raise _) fun _ => ?_
  refine llike_bind (lalike_isdir hn').like ?_
  rintro d _ rfl
  dsimp only
  by_cases hc : p ≠ [] ∧ Nm (if d then q ++ [p.getLastD []] else q)
  · rw [if_pos hc]
    exact llike_dest hc.1 hn hc.2 (llike_copyOne hr fl hn hc.2)
  · rw [if_neg hc]
    intro t s _
    exact .out _ _

theorem lalike_copyTree (hr : Function.Injective r) {p q : List Str} (fl : Bool) (ig : List Str) (depth : Nat) (hn : Nm p) (hn' : Nm q) :
    LAlike E r k F (lCopyTree fl ig depth p q) (uCopy sysOps depth (siteAt E k p) (siteAt E k q) true ig fl) := by
  refine LLike.alike ((llike_conn hn .copy).1 ?_)
  have e : copy sysOps depth (siteC r k) (siteAt E k p) (siteAt E k q) true ig fl = _ :=
    copy_eq (O := sysOps) depth (siteC r k) (siteAt E k p) (siteAt E k q) true ig fl
  rw [e]
  unfold lCopyTree
  refine llike_bind (lalike_exists hn).like ?_
  rintro b _ rfl
  refine llike_ite (fun _ => llike_raise _) fun _ => ?_
  rw [if_neg (by simp)]
  refine llike_bind (lalike_isdir hn).like ?_
  rintro b _ rfl
  refine llike_ite (fun _ => llike_raise _) fun _ => ?_
  refine llike_bind (lalike_isdir hn').like ?_
  rintro d _ rfl
  dsimp only
  by_cases hc : p ≠ [] ∧ Fit p ∧ (if d then q ++ [p.getLastD []] else q) ≠ [] ∧ Fit (if d then q ++ [p.getLastD []] else q)
  · rw [if_pos hc]
    obtain ⟨hp, hf, hne, hd⟩ := hc
    refine llike_dest hp hn hd.nm ?_
    refine llike_bind (lalike_islink hn).like ?_
    rintro b _ rfl
    refine llike_ite (fun _ => (lalike_copyLink hr hn hd.nm).like) fun _ => ?_
    refine llike_bind (lalike_makedirs hr hd.nm depth).like fun _ _ _ => ?_
    have hw := llike_copyWalk (E := E) (k := k) (F := F) (ig := ig) hr depth fl hp hd hne depth [] (by simpa using hf)
    simp only [List.append_nil] at hw
    exact ((llike_conn hf.nm .walk).1 hw).mono fun _ _ _ => rfl
  · rw [if_neg hc]
    intro t s _
    exact .out _ _

end
end Verif.Any
