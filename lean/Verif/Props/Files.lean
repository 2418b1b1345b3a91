import Verif.Any.FilesLemmas
import Verif.Any.Trim
import Verif.Props.Says
import Verif.Props.LocalLinks
/-!
# C118 Programs with open files

C116 for programs that open files, use the methods of the file objects piece by piece, with any number of files open at a
time, and close them, and make calls on other names meanwhile: the answers, exceptions and trees are those of a description
(Verif/Any/Files.lean) in which an open file is a name and a position.
-/
namespace Verif.Props
open Verif.Spec Verif.Gen Verif.Any
open Mem (World)

section
variable {ι κ : Type} {E : ι → Dict} {r : ι → Nat} {site : κ → Option ι} {F : Option ι → List Str → Option Any.Kind} {s : Sys} {T : κ → Tree}
  {tab : List (Option (Slot κ))} {objs : List FObj}

/-- the places hold the trees, and the file objects are at the places, names and positions of the open files -/
structure FRel (E : ι → Dict) (r : ι → Nat) (site : κ → Option ι) (F : Option ι → List Str → Option Any.Kind)
    (x : (κ → Tree) × List (Option (Slot κ))) (y : Sys × List FObj) : Prop where
  rels : Rels E r site F x.1 y.1
  len : x.2.length = y.2.length
  here : ∀ (h : Nat) (f : Slot κ), x.2[h]? = some (some f) → ∃ hd d, y.2[h]? = some (FObj.mk hd f.mode false) ∧ (x.1 f.k).get f.p = some (.file d) ∧
    FAt r y.1 (site f.k) f.p hd f.mode d f.pos
  once : ∀ (h h' : Nat) (f f' : Slot κ), x.2[h]? = some (some f) → x.2[h']? = some (some f') → f.k = f'.k → f.p = f'.p → h = h'

/-- the outcomes are the same, unless there is no expectation -/
inductive FOut (E : ι → Dict) (r : ι → Nat) (site : κ → Option ι) (F : Option ι → List Str → Option Any.Kind) :
    Except PyErr FAns × (κ → Tree) × List (Option (Slot κ)) → Except PyErr FAns × Sys × List FObj → Prop
  | out (x) (y) : FOut E r site F (.error .outside, x) y
  | same {a : Except PyErr FAns} {x y} : FRel E r site F x y → FOut E r site F (a, x) (a, y)

/-! ## Questions leave everything as it is -/

theorem map_snd {σ α β : Type} {m : OM σ α} {f : α → β} {s : σ} : ((do pure (f (← m)) : OM σ β) s).2 = (m s).2 := by
  show (OM.bnd m _ s).2 = _
  unfold OM.bnd
  rcases m s with ⟨x | x, s'⟩ <;> rfl

theorem ask_quiet (h : SysOk E r s) {k : Option ι} {depth : Nat} {a : Act} (hf : a.Fit) {l : κ} (ha : (Acts.one l a).asks = true) :
    (a.run E k depth s).2 = s := by
  have key : ∀ {α : Type} {p : List Str} {m : Mem.Meth} {g : Conn → OM Sys α}, Any.Fit p → ((g (siteC r k)) s).2 = s →
      (withConn sysOps (siteAt E k p) m g s).2 = s := by
    intro α p m g hp hg
    rw [show withConn sysOps (siteAt E k p) m g s = g (siteC r k) s from site_wc h hp.nm m g]
    exact hg
  cases a with
  | exists_ p => exact map_snd.trans (key hf (by cases k <;> rfl))
  | isfile p => exact map_snd.trans (key hf (by cases k <;> rfl))
  | isdir p => exact map_snd.trans (key hf (by cases k <;> rfl))
  | islink p => exact map_snd.trans (key hf (by cases k <;> rfl))
  | listdir p =>
    refine map_snd.trans (key hf ?_)
    cases k with
    | some i => rfl
    | none =>
      refine map_snd.trans ?_
      show ({ s with disk := (osListdir _ s.disk).2 } : Sys) = s
      have : (osListdir (siteAt E none p).path s.disk).2 = s.disk := by
        unfold osListdir
        split
        · split <;> rfl
        · rfl
        · rfl
      rw [this]
  | _ => cases ha

/-! ## Calls beside the open files leave them as they are -/

theorem openR_out {t t' : Tree} {q : List Str} (hn : Nm q) (e : pOpenR (pAt q) t = (.error .outside, t')) :
    (ask q (fun | some (.file d) => .ok (.bytes d) | none => .error (.os .ENOENT) | _ => .error .outside) t).1 = .error .outside := by
  unfold pOpenR at e
  rw [pAt_comps hn] at e
  unfold ask
  revert e
  split
  · cases t.get q with
    | none => intro e; cases e
    | some o => cases o <;> intro e <;> first | rfl | cases e
  · intro _; rfl

/-- `makedirs` leaves the open files as they are -/
theorem mk_beside (hr : Function.Injective r) {k : Option ι} {t : Tree} (hok : SysOk E r s) (h : Holds r s k t) {depth : Nat} {q : List Str} :
    (Act.says depth (.makedirs q) t).1 = .error .outside ∨ Beside r s (Act.run E k depth (.makedirs q) s).2 k q := by
  by_cases hf : (Act.makedirs q).Fit
  swap
  · refine .inl ?_
    unfold Act.says
    rw [if_neg hf]; rfl
  have hrel := h.rel hok
  have hf' : Any.Fit q := hf
  have hw : uMakedirs sysOps depth (siteAt E k q) s = makedirs sysOps depth (siteAt E k q) s := site_wc hok hf'.nm _ _
  have e0 : (Act.run E k depth (.makedirs q) s).2 = (uMakedirs sysOps depth (siteAt E k q) s).2 := map_snd
  rw [e0, hw]
  by_cases h1 : q.length < depth ∧ ∀ a ∈ q.inits, t.get a = some .dir ∨ t.get a = none
  · right
    refine beside_makedirs hr depth hok hf'.nm (fun p hp => ?_) h1.1 q
    rw [hrel.here]
    exact h1.2 p ((List.mem_inits _ _).2 hp)
  by_cases h2 : 0 < depth ∧ t.Way q ∧ isF (t.get q) = true ∧ t.get q.dropLast = some .dir
  · right
    obtain ⟨hd, hway, hF, hp⟩ := h2
    obtain ⟨depth, rfl⟩ := Nat.exists_eq_succ_of_ne_zero (Nat.pos_iff_ne_zero.1 hd)
    have hcl := hrel.clear hway
    have hi : uIsdir sysOps (siteAt E k q) s = _ := (site_wc hok hf'.nm _ _).trans (site_isdir hok hf'.nm hcl)
    have hfl : isD (siteV r s k q) = false := by
      rw [hrel.here]
      revert hF
      rcases t.get q with _ | _ | _ | _ <;> simp [Any.isF, Any.isD]
    rw [makedirs_eq, bind_ok hi, hfl, if_neg Bool.false_ne_true]
    rcases List.eq_nil_or_concat q with rfl | ⟨q, n, rfl⟩
    · rw [site_root hok] at hfl; cases hfl
    rw [List.concat_eq_append] at *
    rw [List.dropLast_concat] at hp
    have hp' : siteV r s k q = some .dir := by rw [hrel.here, hp]
    have hc' : Any.Clear (siteV r s k) q := (sysLaws E r hr).clear_dir (k := k) hok hp'
    have hi' : uIsdir sysOps (siteAt E k q) s = _ := (site_wc hok hf'.nm.of_prefix _ _).trans (site_isdir hok hf'.nm.of_prefix hc')
    have hdd : isD (siteV r s k q) = true := by rw [hp']; rfl
    have hm : uMkdir sysOps (siteAt E k (q ++ [n])) s = _ := (site_wc hok hf'.nm _ _).trans
      (site_mkdir_taken hok hf'.nm (by simp) (by rw [hrel.here]; intro e; rw [e] at hF; cases hF))
    rw [bind_lift (site_split hf'.nm)]
    dsimp only
    rw [bind_ok hi', hdd, Bool.not_true, if_neg Bool.false_ne_true, bind_ok (m := (pure () : OM Sys Unit)) rfl,
      if_pos (hf'.nm.ok.clean n (by simp)).ne, hm]
    exact Beside.refl
  · refine .inl ?_
    unfold Act.says
    rw [if_pos hf]
    show (if q.length < depth ∧ ∀ a ∈ q.inits, t.get a = some .dir ∨ t.get a = none then (.ok .unit, t.lay [] (Tree.way q))
      else if 0 < depth ∧ t.Way q ∧ isF (t.get q) = true ∧ t.get q.dropLast = some .dir then (.error (.os .EEXIST), t)
      else (.error .outside, t) : Except PyErr Ans × Tree).1 = _
    rw [if_neg h1, if_neg h2]

/-- reading, hashing and writing a whole file, making directories, and removing a file or an empty directory keep the files that
    are open at other names -/
theorem name_beside (hr : Function.Injective r) {k : Option ι} {t : Tree} (hok : SysOk E r s) (h : Holds r s k t) {depth : Nat} {a : Act} {l : κ}
    {p : List Str} (ha : (Acts.one l a).name = some (l, p)) :
    (a.says depth t).1 = .error .outside ∨ Beside r s (a.run E k depth s).2 k p := by
  by_cases hf : a.Fit
  swap
  · refine .inl ?_
    unfold Act.says
    rw [if_neg hf]; rfl
  have hrel := h.rel hok
  cases a with
  | read q =>
    obtain rfl : q = p := by simpa [Acts.name] using ha
    have hn := Any.Fit.nm hf
    have hw : uOpenR sysOps (siteAt E k q) s = sysOps.openR (siteC r k) (siteAt E k q) s := site_wc hok hn _ _
    have e0 : (Act.run E k depth (.read q) s).2 = (sRead (siteAt E k q) s).2 := map_snd
    rw [e0]
    rcases alike_openR_cases hrel hn with ⟨t', e⟩ | ⟨e, e1, e2⟩ | ⟨d, hg, e⟩
    · refine .inl ?_
      unfold Act.says
      rw [if_pos hf]
      exact openR_out hn e
    · right
      unfold sRead
      rw [bind_error (hw.trans e2)]
      exact Beside.refl
    · right
      have hv : siteV r s k q = some (.file d) := by rw [hrel.here, hg]
      obtain ⟨s1, hd, e1, ok1, v1, rd1⟩ := site_openR hok hn hv
      have b1 := beside_openR hok hr hn hv
      rw [e1] at b1
      have b2 := beside_read ok1 hr rd1 d.length
      obtain ⟨s2, e2, -⟩ := read_step ok1 hr rd1 d.length
      rw [e2] at b2
      unfold sRead
      rw [bind_ok (hw.trans e1), bind_ok (hSize_eq rd1), bind_ok e2]
      exact b1.trans b2
  | md5 q =>
    obtain rfl : q = p := by simpa [Acts.name] using ha
    have hn := Any.Fit.nm hf
    have hw : uOpenR sysOps (siteAt E k q) s = sysOps.openR (siteC r k) (siteAt E k q) s := site_wc hok hn _ _
    have hm : uMd5 sysOps (siteAt E k q) s = (uOpenR sysOps (siteAt E k q) >>= fun h => hSize h >>= fun n => blockLoop h (n + 1)) s := site_wc hok hn _ _
    have e0 : (Act.run E k depth (.md5 q) s).2 = (uMd5 sysOps (siteAt E k q) s).2 := map_snd
    rw [e0, hm]
    rcases alike_openR_cases hrel hn with ⟨t', e⟩ | ⟨e, e1, e2⟩ | ⟨d, hg, e⟩
    · refine .inl ?_
      unfold Act.says
      rw [if_pos hf]
      exact openR_out hn e
    · right
      rw [bind_error (hw.trans e2)]
      exact Beside.refl
    · right
      have hv : siteV r s k q = some (.file d) := by rw [hrel.here, hg]
      obtain ⟨s1, hd, e1, ok1, v1, rd1⟩ := site_openR hok hn hv
      have b1 := beside_openR hok hr hn hv
      rw [e1] at b1
      rw [bind_ok (hw.trans e1), bind_ok (hSize_eq rd1)]
      exact b1.trans (beside_blocks hr (d.length + 1) ok1 rd1)
  | write q ch =>
    obtain rfl : q = p := by simpa [Acts.name] using ha
    have hf' : Any.Fit q := hf
    have hw : uOpenW sysOps (siteAt E k q) s = sysOps.openW (siteC r k) (siteAt E k q) s := site_wc hok hf'.nm _ _
    have e0 : (Act.run E k depth (.write q ch) s).2 = (sWrite (siteAt E k q) ch s).2 := map_snd
    rw [e0]
    unfold sWrite
    rcases alike_openW_cases hrel hf' with ⟨t', e⟩ | ⟨e, e1, e2⟩ | ⟨q, n, rfl, hq, hv, e⟩
    · refine .inl ?_
      unfold pOpenW at e
      rw [pAt_comps hf'.nm] at e
      unfold Act.says
      rw [if_pos hf]
      revert e
      show _ → (if q = [] ∨ ¬ t.Way q then (.error .outside, t)
        else if t.get q = some .dir then (.error (.os .EISDIR), t)
        else if t.get q.dropLast = some .dir then (.ok .unit, t.set q (.file ch.flatten))
        else (.error (.os .ENOENT), t) : Except PyErr Ans × Tree).1 = _
      split_ifs <;> intro e <;> first | rfl | cases e
    · right
      rw [bind_error (hw.trans e2)]
      exact Beside.refl
    · right
      obtain ⟨s1, hd, e1, ok1, v1, w1, b1⟩ := site_openW hok hr hf'.nm hq hv
      rw [bind_ok (hw.trans e1)]
      exact Beside.trans (fun _ _ _ _ _ hne hx => b1 hne hx) (beside_writes hr ch ok1 w1)
  | mkdir q =>
    obtain rfl : q = p := by simpa [Acts.name] using ha
    have hf' : Any.Fit q := hf
    have hw : uMkdir sysOps (siteAt E k q) s = sysOps.mkdir (siteC r k) (siteAt E k q) s := site_wc hok hf'.nm _ _
    have e0 : (Act.run E k depth (.mkdir q) s).2 = (uMkdir sysOps (siteAt E k q) s).2 := map_snd
    rw [e0, hw]
    by_cases hc : q = [] ∨ ¬ t.Way q
    · refine .inl ?_
      unfold Act.says
      rw [if_pos hf]
      show (if q = [] ∨ ¬ t.Way q then (.error .outside, t) else _ : Except PyErr Ans × Tree).1 = _
      rw [if_pos hc]
    · right
      rw [not_or, not_not] at hc
      obtain ⟨hne, hway⟩ := hc
      have hcl := hrel.clear hway
      by_cases hv : t.get q = none
      · rcases List.eq_nil_or_concat q with rfl | ⟨q, n, rfl⟩
        · exact absurd rfl hne
        rw [List.concat_eq_append] at *
        rcases hcl.above q (List.prefix_append _ _) (by simp) with h1 | h1
        · exact beside_mkdir hok hr hf'.nm h1 (by rw [hrel.here, hv])
        · rw [site_mkdir_parent hok hf'.nm hcl h1]
          exact Beside.refl
      · rw [site_mkdir_taken hok hf'.nm hne (by rw [hrel.here]; exact hv)]
        exact Beside.refl
  | makedirs q =>
    obtain rfl : q = p := by simpa [Acts.name] using ha
    exact mk_beside hr hok h
  | remove q b =>
    cases b with
    | true => cases ha
    | false =>
      obtain rfl : q = p := by simpa [Acts.name] using ha
      have hf' : Any.Fit q := hf
      have hn := hf'.nm
      have e0 : (Act.run E k depth (.remove q false) s).2 = (uRemove sysOps depth (siteAt E k q) false s).2 := map_snd
      rw [e0]
      by_cases hc : ¬ t.Way q ∨ q = []
      · refine .inl ?_
        unfold Act.says
        rw [if_pos hf]
        show (if ¬ t.Way q ∨ q = [] then (.error .outside, t) else _ : Except PyErr Ans × Tree).1 = _
        rw [if_pos hc]
      · right
        rw [not_or, not_not] at hc
        obtain ⟨hway, hne⟩ := hc
        have hcl := hrel.clear hway
        have hno : siteV r s k q ≠ some .other := by rw [hrel.here]; exact hrel.noLink q
        have e1 : uRemove sysOps depth (siteAt E k q) false s = _ := site_wc hok hn _ _
        have hl : sysOps.islink (siteC r k) (siteAt E k q) s = (.ok false, s) := by
          by_cases hv : siteV r s k q = none
          · exact site_islink_none hok hn hcl hv
          · exact site_islink hok hn hcl hv
        rw [e1, bind_ok hl, if_neg Bool.false_ne_true,
          bind_ok (m := sysOps.exists_ (siteC r k) (siteAt E k q)) (site_exists hok hn hcl)]
        cases hg : siteV r s k q with
        | none => exact Beside.refl
        | some o =>
          cases o with
          | other => exact absurd hg hno
          | file d =>
            show Beside r s (((do if ← sysOps.isdir (siteC r k) (siteAt E k q) then _ else _ : OM Sys Unit)) s).2 k q
            rw [bind_ok (m := sysOps.isdir (siteC r k) (siteAt E k q)) (site_isdir hok hn hcl), hg]
            show Beside r s (((do if ← sysOps.isfile (siteC r k) (siteAt E k q) then _ else _ : OM Sys Unit)) s).2 k q
            rw [bind_ok (m := sysOps.isfile (siteC r k) (siteAt E k q)) (site_isfile hok hn hcl), hg]
            exact beside_removefile hok hr hn hg
          | dir =>
            show Beside r s (((do if ← sysOps.isdir (siteC r k) (siteAt E k q) then _ else _ : OM Sys Unit)) s).2 k q
            rw [bind_ok (m := sysOps.isdir (siteC r k) (siteAt E k q)) (site_isdir hok hn hcl), hg]
            show Beside r s (sysOps.removedir (siteC r k) (siteAt E k q) s).2 k q
            by_cases he : ∀ n, siteV r s k (q ++ [n]) = none
            · exact beside_removedir hok hr hn hne hg he
            · push Not at he
              obtain ⟨n, he⟩ := he
              rw [site_removedir_full hok hn hne hg he]
              exact Beside.refl
  | _ => cases ha

variable [DecidableEq κ]

/-! ## The steps -/

/-- opening a file of a tree -/
theorem sOpen_says (hr : Function.Injective r) {k : Option ι} {t : Tree} (hok : SysOk E r s) (h : Holds r s k t) (p : List Str) (m : OMode) :
    match t.opens p m with
    | .error e => e = .outside ∨ sOpen m (siteAt E k p) s = (.error e, s)
    | .ok (t', pos) => p ≠ [] ∧ ∃ d V, t'.get p = some (.file d) ∧ (∀ q, q ≠ p → t'.get q = t.get q) ∧ FOpened E r s k p m d pos V (sOpen m (siteAt E k p) s) ∧
        (∀ s', siteV r s' = V → Holds r s' k t') ∧ ∀ j q, j ≠ k → V j q = siteV r s j q := by
  unfold Tree.opens
  by_cases hc : p = [] ∨ ¬ Any.Fit p ∨ ¬ t.Way p
  · rw [if_pos hc]; exact .inl rfl
  · rw [if_neg hc]
    push Not at hc
    obtain ⟨hp0, hf, hw⟩ := hc
    have hcl : Any.Clear (siteV r s k) p := (h.rel hok).clear hw
    have there : ∀ {m d}, t.get p = some (.file d) → m ≠ .w → (m = .a → d ≠ []) →
        p ≠ [] ∧ ∃ d' V, t.get p = some (.file d') ∧ (∀ q, q ≠ p → t.get q = t.get q) ∧
          FOpened E r s k p m d' (if m = .a then d.length else 0) V (sOpen m (siteAt E k p) s) ∧
          (∀ s', siteV r s' = V → Holds r s' k t) ∧ ∀ j q, j ≠ k → V j q = siteV r s j q := by
      intro m d hg hm hd
      exact ⟨hp0, d, _, hg, fun _ _ => rfl, opened_there hok hr hf.nm (by rw [h.here, hg]) hm hd, fun s' e => h.stays fun q => by rw [e], fun _ _ _ => rfl⟩
    have gone : t.get p = none → sOpen .r (siteAt E k p) s = (.error (.os .ENOENT), s) ∧ sOpen .rw (siteAt E k p) s = (.error (.os .ENOENT), s) := by
      intro hg
      have := site_openR_none hok hf.nm hcl (by rw [h.here, hg])
      rw [sOpen_eq hok hf.nm, sOpen_eq hok hf.nm]
      cases k <;> exact ⟨this, this⟩
    cases m with
    | r =>
      cases hg : t.get p with
      | none => exact .inr (gone hg).1
      | some o =>
        cases o with
        | file d => exact there (m := .r) hg (by simp) (by simp)
        | _ => exact .inl rfl
    | rw =>
      cases hg : t.get p with
      | none => exact .inr (gone hg).2
      | some o =>
        cases o with
        | file d => exact there (m := .rw) hg (by simp) (by simp)
        | _ => exact .inl rfl
    | a =>
      cases hg : t.get p with
      | none => exact .inl rfl
      | some o =>
        cases o with
        | file d =>
          dsimp only
          by_cases hd : d = []
          · rw [if_pos hd]; exact .inl rfl
          · rw [if_neg hd]; exact there (m := .a) hg (by simp) (fun _ => hd)
        | _ => exact .inl rfl
    | w =>
      rcases List.eq_nil_or_concat p with rfl | ⟨ds, n, rfl⟩
      · exact absurd rfl hp0
      rw [List.concat_eq_append] at *
      have new : t.get (ds ++ [n]) = none ∨ isF (t.get (ds ++ [n])) = true →
          match (if t.get (ds ++ [n]).dropLast = some .dir then .ok (t.set (ds ++ [n]) (.file []), 0) else .error (.os .ENOENT) : Except PyErr (Tree × Nat)) with
          | .error e => e = .outside ∨ sOpen .w (siteAt E k (ds ++ [n])) s = (.error e, s)
          | .ok (t', pos) => ds ++ [n] ≠ [] ∧ ∃ d V, t'.get (ds ++ [n]) = some (.file d) ∧ (∀ q, q ≠ ds ++ [n] → t'.get q = t.get q) ∧
              FOpened E r s k (ds ++ [n]) .w d pos V (sOpen .w (siteAt E k (ds ++ [n])) s) ∧
              (∀ s', siteV r s' = V → Holds r s' k t') ∧ ∀ j q, j ≠ k → V j q = siteV r s j q := by
        intro hv
        rw [List.dropLast_concat]
        split_ifs with hd
        · refine ⟨hp0, [], _, by rw [Tree.get_set hp0, if_pos rfl], fun q hq => by rw [Tree.get_set hp0, if_neg hq],
            opened_new hok hr hf.nm (by rw [h.here, hd]) (by rw [h.here]; exact hv),
            fun s' e => set_holds h hf hp0 (by rw [e, upd_same]) fun x hx => ?_, fun j q hj => upd_ne fun c => hj c.1⟩
          rw [e, upd_ne fun c => hx c.2]
        · refine .inr ?_
          have hpar : siteV r s k ds = none := by
            rcases hcl.1 ds (List.prefix_append _ _) (by simp) with e | e
            · exact absurd (by rw [← h.here, e]) hd
            · exact e
          have := site_openW_parent hok hf.nm hcl hpar
          rw [sOpen_eq hok hf.nm]
          cases k <;> exact this
      cases hg : t.get (ds ++ [n]) with
      | none => exact new (.inl hg)
      | some o =>
        cases o with
        | dir =>
          refine .inr ?_
          have := site_openW_dir hok hf.nm hp0 (by rw [h.here, hg])
          rw [sOpen_eq hok hf.nm]
          cases k <;> exact this
        | file d => exact new (.inr (by rw [hg]; rfl))
        | other => exact absurd hg (h.noOther _)

/-- removing a tree leaves the other names -/
theorem remove_rest {t : Tree} (h : (t.map (·.1)).Nodup) {depth : Nat} {p q : List Str} (hq : ¬ p <+: q) :
    (Act.says depth (.remove p true) t).2.get q = t.get q := by
  unfold Act.says
  split
  · show (if ¬ t.Way p ∨ p = [] then (.error .outside, t)
      else
        match t.get p with
        | none => (.error .fileDoesNotExist, t)
        | some (.file _) => (.ok .unit, t.del p)
        | some .dir =>
          if true then if t.Shallow depth p then (.ok .unit, t.cut p) else (.error .outside, t)
          else if t.names p = [] then (.ok .unit, t.del p) else (.error (.os .ENOTEMPTY), t)
        | some .other => (.error .outside, t) : Except PyErr Ans × Tree).2.get q = _
    split
    · rfl
    · rename_i hc
      have hp : p ≠ [] := fun e => hc (.inr e)
      cases t.get p with
      | none => rfl
      | some o =>
        cases o with
        | other => rfl
        | file d =>
          show (t.del p).get q = _
          rw [Tree.get_del hp, if_neg]
          rintro rfl
          exact hq (List.prefix_refl _)
        | dir =>
          show (if t.Shallow depth p then (.ok .unit, t.cut p) else (.error .outside, t) : Except PyErr Ans × Tree).2.get q = _
          split
          · show (t.cut p).get q = _
            rw [Tree.get_cut h hp, if_neg hq]
          · rfl
  · rfl

theorem out_call (hr : Function.Injective r) (hs : Function.Injective site) {may : κ → κ → Bool}
    (hmay : ∀ k k', may k k' = true → May (site k) (site k')) (depth : Nat) (a : Acts κ) (h : FRel E r site F (T, tab) (s, objs)) :
    FOut E r site F ((FAct.call a).says may depth (T, tab)) ((FAct.call a).run E site depth (s, objs)) := by
  unfold FAct.says FAct.run
  dsimp only
  split
  · rename_i hc
    have h1 := outs_says (E := E) hr hs hmay depth a h.rels
    have h2 : (∀ (n : Nat) (f : Slot κ) (hd : Hd) (d : Bytes), tab[n]? = some (some f) → FAt r s (site f.k) f.p hd f.mode d f.pos →
        FAt r (a.run E site depth s).2 (site f.k) f.p hd f.mode d f.pos) ∨ (a.says may depth T).1 = .error .outside ∨
        ∀ (n : Nat) (f : Slot κ), tab[n]? = some (some f) → ((a.says may depth T).2 f.k).get f.p = (T f.k).get f.p ∧
          ∀ hd d, FAt r s (site f.k) f.p hd f.mode d f.pos → siteV r (a.run E site depth s).2 (site f.k) f.p ≠ none →
            FAt r (a.run E site depth s).2 (site f.k) f.p hd f.mode d f.pos := by
      rcases hc with hc | hc | hc | hc
      · refine .inl fun n f hd d hm => ?_
        have := List.all_eq_true.1 hc _ (List.mem_of_getElem? hm)
        cases this
      · cases a with
        | one k a =>
          by_cases hf : a.Fit
          · refine .inl fun n f hd d _ hat => ?_
            rw [show ((Acts.one k a).run E site depth s).2 = s from ask_quiet h.rels.ok hf hc]
            exact hat
          · refine .inr (.inl ?_)
            show (a.says depth (T k)).1 = _
            unfold Act.says
            rw [if_neg hf]; rfl
        | _ => cases hc
      · unfold Acts.beside at hc
        cases hn : a.name with
        | none => rw [hn] at hc; cases hc
        | some kp =>
          obtain ⟨k, p⟩ := kp
          rw [hn] at hc
          cases a with
          | one l a =>
            obtain rfl : l = k := by
              cases a with
              | remove q b => cases b <;> first | (cases hn; rfl) | cases hn
              | _ => first | (cases hn; rfl) | cases hn
            rcases name_beside (E := E) hr h.rels.ok (h.rels.here l) (depth := depth) hn with hb | hb
            · exact .inr (.inl hb)
            · refine .inl fun n f hd d hm hat => Beside.fat hb ?_ hat
              rintro ⟨e1, e2⟩
              have := List.all_eq_true.1 hc _ (List.mem_of_getElem? hm)
              simp [hs e1, e2] at this
          | _ => cases hn
      · obtain ⟨k, p, rfl, hc⟩ : ∃ k p, a = .one k (.remove p true) ∧ (tab.all fun x => x.all fun f => f.k ≠ k ∨ ¬ p <+: f.p) = true := by
          unfold Acts.apart at hc
          split at hc
          · exact ⟨_, _, rfl, hc⟩
          · cases hc
        refine .inr (.inr fun n f hm => ⟨?_, fun hd d hat hv => ?_⟩)
        · have hne := List.all_eq_true.1 hc _ (List.mem_of_getElem? hm)
          simp only [Option.all_some, decide_eq_true_eq] at hne
          show (setAt T k (Act.says depth (.remove p true) (T k)).2 f.k).get f.p = _
          unfold setAt
          split
          · rename_i e
            rw [e, remove_rest (h.rels.here k).keys]
            exact hne.resolve_left fun c => c e
          · rfl
        · have e0 : ((Acts.one k (.remove p true)).run E site depth s).2 = (uRemove sysOps depth (siteAt E (site k) p) true s).2 := map_snd
          rw [e0] at hv ⊢
          exact ⟨remove_keeps h.rels.ok _ _ _ _ hat.at_ hv, hat.flags, hat.last⟩
    revert h1 h2
    generalize a.says may depth T = x
    generalize a.run E site depth s = y
    intro h1 h2
    cases h1 with
    | out T' y => exact .out _ _
    | same hR =>
      rename_i x T' s'
      have go : (∀ (n : Nat) (f : Slot κ) (hd : Hd) (d : Bytes), tab[n]? = some (some f) → FAt r s (site f.k) f.p hd f.mode d f.pos →
          FAt r s' (site f.k) f.p hd f.mode d f.pos) → FRel E r site F (T', tab) (s', objs) := by
        intro h2
        refine ⟨hR, h.len, fun m f hm => ?_, h.once⟩
        obtain ⟨hd, d, a1, -, a3⟩ := h.here m f hm
        have a4 := h2 m f hd d hm a3
        refine ⟨hd, d, a1, ?_, a4⟩
        dsimp only
        rw [← (hR.here f.k).here]
        exact a4.at_.siteV
      rcases h2 with h2 | h2 | h2
      · have key := go h2
        cases x with
        | ok x => exact .same key
        | error e => exact .same key
      · dsimp only at h2
        subst h2
        exact .out _ _
      · have key := go fun n f hd d hm hat => (h2 n f hm).2 hd d hat (by
          rw [(hR.here f.k).here]
          dsimp only at h2
          rw [(h2 n f hm).1, ← (h.rels.here f.k).here, hat.at_.siteV]
          simp)
        cases x with
        | ok x => exact .same key
        | error e => exact .same key
  · exact .out _ _

theorem out_open (hr : Function.Injective r) (hs : Function.Injective site) {may : κ → κ → Bool} (depth : Nat) (k : κ) (p : List Str) (m : OMode)
    (h : FRel E r site F (T, tab) (s, objs)) :
    FOut E r site F ((FAct.open_ k p m).says may depth (T, tab)) ((FAct.open_ k p m).run E site depth (s, objs)) := by
  unfold FAct.says FAct.run
  dsimp only
  split
  · rename_i hc
    have h1 := sOpen_says (E := E) hr h.rels.ok (h.rels.here k) p m
    revert h1
    cases (T k).opens p m with
    | error e =>
      rintro (rfl | h1)
      · exact .out _ _
      · dsimp only
        rw [h1]
        exact .same h
    | ok x =>
      obtain ⟨t', pos⟩ := x
      rintro ⟨hp0, d, V, g1, g2, ⟨hd, s', e, ok, hv, hat, frame⟩, hh, ho⟩
      dsimp only
      rw [e]
      dsimp only
      have hne : ∀ (n : Nat) (g : Slot κ), tab[n]? = some (some g) → ¬ (g.k = k ∧ g.p = p) := by
        rintro n g hm ⟨rfl, rfl⟩
        have := List.all_eq_true.1 hc _ (List.mem_of_getElem? hm)
        simp at this
      rw [show objs.length = tab.length from h.len.symm]
      have back : ∀ {n : Nat} {g : Slot κ}, (tab ++ [some ⟨k, p, m, pos⟩])[n]? = some (some g) →
          tab[n]? = some (some g) ∨ (n = tab.length ∧ g = ⟨k, p, m, pos⟩) := by
        intro n g hm
        rcases Nat.lt_or_ge n tab.length with hl | hl
        · rw [List.getElem?_append_left hl] at hm; exact .inl hm
        · rw [List.getElem?_append_right hl] at hm
          by_cases e : n - tab.length = 0
          · rw [e] at hm
            simp only [List.getElem?_cons_zero, Option.some.injEq] at hm
            exact .inr ⟨by omega, hm.symm⟩
          · rw [List.getElem?_eq_none (by simp; omega)] at hm; cases hm
      refine .same ⟨h.rels.at_ hs ok (hh s' hv) fun j q hj => by rw [hv]; exact ho j q hj, ?_, ?_, ?_⟩
      · have := h.len
        simpa using this
      · intro m g hm
        dsimp only at hm ⊢
        rcases back hm with hm | ⟨rfl, rfl⟩
        · obtain ⟨hd2, d2, a1, a2, a3⟩ := h.here m g hm
          have hx := hne m g hm
          refine ⟨hd2, d2, ?_, ?_, frame (fun c => hx ⟨hs c.1, c.2⟩) a3⟩
          · have hl : m < objs.length := (List.getElem?_eq_some_iff.1 a1).1
            rw [List.getElem?_append_left hl]; exact a1
          · unfold setAt
            dsimp only at a2 ⊢
            split
            · rename_i hk
              rw [g2 _ fun c => hx ⟨hk, c⟩, ← hk]; exact a2
            · exact a2
        · refine ⟨hd, d, ?_, ?_, hat⟩
          · rw [show tab.length = objs.length from h.len]; simp
          · unfold setAt
            dsimp only
            rw [if_pos rfl]; exact g1
      · intro m m' g g' hm hm' hk hp
        dsimp only at hm hm'
        rcases back hm with hm | ⟨rfl, rfl⟩ <;> rcases back hm' with hm' | ⟨rfl, rfl⟩
        · exact h.once _ _ _ _ hm hm' hk hp
        · exact absurd ⟨hk, hp⟩ (hne m g hm)
        · exact absurd ⟨hk.symm, hp.symm⟩ (hne m' g' hm')
        · rfl
  · exact .out _ _

theorem out_op (hr : Function.Injective r) (hs : Function.Injective site) {may : κ → κ → Bool} (depth : Nat) (n : Nat) (o : FOp)
    (h : FRel E r site F (T, tab) (s, objs)) :
    FOut E r site F ((FAct.op n o).says may depth (T, tab)) ((FAct.op n o).run E site depth (s, objs)) := by
  unfold FAct.says FAct.run
  dsimp only
  cases hn : tab[n]? with
  | none => exact .out _ _
  | some z =>
    cases z with
    | none => exact .out _ _
    | some f =>
      obtain ⟨hd, d, h1, h2, h3⟩ := h.here n f hn
      dsimp only at h1 h2 h3 ⊢
      rw [h2, h1]
      dsimp only
      cases he : o.expect f.mode d f.pos with
      | none => exact .out _ _
      | some y =>
        obtain ⟨x, d', pos'⟩ := y
        obtain ⟨y, hy, e, ok, hv, hat, frame⟩ := op_done h.rels.ok hr h3 he
        dsimp only
        rw [show FObj.op ⟨hd, f.mode, false⟩ o s = (.ok y, (FObj.op ⟨hd, f.mode, false⟩ o s).2) from Prod.ext e rfl]
        dsimp only
        rw [hy]
        generalize (FObj.op ⟨hd, f.mode, false⟩ o s).2 = s' at *
        have hp0 : f.p ≠ [] := by rintro e; rw [e, Tree.get_nil] at h2; cases h2
        have hfit := (h.rels.here f.k).fits (p := f.p) (by rw [h2]; simp)
        have hne : ∀ m g, tab[m]? = some (some g) → m ≠ n → ¬ (site g.k = site f.k ∧ g.p = f.p) := by
          rintro m g hm hmn ⟨e1, e2⟩
          exact hmn (h.once _ _ _ _ hm hn (hs e1) e2)
        refine .same ⟨?_, ?_, ?_, ?_⟩
        · refine h.rels.at_ hs ok (set_holds (h.rels.here f.k) hfit hp0 (by rw [hv, upd_same]) fun x hx => ?_) fun j p hj => ?_
          · rw [hv, upd_ne fun c => hx c.2]
          · rw [hv, upd_ne fun c => hj c.1]
        · rw [List.length_set]; exact h.len
        · intro m g hm
          rw [List.getElem?_set] at hm
          dsimp only
          split at hm
          · rename_i hmn
            subst hmn
            split at hm
            · simp only [Option.some.injEq] at hm
              subst hm
              refine ⟨hd, d', h1, ?_, hat⟩
              unfold setAt
              dsimp only
              rw [if_pos rfl, Tree.get_set hp0, if_pos rfl]
            · cases hm
          · rename_i hmn
            obtain ⟨hd2, d2, a1, a2, a3⟩ := h.here m g hm
            have hx := hne m g hm (Ne.symm hmn)
            refine ⟨hd2, d2, a1, ?_, frame hx a3⟩
            unfold setAt
            dsimp only at a2 ⊢
            split
            · rename_i hk
              rw [Tree.get_set hp0, if_neg fun e => hx ⟨by rw [hk], e⟩, ← hk]
              exact a2
            · exact a2
        · intro m m' g g' hm hm' hk hp
          dsimp only at hm hm'
          have back : ∀ {m : Nat} {g : Slot κ}, (tab.set n (some { f with pos := pos' }))[m]? = some (some g) →
              ∃ g0 : Slot κ, tab[m]? = some (some g0) ∧ g0.k = g.k ∧ g0.p = g.p := by
            intro m g hm
            rw [List.getElem?_set] at hm
            split at hm
            · rename_i hmn
              subst hmn
              split at hm
              · simp only [Option.some.injEq] at hm
                subst hm
                exact ⟨f, hn, rfl, rfl⟩
              · cases hm
            · exact ⟨g, hm, rfl, rfl⟩
          obtain ⟨g0, a1, a2, a3⟩ := back hm
          obtain ⟨g0', b1, b2, b3⟩ := back hm'
          exact h.once _ _ _ _ a1 b1 (by rw [a2, b2, hk]) (by rw [a3, b3, hp])

theorem out_close (hr : Function.Injective r) {may : κ → κ → Bool} (depth : Nat) (n : Nat)
    (h : FRel E r site F (T, tab) (s, objs)) (hs : Function.Injective site) :
    FOut E r site F ((FAct.close n).says may depth (T, tab)) ((FAct.close n).run E site depth (s, objs)) := by
  unfold FAct.says FAct.run
  dsimp only
  cases hn : tab[n]? with
  | none => exact .out _ _
  | some z =>
    cases z with
    | none => exact .out _ _
    | some f =>
      obtain ⟨hd, d, h1, h2, h3⟩ := h.here n f hn
      dsimp only at h1 h2 h3 ⊢
      rw [h1]
      obtain ⟨s', e, ok, hv, frame⟩ := close_step (f := ⟨hd, f.mode, false⟩) h.rels.ok hr h3
      dsimp only
      rw [e]
      refine .same ⟨⟨ok, fun k => (h.rels.here k).stays fun p => by rw [hv], fun j hj => by rw [hv]; exact h.rels.there j hj⟩, ?_, ?_, ?_⟩
      · rw [List.length_set, List.length_set]; exact h.len
      · intro m g hm
        dsimp only at hm ⊢
        rw [List.getElem?_set] at hm
        split at hm
        · split at hm <;> cases hm
        · rename_i hmn
          obtain ⟨hd2, d2, a1, a2, a3⟩ := h.here m g hm
          refine ⟨hd2, d2, by rw [List.getElem?_set_ne hmn]; exact a1, a2, frame ?_ a3⟩
          rintro ⟨e1, e2⟩
          exact hmn (h.once _ _ _ _ hn hm (hs e1.symm) e2.symm)
      · intro m m' g g' hm hm' hk hp
        dsimp only at hm hm'
        rw [List.getElem?_set] at hm hm'
        split at hm
        · split at hm <;> cases hm
        · split at hm'
          · split at hm' <;> cases hm'
          · exact h.once _ _ _ _ hm hm' hk hp

theorem out_step (hr : Function.Injective r) (hs : Function.Injective site) {may : κ → κ → Bool}
    (hmay : ∀ k k', may k k' = true → May (site k) (site k')) (depth : Nat) (a : FAct κ) (h : FRel E r site F (T, tab) (s, objs)) :
    FOut E r site F (a.says may depth (T, tab)) (a.run E site depth (s, objs)) := by
  cases a with
  | call a => exact out_call hr hs hmay depth a h
  | open_ k p m => exact out_open hr hs depth k p m h
  | op n o => exact out_op hr hs depth n o h
  | close n => exact out_close hr depth n h hs

omit [DecidableEq κ] in
theorem fexec_none {σ : Type} {step : FAct κ → OM σ FAns} {pr : FPrg κ} {n : Nat} {s : σ} (h : pr (pr.exec step n s).1 = none) :
    pr.exec step (n + 1) s = pr.exec step n s := by
  show (match pr (pr.exec step n s).1 with | none => pr.exec step n s | some a => _) = _
  rw [h]

omit [DecidableEq κ] in
theorem fexec_some {σ : Type} {step : FAct κ → OM σ FAns} {pr : FPrg κ} {n : Nat} {s : σ} {a : FAct κ} (h : pr (pr.exec step n s).1 = some a) :
    pr.exec step (n + 1) s = ((pr.exec step n s).1 ++ [(step a (pr.exec step n s).2).1], (step a (pr.exec step n s).2).2) := by
  show (match pr (pr.exec step n s).1 with | none => pr.exec step n s | some a => _) = _
  rw [h]

theorem files_rel (hr : Function.Injective r) (hs : Function.Injective site) {may : κ → κ → Bool}
    (hmay : ∀ k k', may k k' = true → May (site k) (site k')) (depth : Nat) (pr : FPrg κ) : ∀ (n : Nat) {x : (κ → Tree) × List (Option (Slot κ))}
    {y : Sys × List FObj}, FRel E r site F x y → (∀ a ∈ (pr.exec (FAct.says may depth) n x).1, a ≠ .error .outside) →
    (pr.exec (FAct.run E site depth) n y).1 = (pr.exec (FAct.says may depth) n x).1 ∧
      FRel E r site F (pr.exec (FAct.says may depth) n x).2 (pr.exec (FAct.run E site depth) n y).2
  | 0, _, _, h, _ => ⟨rfl, h⟩
  | n + 1, x, y, h, hq => by
    cases hp : pr (pr.exec (FAct.says may depth) n x).1 with
    | none =>
      rw [fexec_none hp] at hq ⊢
      obtain ⟨h1, h2⟩ := files_rel hr hs hmay depth pr n h hq
      rw [fexec_none (by rw [h1, hp])]
      exact ⟨h1, h2⟩
    | some a =>
      rw [fexec_some hp] at hq ⊢
      obtain ⟨h1, h2⟩ := files_rel hr hs hmay depth pr n h fun x hx => hq x (by simp [hx])
      rw [fexec_some (by rw [h1, hp])]
      have h3 := out_step hr hs hmay depth a h2
      have h4 := hq _ (List.mem_append_right _ (List.mem_singleton.2 rfl))
      dsimp only
      revert h3 h4
      generalize a.says may depth _ = u
      generalize a.run E site depth _ = v
      intro h3 h4
      cases h3 with
      | out => exact absurd rfl h4
      | same hrel => exact ⟨by rw [h1], hrel⟩

omit [DecidableEq κ] in
theorem frel_start (hok : SysOk E r s) (h : ∀ k, Holds r s (site k) (T k)) : FRel E r site (siteV r s) (T, []) (s, []) :=
  ⟨⟨hok, h, fun _ _ => rfl⟩, rfl, (fun _ _ e => nomatch e), fun _ _ _ _ e => nomatch e⟩

/-- every program that opens files in several memory file systems and on local files, uses the file objects in any order, and
    makes the calls of C116 between, gets the answers and leaves the trees that the description says, step by step -/
theorem C118_program (hr : Function.Injective r) (hs : Function.Injective site) {may : κ → κ → Bool}
    (hmay : ∀ k k', may k k' = true → May (site k) (site k')) (hok : SysOk E r s) (h : ∀ k, Holds r s (site k) (T k)) (depth : Nat)
    (pr : FPrg κ) (n : Nat) (hq : ∀ x ∈ (pr.exec (FAct.says may depth) n (T, [])).1, x ≠ .error .outside) :
    (pr.exec (FAct.run E site depth) n (s, [])).1 = (pr.exec (FAct.says may depth) n (T, [])).1 ∧
    (∀ k, Holds r (pr.exec (FAct.run E site depth) n (s, [])).2.1 (site k) ((pr.exec (FAct.says may depth) n (T, [])).2.1 k)) ∧
    SysOk E r (pr.exec (FAct.run E site depth) n (s, [])).2.1 ∧
    ∀ j, (∀ k, site k ≠ j) → siteV r (pr.exec (FAct.run E site depth) n (s, [])).2.1 j = siteV r s j := by
  obtain ⟨h1, h2⟩ := files_rel hr hs hmay depth pr n (frel_start hok h) hq
  exact ⟨h1, h2.rels.here, h2.rels.ok, h2.rels.there⟩

/-- and it does not matter which memory file systems they are and which of the places is the local one -/
theorem C118_same {ι' : Type} {E' : ι' → Dict} {r' : ι' → Nat} {site' : κ → Option ι'} {s' : Sys} (hr : Function.Injective r)
    (hr' : Function.Injective r') (hs : Function.Injective site) (hs' : Function.Injective site') {may : κ → κ → Bool}
    (hmay : ∀ k k', may k k' = true → May (site k) (site k') ∧ May (site' k) (site' k')) (hok : SysOk E r s) (hok' : SysOk E' r' s')
    (h : ∀ k, Holds r s (site k) (T k)) (hv : ∀ k, siteV r' s' (site' k) = siteV r s (site k)) (depth : Nat) (pr : FPrg κ) (n : Nat)
    (hq : ∀ x ∈ (pr.exec (FAct.says may depth) n (T, [])).1, x ≠ .error .outside) :
    (pr.exec (FAct.run E' site' depth) n (s', [])).1 = (pr.exec (FAct.run E site depth) n (s, [])).1 ∧
    ∀ k, siteV r' (pr.exec (FAct.run E' site' depth) n (s', [])).2.1 (site' k) = siteV r (pr.exec (FAct.run E site depth) n (s, [])).2.1 (site k) := by
  have h' : ∀ k, Holds r' s' (site' k) (T k) := fun k => ⟨fun p => by rw [hv]; exact (h k).here p, (h k).keys,
    fun p => by rw [hv]; exact (h k).fit p, fun p => by rw [hv]; exact (h k).noLink p⟩
  obtain ⟨a1, a2, -, -⟩ := C118_program hr hs (fun k k' c => (hmay k k' c).1) hok h depth pr n hq
  obtain ⟨b1, b2, -, -⟩ := C118_program hr' hs' (fun k k' c => (hmay k k' c).2) hok' h' depth pr n hq
  exact ⟨b1.trans a1.symm, fun k => funext fun p => by rw [(a2 k).here, (b2 k).here]⟩

end

/-! ## Concrete cases -/

/-- the program that makes the steps of a list -/
def listF {κ : Type} (l : List (FAct κ)) : FPrg κ := fun h => l[h.length]?

/-- two files are open at a time; one is written, gone back in, read, cut; the other is read line by line -/
def filePrg : FPrg Bool := listF [.open_ true [cl!"a", cl!"f"] .r, .open_ false [cl!"a", cl!"g"] .w, .op 0 (.read 1), .op 1 (.write [97, 10, 98]),
  .op 0 .tell, .op 0 (.read (-1)), .op 0 .next, .op 0 (.seek (-1) 2), .op 0 .readline, .op 1 (.seek 5 0), .op 1 (.write [99]), .op 1 .flush, .op 1 .tell, .op 0 .seekable, .op 1 .seekable, .op 0 .flush,
  .call (.one false (.listdir [cl!"a"])), .close 1, .open_ false [cl!"a", cl!"g"] .rw, .op 2 .next, .op 2 (.read (-1)), .op 2 (.seek 0 0), .op 2 .readlines,
  .op 2 .tell, .op 2 (.seek 1 0),
  .op 2 (.write [100]), .op 2 (.truncate none), .op 2 (.seek 0 0), .op 2 (.read 9), .close 2, .open_ true [cl!"a", cl!"g"] .r,
  .open_ true [cl!"a"] .w, .open_ true [cl!"x", cl!"y"] .w, .open_ false [cl!"a", cl!"g"] .a, .op 3 (.write [7]), .op 3 .tell, .close 3, .close 0,
  .call (.copy false [cl!"a", cl!"g"] true [cl!"a"] false [] true), .call (.one true (.read [cl!"a", cl!"g"]))]

theorem file_answers : (filePrg.exec (FAct.says (fun _ _ => true) 50) 40 ((fun _ => twinTree), [])).1 =
    [.ok (.file 0), .ok (.file 1), .ok (.bytes [104]), .ok .unit, .ok (.num 1), .ok (.bytes [105]), .ok .stop, .ok .unit, .ok (.bytes [105]),
     .ok .unit, .ok .unit, .ok .unit, .ok (.num 6), .ok (.bool true), .ok (.bool true), .ok .unit, .ok (.call (.names [cl!"f", cl!"g"])), .ok .unit, .ok (.file 2), .ok (.bytes [97, 10]),
     .ok (.bytes [98, 0, 0, 99]), .ok .unit, .ok (.lines [.bytes [97, 10], .bytes [98, 0, 0, 99]]), .ok (.num 6), .ok .unit, .ok .unit, .ok (.num 2), .ok .unit, .ok (.bytes [97, 100]), .ok .unit, .error (.os .ENOENT),
     .error (.os .EISDIR), .error (.os .ENOENT), .ok (.file 3), .ok .unit, .ok (.num 3), .ok .unit, .ok .unit, .ok (.call .unit),
     .ok (.call (.bytes [97, 100, 7]))] := by
  decide +kernel

/-- whichever of the two places is the local one -/
example (sw : Bool) : (filePrg.exec (FAct.run (fun _ : Unit => []) (twinSite sw) 50) 40 (twinSys, [])).1 =
    (filePrg.exec (FAct.says (fun _ _ => true) 50) 40 ((fun _ => twinTree), [])).1 :=
  (C118_program unit_inj (twinSite_inj sw) (may := fun _ _ => true) (by revert sw; unfold May; decide) twin_ok (fun k => twin_holds _) 50 filePrg 40
    (by rw [file_answers]; decide)).1

example : (filePrg.exec (FAct.run (fun _ : Unit => []) (twinSite true) 50) 40 (twinSys, [])).1 =
    (filePrg.exec (FAct.run (fun _ : Unit => []) (twinSite false) 50) 40 (twinSys, [])).1 :=
  (C118_same (T := fun _ => twinTree) unit_inj unit_inj (twinSite_inj false) (twinSite_inj true) (may := fun _ _ => true) (by unfold May; decide) twin_ok twin_ok
    (fun k => twin_holds _) (fun k => funext fun p => by rw [(twin_holds _).here, (twin_holds _).here]) 50 filePrg 40
    (by rw [file_answers]; decide)).1

/-- while two files are open, other files and directories are made, read, hashed and removed beside them -/
def besidePrg : FPrg Bool := listF [.open_ true [cl!"a", cl!"f"] .r, .op 0 (.read 1), .open_ false [cl!"a", cl!"g"] .w, .op 1 (.write [1, 2]),
  .call (.one true (.mkdir [cl!"a", cl!"d"])), .call (.one true (.write [cl!"a", cl!"d", cl!"x"] [[7], [8, 9]])),
  .call (.one true (.read [cl!"a", cl!"d", cl!"x"])), .call (.one true (.md5 [cl!"a", cl!"d", cl!"x"])), .call (.one true (.remove [cl!"a", cl!"d"] false)),
  .call (.one true (.remove [cl!"a", cl!"d", cl!"x"] false)), .call (.one true (.remove [cl!"a", cl!"d"] false)),
  .call (.one true (.remove [cl!"a", cl!"d"] false)), .call (.one false (.read [cl!"a", cl!"f"])), .call (.one true (.write [cl!"a", cl!"g"] [[5]])),
  .call (.one true (.makedirs [cl!"a", cl!"e", cl!"h"])), .call (.one true (.makedirs [cl!"a", cl!"g"])), .call (.one true (.isdir [cl!"a", cl!"e"])),
  .call (.one true (.remove [cl!"a", cl!"e"] true)), .call (.one true (.exists_ [cl!"a", cl!"e", cl!"h"])),
  .op 1 (.write [3]), .op 0 (.read 9), .op 1 .tell, .close 1, .call (.one false (.read [cl!"a", cl!"g"])), .call (.one true (.read [cl!"a", cl!"f"]))]

theorem beside_answers : (besidePrg.exec (FAct.says (fun _ _ => true) 50) 24 ((fun _ => twinTree), [])).1 =
    [.ok (.file 0), .ok (.bytes [104]), .ok (.file 1), .ok .unit, .ok (.call .unit), .ok (.call .unit), .ok (.call (.bytes [7, 8, 9])),
     .ok (.call (.bytes [7, 8, 9])), .error (.os .ENOTEMPTY), .ok (.call .unit), .ok (.call .unit), .error .fileDoesNotExist,
     .ok (.call (.bytes [104, 105])), .ok (.call .unit), .ok (.call .unit), .error (.os .EEXIST), .ok (.call (.bool true)), .ok (.call .unit),
     .ok (.call (.bool false)), .ok .unit, .ok (.bytes [105]), .ok (.num 3), .ok .unit, .ok (.call (.bytes [1, 2, 3]))] := by
  decide +kernel

example (sw : Bool) : (besidePrg.exec (FAct.run (fun _ : Unit => []) (twinSite sw) 50) 24 (twinSys, [])).1 =
    (besidePrg.exec (FAct.says (fun _ _ => true) 50) 24 ((fun _ => twinTree), [])).1 :=
  (C118_program unit_inj (twinSite_inj sw) (may := fun _ _ => true) (by revert sw; unfold May; decide) twin_ok (fun k => twin_holds _) 50 besidePrg 24
    (by rw [beside_answers]; decide)).1

/-- about reading a file that is open there is no expectation -/
example : (besidePrg.exec (FAct.says (fun _ _ => true) 50) 25 ((fun _ => twinTree), [])).1.getLast? = some (.error .outside) := by
  decide +kernel

/-- nor about removing the directory of an open file -/
example : ((listF [.open_ true [cl!"a", cl!"f"] .r, .call (.one false (.remove [cl!"a"] true)), .call (.one true (.remove [cl!"a"] true))]).exec
    (FAct.says (fun _ _ => true) 50) 3 ((fun _ => twinTree), [])).1 = [.ok (.file 0), .ok (.call .unit), .error .outside] := by
  decide +kernel

/-! ## Where file objects differ

Outside the description, the file objects of memory file systems and those of local files answer differently. -/

/-- the answers of a list of steps in one place -/
def inPlace (k : Option Unit) (l : List (FAct Unit)) : List (Except PyErr FAns) :=
  ((listF l).exec (FAct.run (fun _ : Unit => []) (fun _ => k) 50) 10 (twinSys, [])).1

/-- A file opened for reading can be written in memory. -/
theorem C118_write_on_read : inPlace (some ()) [.open_ () [cl!"a", cl!"f"] .r, .op 0 (.write [1]), .close 0, .call (.one () (.read [cl!"a", cl!"f"]))] =
      [.ok (.file 0), .ok .unit, .ok .unit, .ok (.call (.bytes [1, 105]))] ∧
    inPlace none [.open_ () [cl!"a", cl!"f"] .r, .op 0 (.write [1]), .close 0, .call (.one () (.read [cl!"a", cl!"f"]))] =
      [.ok (.file 0), .error .valueError, .ok .unit, .ok (.call (.bytes [104, 105]))] := by
  decide +kernel

/-- Reading from a file opened for writing is refused with different exceptions. -/
theorem C118_read_on_write : inPlace (some ()) [.open_ () [cl!"a", cl!"f"] .w, .op 0 (.read 1)] =
      [.ok (.file 0), .error (.os .EBADF)] ∧
    inPlace none [.open_ () [cl!"a", cl!"f"] .w, .op 0 (.read 1)] =
      [.ok (.file 0), .error .valueError] := by
  decide +kernel

/-- Lines can be read from a file opened for writing in memory: memory.py:186-192 do not ask whether the file is readable. -/
theorem C118_lines_on_write : inPlace (some ()) [.open_ () [cl!"a", cl!"f"] .w, .op 0 (.write [1, 10, 2]), .op 0 (.seek 0 0), .op 0 .readline, .op 0 .readlines] =
      [.ok (.file 0), .ok .unit, .ok .unit, .ok (.bytes [1, 10]), .ok (.lines [.bytes [2]])] ∧
    inPlace none [.open_ () [cl!"a", cl!"f"] .w, .op 0 (.write [1, 10, 2]), .op 0 (.seek 0 0), .op 0 .readline, .op 0 .readlines] =
      [.ok (.file 0), .ok .unit, .ok .unit, .error .valueError, .error .valueError] := by
  decide +kernel

/-- Reading a whole memory file moves the position of a file object that is open there. -/
theorem C118_read_moves : inPlace (some ()) [.open_ () [cl!"a", cl!"f"] .r, .call (.one () (.read [cl!"a", cl!"f"])), .op 0 (.read 1)] =
      [.ok (.file 0), .ok (.call (.bytes [104, 105])), .ok (.bytes [])] ∧
    inPlace none [.open_ () [cl!"a", cl!"f"] .r, .call (.one () (.read [cl!"a", cl!"f"])), .op 0 (.read 1)] =
      [.ok (.file 0), .ok (.call (.bytes [104, 105])), .ok (.bytes [104])] := by
  decide +kernel

/-- Two file objects of one memory file share the position. -/
theorem C118_shared : inPlace (some ()) [.open_ () [cl!"a", cl!"f"] .r, .op 0 (.read 1), .open_ () [cl!"a", cl!"f"] .r, .op 0 (.read 1)] =
      [.ok (.file 0), .ok (.bytes [104]), .ok (.file 1), .ok (.bytes [104])] ∧
    inPlace none [.open_ () [cl!"a", cl!"f"] .r, .op 0 (.read 1), .open_ () [cl!"a", cl!"f"] .r, .op 0 (.read 1)] =
      [.ok (.file 0), .ok (.bytes [104]), .ok (.file 1), .ok (.bytes [105])] := by
  decide +kernel

/-- Appending to an empty memory file begins behind a zero byte. -/
theorem C118_append_empty : inPlace (some ()) [.call (.one () (.write [cl!"e"] [])), .open_ () [cl!"e"] .a, .op 0 (.write [5]), .close 0, .call (.one () (.read [cl!"e"]))] =
      [.ok (.call .unit), .ok (.file 0), .ok .unit, .ok .unit, .ok (.call (.bytes [0, 5]))] ∧
    inPlace none [.call (.one () (.write [cl!"e"] [])), .open_ () [cl!"e"] .a, .op 0 (.write [5]), .close 0, .call (.one () (.read [cl!"e"]))] =
      [.ok (.call .unit), .ok (.file 0), .ok .unit, .ok .unit, .ok (.call (.bytes [5]))] := by
  decide +kernel

/-- A memory file that is missing is not made by opening it for appending. -/
theorem C118_append_missing : inPlace (some ()) [.open_ () [cl!"e"] .a] =
      [.error (.os .ENOENT)] ∧
    inPlace none [.open_ () [cl!"e"] .a] =
      [.ok (.file 0)] := by
  decide +kernel

/-- A memory file opened for appending is written where `seek` went. -/
theorem C118_append_seek : inPlace (some ()) [.open_ () [cl!"a", cl!"f"] .a, .op 0 (.seek 0 0), .op 0 (.write [5]), .close 0, .call (.one () (.read [cl!"a", cl!"f"]))] =
      [.ok (.file 0), .ok .unit, .ok .unit, .ok .unit, .ok (.call (.bytes [5, 105]))] ∧
    inPlace none [.open_ () [cl!"a", cl!"f"] .a, .op 0 (.seek 0 0), .op 0 (.write [5]), .close 0, .call (.one () (.read [cl!"a", cl!"f"]))] =
      [.ok (.file 0), .ok .unit, .ok .unit, .ok .unit, .ok (.call (.bytes [104, 105, 5]))] := by
  decide +kernel

/-- Going before the beginning of a memory file goes to the beginning. -/
theorem C118_seek_negative : inPlace (some ()) [.open_ () [cl!"a", cl!"f"] .r, .op 0 (.seek (-5) 1)] =
      [.ok (.file 0), .ok .unit] ∧
    inPlace none [.open_ () [cl!"a", cl!"f"] .r, .op 0 (.seek (-5) 1)] =
      [.ok (.file 0), .error (.os .EINVAL)] := by
  decide +kernel

/-- Cutting behind the end makes local files longer. -/
theorem C118_grow : inPlace (some ()) [.open_ () [cl!"a", cl!"f"] .rw, .op 0 (.truncate (some 4)), .close 0, .call (.one () (.read [cl!"a", cl!"f"]))] =
      [.ok (.file 0), .ok (.num 4), .ok .unit, .ok (.call (.bytes [104, 105]))] ∧
    inPlace none [.open_ () [cl!"a", cl!"f"] .rw, .op 0 (.truncate (some 4)), .close 0, .call (.one () (.read [cl!"a", cl!"f"]))] =
      [.ok (.file 0), .ok (.num 4), .ok .unit, .ok (.call (.bytes [104, 105, 0, 0]))] := by
  decide +kernel

/-- A memory file can be used after it was closed. -/
theorem C118_closed : inPlace (some ()) [.open_ () [cl!"a", cl!"f"] .r, .close 0, .op 0 (.read 1)] =
      [.ok (.file 0), .ok .unit, .ok (.bytes [104])] ∧
    inPlace none [.open_ () [cl!"a", cl!"f"] .r, .close 0, .op 0 (.read 1)] =
      [.ok (.file 0), .ok .unit, .error .valueError] := by
  decide +kernel

theorem fdLook_ok {fd : Nat} {f : Bytes → Nat → Except PyErr (FAns × Nat)} {d : Disk} {y : FAns} (h : (fdLook fd f d).1 = .ok y) :
    ∃ data pos p, f data pos = .ok (y, p) := by
  unfold fdLook at h
  split at h
  · cases h
  · split at h
    · split at h
      · rename_i e; cases h; exact ⟨_, _, _, e⟩
      · cases h
    · cases h

theorem fdChange_ok {fd : Nat} {f : Bytes → Nat → Except PyErr (FAns × Bytes × Nat)} {d : Disk} {y : FAns} (h : (fdChange fd f d).1 = .ok y) :
    ∃ data pos p, f data pos = .ok (y, p) := by
  unfold fdChange at h
  split at h
  · cases h
  · split at h
    · split at h
      · rename_i e; cases h; exact ⟨_, _, _, e⟩
      · cases h
    · cases h

/-- Local files: what the mode does not allow raises (io.UnsupportedOperation, a ValueError) and changes nothing. -/
theorem C118_refused (fd : Nat) (m : OMode) (d : Disk) :
    (m.reads = false → ∀ o, (∃ n, o = .read n) ∨ o = .readline ∨ o = .next ∨ o = .readlines → fdOp fd m o d = (.error .valueError, d)) ∧
    (m.writes = false → ∀ o, (∃ b, o = .write b) ∨ (∃ n, o = .truncate n) → fdOp fd m o d = (.error .valueError, d)) := by
  refine ⟨fun h o => ?_, fun h o => ?_⟩
  · rintro (⟨n, rfl⟩ | rfl | rfl | rfl)
    · unfold fdOp; dsimp only; rw [if_pos (.inl h)]; rfl
    · unfold fdOp; dsimp only; rw [if_pos h]; rfl
    · unfold fdOp; dsimp only; rw [if_pos h]; rfl
    · unfold fdOp; dsimp only; rw [if_pos h]; rfl
  · rintro (⟨b, rfl⟩ | ⟨n, rfl⟩)
    · unfold fdOp; dsimp only; rw [if_pos h]; rfl
    · unfold fdOp; dsimp only; rw [if_pos h]; rfl

/-- Local files: a whence that is none of 0, 1 and 2, and reading less than -1 bytes, is a ValueError; a position or a size below 0 is EINVAL.  Nothing changes. -/
theorem C118_refused_number {fd : Nat} {d : Disk} {q : List Str} {pos perm : Nat} {data : Bytes} (hf : d.fds[fd]? = some (q, pos))
    (ht : d.tree q = some (.file perm data)) (m : OMode) :
    (∀ off wh : Int, wh < 0 ∨ 2 < wh → fdOp fd m (.seek off wh) d = (.error .valueError, d)) ∧
    (∀ n : Int, n < -1 → fdOp fd m (.read n) d = (.error .valueError, d)) ∧
    (∀ off : Int, off < 0 → fdOp fd m (.seek off 0) d = (.error (.os .EINVAL), d)) ∧
    (∀ off : Int, pos + off < 0 → fdOp fd m (.seek off 1) d = (.error (.os .EINVAL), d)) ∧
    (∀ off : Int, data.length + off < 0 → fdOp fd m (.seek off 2) d = (.error (.os .EINVAL), d)) ∧
    (∀ n : Int, n < 0 → m.writes = true → fdOp fd m (.truncate (some n)) d = (.error (.os .EINVAL), d)) := by
  refine ⟨fun off wh h => ?_, fun n h => ?_, fun off h => ?_, fun off h => ?_, fun off h => ?_, fun n h hm => ?_⟩
  · unfold fdOp fdLook; simp only [hf, ht]; rw [if_pos h]
  · unfold fdOp; dsimp only; rw [if_pos (.inr h)]; rfl
  · unfold fdOp fdLook; simp only [hf, ht]; rw [if_neg (by decide)]; simp [h]
  · unfold fdOp fdLook; simp only [hf, ht]; rw [if_neg (by decide)]; simp [h]
  · unfold fdOp fdLook; simp only [hf, ht]; rw [if_neg (by decide)]; simp [h]
  · unfold fdOp; dsimp only; rw [if_neg (by simp [hm])]; unfold fdChange; simp [hf, ht, h]

example : let d : Disk := ⟨[([], .dir 0o755), ([cl!"f"], .file 0o644 [1, 2])], [], 0o22, [([cl!"f"], 1)]⟩
    fdOp 0 .rw (.seek 0 3) d = (.error .valueError, d) ∧ fdOp 0 .rw (.seek (-2) 1) d = (.error (.os .EINVAL), d) :=
  ⟨(C118_refused_number (q := [cl!"f"]) (pos := 1) (perm := 0o644) (data := [1, 2]) rfl (by decide) .rw).1 0 3 (by decide),
   (C118_refused_number (q := [cl!"f"]) (pos := 1) (perm := 0o644) (data := [1, 2]) rfl (by decide) .rw).2.2.2.1 (-2) (by decide)⟩

/-- Local files: opening through at most 40 links, in any mode, opens what they lead to, or makes it if it is missing. -/
theorem C118_link {ι : Type} {E : ι → Dict} {r : ι → Nat} {s : Sys} (h : SysOk E r s) {n : Nat} {p q : List Str} (hl : Leads s.disk true n p q) (hk : n ≤ 40)
    (hn : Nm p) (hn' : Nm q) (hq : Direct s.disk q) (m : OMode) : sOpen m (siteAt E none p) s = sOpen m (siteAt E none q) s := by
  have e := find_leads h.disk hl hk hn hn' fun p hp _ => hq p hp
  have op : osOpen (loc p).path m s.disk = osOpen (loc q).path m s.disk := by
    cases m
    · show osOpenR _ _ = osOpenR _ _; unfold osOpenR; rw [e]
    · show osOpenR _ _ = osOpenR _ _; unfold osOpenR; rw [e]
    · show osOpenW _ _ = osOpenW _ _; unfold osOpenW; rw [e]
    · show osOpenA _ _ = osOpenA _ _; unfold osOpenA; rw [e]
  have key : ∀ {α β : Type} {f g : OM Disk α} (k : α → OM Sys β), f s.disk = g s.disk → (onDisk f >>= k) s = (onDisk g >>= k) s :=
    fun k he => by
      show OM.bnd _ _ _ = OM.bnd _ _ _
      unfold OM.bnd onDisk
      rw [he]
  refine (site_wc h (k := none) hn _ _).trans (Eq.trans ?_ (site_wc h (k := none) hn' _ _).symm)
  exact key _ op

/-- /ll/g is opened as /t/g -/
example : sOpen .a (sAt none [cl!"ll", cl!"g"]) linkSys = sOpen .a (sAt none [cl!"t", cl!"g"]) linkSys :=
  C118_link linkSys_ok leads_ll (by decide) (by decide +kernel) (by decide +kernel) (all_prefixes (by decide +kernel)) .a

/-- The answers of `seek` and `write` are left out of the description: a memory file answers None, a local one the position and
    the number of the bytes. -/
theorem C118_none (hh : Mem.Handle) (fd : Nat) (w : World) (d : Disk) (off wh : Int) (b : Bytes) (y : FAns) :
    ((memOp hh (.seek off wh) w).1 = .ok y → y = .unit) ∧ ((memOp hh (.write b) w).1 = .ok y → y = .unit) ∧
    ((fdOp fd .rw (.seek off wh) d).1 = .ok y → ∃ n, y = .num n) ∧ ((fdOp fd .rw (.write b) d).1 = .ok y → y = .num b.length) := by
  have key : ∀ {m : Mem.M Unit}, ((do m; pure FAns.unit : Mem.M FAns) w).1 = .ok y → y = .unit := by
    intro m h
    change (Mem.M.bnd m _ w).1 = _ at h
    unfold Mem.M.bnd at h
    revert h
    rcases m w with ⟨x | x, w'⟩ <;> intro h <;> cases h
    rfl
  refine ⟨key, key, fun h => ?_, fun h => ?_⟩
  · obtain ⟨data, pos, p, e⟩ := fdLook_ok h
    split at e
    · cases e
    · dsimp only at e
      by_cases hp : (if wh = 0 then 0 else if wh = 1 then (pos : Int) else data.length) + off < 0
      · rw [if_pos hp] at e; cases e
      · rw [if_neg hp] at e
        simp only [Except.ok.injEq, Prod.mk.injEq] at e
        exact ⟨_, e.1.symm⟩
  · obtain ⟨data, pos, p, e⟩ := fdChange_ok (f := fun d pos => .ok (.num b.length, (BytesIO.write d pos b).1, (BytesIO.write d pos b).2)) h
    simp only [Except.ok.injEq, Prod.mk.injEq] at e
    exact e.1.symm

example : (memOp ⟨2, true, true⟩ (.seek 1 0) twinMem).1 = .ok .unit ∧
    (fdOp 0 .rw (.seek 1 0) { twinSys.disk with fds := [([cl!"a", cl!"f"], 0)] }).1 = .ok (.num 1) ∧
    (memOp ⟨2, true, true⟩ (.write [7]) twinMem).1 = .ok .unit ∧
    (fdOp 0 .rw (.write [7]) { twinSys.disk with fds := [([cl!"a", cl!"f"], 0)] }).1 = .ok (.num 1) := by decide +kernel

end Verif.Props
