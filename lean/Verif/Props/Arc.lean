import Verif.Any.ArcLemmas
import Verif.Props.Files
/-!
# C121 Archives that are files

The archives of the zip backend are files of memory file systems and local files: programs may copy, move, remove and write
them by one URI and use their members by another.
-/
namespace Verif.Props
open Verif.Spec Verif.Gen Verif.Any

section
variable {C : Codec} {X : Str}

theorem arc_withConn (X : Str) (cs : List Str) {α : Type} (m : Mem.Meth) (body : ZConn → OM Arc α) (s : Arc) :
    withConn (arcOps C) (zat X cs) m body s = body (.zip (zkey X)) s := by
  have : (arcOps C).conn (zat X cs) s = (.ok (.zip (zkey X)), s) := by
    show arcConn (zat X cs) s = _
    unfold arcConn
    rw [if_neg (by simp), if_pos (zat_scheme X cs), zat_key]
    rfl
  unfold withConn
  rw [bind_ok this]
  rfl

theorem onArc_bind {α β : Type} (k : Reg.Key) (m : Uri → AM α) (f : α → Uri → AM β) (s : Arc) :
    (onArc k m >>= fun x => onArc k (f x)) s = onArc k (fun a => m a >>= fun x => f x a) s := by
  show OM.bnd _ _ s = _
  unfold OM.bnd onArc
  cases URI k.base.vpathConnector with
  | error e => rfl
  | ok a =>
    dsimp only
    by_cases hz : a.scheme = some cl!"zip"
    · simp only [if_pos hz]
    · simp only [if_neg hz]
      rcases hm : m a (s.sys, s.handle k) with ⟨x, s1, o⟩
      cases x with
      | error e => rw [bind_error hm]
      | ok x =>
        rw [bind_ok hm]
        simp only
        congr 2
        funext k'
        by_cases hk : k' = k <;> simp [hk]

theorem onArc_map {α β : Type} (k : Reg.Key) (m : Uri → AM α) (g : α → β) (s : Arc) :
    (onArc k m >>= fun x => pure (g x)) s = onArc k (fun a => m a >>= fun x => pure (g x)) s := by
  show OM.bnd _ _ s = _
  unfold OM.bnd onArc
  cases URI k.base.vpathConnector with
  | error e => rfl
  | ok a =>
    dsimp only
    by_cases hz : a.scheme = some cl!"zip"
    · simp only [if_pos hz]
    · simp only [if_neg hz]
      rcases hm : m a (s.sys, s.handle k) with ⟨x, s1, o⟩
      cases x with
      | error e => rw [bind_error hm]
      | ok x => rw [bind_ok hm]; rfl

/-- the call inside of the connection -/
def inner (C : Codec) (a : Uri) : ZAct → AM Ans
  | .exists_ m => aIspart (pathOf m) [.isdir, .isfile] >>= fun b => pure (.bool b)
  | .isfile m => aIspart (pathOf m) [.isfile] >>= fun b => pure (.bool b)
  | .isdir m => aIspart (pathOf m) [.isdir] >>= fun b => pure (.bool b)
  | .listdir m => aListdir C a (pathOf m) >>= fun b => pure (.names b)
  | .read m => aOpen C a (pathOf m) (some cl!"rb") >>= fun x =>
    match x with
    | .file d => pure (.bytes d)
    | .statement => OM.raise .outside
  | .write m b => aOpen C a (pathOf m) (some cl!"wb") >>= fun x =>
    match x with
    | .file _ => OM.raise .outside
    | .statement => aExit C a (pathOf m) b >>= fun _ => pure .unit

theorem onArc_bind' {α β : Type} (k : Reg.Key) (m : Uri → AM α) (g : α → OM Arc β) (f : α → Uri → AM β)
    (h : ∀ x, g x = onArc k (f x)) (s : Arc) : (onArc k m >>= g) s = onArc k (fun a => m a >>= fun x => f x a) s := by
  rw [show g = fun x => onArc k (f x) from funext h]
  exact onArc_bind k m f s

theorem onArc_pure {α : Type} (k : Reg.Key) (x : α) {a : Uri} (h : URI k.base.vpathConnector = .ok a) (hz : a.scheme ≠ some cl!"zip") :
    (pure x : OM Arc α) = onArc k (fun _ => pure x) := by
  funext s
  unfold onArc
  rw [h]
  simp only [if_neg hz]
  show (_, _) = (_, Arc.mk _ _)
  congr 1
  cases s
  congr 1
  funext k'
  by_cases hk : k' = k
  · rw [if_pos hk, hk]; rfl
  · rw [if_neg hk]

theorem onArc_raise {α : Type} (k : Reg.Key) (x : PyErr) {a : Uri} (h : URI k.base.vpathConnector = .ok a) (hz : a.scheme ≠ some cl!"zip") :
    (OM.raise x : OM Arc α) = onArc k (fun _ => OM.raise x) := by
  funext s
  unfold onArc
  rw [h]
  simp only [if_neg hz]
  show (_, _) = (_, Arc.mk _ _)
  congr 1
  cases s
  congr 1
  funext k'
  by_cases hk : k' = k
  · rw [if_pos hk, hk]; rfl
  · rw [if_neg hk]

theorem run_inner {a : Uri} (h : URI X = .ok a) (hz : a.scheme ≠ some cl!"zip") {z : ZAct} (hm : Nm z.about) (s : Arc) :
    z.run C X s = onArc (zkey X) (fun a => inner C a z) s := by
  have hk : URI (zkey X).base.vpathConnector = .ok a := h
  cases z with
  | exists_ m =>
    have e : uExists (arcOps C) (zat X m) = onArc (zkey X) (fun _ => aIspart (pathOf m) [.isdir, .isfile]) := by
      funext s
      refine (arc_withConn X m _ _ s).trans ?_
      rw [show pathOf m = (zat X m).path from (zat_path hm).symm]; rfl
    show ((uExists (arcOps C) (zat X m)) >>= fun b => pure (Ans.bool b)) s = _
    rw [e, onArc_map]; rfl
  | isfile m =>
    have e : uIsfile (arcOps C) (zat X m) = onArc (zkey X) (fun _ => aIspart (pathOf m) [.isfile]) := by
      funext s
      refine (arc_withConn X m _ _ s).trans ?_
      rw [show pathOf m = (zat X m).path from (zat_path hm).symm]; rfl
    show ((uIsfile (arcOps C) (zat X m)) >>= fun b => pure (Ans.bool b)) s = _
    rw [e, onArc_map]; rfl
  | isdir m =>
    have e : uIsdir (arcOps C) (zat X m) = onArc (zkey X) (fun _ => aIspart (pathOf m) [.isdir]) := by
      funext s
      refine (arc_withConn X m _ _ s).trans ?_
      rw [show pathOf m = (zat X m).path from (zat_path hm).symm]; rfl
    show ((uIsdir (arcOps C) (zat X m)) >>= fun b => pure (Ans.bool b)) s = _
    rw [e, onArc_map]; rfl
  | listdir m =>
    have e : uListdir (arcOps C) (zat X m) = onArc (zkey X) (fun a => aListdir C a (pathOf m)) := by
      funext s
      refine (arc_withConn X m _ _ s).trans ?_
      rw [show pathOf m = (zat X m).path from (zat_path hm).symm]; rfl
    show ((uListdir (arcOps C) (zat X m)) >>= fun b => pure (Ans.names b)) s = _
    rw [e, onArc_map]; rfl
  | read m =>
    have e : uOpenR (arcOps C) (zat X m) = onArc (zkey X) (fun a => aOpen C a (pathOf m) (some cl!"rb")) >>= fun x =>
        (match x with
          | .file d => pure (.zipR (zkey X) d)
          | .statement => pure (.zipW (zkey X) (pathOf m)) : OM Arc ZHd) := by
      funext s
      refine (arc_withConn X m _ _ s).trans ?_
      rw [show pathOf m = (zat X m).path from (zat_path hm).symm]; rfl
    have e2 : mRead C (zat X m) = onArc (zkey X) (fun a => aOpen C a (pathOf m) (some cl!"rb")) >>= fun x =>
        (match x with
          | .file d => pure d
          | .statement => OM.raise .outside : OM Arc Bytes) := by
      unfold mRead
      rw [e]
      exact (bind_assoc (m := OM Arc) _ _ _).trans (congrArg _ (funext fun x => by cases x <;> rfl))
    show (mRead C (zat X m) >>= fun b => pure (Ans.bytes b)) s = _
    rw [e2, bind_assoc]
    refine onArc_bind' _ _ _ (fun (x : Zip.Opened) _ => match x with
      | .file d => pure (Ans.bytes d)
      | .statement => OM.raise .outside) (fun x => ?_) s
    cases x with
    | file d => exact onArc_pure _ _ hk hz
    | statement => exact onArc_raise _ _ hk hz
  | write m b =>
    have e : uOpenW (arcOps C) (zat X m) = onArc (zkey X) (fun a => aOpen C a (pathOf m) (some cl!"wb")) >>= fun x =>
        (match x with
          | .file d => pure (.zipR (zkey X) d)
          | .statement => pure (.zipW (zkey X) (pathOf m)) : OM Arc ZHd) := by
      funext s
      refine (arc_withConn X m _ _ s).trans ?_
      rw [show pathOf m = (zat X m).path from (zat_path hm).symm]; rfl
    have e2 : mWrite C (zat X m) [b] = onArc (zkey X) (fun a => aOpen C a (pathOf m) (some cl!"wb")) >>= fun x =>
        (match x with
          | .file _ => OM.raise .outside
          | .statement => onArc (zkey X) fun a => aExit C a (pathOf m) b : OM Arc Unit) := by
      unfold mWrite
      rw [e, show [b].flatten = b by simp]
      exact (bind_assoc (m := OM Arc) _ _ _).trans (congrArg _ (funext fun x => by cases x <;> rfl))
    show (mWrite C (zat X m) [b] >>= fun _ => pure Ans.unit) s = _
    rw [e2, bind_assoc]
    refine onArc_bind' _ _ _ (fun (x : Zip.Opened) a => match x with
      | .file _ => OM.raise .outside
      | .statement => aExit C a (pathOf m) b >>= fun _ => pure Ans.unit) (fun x => ?_) s
    cases x with
    | file d => exact onArc_raise _ _ hk hz
    | statement => funext s; exact onArc_map _ _ _ s

end

/-! ## A call on a member -/

section
variable {ι : Type} {E : ι → Dict} {r : ι → Nat} {C : Codec} {s : Sys} {o : Option AHandle} {j : Option ι} {t : Tree} {p : List Str}

/-- a call inside of the connection gave what was expected, unless nothing is expected -/
def Told (E : ι → Dict) (r : ι → Nat) (s : Sys) (j : Option ι) (x : Except PyErr Ans × Tree × Option (List Zip.Entry))
    (y : Except PyErr Ans × Sys × Option AHandle) : Prop :=
  x.1 = .error .outside ∨ (y.1 = x.1 ∧ SysOk E r y.2.1 ∧ Holds r y.2.1 j x.2.1 ∧ (∀ k, k ≠ j → siteV r y.2.1 k = siteV r s k) ∧
    Clean y.2.2 ∧ seenOf y.2.2 = x.2.2)

theorem clean_r {z : Zip.ZHandle} (hz : z.dirty = false) {b : Bytes} {f : FObj} : Clean (some ⟨z, b, f⟩) := by
  intro y e
  cases e
  exact hz

/-- opening the archive for reading -/
theorem openZip_says (hr : Function.Injective r) (hok : SysOk E r s) (h : Holds r s j t) (hc : Clean o) (hp0 : p ≠ []) (hf : Any.Fit p) (hw : t.Way p)
    {opt : Option Str} (ho : (opt.all fun o => o.contains 'r') = true) :
    match found C t p with
    | .error e => e = .outside ∨ ∃ s' o', aOpenZip C (siteAt E j p) opt (s, o) = (.error e, s', o') ∧ SysOk E r s' ∧ siteV r s' = siteV r s ∧
        Clean o' ∧ seenOf o' = seenOf o
    | .ok es => ∃ s' hd b, aOpenZip C (siteAt E j p) opt (s, o) = (.ok (), s', some ⟨⟨.r, es, false, false⟩, b, ⟨hd, .r, true⟩⟩) ∧
        SysOk E r s' ∧ siteV r s' = siteV r s := by
  obtain ⟨o', c', v', e'⟩ := openZip_r (C := C) (s := s) hc (siteAt E j p) ho
  rw [e']
  unfold found
  cases hg : t.get p with
  | none =>
    have hs := sOpen_says hr hok h p .r
    unfold Tree.opens at hs
    rw [if_neg (by push Not; exact ⟨hp0, hf, hw⟩), hg] at hs
    refine .inr ⟨s, o', ?_, hok, rfl, c', v'⟩
    rcases hs with hs | hs
    · cases hs
    · unfold aStart
      rw [bind_error (aSys_ok hs)]
  | some x =>
    cases x with
    | file d =>
      obtain ⟨s', hd, h1, v1, e1⟩ := start_r (C := C) (o := o') hok hr hf.nm (show siteV r s j p = _ by rw [h.here, hg])
      rw [e1]
      dsimp only
      cases hu : C.unpack d with
      | none => exact .inr ⟨s', o', rfl, h1, v1, c', v'⟩
      | some es => exact ⟨s', hd, d, rfl, h1, v1⟩
    | dir => exact .inl rfl
    | other => exact .inl rfl

theorem ispart_some {x : AHandle} {m : List Str} (hm : Nm m) (ex : List Zip.Cmp) : aIspart (pathOf m) ex (s, some x) =
    (.ok (decide (m = []) || x.z.entries.any fun e => Zip.comparePathStrings (pathOf m) e.name ∈ ex), s, some x) := by
  unfold aIspart
  by_cases h0 : m = []
  · rw [if_pos ((pathOf_root hm).2 h0), h0]; rfl
  · rw [if_neg (fun c => h0 ((pathOf_root hm).1 c))]
    simp only [h0, decide_false, Bool.false_or]
    rfl

theorem ispart_none {m : List Str} (hm : Nm m) (ex : List Zip.Cmp) : aIspart (pathOf m) ex (s, none) =
    (if m = [] then .ok true else .error .attributeError, s, none) := by
  unfold aIspart
  by_cases h0 : m = []
  · rw [if_pos ((pathOf_root hm).2 h0), h0]; rfl
  · rw [if_neg (fun c => h0 ((pathOf_root hm).1 c)), if_neg h0]
    rfl

/-- the questions -/
theorem inner_ask (hok : SysOk E r s) (h : Holds r s j t) (hc : Clean o) {m : List Str} (hm : Nm m) {ex : List Zip.Cmp} {q : List Zip.Entry → Bool}
    (hq : ∀ es : List Zip.Entry, (decide (m = []) || es.any fun e => Zip.comparePathStrings (pathOf m) e.name ∈ ex) = q es) :
    Told E r s j
      (match seenOf o with
        | some es => (Except.ok (Ans.bool (q es)), t, seenOf o)
        | none => (if m = [] then Except.ok (Ans.bool true) else Except.error PyErr.attributeError, t, seenOf o))
      ((aIspart (pathOf m) ex >>= fun b => pure (Ans.bool b)) (s, o)) := by
  refine .inr ?_
  cases o with
  | none =>
    by_cases h0 : m = []
    · rw [bind_ok (by rw [ispart_none hm, if_pos h0])]
      simp only [seenOf, Option.map_none, if_pos h0]
      exact ⟨rfl, hok, h, fun _ _ => rfl, hc, rfl⟩
    · rw [bind_error (by rw [ispart_none hm, if_neg h0])]
      simp only [seenOf, Option.map_none, if_neg h0]
      exact ⟨trivial, hok, h, fun _ _ => trivial, hc, trivial⟩
  | some x =>
    rw [bind_ok (by rw [ispart_some hm, hq])]
    exact ⟨rfl, hok, h, fun _ _ => rfl, hc, rfl⟩

theorem seen_ask {es : List Zip.Entry} {m : List Str} :
    (es.any fun e => Zip.comparePathStrings (pathOf m) e.name ∈ [Zip.Cmp.isfile]) = (member es m).isSome := by
  rw [member_isSome]
  congr 1
  funext e
  simp only [List.mem_singleton, Zip.comparePathStrings_isfile]

theorem dir_ask {es : List Zip.Entry} {m : List Str} :
    (decide (m = []) || es.any fun e => Zip.comparePathStrings (pathOf m) e.name ∈ [Zip.Cmp.isdir]) = decide (hasDir es m) := by
  by_cases h0 : m = []
  · simp [h0, hasDir]
  · rw [Bool.eq_iff_iff]
    simp only [h0, decide_false, Bool.false_or, List.any_eq_true, List.mem_singleton, decide_eq_true_eq, dir_iff h0]

theorem Told.stays {x : Except PyErr Ans} {o' : Option AHandle} {s' : Sys} (h : Holds r s j t) (h1 : SysOk E r s') (h2 : siteV r s' = siteV r s)
    (h3 : Clean o') : Told E r s j (x, t, seenOf o') (x, s', o') :=
  .inr ⟨rfl, h1, h.stays fun q => by rw [h2], fun k _ => by rw [h2], h3, rfl⟩

/-- the end of `listdir` -/
theorem list_tail {x : AHandle} {m : List Str} (hm : Nm m) :
    (aIspart (pathOf m) [.isdir] >>= fun b => if (!b) = true then OM.raise .fileDoesNotExist else aGet >>= fun g =>
      (match g with
        | none => OM.raise .attributeError
        | some h => pure (sortStr ((h.z.entries.map fun e => Zip.contentItem (pathOf m) e.name).filter fun c => c ≠ []).dedup) : AM (List Str))) (s, some x) =
    (if ¬ hasDir x.z.entries m then .error .fileDoesNotExist
      else .ok (sortStr ((x.z.entries.map fun e => Zip.contentItem (pathOf m) e.name).filter fun c => c ≠ []).dedup), s, some x) := by
  rw [bind_ok (ispart_some hm _), dir_ask]
  by_cases hd : hasDir x.z.entries m
  · simp only [hd, decide_true, Bool.not_true, Bool.false_eq_true, if_false, not_true]
    rfl
  · simp only [hd, decide_false, Bool.not_false, if_true, not_false_iff]
    rfl

theorem told_list (h : Holds r s j t) {s' : Sys} (h1 : SysOk E r s') (h2 : siteV r s' = siteV r s) {x : AHandle} (hx : Clean (some x)) {m : List Str} (hm : Nm m)
    {y : AM (List Str)} {u : Sys × Option AHandle}
    (e : y u = (if ¬ hasDir x.z.entries m then .error .fileDoesNotExist
      else .ok (sortStr ((x.z.entries.map fun e => Zip.contentItem (pathOf m) e.name).filter fun c => c ≠ []).dedup), s', some x)) :
    Told E r s j
      (if ¬ hasDir x.z.entries m then (.error .fileDoesNotExist, t, some x.z.entries)
        else if m = [] ∧ ∃ e ∈ x.z.entries, e.name.head? ≠ some '/' then (.error .outside, t, some x.z.entries)
        else (.ok (.names (namesIn x.z.entries m)), t, some x.z.entries)) ((y >>= fun b => pure (Ans.names b)) u) := by
  by_cases hd : hasDir x.z.entries m
  · rw [if_neg (not_not.2 hd)] at e ⊢
    rw [bind_ok e]
    split_ifs with ho
    · exact .inl rfl
    · push Not at ho
      rw [names_eq hm ho]
      exact Told.stays (o' := some x) h h1 h2 hx
  · rw [if_pos hd] at e ⊢
    rw [bind_error e]
    exact Told.stays (o' := some x) h h1 h2 hx

theorem inner_step (hr : Function.Injective r) (hok : SysOk E r s) (h : Holds r s j t) (hc : Clean o) (hp0 : p ≠ []) (hf : Any.Fit p) (hw : t.Way p)
    {z : ZAct} (hm : Nm z.about) : Told E r s j (z.tells C p (t, seenOf o)) (inner C (siteAt E j p) z (s, o)) := by
  have hcl := holds_clear hok h hw
  cases z with
  | exists_ m =>
    refine inner_ask (q := fun es => decide ((member es m).isSome = true ∨ hasDir es m)) hok h hc (show Nm m from hm) fun es => ?_
    have e1 := seen_ask (es := es) (m := m)
    have e2 := dir_ask (es := es) (m := m)
    rw [Bool.decide_or, ← e2, Bool.decide_eq_true, ← e1, Bool.eq_iff_iff]
    simp only [Bool.or_eq_true, decide_eq_true_eq, List.any_eq_true, List.mem_cons, List.not_mem_nil, or_false, and_or_left, exists_or]
    rw [← or_assoc, or_comm]
  | isfile m =>
    refine inner_ask (q := fun es => decide (m = [] ∨ (member es m).isSome = true)) hok h hc (show Nm m from hm) fun es => ?_
    rw [seen_ask, Bool.decide_or, Bool.decide_eq_true]
  | isdir m =>
    refine inner_ask (q := fun es => decide (hasDir es m)) hok h hc hm fun es => dir_ask
  | listdir m =>
    have hex : uExists sysOps (siteAt E j p) s = (.ok (t.get p).isSome, s) := by
      rw [← h.here]
      exact (site_wc hok hf.nm _ _).trans (site_exists hok hf.nm hcl)
    show Told E r s j _ ((aListdir C (siteAt E j p) (pathOf m) >>= fun b => pure (Ans.names b)) (s, o))
    unfold ZAct.tells
    dsimp only
    cases hg : t.get p with
    | none =>
      rw [if_pos rfl]
      rw [hg] at hex
      rw [bind_ok (show aListdir C (siteAt E j p) (pathOf m) (s, o) = (.ok [], s, o) by unfold aListdir; rw [bind_ok (aSys_ok hex)]; rfl)]
      exact Told.stays h hok rfl hc
    | some k =>
      rw [if_neg (by simp)]
      rw [hg] at hex
      cases o with
      | some x =>
        refine told_list h hok rfl hc hm ?_
        unfold aListdir
        rw [bind_ok (aSys_ok hex)]
        exact list_tail hm
      | none =>
        have ho := openZip_says (C := C) hr hok h hc hp0 hf hw (opt := none) rfl
        show Told E r s j (match found C t p with
          | .error e => (.error e, t, none)
          | .ok es => _) _
        cases hfd : found C t p with
        | error e =>
          rw [hfd] at ho
          rcases ho with rfl | ⟨s', o', e1, h1, v1, c1, w1⟩
          · exact .inl rfl
          · have : aListdir C (siteAt E j p) (pathOf m) (s, none) = (.error e, s', o') := by
              unfold aListdir
              rw [bind_ok (aSys_ok hex)]
              exact (bind_ok (show aGet (s, none) = (.ok none, s, none) from rfl)).trans (bind_error e1)
            rw [bind_error this]
            refine Eq.mp ?_ (Told.stays (x := .error e) h h1 v1 c1)
            rw [w1]
            rfl
        | ok es =>
          rw [hfd] at ho
          obtain ⟨s', hd, b, e1, h1, v1⟩ := ho
          refine told_list (x := ⟨⟨.r, es, false, false⟩, b, ⟨hd, .r, true⟩⟩) h h1 v1 (clean_r rfl) hm ?_
          unfold aListdir
          rw [bind_ok (aSys_ok hex)]
          exact (bind_ok (show aGet (s, none) = (.ok none, s, none) from rfl)).trans ((bind_ok e1).trans (list_tail hm))
  | read m =>
    show Told E r s j _ ((aOpen C (siteAt E j p) (pathOf m) (some cl!"rb") >>= fun x => _) (s, o))
    have ho := openZip_says (C := C) hr hok h hc hp0 hf hw (opt := some cl!"rb") (by decide +kernel)
    unfold ZAct.tells
    dsimp only
    cases hfd : found C t p with
    | error e =>
      rw [hfd] at ho
      rcases ho with rfl | ⟨s', o', e1, h1, v1, c1, w1⟩
      · exact .inl rfl
      · have : aOpen C (siteAt E j p) (pathOf m) (some cl!"rb") (s, o) = (.error e, s', o') := by
          unfold aOpen
          rw [bind_error e1]
        rw [bind_error this, ← w1]
        exact Told.stays h h1 v1 c1
    | ok es =>
      rw [hfd] at ho
      obtain ⟨s', hd, b, e1, h1, v1⟩ := ho
      have : aOpen C (siteAt E j p) (pathOf m) (some cl!"rb") (s, o) = (match member es m with
          | some b => .ok (.file b)
          | none => .error .fileDoesNotExist, s', some ⟨⟨.r, es, false, false⟩, b, ⟨hd, .r, true⟩⟩) := by
        unfold aOpen
        rw [bind_ok e1, if_pos (by decide +kernel), ← getinfo_member]
        cases hgi : Zip.getinfo es (pathOf m) with
        | none =>
          show OM.bnd _ _ _ = _
          simp only [OM.bnd, aGet, hgi]
          rfl
        | some x =>
          show OM.bnd _ _ _ = _
          simp only [OM.bnd, aGet, hgi]
          rfl
      dsimp only
      cases hme : member es m with
      | none =>
        rw [hme] at this
        rw [bind_error this]
        exact Told.stays (o' := some ⟨⟨.r, es, false, false⟩, b, ⟨hd, .r, true⟩⟩) h h1 v1 (clean_r rfl)
      | some x =>
        rw [hme] at this
        rw [bind_ok this]
        exact Told.stays (o' := some ⟨⟨.r, es, false, false⟩, b, ⟨hd, .r, true⟩⟩) h h1 v1 (clean_r rfl)
  | write m b =>
    have hif : uIsfile sysOps (siteAt E j p) s = (.ok (isF (t.get p)), s) := by
      rw [← h.here]
      exact (site_wc hok hf.nm _ _).trans (site_isfile hok hf.nm hcl)
    obtain ⟨o', c', v', e'⟩ := openZip_w (C := C) hc _ hif
    show Told E r s j _ ((aOpen C (siteAt E j p) (pathOf m) (some cl!"wb") >>= fun x => _) (s, o))
    unfold ZAct.tells
    dsimp only
    by_cases h0 : m = [] ∨ '\x00' ∈ pathOf m
    · rw [if_pos h0]; exact .inl rfl
    · rw [if_neg h0]
      push Not at h0
      have hne : pathOf m ≠ [] := by
        cases m with
        | nil => exact absurd rfl h0.1
        | cons c l => simp [pathOf, slash]
      have fails : ∀ {e s'}, aOpenZip C (siteAt E j p) (some cl!"wb") (s, o) = (.error e, s', o') → SysOk E r s' → siteV r s' = siteV r s →
          Told E r s j (.error e, t, seenOf o) ((aOpen C (siteAt E j p) (pathOf m) (some cl!"wb") >>= fun x =>
            (match x with
            | .file _ => OM.raise .outside
            | .statement => aExit C (siteAt E j p) (pathOf m) b >>= fun _ => pure .unit : AM Ans)) (s, o)) := by
        intro e s' e1 h1 v1
        have : aOpen C (siteAt E j p) (pathOf m) (some cl!"wb") (s, o) = (.error e, s', o') := by
          unfold aOpen
          rw [bind_error e1]
        rw [bind_error this, ← v']
        exact Told.stays h h1 v1 c'
      have done : ∀ {s1 zm es dirty base hd md d pos}, aOpenZip C (siteAt E j p) (some cl!"wb") (s, o) = (.ok (), s1, some ⟨⟨zm, es, dirty, false⟩, base, ⟨hd, md, false⟩⟩) →
          (md = .rw ∨ md = .w) → zm ≠ .r → SysOk E r s1 → FAt r s1 j p hd md d pos → (∀ k q, ¬ (k = j ∧ q = p) → siteV r s1 k q = siteV r s k q) →
          Told E r s j (.ok .unit, t.set p (.file (C.store base (es ++ [⟨pathOf m, b⟩]))), some (es ++ [⟨pathOf m, b⟩]))
            ((aOpen C (siteAt E j p) (pathOf m) (some cl!"wb") >>= fun x =>
            (match x with
            | .file _ => OM.raise .outside
            | .statement => aExit C (siteAt E j p) (pathOf m) b >>= fun _ => pure .unit : AM Ans)) (s, o)) := by
        intro s1 zm es dirty base hd md d pos e1 hmd hzm h1 hat hv
        have : aOpen C (siteAt E j p) (pathOf m) (some cl!"wb") (s, o) = (.ok .statement, s1, some ⟨⟨zm, es, dirty, false⟩, base, ⟨hd, md, false⟩⟩) := by
          unfold aOpen
          rw [bind_ok e1, if_neg (by decide +kernel)]
          rfl
        rw [bind_ok this]
        obtain ⟨s2, hd', h2, v2, e2⟩ := exit_done (C := C) h1 hr hf.nm hmd hat hzm (es := es) (dirty := dirty) (base := base) hne h0.2 (b := b)
        dsimp only
        rw [bind_ok e2]
        show Told E r s j _ (.ok .unit, s2, some _)
        refine .inr ⟨rfl, h2, set_holds h hf hp0 (by rw [v2, upd_same]) fun x hx => ?_, fun k hk => funext fun q => ?_, clean_r rfl, rfl⟩
        · rw [v2, upd_ne fun c => hx c.2, hv _ _ fun c => hx c.2]
        · rw [v2, upd_ne fun c => hk c.1, hv _ _ fun c => hk c.1]
      have hs := sOpen_says hr hok h p .w
      unfold Tree.opens at hs
      rw [if_neg (by push Not; exact ⟨hp0, hf, hw⟩)] at hs
      cases hg : t.get p with
      | none =>
        rw [hg] at e' hs
        dsimp only at hs ⊢
        split_ifs with hd
        · rcases List.eq_nil_or_concat p with rfl | ⟨ds, n, rfl⟩
          · exact absurd rfl hp0
          rw [List.concat_eq_append] at *
          rw [List.dropLast_concat] at hd
          obtain ⟨s1, hd1, h1, v1, f1, e1⟩ := start_w (C := C) (o := o') hok hr hf.nm (by rw [h.here, hd]) (by rw [h.here, hg])
          exact done (e'.trans e1) (.inr rfl) (by simp) h1 f1 fun k q c => by rw [v1, upd_ne c]
        · rw [if_neg hd] at hs
          rcases hs with hs | hs
          · cases hs
          · refine fails (e'.trans ?_) hok rfl
            show aStart C _ .w .w _ = _
            unfold aStart
            rw [bind_error (aSys_ok hs)]
      | some x =>
        cases x with
        | file d =>
          rw [hg] at e'
          obtain ⟨s1, hd1, h1, v1, f1, e1⟩ := start_a (C := C) (o := o') hok hr hf.nm (show siteV r s j p = _ by rw [h.here, hg])
          exact done (e'.trans e1) (.inl rfl) (by simp) h1 f1 fun k q c => by rw [v1]
        | dir =>
          rw [hg] at e' hs
          rcases hs with hs | hs
          · cases hs
          · refine fails (e'.trans ?_) hok rfl
            show aStart C _ .w .w _ = _
            unfold aStart
            rw [bind_error (aSys_ok hs)]
        | other => exact .inl rfl

end

/-! ## Programs -/

section
variable {ι κ ζ : Type} [DecidableEq κ] [DecidableEq ζ] {E : ι → Dict} {r : ι → Nat} {site : κ → Option ι} {C : Codec} {arc : ζ → κ × List Str} {X : ζ → Str}
variable {F : Option ι → List Str → Option Any.Kind} {G : Reg.Key → Option AHandle}

/-- the state and what is expected of it -/
structure ARel (E : ι → Dict) (r : ι → Nat) (site : κ → Option ι) (X : ζ → Str) (F : Option ι → List Str → Option Any.Kind) (G : Reg.Key → Option AHandle)
    (x : (κ → Tree) × (ζ → Option (List Zip.Entry))) (y : Arc) : Prop where
  rels : Rels E r site F x.1 y.sys
  clean : ∀ z, Clean (y.handle (zkey (X z)))
  seen : ∀ z, seenOf (y.handle (zkey (X z))) = x.2 z
  rest : ∀ k, (∀ z, zkey (X z) ≠ k) → y.handle k = G k

theorem site_scheme (E : ι → Dict) (k : Option ι) (cs : List Str) : (siteAt E k cs).scheme ≠ some cl!"zip" := by
  cases k with
  | none => exact fun h => nomatch h
  | some i => exact fun h => nomatch h

theorem arc_step (hr : Function.Injective r) (hs : Function.Injective site) (hX : Function.Injective X) {may : κ → κ → Bool}
    (hmay : ∀ k k', may k k' = true → May (site k) (site k')) (hU : ∀ z, URI (X z) = .ok (siteAt E (site (arc z).1) (arc z).2)) (depth : Nat)
    (a : ArcAct κ ζ) {x : (κ → Tree) × (ζ → Option (List Zip.Entry))} {y : Arc} (h : ARel E r site X F G x y) :
    (a.says C may arc depth x).1 = .error .outside ∨
      ((a.run C E site X depth y).1 = (a.says C may arc depth x).1 ∧ ARel E r site X F G (a.says C may arc depth x).2 (a.run C E site X depth y).2) := by
  obtain ⟨T, M⟩ := x
  cases a with
  | call a =>
    have h1 := outs_says hr hs hmay depth a h.rels
    have e : (ArcAct.call a : ArcAct κ ζ).says C may arc depth (T, M) = ((a.says may depth T).1, (a.says may depth T).2, M) := rfl
    have e' : (ArcAct.call a : ArcAct κ ζ).run C E site X depth y = ((a.run E site depth y.sys).1, { y with sys := (a.run E site depth y.sys).2 }) :=
      congrFun (acts_arc C E site depth a) y
    rw [e, e']
    revert h1
    generalize a.says may depth T = u
    generalize a.run E site depth y.sys = v
    intro h1
    cases h1 with
    | out => exact .inl rfl
    | same hrel => exact .inr ⟨rfl, hrel, h.clean, h.seen, h.rest⟩
  | zip z a =>
    by_cases hc : (arc z).2 = [] ∨ ¬ Any.Fit (arc z).2 ∨ ¬ (T (arc z).1).Way (arc z).2 ∨ ¬ Nm a.about
    · refine .inl ?_
      unfold ArcAct.says
      dsimp only
      rw [if_pos hc]
    · have e : (ArcAct.zip z a).says C may arc depth (T, M) = ((a.tells C (arc z).2 (T (arc z).1, M z)).1,
          setAt T (arc z).1 (a.tells C (arc z).2 (T (arc z).1, M z)).2.1, fun y => if y = z then (a.tells C (arc z).2 (T (arc z).1, M z)).2.2 else M y) := by
        unfold ArcAct.says
        dsimp only
        rw [if_neg hc]
      push Not at hc
      obtain ⟨hp0, hf, hw, hm⟩ := hc
      have h1 := inner_step (C := C) hr h.rels.ok (h.rels.here (arc z).1) (h.clean z) hp0 hf hw hm
      have e' : (ArcAct.zip z a : ArcAct κ ζ).run C E site X depth y =
          ((inner C (siteAt E (site (arc z).1) (arc z).2) a (y.sys, y.handle (zkey (X z)))).1,
            ⟨(inner C (siteAt E (site (arc z).1) (arc z).2) a (y.sys, y.handle (zkey (X z)))).2.1,
              fun k' => if k' = zkey (X z) then (inner C (siteAt E (site (arc z).1) (arc z).2) a (y.sys, y.handle (zkey (X z)))).2.2 else y.handle k'⟩) := by
        show a.run C (X z) y = _
        rw [run_inner (hU z) (site_scheme _ _ _) hm]
        unfold onArc
        rw [show URI (zkey (X z)).base.vpathConnector = _ from hU z]
        dsimp only
        rw [if_neg (site_scheme _ _ _)]
      have hsee : seenOf (y.handle (zkey (X z))) = M z := h.seen z
      rw [hsee] at h1
      rw [e, e']
      revert h1
      generalize a.tells C (arc z).2 (T (arc z).1, M z) = u
      generalize inner C (siteAt E (site (arc z).1) (arc z).2) a (y.sys, y.handle (zkey (X z))) = v
      rintro (h1 | ⟨h1, h2, h3, h4, h5, h6⟩)
      · exact .inl h1
      · refine .inr ⟨h1, ⟨h2, fun k => ?_, fun j hj => ?_⟩, fun z' => ?_, fun z' => ?_, fun k hk => ?_⟩
        · show Holds r v.2.1 (site k) (setAt T (arc z).1 u.2.1 k)
          unfold setAt
          split_ifs with hk
          · rw [hk]; exact h3
          · exact (h.rels.here k).stays fun q => by rw [h4 _ fun c => hk (hs c)]
        · show siteV r v.2.1 j = F j
          rw [h4 j fun c => hj _ c.symm]
          exact h.rels.there j hj
        · show Clean (if zkey (X z') = zkey (X z) then v.2.2 else y.handle (zkey (X z')))
          split_ifs
          · exact h5
          · exact h.clean z'
        · show seenOf (if zkey (X z') = zkey (X z) then v.2.2 else y.handle (zkey (X z'))) = if z' = z then u.2.2 else M z'
          by_cases c : z' = z
          · rw [if_pos c, if_pos (by rw [c]), h6]
          · rw [if_neg c, if_neg fun e => c (hX (zkey_inj e))]
            exact h.seen z'
        · show (if k = zkey (X z) then v.2.2 else y.handle k) = _
          rw [if_neg fun c => hk z c.symm]
          exact h.rest k hk

omit [DecidableEq κ] [DecidableEq ζ] in
theorem arcExec_none {σ : Type} {step : ArcAct κ ζ → OM σ Ans} {pr : ArcPrg κ ζ} {n : Nat} {s : σ} (h : pr (pr.exec step n s).1 = none) :
    pr.exec step (n + 1) s = pr.exec step n s := by
  rw [ArcPrg.exec]
  simp only [h]

omit [DecidableEq κ] [DecidableEq ζ] in
theorem arcExec_some {σ : Type} {step : ArcAct κ ζ → OM σ Ans} {pr : ArcPrg κ ζ} {n : Nat} {s : σ} {a : ArcAct κ ζ} (h : pr (pr.exec step n s).1 = some a) :
    pr.exec step (n + 1) s = ((pr.exec step n s).1 ++ [(step a (pr.exec step n s).2).1], (step a (pr.exec step n s).2).2) := by
  rw [ArcPrg.exec]
  simp only [h]

theorem arc_rel (hr : Function.Injective r) (hs : Function.Injective site) (hX : Function.Injective X) {may : κ → κ → Bool}
    (hmay : ∀ k k', may k k' = true → May (site k) (site k')) (hU : ∀ z, URI (X z) = .ok (siteAt E (site (arc z).1) (arc z).2)) (depth : Nat)
    (pr : ArcPrg κ ζ) : ∀ (n : Nat) {x : (κ → Tree) × (ζ → Option (List Zip.Entry))} {y : Arc}, ARel E r site X F G x y →
    (∀ a ∈ (pr.exec (ArcAct.says C may arc depth) n x).1, a ≠ .error .outside) →
    (pr.exec (ArcAct.run C E site X depth) n y).1 = (pr.exec (ArcAct.says C may arc depth) n x).1 ∧
      ARel E r site X F G (pr.exec (ArcAct.says C may arc depth) n x).2 (pr.exec (ArcAct.run C E site X depth) n y).2
  | 0, _, _, h, _ => ⟨rfl, h⟩
  | n + 1, x, y, h, hq => by
    cases hp : pr (pr.exec (ArcAct.says C may arc depth) n x).1 with
    | none =>
      rw [arcExec_none hp] at hq ⊢
      obtain ⟨h1, h2⟩ := arc_rel hr hs hX hmay hU depth pr n h hq
      rw [arcExec_none (by rw [h1, hp])]
      exact ⟨h1, h2⟩
    | some a =>
      rw [arcExec_some hp] at hq ⊢
      obtain ⟨h1, h2⟩ := arc_rel hr hs hX hmay hU depth pr n h fun x hx => hq x (by simp [hx])
      rw [arcExec_some (by rw [h1, hp])]
      rcases arc_step (C := C) hr hs hX hmay hU depth a h2 with h3 | ⟨h3, h4⟩
      · exact absurd h3 (hq _ (List.mem_append_right _ (List.mem_singleton.2 rfl)))
      · exact ⟨by rw [h1, h3], h4⟩

/-- A program that works with files and directories and with the members of archives, which are some of these files: its calls
    answer what is expected, and leave the files and directories that are expected, whatever it does to the archives by the
    one way or the other.  `seen` is what the connections know of the archives at the beginning. -/
theorem C121_program (hr : Function.Injective r) (hs : Function.Injective site) (hX : Function.Injective X) {may : κ → κ → Bool}
    (hmay : ∀ k k', may k k' = true → May (site k) (site k')) (hU : ∀ z, URI (X z) = .ok (siteAt E (site (arc z).1) (arc z).2)) {T : κ → Tree} {s : Arc}
    (hok : SysOk E r s.sys) (h : ∀ k, Holds r s.sys (site k) (T k)) (hc : ∀ z, Clean (s.handle (zkey (X z)))) (depth : Nat)
    (pr : ArcPrg κ ζ) (n : Nat)
    (hq : ∀ x ∈ (pr.exec (ArcAct.says C may arc depth) n (T, fun z => seenOf (s.handle (zkey (X z))))).1, x ≠ .error .outside) :
    (pr.exec (ArcAct.run C E site X depth) n s).1 = (pr.exec (ArcAct.says C may arc depth) n (T, fun z => seenOf (s.handle (zkey (X z))))).1 ∧
    (∀ k, Holds r (pr.exec (ArcAct.run C E site X depth) n s).2.sys (site k)
      ((pr.exec (ArcAct.says C may arc depth) n (T, fun z => seenOf (s.handle (zkey (X z))))).2.1 k)) ∧
    SysOk E r (pr.exec (ArcAct.run C E site X depth) n s).2.sys ∧
    (∀ j, (∀ k, site k ≠ j) → siteV r (pr.exec (ArcAct.run C E site X depth) n s).2.sys j = siteV r s.sys j) ∧
    ∀ k, (∀ z, zkey (X z) ≠ k) → (pr.exec (ArcAct.run C E site X depth) n s).2.handle k = s.handle k := by
  obtain ⟨h1, h2⟩ := arc_rel (C := C) (F := siteV r s.sys) (G := s.handle) hr hs hX hmay hU depth pr n
    (x := (T, fun z => seenOf (s.handle (zkey (X z))))) (y := s) ⟨⟨hok, h, fun _ _ => rfl⟩, hc, fun _ => rfl, fun _ _ => rfl⟩ hq
  exact ⟨h1, h2.rels.here, h2.rels.ok, h2.rels.there, h2.rest⟩

/-- It does not matter in which memory file systems the archives are, whether they are local files, and by what text they are named. -/
theorem C121_same {ι' : Type} {E' : ι' → Dict} {r' : ι' → Nat} {site' : κ → Option ι'} {X' : ζ → Str} (hr : Function.Injective r)
    (hr' : Function.Injective r') (hs : Function.Injective site) (hs' : Function.Injective site') (hX : Function.Injective X) (hX' : Function.Injective X')
    {may : κ → κ → Bool} (hmay : ∀ k k', may k k' = true → May (site k) (site k') ∧ May (site' k) (site' k'))
    (hU : ∀ z, URI (X z) = .ok (siteAt E (site (arc z).1) (arc z).2)) (hU' : ∀ z, URI (X' z) = .ok (siteAt E' (site' (arc z).1) (arc z).2))
    {T : κ → Tree} {s s' : Arc} (hok : SysOk E r s.sys) (hok' : SysOk E' r' s'.sys) (h : ∀ k, Holds r s.sys (site k) (T k))
    (hv : ∀ k, siteV r' s'.sys (site' k) = siteV r s.sys (site k)) (hc : ∀ z, s.handle (zkey (X z)) = none) (hc' : ∀ z, s'.handle (zkey (X' z)) = none)
    (depth : Nat) (pr : ArcPrg κ ζ) (n : Nat) (hq : ∀ x ∈ (pr.exec (ArcAct.says C may arc depth) n (T, fun _ => none)).1, x ≠ .error .outside) :
    (pr.exec (ArcAct.run C E' site' X' depth) n s').1 = (pr.exec (ArcAct.run C E site X depth) n s).1 ∧
    ∀ k, siteV r' (pr.exec (ArcAct.run C E' site' X' depth) n s').2.sys (site' k) = siteV r (pr.exec (ArcAct.run C E site X depth) n s).2.sys (site k) := by
  have h' : ∀ k, Holds r' s'.sys (site' k) (T k) := fun k => ⟨fun p => by rw [hv]; exact (h k).here p, (h k).keys,
    fun p => by rw [hv]; exact (h k).fit p, fun p => by rw [hv]; exact (h k).noLink p⟩
  have e : (fun z => seenOf (s.handle (zkey (X z)))) = fun _ => none := by funext z; rw [hc]; rfl
  have e' : (fun z => seenOf (s'.handle (zkey (X' z)))) = fun _ => none := by funext z; rw [hc']; rfl
  obtain ⟨a1, a2, -⟩ := C121_program (C := C) hr hs hX (fun k k' c => (hmay k k' c).1) hU hok h (fun z => by rw [hc]; exact fun _ c => nomatch c) depth pr n (by rw [e]; exact hq)
  obtain ⟨b1, b2, -⟩ := C121_program (C := C) hr' hs' hX' (fun k k' c => (hmay k k' c).2) hU' hok' h' (fun z => by rw [hc']; exact fun _ c => nomatch c) depth pr n (by rw [e']; exact hq)
  rw [e] at a1 a2
  rw [e'] at b1 b2
  exact ⟨b1.trans a1.symm, fun k => funext fun p => by rw [(a2 k).here, (b2 k).here]⟩


/-! ## Members that are carried along -/

/-- What is expected of archives: a member that was written is found with its bytes, and all others as before. -/
theorem C121_expected {t : Tree} {seen : Option (List Zip.Entry)} {p m : List Str} {b : Bytes} (hp0 : p ≠ [])
    (h : ((ZAct.write m b).tells C p (t, seen)).1 = .ok .unit) :
    ∃ es, found C ((ZAct.write m b).tells C p (t, seen)).2.1 p = .ok es ∧ ((ZAct.write m b).tells C p (t, seen)).2.2 = some es ∧ member es m = some b ∧
      (∀ m', pathOf m' ≠ pathOf m → member es m' = ((found C t p).toOption.bind fun es => member es m')) ∧
      ∀ q, q ≠ p → ((ZAct.write m b).tells C p (t, seen)).2.1.get q = t.get q := by
  have key : ∀ {d : Bytes} {es0 : List Zip.Entry}, (∀ m', ((found C t p).toOption.bind fun es => member es m') = member es0 m') →
      ∃ es, found C (t.set p (.file (C.store d (es0 ++ [⟨pathOf m, b⟩])))) p = .ok es ∧ some (es0 ++ [⟨pathOf m, b⟩]) = some es ∧ member es m = some b ∧
      (∀ m', pathOf m' ≠ pathOf m → member es m' = ((found C t p).toOption.bind fun es => member es m')) ∧
      ∀ q, q ≠ p → (t.set p (.file (C.store d (es0 ++ [⟨pathOf m, b⟩])))).get q = t.get q := by
    intro d es0 h0
    refine ⟨_, ?_, rfl, by simp [member], fun m' hm' => ?_, fun q hq => by rw [Tree.get_set hp0, if_neg hq]⟩
    · unfold found
      rw [Tree.get_set hp0, if_pos rfl]
      dsimp only
      rw [C.back]
    · rw [h0]
      simp [member, hm'.symm]
  unfold ZAct.tells at h ⊢
  dsimp only at h ⊢
  by_cases h0 : m = [] ∨ '\x00' ∈ pathOf m
  · rw [if_pos h0] at h; cases h
  · rw [if_neg h0] at h ⊢
    cases hg : t.get p with
    | none =>
      rw [hg] at h
      dsimp only at h ⊢
      by_cases hd : t.get p.dropLast = some .dir
      · rw [if_pos hd]
        refine key fun m' => ?_
        unfold found
        rw [hg]
        rfl
      · rw [if_neg hd] at h; cases h
    | some x =>
      rw [hg] at h
      cases x with
      | file d =>
        refine key fun m' => ?_
        unfold found
        rw [hg]
        dsimp only
        cases C.unpack d <;> rfl
      | dir => cases h
      | other => cases h

/-- A member is written, the archive is copied to another place, and the member is read from the copy. -/
theorem C121_carried (hr : Function.Injective r) (hs : Function.Injective site) (hX : Function.Injective X) {k k' : κ} (hk : k ≠ k')
    (hmay : May (site k) (site k')) (hU : ∀ z, URI (X z) = .ok (siteAt E (site (arc z).1) (arc z).2)) {T : κ → Tree} {s : Arc}
    (hok : SysOk E r s.sys) (h : ∀ k, Holds r s.sys (site k) (T k)) (hc : ∀ z, Clean (s.handle (zkey (X z)))) (depth : Nat)
    {z z' : ζ} {p q m : List Str} (hz : arc z = (k, p)) (hz' : arc z' = (k', q)) (hp : (Act.move p q).Fit) (hq : q ≠ [])
    (hr1 : (T k).Room p) (hr2 : (T k').Room q) (hw : (T k).Way p) (hw' : (T k').Way q) (hm : Nm m) (hm0 : m ≠ []) (hm1 : '\x00' ∉ pathOf m) (b : Bytes) :
    ∃ s1 s2 s3, (ArcAct.zip z (.write m b)).run C E site X depth s = (.ok .unit, s1) ∧
      (ArcAct.call (.copy k p k' q false [] true) : ArcAct κ ζ).run C E site X depth s1 = (.ok .unit, s2) ∧
      (ArcAct.zip z' (.read m)).run C E site X depth s2 = (.ok (.bytes b), s3) := by
  obtain ⟨hp0, hp1, hq1, hq2⟩ := hp
  set may : κ → κ → Bool := fun a b => decide (a = k ∧ b = k') with hmy
  have hmay' : ∀ a b, may a b = true → May (site a) (site b) := by
    intro a b hab
    simp only [hmy, decide_eq_true_eq] at hab
    rw [hab.1, hab.2]
    exact hmay
  -- writing
  have hsay1 : ∃ t1 es, (ArcAct.zip z (.write m b)).says C may arc depth (T, fun z => seenOf (s.handle (zkey (X z)))) = (.ok .unit, setAt T k t1,
      fun y => if y = z then some es else seenOf (s.handle (zkey (X y)))) ∧ found C t1 p = .ok es ∧ member es m = some b ∧ ∀ q, q ≠ p → t1.get q = (T k).get q := by
    have hu : ((ZAct.write m b).tells C p (T k, seenOf (s.handle (zkey (X z))))).1 = .ok .unit := by
      unfold ZAct.tells
      dsimp only
      rw [if_neg (by push Not; exact ⟨hm0, hm1⟩)]
      rcases hr1.2 with e | e
      · rw [e]; dsimp only; rw [if_pos hr1.1]
      · cases hg : (T k).get p with
        | none => rw [hg] at e; cases e
        | some x =>
          rw [hg] at e
          cases x with
          | file d => rfl
          | _ => cases e
    obtain ⟨es, e1, e2, e3, -, e5⟩ := C121_expected hp0 hu
    refine ⟨_, es, ?_, e1, e3, e5⟩
    unfold ArcAct.says
    dsimp only
    rw [hz, if_neg (by push Not; exact ⟨hp0, hp1, hw, hm⟩), e2, hu]
  obtain ⟨t1, es, a1, a2, a3, a4⟩ := hsay1
  have st1 := arc_step (C := C) (F := siteV r s.sys) (G := s.handle) hr hs hX hmay' hU depth (.zip z (.write m b))
    (x := (T, fun z => seenOf (s.handle (zkey (X z))))) (y := s) ⟨⟨hok, h, fun _ _ => rfl⟩, hc, fun _ => rfl, fun _ _ => rfl⟩
  rw [a1] at st1
  rcases st1 with st1 | ⟨b1, rel1⟩
  · cases st1
  -- copying
  have hfile : ∃ d, t1.get p = some (.file d) ∧ C.unpack d = some es := by
    unfold found at a2
    cases hg : t1.get p with
    | none => rw [hg] at a2; cases a2
    | some x =>
      rw [hg] at a2
      cases x with
      | file d =>
        refine ⟨d, rfl, ?_⟩
        cases hu : C.unpack d with
        | none => dsimp only at a2; rw [hu] at a2; cases a2
        | some es' => dsimp only at a2; rw [hu] at a2; cases a2; rfl
      | _ => cases a2
  obtain ⟨d, hd1, hd2⟩ := hfile
  have hw1 : t1.Way p := by
    intro a ha hap
    rw [a4 a hap]
    exact hw a ha hap
  have hdest : (T k').dest p q = q := by
    unfold Tree.dest
    rcases hr2.2 with e | e
    · rw [e]; rfl
    · cases hg : (T k').get q with
      | none => rfl
      | some x =>
        rw [hg] at e
        cases x with
        | file d => rfl
        | _ => cases e
  have hsay2 : (ArcAct.call (.copy k p k' q false [] true) : ArcAct κ ζ).says C may arc depth (setAt T k t1,
      fun y => if y = z then some es else seenOf (s.handle (zkey (X y)))) =
      (.ok .unit, setAt (setAt T k t1) k' ((T k').set q (.file d)), fun y => if y = z then some es else seenOf (s.handle (zkey (X y)))) := by
    have e1 : setAt T k t1 k = t1 := if_pos rfl
    have e2 : setAt T k t1 k' = T k' := if_neg hk.symm
    unfold ArcAct.says Acts.says Acts.plain
    dsimp only
    rw [if_pos ⟨hk, by simp [hmy], hp0, hp1, hq1, hq2⟩]
    have : xCopy depth k p k' q false [] (setAt T k t1) = (.ok (), setAt (setAt T k t1) k' ((T k').set q (.file d))) := by
      unfold xCopy
      dsimp only
      rw [e1, e2, hdest, if_neg (not_not.2 hw1), hd1]
      dsimp only
      rw [if_neg (by simp), if_pos hr2]
    rw [bind_ok this]
    rfl
  have st2 := arc_step (C := C) hr hs hX hmay' hU depth (.call (.copy k p k' q false [] true)) rel1
  rw [hsay2] at st2
  rcases st2 with st2 | ⟨b2, rel2⟩
  · cases st2
  -- reading
  have st3 := arc_step (C := C) hr hs hX hmay' hU depth (.zip z' (.read m)) rel2
  have hsay3 : ((ArcAct.zip z' (.read m)).says C may arc depth (setAt (setAt T k t1) k' ((T k').set q (.file d)),
      fun y => if y = z then some es else seenOf (s.handle (zkey (X y))))).1 = .ok (.bytes b) := by
    have e2 : setAt (setAt T k t1) k' ((T k').set q (.file d)) k' = (T k').set q (.file d) := if_pos rfl
    unfold ArcAct.says
    dsimp only
    rw [hz']
    dsimp only
    rw [if_neg]
    · unfold ZAct.tells found
      dsimp only
      rw [e2, Tree.get_set hq, if_pos rfl]
      dsimp only
      rw [hd2]
      dsimp only
      rw [a3]
    · push Not
      refine ⟨hq, hq1, fun a ha haq => ?_, hm⟩
      rw [e2, Tree.get_set hq, if_neg haq]
      exact hw' a ha haq
  rw [hsay3] at st3
  rcases st3 with st3 | ⟨b3, -⟩
  · cases st3
  exact ⟨_, _, _, Prod.ext b1 rfl, Prod.ext b2 rfl, Prod.ext b3 rfl⟩

end

/-! ## Concrete cases -/

/-- numbers in bytes -/
def toyNums (l : List Nat) : Bytes := l.flatMap (fun n => List.replicate n 1 ++ [0]) ++ [2]

/-- back from bytes -/
def toyRead : Bytes → Nat → List Nat → List (List Nat)
  | [], _, _ => []
  | c :: bs, n, acc => if c = 1 then toyRead bs (n + 1) acc else if c = 0 then toyRead bs 0 (acc ++ [n]) else acc :: toyRead bs 0 []

/-- entries from numbers -/
def toyPairs : List (List Nat) → List Zip.Entry
  | n :: d :: l => ⟨n.map Char.ofNat, d.map UInt8.ofNat⟩ :: toyPairs l
  | _ => []

theorem toyRead_ones (k : Nat) (bs : Bytes) (n : Nat) (acc : List Nat) : toyRead (List.replicate k 1 ++ bs) n acc = toyRead bs (n + k) acc := by
  induction k generalizing n with
  | zero => rfl
  | succ k ih =>
    rw [List.replicate_succ, List.cons_append, toyRead, if_pos rfl, ih]
    congr 1
    omega

theorem toyRead_nums (l : List Nat) (bs : Bytes) (acc : List Nat) : toyRead (toyNums l ++ bs) 0 acc = (acc ++ l) :: toyRead bs 0 [] := by
  induction l generalizing acc with
  | nil => simp [toyNums, toyRead]
  | cons n l ih =>
    have : toyNums (n :: l) ++ bs = List.replicate n 1 ++ (0 :: (toyNums l ++ bs)) := by simp [toyNums]
    rw [this, toyRead_ones, toyRead, if_neg (by decide), if_pos rfl, ih]
    simp

/-- a way to write archives, for the examples -/
def toy : Codec where
  unpack b := match b with
    | 7 :: b => some (toyPairs (toyRead b 0 []))
    | _ => none
  store _ es := 7 :: es.flatMap fun e => toyNums (e.name.map Char.toNat) ++ toyNums (e.data.map UInt8.toNat)
  back b es := by
    show some (toyPairs (toyRead (es.flatMap fun e => toyNums (e.name.map Char.toNat) ++ toyNums (e.data.map UInt8.toNat)) 0 [])) = some es
    congr 1
    induction es with
    | nil => rfl
    | cons e es ih =>
      rw [List.flatMap_cons, List.append_assoc, toyRead_nums, toyRead_nums, toyPairs, ih]
      simp [Function.comp_def]
  nothing := rfl

/-- an archive in each of two places, and one where no archive is -/
def toyArc : Option Bool → Bool × List Str
  | some b => (b, [cl!"z"])
  | none => (true, [cl!"a", cl!"f"])

/-- the texts of their URIs -/
def toyText (sw : Bool) (z : Option Bool) : Str :=
  (match twinSite sw (toyArc z).1 with
    | none => cl!"file://"
    | some _ => cl!"memory://") ++ pathOf (toyArc z).2

theorem toyText_inj (sw : Bool) : Function.Injective (toyText sw) := by
  intro a b h
  rcases a with _ | _ | _ <;> rcases b with _ | _ | _ <;> cases sw <;> first | rfl | exact absurd h (by decide +kernel)

theorem toyText_uri (sw : Bool) (z : Option Bool) : URI (toyText sw z) = .ok (siteAt (fun _ : Unit => []) (twinSite sw (toyArc z).1) (toyArc z).2) := by
  rcases z with _ | _ | _ <;> cases sw <;> decide +kernel

/-- the program that makes the calls of a list -/
def listA {κ ζ : Type} (l : List (ArcAct κ ζ)) : ArcPrg κ ζ := fun h => l[h.length]?

/-- at the beginning no archive has been opened -/
def toyStart : Arc := ⟨twinSys, fun _ => none⟩

/-- archives are made, written, copied, moved, removed -/
def arcPrgL : List (ArcAct Bool (Option Bool)) :=
  [.zip (some true) (.isfile [cl!"m"]), .zip (some true) (.listdir []), .zip (some true) (.read [cl!"m"]), .zip (some true) (.write [cl!"m", cl!"n"] [7]),
   .zip (some true) (.isfile [cl!"m", cl!"n"]), .zip (some true) (.isdir [cl!"m"]), .zip (some true) (.listdir [cl!"m"]), .call (.one true (.isfile [cl!"z"])),
   .call (.copy true [cl!"z"] false [cl!"z"] false [] true), .zip (some false) (.read [cl!"m", cl!"n"]), .zip (some false) (.write [cl!"k"] [8]),
   .zip (some false) (.listdir []), .zip (some true) (.read [cl!"k"]), .call (.one true (.remove [cl!"z"] false)), .zip (some true) (.exists_ [cl!"m", cl!"n"]),
   .zip (some true) (.listdir [cl!"m"]), .zip (some true) (.read [cl!"m", cl!"n"]), .call (.move false [cl!"z"] true [cl!"z"]),
   .zip (some true) (.exists_ [cl!"k"]), .zip (some true) (.read [cl!"k"]), .zip (some true) (.exists_ [cl!"k"]), .zip none (.read [cl!"m"]),
   .zip none (.write [cl!"m"] [9]), .zip none (.read [cl!"m"]), .zip (some false) (.write [cl!"m"] [1])]

theorem arc_answers : ((listA arcPrgL).exec (ArcAct.says toy (fun _ _ => true) toyArc 50) 30 ((fun _ => twinTree), fun _ => none)).1 =
    [.error .attributeError, .ok (.names []), .error (.os .ENOENT), .ok .unit, .ok (.bool true), .ok (.bool true), .ok (.names [cl!"n"]), .ok (.bool true),
     .ok .unit, .ok (.bytes [7]), .ok .unit, .ok (.names [cl!"k", cl!"m"]), .error .fileDoesNotExist, .ok .unit, .ok (.bool true), .ok (.names []),
     .error (.os .ENOENT), .ok .unit, .ok (.bool false), .ok (.bytes [8]), .ok (.bool true), .error .badZip, .ok .unit, .ok (.bytes [9]), .ok .unit] := by
  decide +kernel

/-- whichever of the two places is the local one -/
example (sw : Bool) : ((listA arcPrgL).exec (ArcAct.run toy (fun _ : Unit => []) (twinSite sw) (toyText sw) 50) 30 toyStart).1 =
    ((listA arcPrgL).exec (ArcAct.says toy (fun _ _ => true) toyArc 50) 30 ((fun _ => twinTree), fun _ => none)).1 :=
  (C121_program unit_inj (twinSite_inj sw) (toyText_inj sw) (may := fun _ _ => true) (by revert sw; unfold May; decide) (toyText_uri sw) (s := toyStart) twin_ok
    (fun k => twin_holds _) (fun _ _ c => nomatch c) 50 (listA arcPrgL) 30 (by
      intro x hx e
      change x ∈ ((listA arcPrgL).exec (ArcAct.says toy (fun _ _ => true) toyArc 50) 30 ((fun _ => twinTree), fun _ => none)).1 at hx
      rw [arc_answers, e] at hx
      revert hx
      decide)).1

example : ((listA arcPrgL).exec (ArcAct.run toy (fun _ : Unit => []) (twinSite true) (toyText true) 50) 30 toyStart).1 =
    ((listA arcPrgL).exec (ArcAct.run toy (fun _ : Unit => []) (twinSite false) (toyText false) 50) 30 toyStart).1 :=
  (C121_same (T := fun _ => twinTree) unit_inj unit_inj (twinSite_inj false) (twinSite_inj true) (toyText_inj false) (toyText_inj true) (may := fun _ _ => true)
    (by unfold May; decide) (toyText_uri false) (toyText_uri true) twin_ok twin_ok (fun k => twin_holds _)
    (fun k => funext fun p => ((twin_holds _).here p).trans ((twin_holds _).here p).symm) (fun _ => rfl) (fun _ => rfl) 50 (listA arcPrgL) 30
    (by rw [arc_answers]; decide)).1

example (sw : Bool) : ∃ s1 s2 s3, (ArcAct.zip (some true) (.write [cl!"m"] [1, 2])).run toy (fun _ : Unit => []) (twinSite sw) (toyText sw) 50 toyStart = (.ok .unit, s1) ∧
    (ArcAct.call (.copy true [cl!"z"] false [cl!"z"] false [] true)).run toy (fun _ : Unit => []) (twinSite sw) (toyText sw) 50 s1 = (.ok .unit, s2) ∧
    (ArcAct.zip (some false) (.read [cl!"m"])).run toy (fun _ : Unit => []) (twinSite sw) (toyText sw) 50 s2 = (.ok (.bytes [1, 2]), s3) :=
  C121_carried (arc := toyArc) (s := toyStart) (T := fun _ => twinTree) unit_inj (twinSite_inj sw) (toyText_inj sw) (by decide) (by revert sw; unfold May; decide) (toyText_uri sw)
    twin_ok (fun k => twin_holds _) (fun _ _ c => nomatch c) 50 (p := [cl!"z"]) (q := [cl!"z"]) (m := [cl!"m"]) rfl rfl (by decide +kernel) (by decide) (by decide +kernel) (by decide +kernel) (by decide +kernel) (by decide +kernel)
    (by decide +kernel) (by decide) (by decide) _

example : ((ZAct.write [cl!"m"] [1]).tells toy [cl!"z"] (twinTree, none)).1 = .ok .unit := by decide +kernel

/-- Refuted: "a member exists if the archive exists and has it".  The connection answers by what it found when it opened the archive last. -/
theorem C121_stale_refuted (sw : Bool) : ((listA [.zip (some true) (.write [cl!"m"] [1]), .call (.one true (.remove [cl!"z"] false)), .zip (some true) (.exists_ [cl!"m"]),
      .call (.one true (.exists_ [cl!"z"]))] : ArcPrg Bool (Option Bool)).exec (ArcAct.run toy (fun _ : Unit => []) (twinSite sw) (toyText sw) 50) 10 toyStart).1 =
    [.ok .unit, .ok .unit, .ok (.bool true), .ok (.bool false)] := by
  revert sw
  decide +kernel

end Verif.Props
