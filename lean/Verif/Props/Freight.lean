import Verif.Any.Freight
import Verif.Any.ZipInto
import Verif.Props.Pack
/-!
# C126 Copying members to members, moving, and what archives refuse
-/
namespace Verif.Props
open Verif.Spec Verif.Any

section
variable {ι : Type} {E : ι → Dict} {r : ι → Nat} {C : Codec} {X : Str} {a : Uri} {y : Arc}

/-- the archive without a path is a directory if it has something -/
theorem abare_isdir (hU : URI X = .ok a) (hz : a.scheme ≠ some cl!"zip") {es : List Zip.Entry} (h : seenOf (y.handle (zkey X)) = some es) :
    uIsdir (arcOps C) (zbare X) y = (.ok (decide (Below es [])), y) := by
  have h1 : (arcOps C).conn (zbare X) y = (.ok (.zip (zkey X)), y) := by
    show arcConn (zbare X) y = _
    unfold arcConn
    have : (zbare X).allExtras = [] := by simp [Uri.allExtras, zbare, Uri.scheme, isHttp, Dict.update]
    rw [this, if_neg (by simp), if_pos (show (zbare X).scheme = some cl!"zip" from rfl), zbare_key]
    rfl
  refine (bind_ok h1).trans ?_
  show onArc (zkey X) (fun _ => aIspart [] [.isdir]) y = _
  refine onArc_ask hU hz ?_
  obtain ⟨g, hg, rfl⟩ : ∃ g, y.handle (zkey X) = some g ∧ g.z.entries = es := by
    cases hh : y.handle (zkey X) with
    | none => rw [hh] at h; cases h
    | some g => rw [hh] at h; exact ⟨g, rfl, Option.some.inj h⟩
  unfold aIspart
  rw [if_neg (by simp)]
  show OM.bnd aGet _ _ = _
  simp only [OM.bnd, aGet, hg]
  show (_, _) = (_, _)
  congr 2
  rw [Bool.eq_iff_iff, decide_eq_true_eq]
  simp [Zip.comparePathStrings_isdir, Below, slash]

theorem hasDir_below {es : List Zip.Entry} {m : List Str} (hm : m ≠ []) : hasDir es m ↔ Below es m := by
  unfold hasDir Below
  simp only [hm, false_or]
  constructor
  · rintro ⟨e, he, x, hx⟩
    exact ⟨e, he, x, by rw [← hx, pathOf_ne hm]; simp⟩
  · rintro ⟨e, he, x, hx⟩
    exact ⟨e, he, x, by rw [hx, pathOf_ne hm]; simp⟩

theorem below_root {es : List Zip.Entry} : Below es [] ↔ ∃ e ∈ es, e.name.head? = some '/' := by
  unfold Below
  refine exists_congr fun e => and_congr_right fun _ => ?_
  constructor
  · rintro ⟨x, hx⟩; rw [hx]; rfl
  · intro h
    cases hn : e.name with
    | nil => rw [hn] at h; cases h
    | cons c l => rw [hn] at h; cases h; exact ⟨l, rfl⟩

/-- directories cannot be made in archives that have something in them -/
theorem arc_makedirs (hX : ConnOk X) (hU : URI X = .ok a) (hz : a.scheme ≠ some cl!"zip") {es : List Zip.Entry} (ho : seenOf (y.handle (zkey X)) = some es)
    (h0 : Below es []) : ∀ (depth : Nat) (e : List Str), Nm e → e ≠ [] → ¬ hasDir es e → e.length ≤ depth →
    makedirs (arcOps C) depth (zat X e) y = (.error .notImplemented, y) := by
  intro depth
  induction depth with
  | zero => intro e _ h1 _ h2; exact absurd (List.length_eq_zero_iff.1 (Nat.le_zero.1 h2)) h1
  | succ depth ih =>
    intro e hn he hb hl
    obtain ⟨c, n, rfl⟩ : ∃ c n, e = c ++ [n] := by
      rcases List.eq_nil_or_concat e with h | ⟨c, n, h⟩
      · exact absurd h he
      · exact ⟨c, n, by rw [h, List.concat_eq_append]⟩
    have h1 : uIsdir (arcOps C) (zat X (c ++ [n])) y = (.ok false, y) := by
      rw [zmem_isdir hU hz hn, ho]; simp [heard, hb]
    unfold makedirs
    rw [bind_ok h1, if_neg Bool.false_ne_true]
    have hmk : ∀ z, uMkdir (arcOps C) (zat X (c ++ [n])) z = (.error .notImplemented, z) := fun z => (arc_withConn X _ _ _ z).trans rfl
    have hne : n ≠ [] := (hn.noSlash n (by simp)).1
    by_cases hc0 : c = []
    · subst hc0
      rw [List.nil_append] at hn hmk ⊢
      have h2 : uIsdir (arcOps C) (zbare X) y = (.ok true, y) := (abare_isdir hU hz ho).trans (by rw [decide_eq_true h0])
      rw [bind_lift (zat_split_top hX hn)]
      simp only
      rw [bind_ok h2, Bool.not_true, if_neg Bool.false_ne_true, if_pos hne]
      exact hmk y
    · rw [bind_lift (zat_split hX hn hc0)]
      have h2 := zmem_isdir (C := C) (y := y) hU hz hn.of_prefix
      rw [ho] at h2
      by_cases hc : hasDir es c
      · simp only [heard, hc, decide_true] at h2
        simp only
        rw [bind_ok h2, Bool.not_true, if_neg Bool.false_ne_true, if_pos hne]
        exact hmk y
      · simp only [heard, hc, decide_false] at h2
        simp only
        rw [bind_ok h2, Bool.not_false, if_pos rfl, bind_error (ih c hn.of_prefix hc0 hc (by simp at hl; omega))]

/-- removing a member, not recursively or a file, is refused -/
theorem arc_remove (hU : URI X = .ok a) (hz : a.scheme ≠ some cl!"zip") {m : List Str} (hm : Nm m) (depth : Nat) (b : Bool)
    (ho : (Deny.remove m b).tells depth (seenOf (y.handle (zkey X))) ≠ .error .outside) :
    ∃ e, uRemove (arcOps C) depth (zat X m) b y = (.error e, y) ∧ (Deny.remove m b).tells depth (seenOf (y.handle (zkey X))) = .error e := by
  have e1 := zmem_exists (C := C) (y := y) hU hz hm
  have e2 := zmem_isfile (C := C) (y := y) hU hz hm
  have e3 := zmem_isdir (C := C) (y := y) hU hz hm
  have e1' := (arc_withConn (C := C) X m _ _ y).symm.trans e1
  have e2' := (arc_withConn (C := C) X m _ _ y).symm.trans e2
  have e3' := (arc_withConn (C := C) X m _ _ y).symm.trans e3
  have go : ∀ {x}, (do
      if !(← (arcOps C).exists_ (.zip (zkey X)) (zat X m)) then OM.raise .fileDoesNotExist
      else if ← (arcOps C).isdir (.zip (zkey X)) (zat X m) then
        if b then removeDirRec (arcOps C) depth (.zip (zkey X)) (zat X m) else (arcOps C).removedir (.zip (zkey X)) (zat X m)
      else if ← (arcOps C).isfile (.zip (zkey X)) (zat X m) then (arcOps C).removefile (.zip (zkey X)) (zat X m)
      else pure () : OM Arc Unit) y = x → uRemove (arcOps C) depth (zat X m) b y = x :=
    fun h => (arc_withConn X m _ _ y).trans h
  cases hs : seenOf (y.handle (zkey X)) with
  | none =>
    rw [hs] at ho e1' e3'
    unfold Deny.tells at ho ⊢
    dsimp only at ho ⊢
    by_cases h0 : m = []
    · subst h0
      rw [if_neg (by simp)] at ho ⊢
      cases b with
      | true => exact absurd rfl ho
      | false =>
        simp only [heard] at e1' e3'
        exact ⟨_, go ((bind_ok e1').trans ((bind_ok e3').trans rfl)), rfl⟩
    · rw [if_pos h0]
      simp only [heard, if_neg h0] at e1'
      exact ⟨_, go (bind_error e1'), rfl⟩
  | some es =>
    rw [hs] at ho e1' e2' e3'
    simp only [heard] at e1' e2' e3'
    unfold Deny.tells at ho ⊢
    dsimp only at ho ⊢
    by_cases hd : hasDir es m
    · rw [if_pos hd] at ho ⊢
      cases b with
      | true => exact absurd rfl ho
      | false =>
        simp only [hd, or_true, decide_true] at e1' e3'
        exact ⟨_, go ((bind_ok e1').trans ((bind_ok e3').trans rfl)), rfl⟩
    · rw [if_neg hd]
      cases hme : member es m with
      | none =>
        simp only [hme, hd, Option.isSome_none, Bool.false_eq_true, or_self, decide_false] at e1'
        exact ⟨_, go ((bind_ok e1').trans rfl), rfl⟩
      | some v =>
        rw [if_neg (by simp)]
        simp only [hme, hd, Option.isSome_some, true_or, or_true, decide_true, decide_false] at e1' e2' e3'
        exact ⟨_, go ((bind_ok e1').trans ((bind_ok e3').trans ((bind_ok e2').trans rfl))), rfl⟩

/-- what a refused call answers; the state does not change at all -/
theorem deny_step (hX : ConnOk X) (hU : URI X = .ok a) (hz : a.scheme ≠ some cl!"zip") (d : Deny) (hd : Nm d.about) (depth : Nat)
    (ho : d.tells depth (seenOf (y.handle (zkey X))) ≠ .error .outside) : d.run C X depth y = (d.tells depth (seenOf (y.handle (zkey X))), y) := by
  cases d with
  | islink m => exact bind_ok zmem_islink
  | readlink m => exact bind_error ((arc_withConn X m _ _ y).trans rfl)
  | symlink m l => exact bind_error ((arc_withConn X m _ _ y).trans rfl)
  | mkdir m => exact bind_error ((arc_withConn X m _ _ y).trans rfl)
  | copystat m v => exact bind_error ((arc_withConn X m _ _ y).trans rfl)
  | bare m b => cases b <;> exact bind_error ((arc_withConn X m _ _ y).trans rfl)
  | remove m b =>
    obtain ⟨e, h1, h2⟩ := arc_remove (C := C) (y := y) hU hz (m := m) hd depth b ho
    rw [h2]
    exact bind_error h1
  | makedirs m =>
    have hd : Nm m := hd
    have e3 := zmem_isdir (C := C) (y := y) hU hz hd
    unfold Deny.tells at ho ⊢
    dsimp only at ho ⊢
    by_cases hdp : depth < m.length ∨ depth = 0
    · rw [if_pos hdp] at ho; exact absurd rfl ho
    rw [if_neg hdp] at ho ⊢
    push Not at hdp
    obtain ⟨k, rfl⟩ := Nat.exists_eq_succ_of_ne_zero hdp.2
    have ok : uIsdir (arcOps C) (zat X m) y = (.ok true, y) → (Deny.makedirs m).run C X (k + 1) y = (.ok .unit, y) := by
      intro h
      refine bind_ok (((arc_withConn X m _ _ y).trans ?_ : uMakedirs (arcOps C) (k + 1) (zat X m) y = (.ok (), y)))
      unfold makedirs
      rw [bind_ok h]
      rfl
    have bad : ∀ {e}, makedirs (arcOps C) (k + 1) (zat X m) y = (.error e, y) → (Deny.makedirs m).run C X (k + 1) y = (.error e, y) :=
      fun h => bind_error ((arc_withConn X m _ _ y).trans h)
    by_cases h0 : m = []
    · rw [if_pos h0]
      refine ok (e3.trans ?_)
      subst h0
      cases seenOf (y.handle (zkey X)) <;> simp [heard, hasDir]
    rw [if_neg h0] at ho ⊢
    cases hs : seenOf (y.handle (zkey X)) with
    | none =>
      rw [hs] at e3
      simp only [heard, if_neg h0] at e3
      refine bad ?_
      unfold makedirs
      rw [bind_error e3]
    | some es =>
      rw [hs] at e3 ho
      simp only [heard] at e3
      dsimp only at ho ⊢
      by_cases hh : hasDir es m
      · rw [if_pos hh]
        exact ok (by rw [e3, decide_eq_true hh])
      · rw [if_neg hh] at ho ⊢
        by_cases hb : ∀ e ∈ es, e.name.head? ≠ some '/'
        · rw [if_pos hb] at ho; exact absurd rfl ho
        rw [if_neg hb]
        refine bad (arc_makedirs hX hU hz hs ?_ _ m hd h0 hh hdp.1)
        rw [below_root]
        push Not at hb
        exact hb

/-- opening a member for reading -/
theorem arc_openR (hU : URI X = .ok a) (hz : a.scheme ≠ some cl!"zip") {m : List Str} (hm : Nm m) {x : Except PyErr Zip.Opened} {s' : Sys} {o' : Option AHandle}
    (e : aOpen C a (pathOf m) (some cl!"rb") (y.sys, y.handle (zkey X)) = (x, s', o')) :
    uOpenR (arcOps C) (zat X m) y = ((match x with
      | .error e => .error e
      | .ok (.file d) => .ok (.zipR (zkey X) d)
      | .ok .statement => .ok (.zipW (zkey X) (pathOf m)) : Except PyErr ZHd), ⟨s', fun k => if k = zkey X then o' else y.handle k⟩) := by
  refine (arc_withConn X m _ _ y).trans ?_
  show (onArc (zkey X) (fun a => aOpen C a (zat X m).path (some cl!"rb")) >>= fun x => (match x with
    | .file d => pure (.zipR (zkey X) d)
    | .statement => pure (.zipW (zkey X) (zat X m).path) : OM Arc ZHd)) y = _
  rw [zat_path hm]
  have e' := onArc_eq (y := y) (m := fun a => aOpen C a (pathOf m) (some cl!"rb")) hU hz e
  cases x with
  | error c => rw [bind_error e']
  | ok c =>
    rw [bind_ok e']
    cases c <;> rfl

/-- opening a member for writing -/
theorem arc_openW (hU : URI X = .ok a) (hz : a.scheme ≠ some cl!"zip") {m : List Str} (hm : Nm m) {x : Except PyErr Zip.Opened} {s' : Sys} {o' : Option AHandle}
    (e : aOpen C a (pathOf m) (some cl!"wb") (y.sys, y.handle (zkey X)) = (x, s', o')) :
    uOpenW (arcOps C) (zat X m) y = ((match x with
      | .error e => .error e
      | .ok (.file d) => .ok (.zipR (zkey X) d)
      | .ok .statement => .ok (.zipW (zkey X) (pathOf m)) : Except PyErr ZHd), ⟨s', fun k => if k = zkey X then o' else y.handle k⟩) := by
  refine (arc_withConn X m _ _ y).trans ?_
  show (onArc (zkey X) (fun a => aOpen C a (zat X m).path (some cl!"wb")) >>= fun x => (match x with
    | .file d => pure (.zipR (zkey X) d)
    | .statement => pure (.zipW (zkey X) (zat X m).path) : OM Arc ZHd)) y = _
  rw [zat_path hm]
  have e' := onArc_eq (y := y) (m := fun a => aOpen C a (pathOf m) (some cl!"wb")) hU hz e
  cases x with
  | error c => rw [bind_error e']
  | ok c =>
    rw [bind_ok e']
    cases c <;> rfl

end

section
variable {ι κ ζ : Type} [DecidableEq κ] [DecidableEq ζ] {E : ι → Dict} {r : ι → Nat} {site : κ → Option ι} {C : Codec} {arc : ζ → κ × List Str} {X : ζ → Str}
variable {F : Option ι → List Str → Option Any.Kind} {G : Reg.Key → Option AHandle}

/-- copying a member to a member -/
theorem freight_carry (hr : Function.Injective r) (hs : Function.Injective site) (hX : Function.Injective X) (hXc : ∀ z, ConnOk (X z)) {may : κ → κ → Bool}
    {loc : κ → Bool} (hloc : ∀ k, loc k = (site k).isNone) (hU : ∀ z, URI (X z) = .ok (siteAt E (site (arc z).1) (arc z).2)) (depth : Nat)
    (z : ζ) (m : List Str) (z' : ζ) (m' ig : List Str) (fl : Bool) {x : (κ → Tree) × (ζ → Option (List Zip.Entry))} {y : Arc} (h : ARel E r site X F G x y) :
    ((FreightAct.carry z m z' m' ig fl).says C may loc arc depth x).1 = .error .outside ∨
      (((FreightAct.carry z m z' m' ig fl).run C E site X depth y).1 = ((FreightAct.carry z m z' m' ig fl).says C may loc arc depth x).1 ∧
        ARel E r site X F G ((FreightAct.carry z m z' m' ig fl).says C may loc arc depth x).2 ((FreightAct.carry z m z' m' ig fl).run C E site X depth y).2) := by
  obtain ⟨T, M⟩ := x
  unfold FreightAct.says
  dsimp only
  by_cases hc : (arc z).2 = [] ∨ ¬ Any.Fit (arc z).2 ∨ ¬ (T (arc z).1).Way (arc z).2 ∨ m = [] ∨ ¬ Nm m ∨ ¬ Nm (m' ++ [m.getLastD []])
  · rw [if_pos hc]; exact .inl rfl
  rw [if_neg hc]
  push Not at hc
  obtain ⟨hp0, hf, hw, hm0, hm, hmn⟩ := hc
  have hzz : (siteAt E (site (arc z).1) (arc z).2).scheme ≠ some cl!"zip" := site_scheme _ _ _
  have hzz' : (siteAt E (site (arc z').1) (arc z').2).scheme ≠ some cl!"zip" := site_scheme _ _ _
  have hsee : seenOf (y.handle (zkey (X z))) = M z := h.seen z
  rcases List.eq_nil_or_concat m with rfl | ⟨mi, n, rfl⟩
  · exact absurd rfl hm0
  rw [List.concat_eq_append] at *
  simp only [List.getLastD_concat] at hmn ⊢
  have hm' : Nm m' := hmn.of_prefix
  have e1 := zmem_exists (C := C) (y := y) (hU z) hzz hm
  have e2 := zmem_isfile (C := C) (y := y) (hU z) hzz hm
  have e3 := zmem_isdir (C := C) (y := y) (hU z') hzz' hm'
  rw [hsee] at e1 e2
  rw [show seenOf (y.handle (zkey (X z'))) = M z' from h.seen z'] at e3
  have hgo : ∀ {a b}, Any.copy (arcOps C) depth (.zip (zkey (X z))) (zat (X z) (mi ++ [n])) (zat (X z') m') false ig fl y = (a, b) →
      ((FreightAct.carry z (mi ++ [n]) z' m' ig fl : FreightAct κ ζ).run C E site X depth y) = (a.map fun _ => Ans.unit, b) := by
    intro a b e
    have e : uCopy (arcOps C) depth (zat (X z) (mi ++ [n])) (zat (X z') m') false ig fl y = (a, b) := (arc_withConn (X z) (mi ++ [n]) _ _ y).trans e
    show (uCopy (arcOps C) depth (zat (X z) (mi ++ [n])) (zat (X z') m') false ig fl >>= fun _ => pure Ans.unit) y = _
    cases a with
    | error c => exact bind_error e
    | ok c => exact bind_ok e
  cases hM : M z with
  | none =>
    rw [hM] at e1
    refine .inr ?_
    rw [hgo (a := .error .attributeError) (b := y)]
    · exact ⟨rfl, h⟩
    · unfold Any.copy
      exact bind_error (e1.trans (by rw [heard, if_neg hm0]))
  | some es =>
    rw [hM] at e1 e2
    simp only [heard] at e1 e2
    dsimp only
    cases hme : member es (mi ++ [n]) with
    | none =>
      rw [if_pos rfl]
      rw [hme] at e1 e2
      refine .inr ?_
      rw [hgo (a := .error (if hasDir es (mi ++ [n]) then .assertionError else .fileDoesNotExist)) (b := y)]
      · exact ⟨rfl, h⟩
      · unfold Any.copy
        refine (bind_ok e1).trans ?_
        by_cases hd : hasDir es (mi ++ [n])
        · simp only [hd, or_true, decide_true, Bool.not_true, Bool.false_eq_true, if_false, Bool.not_false, if_true]
          refine (bind_ok e2).trans ?_
          simp only [hm0, Option.isSome_none, Bool.false_eq_true, or_self, decide_false, Bool.not_false, if_true]
          rfl
        · simp only [hd, Option.isSome_none, Bool.false_eq_true, or_self, decide_false, Bool.not_false, if_true, if_false]
          rfl
    | some b0 =>
      rw [if_neg (by simp)]
      rw [hme] at e1 e2
      simp only [Option.isSome_some, or_true, true_or, decide_true] at e1 e2
      by_cases hn : m' ≠ [] ∧ M z' = none
      · rw [if_pos hn]
        refine .inr ?_
        rw [hgo (a := .error .attributeError) (b := y)]
        · exact ⟨rfl, h⟩
        · unfold Any.copy
          refine (bind_ok e1).trans ((bind_ok e2).trans (bind_error (e3.trans ?_)))
          rw [hn.2, heard, if_neg hn.1]
      rw [if_neg hn]
      have e3' : uIsdir (arcOps C) (zat (X z') m') y = (.ok (decide (hasDir ((M z').getD []) m')), y) := by
        rw [e3]
        cases hM' : M z' with
        | none =>
          have : m' = [] := by
            by_contra c
            exact hn ⟨c, hM'⟩
          simp [heard, this, hasDir]
        | some es => rfl
      set e := (if hasDir ((M z').getD []) m' then m' ++ [n] else m') with hedef
      have hen : Nm e := by
        rw [hedef]
        split_ifs
        · exact hmn
        · exact hm'
      -- all but the copying of the content
      have hcopy : ∀ {a b}, copyContent (arcOps C) (zat (X z) (mi ++ [n])) (zat (X z') e) y = (a, b) →
          ((FreightAct.carry z (mi ++ [n]) z' m' ig fl : FreightAct κ ζ).run C E site X depth y) = (a.bind fun _ => .error .notImplemented, b) := by
        intro a b ec
        have fin : Any.copyOne (arcOps C) (.zip (zkey (X z))) (zat (X z) (mi ++ [n])) (zat (X z') e) fl y = (a.bind fun _ => .error .notImplemented, b) := by
          unfold Any.copyOne
          refine (bind_ok zmem_islink).trans ?_
          rw [Bool.false_and, if_neg Bool.false_ne_true]
          cases a with
          | error c => exact bind_error ec
          | ok c =>
            refine (bind_ok ec).trans ?_
            rw [if_pos ((zat_scheme (X z) _).trans (zat_scheme (X z') _).symm)]
            rfl
        refine (hgo (a := a.bind fun _ => .error .notImplemented) (b := b) ?_).trans ?_
        · unfold Any.copy
          refine (bind_ok e1).trans ((bind_ok e2).trans ((bind_ok e3').trans ?_))
          by_cases hd : hasDir ((M z').getD []) m'
          · rw [hedef, if_pos hd] at fin
            rw [decide_eq_true hd, if_pos rfl, zat_last hm, zat_div (hXc z') hmn]
            exact fin
          · rw [hedef, if_neg hd] at fin
            rw [decide_eq_false hd, if_neg Bool.false_ne_true]
            exact fin
        · cases a <;> rfl
      have hor := open_says_r (C := C) hr h.rels.ok (h.rels.here (arc z).1) (h.clean z) hp0 hf hw (mi ++ [n])
      cases hfd : found C (T (arc z).1) (arc z).2 with
      | error c =>
        rw [hfd] at hor
        rcases hor with rfl | ⟨s', o', f1, f2, f3, f4, f5⟩
        · exact .inl rfl
        · refine .inr ?_
          rw [hcopy (a := .error c) (bind_error (arc_openR (hU z) hzz hm f1))]
          refine ⟨rfl, ?_⟩
          have := arel_seen hs hX h (arc z).1 (z := z) f2 f3 f4 f5
          rwa [hsee, seen_self rfl] at this
      | ok es' =>
        rw [hfd] at hor
        obtain ⟨s', o', f1, f2, f3, f4, f5⟩ := hor
        have rel1 := arel_seen hs hX h (arc z).1 (z := z) f2 f3 f4 f5
        dsimp only
        cases hme' : member es' (mi ++ [n]) with
        | none =>
          rw [hme'] at f1
          refine .inr ?_
          rw [hcopy (a := .error .fileDoesNotExist) (bind_error (arc_openR (hU z) hzz hm f1))]
          exact ⟨rfl, rel1⟩
        | some b =>
          rw [hme'] at f1
          have g1 := arc_openR (C := C) (y := y) (hU z) hzz hm f1
          dsimp only at g1 ⊢
          by_cases hlb : (z = z' ∧ loc (arc z).1 = true) ∧ b = []
          · rw [if_pos hlb]; exact .inl rfl
          rw [if_neg hlb]
          set d : Bytes := if z = z' ∧ loc (arc z).1 = true then [] else b with hd
          set y1 : Arc := ⟨s', fun k => if k = zkey (X z) then o' else y.handle k⟩ with hy1
          set M1 : ζ → Option (List Zip.Entry) := fun y => if y = z then some es' else M y with hM1
          unfold ArcAct.says
          dsimp only
          by_cases hc2 : (arc z').2 = [] ∨ ¬ Any.Fit (arc z').2 ∨ ¬ (T (arc z').1).Way (arc z').2 ∨ ¬ Nm (ZAct.write e d).about
          · rw [if_pos hc2]; exact .inl rfl
          rw [if_neg hc2]
          push Not at hc2
          obtain ⟨ha0, hfa, hwa, -⟩ := hc2
          by_cases hem : e = [] ∨ '\x00' ∈ pathOf e
          · refine .inl ?_
            unfold ZAct.tells
            dsimp only
            rw [if_pos hem]
          push Not at hem
          have hwr := open_says_w (C := C) (E := E) (o := y1.handle (zkey (X z'))) hr rel1.rels.ok (rel1.rels.here (arc z').1) (rel1.clean z') ha0 hfa hwa hem.1 hem.2 d
          rw [show seenOf (y1.handle (zkey (X z'))) = M1 z' from rel1.seen z'] at hwr
          dsimp only at hwr
          rcases hwr with hout | ⟨c, s2, o2, k1, k2, k3, k4, k5, k6⟩ | ⟨s2, o2, hd2, d2, k1, k2, kl, k3, k4, k5⟩
          · left
            rw [hout]
          · right
            rw [hcopy (a := .error c) ((bind_ok g1).trans (bind_error (arc_openW (hU z') hzz' hen k1))), k2]
            refine ⟨rfl, ?_⟩
            exact arel_of hs hX rel1 (z := z') (k := (arc z').1) (t := T (arc z').1) k3 ((rel1.rels.here _).stays fun q => by rw [k4]) (fun j _ => by rw [k4]) k5 k6
          · obtain ⟨s4, o4, l1, l2⟩ := k5 s2 k2 rfl k3
            have g2 := arc_openW (C := C) (y := y1) (hU z') hzz' hen k1
            dsimp only at g2
            have g3 : arcPump C (.zipR (zkey (X z)) b) (.zipW (zkey (X z')) (pathOf e)) ⟨s2, fun k => if k = zkey (X z') then o2 else y1.handle k⟩ =
                (if z = z' ∧ loc (arc z).1 = true then .error .valueError else .ok (), ⟨s4, fun k => if k = zkey (X z') then o4 else y1.handle k⟩) := by
              have hleave : ∀ v : Option PyErr, arcLeave C (zkey (X z')) (pathOf e) (d, v) ⟨s2, fun k => if k = zkey (X z') then o2 else y1.handle k⟩ =
                  (match v with
                    | some e => .error e
                    | none => .ok (), ⟨s4, fun k => if k = zkey (X z') then o4 else y1.handle k⟩) := by
                intro v
                unfold arcLeave
                have := onArc_eq (y := ⟨s2, fun k => if k = zkey (X z') then o2 else y1.handle k⟩) (m := fun a => aExit C a (pathOf e) d) (x := .ok ()) (s' := s4) (o' := o4)
                  (hU z') hzz' (by dsimp only; rw [if_pos rfl]; exact l1)
                refine (bind_ok this).trans ?_
                have hh : (fun k => if k = zkey (X z') then o4 else if k = zkey (X z') then o2 else y1.handle k) = fun k => if k = zkey (X z') then o4 else y1.handle k := by
                  funext k
                  split_ifs <;> rfl
                dsimp only
                rw [hh]
                cases v <;> rfl
              unfold arcPump
              dsimp only
              by_cases hl : z = z' ∧ loc (arc z).1 = true
              · have hlc : zkey (X z) = zkey (X z') ∧ (if zkey (X z) = zkey (X z') then o2 else y1.handle (zkey (X z))).any (·.local) = true := by
                  refine ⟨by rw [hl.1], ?_⟩
                  rw [if_pos (by rw [hl.1]), kl, ← hloc, ← hl.1]
                  exact hl.2
                rw [if_pos hlc, if_neg fun c => hlb ⟨hl, c⟩, if_pos hl]
                have hd' : d = [] := by rw [hd, if_pos hl]
                rw [← hd']
                exact hleave (some .valueError)
              · have hlc : ¬ (zkey (X z) = zkey (X z') ∧ (if zkey (X z) = zkey (X z') then o2 else y1.handle (zkey (X z))).any (·.local) = true) := by
                  rintro ⟨c1, c2⟩
                  rw [if_pos c1, kl, ← hloc] at c2
                  have := hX (zkey_inj c1)
                  exact hl ⟨this, by rw [this]; exact c2⟩
                rw [if_neg hlc, if_neg hl]
                have hd' : d = b := by rw [hd, if_neg hl]
                rw [← hd']
                exact hleave none
            rw [hcopy ((bind_ok g1).trans ((bind_ok g2).trans g3))]
            rcases l2 with l2 | ⟨h1, h2, h3, h4, h5, h6⟩
            · left
              rw [l2]
            · right
              dsimp only at h1
              rw [← h1]
              dsimp only
              refine ⟨?_, arel_of hs hX rel1 h2 h3 (fun j hj => ?_) h5 h6⟩
              · split_ifs <;> rfl
              · rw [h4 j hj]

/-- the member that was copied is still seen -/
theorem out_kept {may : κ → κ → Bool} {depth : Nat} {z : ζ} {m : List Str} {k : κ} {q ig : List Str} {fl : Bool}
    {x : (κ → Tree) × (ζ → Option (List Zip.Entry))} {v : Ans} (h : ((PackAct.out z m k q ig fl).says C may arc depth x).1 = .ok v) :
    ∃ es, ((PackAct.out z m k q ig fl).says C may arc depth x).2.2 z = some es ∧ (member es m).isSome = true := by
  obtain ⟨T, M⟩ := x
  unfold PackAct.says at h ⊢
  dsimp only at h ⊢
  split at h
  · cases h
  rename_i hc
  rw [if_neg hc]
  cases hM : M z with
  | none => rw [hM] at h; cases h
  | some es =>
    rw [hM] at h
    dsimp only at h ⊢
    split at h
    · cases h
    rename_i hc
    rw [if_neg hc]
    cases hf : found C (T (arc z).1) (arc z).2 with
    | error e => rw [hf] at h; cases h
    | ok es' =>
      rw [hf] at h
      dsimp only at h ⊢
      cases hm : member es' m with
      | none => rw [hm] at h; cases h
      | some b =>
        rw [hm] at h
        dsimp only at h ⊢
        cases ho : (T k).opens ((T k).dest m q) .w with
        | error e => rw [ho] at h; cases h
        | ok w => exact ⟨es', if_pos rfl, by rw [hm]; rfl⟩

/-- moving a member to a file -/
theorem freight_out (hr : Function.Injective r) (hs : Function.Injective site) (hX : Function.Injective X) {may : κ → κ → Bool}
    {loc : κ → Bool} (hU : ∀ z, URI (X z) = .ok (siteAt E (site (arc z).1) (arc z).2)) (depth : Nat)
    (z : ζ) (m : List Str) (k : κ) (q : List Str) {x : (κ → Tree) × (ζ → Option (List Zip.Entry))} {y : Arc} (h : ARel E r site X F G x y) :
    ((FreightAct.moveOut z m k q).says C may loc arc depth x).1 = .error .outside ∨
      (((FreightAct.moveOut z m k q).run C E site X depth y).1 = ((FreightAct.moveOut z m k q).says C may loc arc depth x).1 ∧
        ARel E r site X F G ((FreightAct.moveOut z m k q).says C may loc arc depth x).2 ((FreightAct.moveOut z m k q).run C E site X depth y).2) := by
  have hpk := pack_out (C := C) (may := may) hr hs hX hU depth z m k q [] true h
  have hkp := fun v => out_kept (C := C) (may := may) (arc := arc) (depth := depth) (z := z) (m := m) (k := k) (q := q) (ig := []) (fl := true) (x := x) (v := v)
  obtain ⟨T, M⟩ := x
  unfold FreightAct.says
  dsimp only
  by_cases hd : hasDir ((M z).getD []) m ∧ member ((M z).getD []) m = none
  · rw [if_pos hd]; exact .inl rfl
  rw [if_neg hd]
  generalize hS : (PackAct.out z m k q [] true).says C may arc depth (T, M) = S at hpk hkp ⊢
  by_cases hc : (arc z).2 = [] ∨ ¬ Any.Fit (arc z).2 ∨ ¬ (T (arc z).1).Way (arc z).2 ∨ m = [] ∨ ¬ Nm m ∨ ¬ Any.Fit q ∨ ¬ (T k).Way q ∨ ¬ Any.Fit ((T k).dest m q) ∨ arc z = (k, (T k).dest m q)
  · unfold PackAct.says at hS
    dsimp only at hS
    rw [if_pos hc] at hS
    subst hS
    exact .inl rfl
  have hm0 : m ≠ [] := fun c => hc (.inr (.inr (.inr (.inl c))))
  have hm : Nm m := by
    by_contra c
    exact hc (.inr (.inr (.inr (.inr (.inl c)))))
  have hzz : (siteAt E (site (arc z).1) (arc z).2).scheme ≠ some cl!"zip" := site_scheme _ _ _
  have e1 := zmem_exists (C := C) (y := y) (hU z) hzz hm
  have e2 := zmem_isfile (C := C) (y := y) (hU z) hzz hm
  rw [show seenOf (y.handle (zkey (X z))) = M z from h.seen z] at e1 e2
  have hgo : ∀ {a b}, Any.move (arcOps C) depth (zat (X z) m) (siteAt E (site k) q) y = (a, b) →
      ((FreightAct.moveOut z m k q : FreightAct κ ζ).run C E site X depth y) = (a.map fun _ => Ans.unit, b) := by
    intro a b e
    have e : uMove (arcOps C) depth (zat (X z) m) (siteAt E (site k) q) y = (a, b) := (arc_withConn (X z) m _ _ y).trans e
    show (uMove (arcOps C) depth (zat (X z) m) (siteAt E (site k) q) >>= fun _ => pure Ans.unit) y = _
    cases a with
    | error c => exact bind_error e
    | ok c => exact bind_ok e
  unfold PackAct.says at hS
  dsimp only at hS
  rw [if_neg hc] at hS
  cases hM : M z with
  | none =>
    rw [hM] at hS e2
    dsimp only at hS
    simp only [heard, if_neg hm0] at e2
    subst hS
    refine .inr ?_
    rw [hgo (a := .error .attributeError) (b := y) (bind_error e2)]
    exact ⟨rfl, h⟩
  | some es =>
    rw [hM] at hS e1 e2 hd
    dsimp only [Option.getD] at hS hd
    simp only [heard, hm0, false_or] at e1 e2
    cases hme : member es m with
    | none =>
      have hnd : ¬ hasDir es m := fun c => hd ⟨c, hme⟩
      rw [if_pos hme, if_neg hnd] at hS
      rw [hme] at e1 e2
      simp only [hnd, Option.isSome_none, Bool.false_eq_true, or_self, decide_false] at e1 e2
      subst hS
      refine .inr ?_
      rw [hgo (a := .error .fileDoesNotExist) (b := y)]
      · exact ⟨rfl, h⟩
      · unfold Any.move
        refine (bind_ok e2).trans ?_
        rw [if_neg Bool.false_ne_true]
        refine bind_error ((arc_withConn (X z) m _ _ y).trans ?_)
        unfold Any.copy
        exact (bind_ok e1).trans rfl
    | some b0 =>
      rw [hme] at e2
      simp only [Option.isSome_some, decide_true] at e2
      rcases hpk with hpk | ⟨p1, p2⟩
      · left
        rw [hpk]
      right
      have hrun : (PackAct.out z m k q [] true : PackAct κ ζ).run C E site X depth y = OM.bnd (uCopy (arcOps C) depth (zat (X z) m) (siteAt E (site k) q)) (fun _ => pure Ans.unit) y := rfl
      have hmv : Any.move (arcOps C) depth (zat (X z) m) (siteAt E (site k) q) y =
          OM.bnd (uCopy (arcOps C) depth (zat (X z) m) (siteAt E (site k) q)) (fun _ => uRemove (arcOps C) depth (zat (X z) m)) y := by
        unfold Any.move
        exact bind_ok e2
      obtain ⟨w, b, hcp⟩ : ∃ w b, uCopy (arcOps C) depth (zat (X z) m) (siteAt E (site k) q) false [] true y = (w, b) := ⟨_, _, rfl⟩
      cases w with
      | error c =>
        have r1 : (PackAct.out z m k q [] true : PackAct κ ζ).run C E site X depth y = (.error c, b) := hrun.trans (bind_error hcp)
        rw [r1] at p1 p2
        rw [hgo (hmv.trans (bind_error hcp)), ← p1]
        exact ⟨rfl, p2⟩
      | ok c =>
        have r1 : (PackAct.out z m k q [] true : PackAct κ ζ).run C E site X depth y = (.ok .unit, b) := hrun.trans (bind_ok hcp)
        rw [r1] at p1 p2
        obtain ⟨es', s1, s2⟩ := hkp _ p1.symm
        have hse : seenOf (b.handle (zkey (X z))) = some es' := (p2.seen z).trans s1
        have ht : (Deny.remove m false).tells depth (seenOf (b.handle (zkey (X z)))) = .error .notImplemented := by
          rw [hse]
          unfold Deny.tells
          dsimp only
          have c2 : ¬ member es' m = none := by
            intro c
            rw [c] at s2
            cases s2
          rw [if_neg c2]
          split_ifs <;> first | rfl | contradiction
        obtain ⟨e, t1, t2⟩ := arc_remove (C := C) (y := b) (hU z) hzz hm depth false (by rw [ht]; simp)
        rw [ht] at t2
        cases t2
        rw [hgo (hmv.trans ((bind_ok hcp).trans t1)), ← p1]
        exact ⟨rfl, p2⟩

/-- moving a file to a member -/
theorem freight_in (hr : Function.Injective r) (hs : Function.Injective site) (hX : Function.Injective X) (hXc : ∀ z, ConnOk (X z)) {may : κ → κ → Bool}
    (hmay : ∀ k k', may k k' = true → May (site k) (site k')) {loc : κ → Bool} (hU : ∀ z, URI (X z) = .ok (siteAt E (site (arc z).1) (arc z).2)) (depth : Nat)
    (k : κ) (p : List Str) (z : ζ) (m : List Str) {x : (κ → Tree) × (ζ → Option (List Zip.Entry))} {y : Arc} (h : ARel E r site X F G x y) :
    ((FreightAct.moveIn k p z m).says C may loc arc depth x).1 = .error .outside ∨
      (((FreightAct.moveIn k p z m).run C E site X depth y).1 = ((FreightAct.moveIn k p z m).says C may loc arc depth x).1 ∧
        ARel E r site X F G ((FreightAct.moveIn k p z m).says C may loc arc depth x).2 ((FreightAct.moveIn k p z m).run C E site X depth y).2) := by
  have hpk := pack_into (C := C) (may := may) hr hs hX hXc hU depth k p z m [] true h
  obtain ⟨T, M⟩ := x
  unfold FreightAct.says
  dsimp only
  by_cases hd : (T k).get p = some .dir
  · rw [if_pos hd]; exact .inl rfl
  rw [if_neg hd]
  generalize hS : (PackAct.into k p z m [] true).says C may arc depth (T, M) = S at hpk ⊢
  by_cases hc : (arc z).2 = [] ∨ ¬ Any.Fit (arc z).2 ∨ ¬ (T (arc z).1).Way (arc z).2 ∨ ¬ Nm m ∨ p = [] ∨ ¬ Any.Fit p ∨ ¬ (T k).Way p ∨ arc z = (k, p)
  · unfold PackAct.says at hS
    dsimp only at hS
    rw [if_pos hc] at hS
    subst hS
    exact .inl rfl
  unfold PackAct.says at hS
  dsimp only at hS
  rw [if_neg hc] at hS
  push Not at hc
  obtain ⟨ha0, hfa, hwa, hm, hp0, hf, hw, hne⟩ := hc
  have hh := h.rels.here k
  have hcl := holds_clear h.rels.ok hh hw
  have e1 : uExists (arcOps C) (siteAt E (site k) p) y = (.ok ((T k).get p).isSome, y) := by
    refine (asite_withConn h.rels.ok hf.nm _ _).trans ?_
    rw [← hh.here]
    exact arcSys_ask (site_exists h.rels.ok hf.nm hcl)
  have e2 : uIsfile (arcOps C) (siteAt E (site k) p) y = (.ok (isF ((T k).get p)), y) := by
    refine (asite_withConn h.rels.ok hf.nm _ _).trans ?_
    rw [← hh.here]
    exact arcSys_ask (site_isfile h.rels.ok hf.nm hcl)
  have hself : (arcOps C).moveSelf (.sys (siteC r (site k))) (siteAt E (site k) p) (zat (X z) m) = none := by
    show (sysOps.moveSelf (siteC r (site k)) (siteAt E (site k) p) (zat (X z) m)).map arcSys = none
    cases site k with
    | some i => rfl
    | none =>
      show (if (zat (X z) m).scheme = some cl!"file" then some (locMove (siteAt E none p) (zat (X z) m)) else none : Option (OM Sys Unit)).map arcSys = none
      rw [if_neg (fun c => absurd ((zat_scheme (X z) m).symm.trans c) (by decide))]
      rfl
  have hgo : ∀ {a b}, Any.move (arcOps C) depth (siteAt E (site k) p) (zat (X z) m) y = (a, b) →
      ((FreightAct.moveIn k p z m : FreightAct κ ζ).run C E site X depth y) = (a.map fun _ => Ans.unit, b) := by
    intro a b e
    have e : uMove (arcOps C) depth (siteAt E (site k) p) (zat (X z) m) y = (a, b) := by
      refine (asite_withConn h.rels.ok hf.nm _ _).trans ?_
      rw [hself]
      exact e
    show (uMove (arcOps C) depth (siteAt E (site k) p) (zat (X z) m) >>= fun _ => pure Ans.unit) y = _
    cases a with
    | error c => exact bind_error e
    | ok c => exact bind_ok e
  cases hg : (T k).get p with
  | none =>
    rw [hg] at hS e1 e2
    dsimp only at hS
    subst hS
    refine .inr ?_
    rw [hgo (a := .error .fileDoesNotExist) (b := y)]
    · exact ⟨rfl, h⟩
    · unfold Any.move
      refine (bind_ok e2).trans ?_
      show (uCopy (arcOps C) depth (siteAt E (site k) p) (zat (X z) m) true >>= fun _ => uRemove (arcOps C) depth (siteAt E (site k) p) true) y = _
      refine bind_error ((asite_withConn h.rels.ok hf.nm _ _).trans ?_)
      unfold Any.copy
      exact (bind_ok e1).trans rfl
  | some v =>
    cases v with
    | dir => exact absurd hg hd
    | other =>
      rw [hg] at hS
      dsimp only at hS
      subst hS
      exact .inl rfl
    | file d =>
      clear hS
      rw [hg] at e2
      rcases hpk with hpk | ⟨p1, p2⟩
      · left
        rw [hpk]
      have hrun : (PackAct.into k p z m [] true : PackAct κ ζ).run C E site X depth y = OM.bnd (uCopy (arcOps C) depth (siteAt E (site k) p) (zat (X z) m)) (fun _ => pure Ans.unit) y := rfl
      have hmv : Any.move (arcOps C) depth (siteAt E (site k) p) (zat (X z) m) y =
          OM.bnd (uCopy (arcOps C) depth (siteAt E (site k) p) (zat (X z) m)) (fun _ => uRemove (arcOps C) depth (siteAt E (site k) p)) y := by
        unfold Any.move
        exact bind_ok e2
      obtain ⟨w, b, hcp⟩ : ∃ w b, uCopy (arcOps C) depth (siteAt E (site k) p) (zat (X z) m) false [] true y = (w, b) := ⟨_, _, rfl⟩
      cases w with
      | error c =>
        have r1 : (PackAct.into k p z m [] true : PackAct κ ζ).run C E site X depth y = (.error c, b) := hrun.trans (bind_error hcp)
        rw [r1] at p1 p2
        right
        rw [hgo (hmv.trans (bind_error hcp)), ← p1]
        exact ⟨rfl, p2⟩
      | ok c =>
        have r1 : (PackAct.into k p z m [] true : PackAct κ ζ).run C E site X depth y = (.ok .unit, b) := hrun.trans (bind_ok hcp)
        rw [r1] at p1 p2
        rw [← p1]
        dsimp only
        have hst := arc_step (C := C) hr hs hX hmay hU depth (.call (.one k (.remove p false))) p2
        have hrun2 : (ArcAct.call (.one k (.remove p false)) : ArcAct κ ζ).run C E site X depth b =
            OM.bnd (uRemove (arcOps C) depth (siteAt E (site k) p)) (fun _ => pure Ans.unit) b := rfl
        have hall : (FreightAct.moveIn k p z m : FreightAct κ ζ).run C E site X depth y =
            (ArcAct.call (.one k (.remove p false)) : ArcAct κ ζ).run C E site X depth b := by
          rw [hrun2]
          cases hrm : uRemove (arcOps C) depth (siteAt E (site k) p) false b with
          | mk a b' =>
            rw [hgo (hmv.trans ((bind_ok hcp).trans hrm))]
            cases a with
            | error c => exact (bind_error hrm).symm
            | ok c => exact (bind_ok (f := fun _ => (pure Ans.unit : OM Arc Ans)) hrm).symm
        rw [hall]
        exact hst

/-- a call of a program -/
theorem freight_step (hr : Function.Injective r) (hs : Function.Injective site) (hX : Function.Injective X) (hXc : ∀ z, ConnOk (X z)) {may : κ → κ → Bool}
    (hmay : ∀ k k', may k k' = true → May (site k) (site k')) {loc : κ → Bool} (hloc : ∀ k, loc k = (site k).isNone)
    (hU : ∀ z, URI (X z) = .ok (siteAt E (site (arc z).1) (arc z).2)) (depth : Nat)
    (a : FreightAct κ ζ) {x : (κ → Tree) × (ζ → Option (List Zip.Entry))} {y : Arc} (h : ARel E r site X F G x y) :
    (a.says C may loc arc depth x).1 = .error .outside ∨
      ((a.run C E site X depth y).1 = (a.says C may loc arc depth x).1 ∧ ARel E r site X F G (a.says C may loc arc depth x).2 (a.run C E site X depth y).2) := by
  cases a with
  | act a => exact pack_step hr hs hX hXc hmay hU depth a h
  | carry z m z' m' ig fl => exact freight_carry hr hs hX hXc hloc hU depth z m z' m' ig fl h
  | moveOut z m k q => exact freight_out hr hs hX hU depth z m k q h
  | moveIn k p z m => exact freight_in hr hs hX hXc hmay hU depth k p z m h
  | deny z d =>
    obtain ⟨T, M⟩ := x
    unfold FreightAct.says
    dsimp only
    by_cases hn : ¬ Nm d.about
    · rw [if_pos hn]; exact .inl rfl
    rw [if_neg hn]
    dsimp only
    by_cases ho : d.tells depth (M z) = .error .outside
    · exact .inl ho
    have hse : seenOf (y.handle (zkey (X z))) = M z := h.seen z
    have := deny_step (C := C) (y := y) (hXc z) (hU z) (site_scheme _ _ _) d (not_not.1 hn) depth (by rw [hse]; exact ho)
    refine .inr ?_
    show (d.run C (X z) depth y).1 = _ ∧ ARel _ _ _ _ _ _ _ (d.run C (X z) depth y).2
    rw [this, hse]
    exact ⟨rfl, h⟩

omit [DecidableEq κ] [DecidableEq ζ] in
theorem freightExec_none {σ : Type} {step : FreightAct κ ζ → OM σ Ans} {pr : FreightPrg κ ζ} {n : Nat} {s : σ} (h : pr (pr.exec step n s).1 = none) :
    pr.exec step (n + 1) s = pr.exec step n s := by
  rw [FreightPrg.exec]
  simp only [h]

omit [DecidableEq κ] [DecidableEq ζ] in
theorem freightExec_some {σ : Type} {step : FreightAct κ ζ → OM σ Ans} {pr : FreightPrg κ ζ} {n : Nat} {s : σ} {a : FreightAct κ ζ}
    (h : pr (pr.exec step n s).1 = some a) :
    pr.exec step (n + 1) s = ((pr.exec step n s).1 ++ [(step a (pr.exec step n s).2).1], (step a (pr.exec step n s).2).2) := by
  rw [FreightPrg.exec]
  simp only [h]

theorem freight_rel (hr : Function.Injective r) (hs : Function.Injective site) (hX : Function.Injective X) (hXc : ∀ z, ConnOk (X z)) {may : κ → κ → Bool}
    (hmay : ∀ k k', may k k' = true → May (site k) (site k')) {loc : κ → Bool} (hloc : ∀ k, loc k = (site k).isNone)
    (hU : ∀ z, URI (X z) = .ok (siteAt E (site (arc z).1) (arc z).2)) (depth : Nat)
    (pr : FreightPrg κ ζ) : ∀ (n : Nat) {x : (κ → Tree) × (ζ → Option (List Zip.Entry))} {y : Arc}, ARel E r site X F G x y →
    (∀ a ∈ (pr.exec (FreightAct.says C may loc arc depth) n x).1, a ≠ .error .outside) →
    (pr.exec (FreightAct.run C E site X depth) n y).1 = (pr.exec (FreightAct.says C may loc arc depth) n x).1 ∧
      ARel E r site X F G (pr.exec (FreightAct.says C may loc arc depth) n x).2 (pr.exec (FreightAct.run C E site X depth) n y).2
  | 0, _, _, h, _ => ⟨rfl, h⟩
  | n + 1, x, y, h, hq => by
    cases hp : pr (pr.exec (FreightAct.says C may loc arc depth) n x).1 with
    | none =>
      rw [freightExec_none hp] at hq ⊢
      obtain ⟨h1, h2⟩ := freight_rel hr hs hX hXc hmay hloc hU depth pr n h hq
      rw [freightExec_none (by rw [h1, hp])]
      exact ⟨h1, h2⟩
    | some a =>
      rw [freightExec_some hp] at hq ⊢
      obtain ⟨h1, h2⟩ := freight_rel hr hs hX hXc hmay hloc hU depth pr n h fun x hx => hq x (by simp [hx])
      rw [freightExec_some (by rw [h1, hp])]
      rcases freight_step (C := C) hr hs hX hXc hmay hloc hU depth a h2 with h3 | ⟨h3, h4⟩
      · exact absurd h3 (hq _ (List.mem_append_right _ (List.mem_singleton.2 rfl)))
      · exact ⟨by rw [h1, h3], h4⟩

/-- A program that works with files and directories and with the members of archives that are some of these files, copies files
    and members to files and members, moves them, and makes calls that archives do not have: its calls answer what is expected,
    and leave the files and directories that are expected. -/
theorem C126_program (hr : Function.Injective r) (hs : Function.Injective site) (hX : Function.Injective X) (hXc : ∀ z, ConnOk (X z)) {may : κ → κ → Bool}
    (hmay : ∀ k k', may k k' = true → May (site k) (site k')) {loc : κ → Bool} (hloc : ∀ k, loc k = (site k).isNone)
    (hU : ∀ z, URI (X z) = .ok (siteAt E (site (arc z).1) (arc z).2)) {T : κ → Tree} {s : Arc}
    (hok : SysOk E r s.sys) (h : ∀ k, Holds r s.sys (site k) (T k)) (hc : ∀ z, Clean (s.handle (zkey (X z)))) (depth : Nat)
    (pr : FreightPrg κ ζ) (n : Nat)
    (hq : ∀ x ∈ (pr.exec (FreightAct.says C may loc arc depth) n (T, fun z => seenOf (s.handle (zkey (X z))))).1, x ≠ .error .outside) :
    (pr.exec (FreightAct.run C E site X depth) n s).1 = (pr.exec (FreightAct.says C may loc arc depth) n (T, fun z => seenOf (s.handle (zkey (X z))))).1 ∧
    (∀ k, Holds r (pr.exec (FreightAct.run C E site X depth) n s).2.sys (site k)
      ((pr.exec (FreightAct.says C may loc arc depth) n (T, fun z => seenOf (s.handle (zkey (X z))))).2.1 k)) ∧
    SysOk E r (pr.exec (FreightAct.run C E site X depth) n s).2.sys ∧
    (∀ j, (∀ k, site k ≠ j) → siteV r (pr.exec (FreightAct.run C E site X depth) n s).2.sys j = siteV r s.sys j) ∧
    ∀ k, (∀ z, zkey (X z) ≠ k) → (pr.exec (FreightAct.run C E site X depth) n s).2.handle k = s.handle k := by
  obtain ⟨h1, h2⟩ := freight_rel (C := C) (F := siteV r s.sys) (G := s.handle) hr hs hX hXc hmay hloc hU depth pr n
    (x := (T, fun z => seenOf (s.handle (zkey (X z))))) (y := s) ⟨⟨hok, h, fun _ _ => rfl⟩, hc, fun _ => rfl, fun _ _ => rfl⟩ hq
  exact ⟨h1, h2.rels.here, h2.rels.ok, h2.rels.there, h2.rest⟩

end

/-! ## Nothing in an archive can be removed -/

theorem ispart_still (k : Reg.Key) (p : Str) (y : Arc) : ∃ f : List Zip.Cmp → Except PyErr Bool, (∀ ex, onArc k (fun _ => aIspart p ex) y = (f ex, y)) ∧
    ∀ d g, f [.isdir] = .ok d → f [.isfile] = .ok g → f [.isdir, .isfile] = .ok (d || g) := by
  have hy : (⟨y.sys, fun k' => if k' = k then y.handle k else y.handle k'⟩ : Arc) = y := by
    cases y
    congr 1
    funext k'
    dsimp only
    split_ifs with h
    · rw [h]
    · rfl
  cases hU : URI k.base.vpathConnector with
  | error e =>
    refine ⟨fun _ => .error e, fun ex => ?_, fun d g h => nomatch h⟩
    unfold onArc
    rw [hU]
  | ok a =>
    by_cases hz : a.scheme = some cl!"zip"
    · refine ⟨fun _ => .error .outside, fun ex => ?_, fun d g h => nomatch h⟩
      unfold onArc
      rw [hU]
      dsimp only
      rw [if_pos hz]
    · have go : ∀ {ex x}, aIspart p ex (y.sys, y.handle k) = (x, y.sys, y.handle k) → onArc k (fun _ => aIspart p ex) y = (x, y) := by
        intro ex x h
        unfold onArc
        rw [hU]
        dsimp only
        rw [if_neg hz, h, hy]
      by_cases hp : p = ['/']
      · refine ⟨fun _ => .ok true, fun ex => go ?_, fun d g h1 h2 => ?_⟩
        · unfold aIspart
          rw [if_pos hp]
          rfl
        · cases h1; cases h2; rfl
      · cases hh : y.handle k with
        | none =>
          refine ⟨fun _ => .error .attributeError, fun ex => go ?_, fun d g h => nomatch h⟩
          unfold aIspart
          rw [if_neg hp, hh]
          rfl
        | some o =>
          refine ⟨fun ex => .ok (o.z.entries.any fun e => Zip.comparePathStrings p e.name ∈ ex), fun ex => go ?_, fun d g h1 h2 => ?_⟩
          · unfold aIspart
            rw [if_neg hp, hh]
            rfl
          · cases h1
            cases h2
            dsimp only
            congr 1
            rw [Bool.eq_iff_iff]
            simp only [Bool.or_eq_true, List.any_eq_true, decide_eq_true_eq, List.mem_cons, List.not_mem_nil, or_false, and_or_left, exists_or]

/-- Removing something in an archive never succeeds, recursively or not, whatever the URI and the state are. -/
theorem C126_nothing_removed (C : Codec) (X : Str) (m : List Str) (depth : Nat) (b : Bool) (y : Arc) : (uRemove (arcOps C) depth (zat X m) b y).1 ≠ .ok () := by
  intro h
  have h : ((do
      if !(← (arcOps C).exists_ (.zip (zkey X)) (zat X m)) then OM.raise .fileDoesNotExist
      else if ← (arcOps C).isdir (.zip (zkey X)) (zat X m) then
        if b then removeDirRec (arcOps C) depth (.zip (zkey X)) (zat X m) else (arcOps C).removedir (.zip (zkey X)) (zat X m)
      else if ← (arcOps C).isfile (.zip (zkey X)) (zat X m) then (arcOps C).removefile (.zip (zkey X)) (zat X m)
      else pure () : OM Arc Unit) y).1 = .ok () := (congrArg Prod.fst (arc_withConn (C := C) X m .remove _ y)).symm.trans h
  obtain ⟨f, f1, f2⟩ := ispart_still (zkey X) (zat X m).path y
  have e1 : (arcOps C).exists_ (.zip (zkey X)) (zat X m) y = (f [.isdir, .isfile], y) := f1 _
  have e2 : (arcOps C).isdir (.zip (zkey X)) (zat X m) y = (f [.isdir], y) := f1 _
  have e3 : (arcOps C).isfile (.zip (zkey X)) (zat X m) y = (f [.isfile], y) := f1 _
  cases h1 : f [.isdir, .isfile] with
  | error e => rw [h1] at e1; rw [bind_error e1] at h; cases h
  | ok v =>
    rw [h1] at e1
    rw [bind_ok e1] at h
    cases v with
    | false => cases h
    | true =>
      rw [Bool.not_true, if_neg Bool.false_ne_true] at h
      cases h2 : f [.isdir] with
      | error e => rw [h2] at e2; rw [bind_error e2] at h; cases h
      | ok v =>
        rw [h2] at e2
        rw [bind_ok e2] at h
        cases v with
        | true =>
          rw [if_pos rfl] at h
          cases b with
          | false => cases h
          | true =>
            rw [if_pos rfl] at h
            unfold removeDirRec at h
            cases hw : walk (arcOps C) (.zip (zkey X)) false false (fun (_ : Unit) top dirs files => do
                removeBody (arcOps C) (.zip (zkey X)) top dirs files
                pure ((), dirs)) depth (zat X m) () y with
            | mk w y' =>
              cases w with
              | error e => rw [bind_error hw] at h; cases h
              | ok w =>
                rw [bind_ok hw] at h
                cases h
        | false =>
          rw [if_neg Bool.false_ne_true] at h
          cases h3 : f [.isfile] with
          | error e => rw [h3] at e3; rw [bind_error e3] at h; cases h
          | ok v =>
            rw [h3] at e3
            rw [bind_ok e3] at h
            cases v with
            | true => cases h
            | false => have := f2 _ _ h2 h3; rw [h1] at this; cases this

/-! ## Concrete cases -/

/-- the program that makes the calls of a list -/
def listFr {κ ζ : Type} (l : List (FreightAct κ ζ)) : FreightPrg κ ζ := fun h => l[h.length]?

/-- members are copied and moved, and calls are refused -/
def freightPrgL : List (FreightAct Bool (Option Bool)) :=
  [.carry (some true) [cl!"m"] (some false) [] [] true, .act (.act (.zip (some true) (.write [cl!"m", cl!"n"] [7]))), .carry (some true) [cl!"m", cl!"n"] (some false) [cl!"k"] [] true,
   .carry (some true) [cl!"m", cl!"n"] (some false) [] [] true, .act (.act (.zip (some false) (.read [cl!"n"]))), .carry (some true) [cl!"m", cl!"n"] (some false) [cl!"k", cl!"l"] [] false,
   .act (.act (.zip (some false) (.listdir [cl!"k"]))), .carry (some true) [cl!"m"] (some false) [] [] true, .carry (some true) [cl!"q"] (some false) [] [] true,
   .moveIn false [cl!"a", cl!"f"] (some false) [cl!"k"], .act (.act (.zip (some false) (.read [cl!"k", cl!"f"]))), .act (.act (.call (.one false (.exists_ [cl!"a", cl!"f"])))),
   .moveIn false [cl!"a", cl!"f"] (some false) [cl!"k"], .moveOut (some true) [cl!"m", cl!"n"] true [cl!"a"], .act (.act (.call (.one true (.read [cl!"a", cl!"n"])))),
   .act (.act (.zip (some true) (.read [cl!"m", cl!"n"]))), .moveOut (some true) [cl!"q"] true [cl!"a"], .moveOut none [cl!"q"] true [cl!"a"],
   .deny (some true) (.islink [cl!"m"]), .deny (some true) (.readlink [cl!"m"]), .deny (some true) (.symlink [cl!"q"] (siteAt (fun _ : Unit => []) none [cl!"a"])),
   .deny (some true) (.mkdir [cl!"q"]), .deny (some true) (.makedirs [cl!"q", cl!"r"]), .deny (some true) (.makedirs [cl!"m"]),
   .deny (some true) (.copystat [cl!"m", cl!"n"] (siteAt (fun _ : Unit => []) none [cl!"a"])), .deny (some true) (.remove [cl!"m", cl!"n"] false),
   .deny (some true) (.remove [cl!"m", cl!"n"] true), .deny (some true) (.remove [cl!"m"] false), .deny (some true) (.remove [cl!"q"] true), .deny none (.remove [cl!"q"] true),
   .deny (some true) (.bare [cl!"m", cl!"n"] .isexec), .deny (some true) (.bare [cl!"m", cl!"n"] .lock), .deny none (.bare [] .info), .deny (some true) (.bare [cl!"m"] .manipulate)]

/-- in one archive a member is copied to another name -/
def freightIn : List (FreightAct Bool (Option Bool)) :=
  [.act (.act (.zip (some true) (.write [cl!"m", cl!"n"] [7]))), .carry (some true) [cl!"m", cl!"n"] (some true) [cl!"k"] [] true, .act (.act (.zip (some true) (.read [cl!"k"]))),
   .act (.act (.zip (some true) (.read [cl!"m", cl!"n"])))]

theorem freight_answers (loc : Bool → Bool) (h : loc = (fun b => b) ∨ loc = fun b => !b) :
    ((listFr freightPrgL).exec (FreightAct.says toy (fun _ _ => true) loc toyArc 50) 40 ((fun _ => twinTree), fun _ => none)).1 =
    [.error .attributeError, .ok .unit, .error .attributeError, .error .notImplemented, .ok (.bytes [7]), .error .notImplemented, .ok (.names [cl!"l"]), .error .assertionError,
     .error .fileDoesNotExist, .ok .unit, .ok (.bytes [104, 105]), .ok (.bool false), .error .fileDoesNotExist, .error .notImplemented, .ok (.bytes [7]), .ok (.bytes [7]),
     .error .fileDoesNotExist, .error .attributeError, .ok (.bool false), .error .unsupported, .error .unsupported, .error .notImplemented, .error .notImplemented, .ok .unit,
     .error .notImplemented, .error .notImplemented, .error .notImplemented, .error .notImplemented, .error .fileDoesNotExist, .error .attributeError,
     .error .notImplemented, .error .attributeError, .error .notImplemented, .error .attributeError] := by
  rcases h with rfl | rfl <;> decide +kernel

theorem toy_loc (sw : Bool) : (fun k => (twinSite sw k).isNone) = (fun b => b) ∨ (fun k => (twinSite sw k).isNone) = fun b => !b := by
  cases sw
  · exact .inr (funext fun k => by cases k <;> rfl)
  · exact .inl (funext fun k => by cases k <;> rfl)

/-- whichever of the two places is the local one -/
example (sw : Bool) : ((listFr freightPrgL).exec (FreightAct.run toy (fun _ : Unit => []) (twinSite sw) (toyText sw) 50) 40 toyStart).1 =
    ((listFr freightPrgL).exec (FreightAct.says toy (fun _ _ => true) (fun k => (twinSite sw k).isNone) toyArc 50) 40 ((fun _ => twinTree), fun _ => none)).1 :=
  (C126_program unit_inj (twinSite_inj sw) (toyText_inj sw) (toyText_conn sw) (may := fun _ _ => true) (by revert sw; unfold May; decide) (fun _ => rfl) (toyText_uri sw)
    (s := toyStart) twin_ok (fun k => twin_holds _) (fun _ _ c => nomatch c) 50 (listFr freightPrgL) 40 (by
      intro x hx e
      change x ∈ ((listFr freightPrgL).exec (FreightAct.says toy (fun _ _ => true) (fun k => (twinSite sw k).isNone) toyArc 50) 40 ((fun _ => twinTree), fun _ => none)).1 at hx
      rw [freight_answers _ (toy_loc sw), e] at hx
      revert hx
      decide)).1

example (loc : Bool) : ((listFr freightIn).exec (FreightAct.says toy (fun _ _ => true) (fun _ => loc) toyArc 50) 10 ((fun _ => twinTree), fun _ => none)).1 =
    [.ok .unit, if loc then .error .valueError else .error .notImplemented, .ok (.bytes (if loc then [] else [7])), .ok (.bytes [7])] := by
  cases loc <;> decide +kernel

/-- Refuted: "programs that use only the methods common to all backends do the same whether an archive is a local file or in
    memory".  If a member is copied inside of one archive, a local one raises ValueError and gets an empty member. -/
theorem C126_inside_refuted : ((listFr freightIn).exec (FreightAct.run toy (fun _ : Unit => []) (twinSite true) (toyText true) 50) 10 toyStart).1 ≠
    ((listFr freightIn).exec (FreightAct.run toy (fun _ : Unit => []) (twinSite false) (toyText false) 50) 10 toyStart).1 := by
  decide +kernel

/-- Refuted: "when `copy` raises an exception, the destination is as it was", and "when `move` raises one, the source or the
    destination is as it was". -/
theorem C126_raised_refuted (sw : Bool) : ((listFr [.act (.act (.zip (some true) (.write [cl!"n"] [7]))), .act (.act (.zip (some false) (.write [cl!"k"] [8]))),
      .carry (some true) [cl!"n"] (some false) [cl!"k"] [] true, .act (.act (.zip (some false) (.read [cl!"k"]))), .moveOut (some true) [cl!"n"] true [cl!"a", cl!"f"],
      .act (.act (.call (.one true (.read [cl!"a", cl!"f"])))), .act (.act (.zip (some true) (.read [cl!"n"])))]
      : FreightPrg Bool (Option Bool)).exec (FreightAct.run toy (fun _ : Unit => []) (twinSite sw) (toyText sw) 50) 10 toyStart).1 =
    [.ok .unit, .ok .unit, .error .notImplemented, .ok (.bytes [7]), .error .notImplemented, .ok (.bytes [7]), .ok (.bytes [7])] := by
  revert sw
  decide +kernel

example : (uRemove (arcOps toy) 50 (zat (toyText true (some true)) []) true toyStart).1 = .error .notImplemented := by decide +kernel

end Verif.Props
