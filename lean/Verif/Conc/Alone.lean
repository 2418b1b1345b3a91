import Verif.Conc.Twin
/-!
# Every call at or below `q0` does the same among others and alone
-/
namespace Verif.Conc
open Mem Mem.M Spec Prog

/-- the places at or below `q0` -/
def Below (r0 : Nat) (q0 : List Str) (l : Loc) : Prop := l.1 = r0 ∧ q0 <+: l.2

variable {F : Frame} {r0 : Nat} {q0 : List Str}

theorem Rel.mono {α β : Type} {p : Prog α} {p' : Prog β} {Q Q' : Except PyErr α → Except PyErr β → Ctx → Prop} {C : Ctx} (h : Rel F r0 q0 p p' Q C)
    (hq : ∀ r r' C', Q r r' C' → Q' r r' C') : Rel F r0 q0 p p' Q' C := by
  induction p generalizing C p' with
  | ret r =>
    cases p' with
    | act a k => exact h.elim
    | ret r' => exact fun D hs hl => hq _ _ _ (h D hs hl)
  | act a k ih =>
    cases p' with
    | ret r => exact h.elim
    | act a' k' =>
      intro D hs hl hg hr
      obtain ⟨ρ', h1, h2, h3⟩ := h D hs hl hg hr
      exact ⟨ρ', h1, h2, ih _ h3⟩

theorem Rel.same {α β : Type} {p : Prog α} {p' : Prog β} {R R' : α → β → Ctx → Prop} {C : Ctx} (h : Rel F r0 q0 p p' (Same R) C)
    (hq : ∀ a b C', R a b C' → R' a b C') : Rel F r0 q0 p p' (Same R') C :=
  h.mono fun _ _ _ hs => hs.mono fun a b hab => hq a b _ hab

/-- what is known of the outcomes among the others is known as well -/
theorem Rel.wp {α β : Type} {p : Prog α} {p' : Prog β} {Q : Except PyErr α → Sit → Prop} {R : Except PyErr α → Except PyErr β → Ctx → Prop}
    {T : Loc → Prop} {C : Ctx} (h : Wp False F T p Q C.s) (h' : Rel F r0 q0 p p' R C) :
    Rel F r0 q0 p p' (fun r r' C => Q r C.s ∧ R r r' C) C := by
  induction p generalizing C p' with
  | ret r =>
    cases p' with
    | act a k => exact h'.elim
    | ret r' => exact fun D hs hl => ⟨h D.s hs.good hl.rely, h' D hs hl⟩
  | act a k ih =>
    cases p' with
    | ret r => exact h'.elim
    | act a' k' =>
      intro D hs hl hg hr
      obtain ⟨ρ', h1, h2, h3⟩ := h' D hs hl hg hr
      exact ⟨ρ', h1, h2, ih _ (h D.s hs.good hl.rely).2.2 h3⟩

/-! ## Looking up -/

theorem rel_child {resolve resolve' : Uri → Prog (Option Nat)} {C : Ctx} (h0 : Sim F r0 q0 C) {c c' : Nat} {q : List Str} {n : Str} {f : Bool}
    (hc : Pr r0 C c c' q) (hq : Cmp q0 (q ++ [n])) :
    Rel F r0 q0 (cChild resolve c n f) (cChild resolve' c' n f) (Same (PO r0 (q ++ [n]))) C := by
  unfold cChild
  refine Rel.bind h0 (rel_has hc hq) ?_
  rintro _ b C1 s1 l1 rfl
  cases b with
  | false => simp only [Bool.false_eq_true, if_false]; exact .pure_ fun _ _ _ => trivial
  | true =>
    simp only [if_true]
    refine Rel.bind s1 (rel_get (hc.stable l1) hq) fun i i' C2 s2 l2 hi => ?_
    refine Rel.bind s2 (rel_tag hi.1) ?_
    rintro _ t C3 s3 l3 ⟨rfl, hl⟩
    have hd : Rel F r0 q0 (pure (some i)) (pure (some i')) (Same (PO r0 (q ++ [n]))) C3 := .pure_ fun D _ l4 => hi.stable (l3.trans l4)
    cases t with
    | link u => exact absurd rfl (hl u)
    | file => exact hd
    | dir => exact hd

theorem rel_prevLoop {resolve resolve' : Uri → Prog (Option Nat)} {f th : Bool} {last : Str} (steps : List Str) :
    ∀ {C : Ctx} (_ : Sim F r0 q0 C) {q : List Str} (_ : Cmp q0 (q ++ steps)) {prev prev' cur cur' : Option Nat}
      (_ : PO r0 q.dropLast prev prev' C) (_ : PO r0 q cur cur' C),
      Rel F r0 q0 (cPrevLoop resolve f th last steps prev cur) (cPrevLoop resolve' f th last steps prev' cur')
        (Same fun y y' C => PO r0 (q ++ steps).dropLast y.1 y'.1 C ∧ PO r0 (q ++ steps) y.2 y'.2 C) C := by
  induction steps with
  | nil =>
    intro C h0 q hq prev prev' cur cur' hp hc
    refine .pure_ fun D _ l => ?_
    rw [List.append_nil]
    exact ⟨PO.stable l hp, PO.stable l hc⟩
  | cons part rest ih =>
    intro C h0 q hq prev prev' cur cur' hp hc
    unfold cPrevLoop
    have e : q ++ part :: rest = (q ++ [part]) ++ rest := by simp
    have hq1 : Cmp q0 (q ++ [part]) := hq.prefix (by rw [e]; exact List.prefix_append _ _)
    cases cur with
    | none =>
      cases cur' with
      | none => exact .raise_
      | some c' => exact hc.elim
    | some c =>
      cases cur' with
      | none => exact hc.elim
      | some c' =>
        have hc : Pr r0 C c c' q := hc
        refine Rel.bind h0 (rel_has hc hq1) ?_
        rintro _ b C1 s1 l1 rfl
        cases b with
        | true =>
          simp only [if_true]
          refine Rel.bind s1 (rel_child s1 (hc.stable l1) hq1) fun o o' C2 s2 l2 ho => ?_
          have := ih s2 (q := q ++ [part]) (by rw [← e]; exact hq) (prev := some c) (prev' := some c')
            (by rw [List.dropLast_concat]; exact hc.stable (l1.trans l2)) ho
          rw [← e] at this
          exact this
        | false =>
          simp only [Bool.false_eq_true, if_false]
          split
          · exact .raise_
          · exact .pure_ fun _ _ _ => ⟨trivial, trivial⟩

theorem rel_prev {f th : Bool} {steps : List Str} {C : Ctx} (h0 : Sim F r0 q0 C) (hroot : IsRoot C.s.w r0) (hq : Cmp q0 steps) :
    Rel F r0 q0 (cPrev r0 f th steps) (cPrev r0 f th steps)
      (Same fun y y' C => PO r0 steps.dropLast y.1 y'.1 C ∧ PO r0 steps y.2 y'.2 C) C :=
  rel_prevLoop (q := []) steps h0 hq trivial
    ⟨h0.root hroot, h0.good.root r0 hroot, (h0.dom _ _ (h0.root hroot)).1⟩

/-- the places of `u` are at or below `q0` -/
abbrev Own (r0 : Nat) (q0 : List Str) (u : Uri) : Prop := Owns (Below r0 q0) r0 u

theorem rel_forPath_ {f th : Bool} {u : Uri} {C : Ctx} (h0 : Sim F r0 q0 C) (hroot : IsRoot C.s.w r0)
    (hu : ∀ p, stripPath u = .ok p → p ≠ [] → Cmp q0 (splitC '/' p)) :
    Rel F r0 q0 (cForPath r0 f th u) (cForPath r0 f th u) (Same fun o o' C => OptRel (fun i i' => C.ρ i i') o o') C := by
  unfold cForPath cForPathWith
  refine Rel.bind h0 .lift_eq ?_
  rintro _ p C1 s1 l1 ⟨rfl, hp⟩
  have hr1 := l1.rely.ext.isRoot hroot
  by_cases hne : p = []
  · simp only [hne, ne_eq, not_true_eq_false, if_false]
    exact .pure_ fun D hs l => hs.root (l.rely.ext.isRoot hr1)
  · rw [if_pos hne]
    refine Rel.bind s1 (rel_prev s1 hr1 (hu p hp hne)) fun y y' C2 s2 l2 hy => ?_
    exact .pure_ fun D hs l => OptRel.mono (fun i i' hi => l.ρ _ _ hi.1) hy.2

theorem rel_forPath {f th : Bool} {u : Uri} {C : Ctx} (h0 : Sim F r0 q0 C) (hroot : IsRoot C.s.w r0) (hu : Own r0 q0 u) :
    Rel F r0 q0 (cForPath r0 f th u) (cForPath r0 f th u) (Same fun o o' C => OptRel (fun i i' => C.ρ i i') o o') C :=
  rel_forPath_ h0 hroot fun p hp _ => .inr (hu p hp).2.1.2

theorem rel_some {C : Ctx} {o o' : Option Nat} (h : OptRel (fun i i' => C.ρ i i') o o') :
    Rel F r0 q0 (cSome o) (cSome o') (Same fun i i' C => C.ρ i i') C := by
  cases o <;> cases o'
  · exact .raise_
  · exact h.elim
  · exact h.elim
  · exact .pure_ fun D _ l => l.ρ _ _ h

theorem rel_some_at {q : List Str} {C : Ctx} {o o' : Option Nat} (h : PO r0 q o o' C) :
    Rel F r0 q0 (cSome o) (cSome o') (Same fun i i' C => Pr r0 C i i' q) C := by
  cases o <;> cases o'
  · exact .raise_
  · exact h.elim
  · exact h.elim
  · exact .pure_ fun D _ l => Pr.stable l h

theorem rel_node {steps : List Str} {C : Ctx} (h0 : Sim F r0 q0 C) (hroot : IsRoot C.s.w r0) (hq : Cmp q0 steps) :
    Rel F r0 q0 (cNode r0 steps) (cNode r0 steps) (Same (PO r0 steps)) C := by
  unfold cNode
  exact Rel.bind h0 (rel_prev h0 hroot hq) fun y y' C1 s1 l1 hy => .pure_ fun D _ l => PO.stable l hy.2

theorem rel_parent {p : Str} {C : Ctx} (h0 : Sim F r0 q0 C) (hroot : IsRoot C.s.w r0) (hq : q0 <+: splitC '/' p) :
    Rel F r0 q0 (cParent r0 p) (cParent r0 p)
      (Same fun y y' C => Pr r0 C y.1 y'.1 (splitC '/' p).dropLast ∧ y.2.1 = (splitC '/' p).getLastD [] ∧ y'.2 = y.2) C := by
  unfold cParent
  have hc : Cmp q0 ((splitC '/' p).dropLast ++ [(splitC '/' p).getLastD []]) := by rw [split_last]; exact .inr hq
  refine Rel.bind h0 (rel_node h0 hroot (hc.prefix (List.prefix_append _ _))) fun o o' C1 s1 l1 ho => ?_
  refine Rel.bind s1 (rel_some_at ho) fun i i' C2 s2 l2 hi => ?_
  refine Rel.bind s2 (rel_has hi hc) ?_
  rintro _ b C3 s3 l3 rfl
  exact .pure_ fun D _ l => ⟨hi.stable (l3.trans l), rfl, rfl⟩

/-! ## Methods -/

section
variable {C : Ctx} (h0 : Sim F r0 q0 C) {u : Uri}
include h0

theorem rel_isdir_ (hroot : IsRoot C.s.w r0) (hu : ∀ p, stripPath u = .ok p → p ≠ [] → Cmp q0 (splitC '/' p)) :
    Rel F r0 q0 (cIsdir r0 u) (cIsdir r0 u) (Same Eq_) C := by
  unfold cIsdir
  refine Rel.bind h0 .lift_ ?_
  rintro _ p C1 s1 l1 rfl
  split
  · refine Rel.after s1 (rel_forPath_ s1 (l1.rely.ext.isRoot hroot) hu) fun r r' C2 s2 l2 hr => ?_
    cases r with
    | error e =>
      cases r' with
      | ok o => exact hr.elim
      | error e' =>
        have hr : e = e' := hr
        subst hr
        split
        · rename_i h; simp at h
        · rename_i h; simp at h
        · exact .pure_ fun _ _ _ => rfl
        · exact .pure_ fun _ _ _ => rfl
        · exact .raise_
    | ok o =>
      cases r' with
      | error e => exact hr.elim
      | ok o' =>
        have hr : OptRel (fun i i' => C2.ρ i i') o o' := hr
        cases o <;> cases o'
        · exact .pure_ fun _ _ _ => rfl
        · exact hr.elim
        · exact hr.elim
        · refine Rel.bind s2 (rel_tag hr) ?_
          rintro _ t C3 s3 l3 ⟨rfl, -⟩
          split <;> exact .pure_ fun _ _ _ => rfl
  · exact .pure_ fun _ _ _ => rfl

theorem rel_isdir (hroot : IsRoot C.s.w r0) (hu : Own r0 q0 u) : Rel F r0 q0 (cIsdir r0 u) (cIsdir r0 u) (Same Eq_) C :=
  rel_isdir_ h0 hroot fun p hp _ => .inr (hu p hp).2.1.2

theorem rel_isfile (hroot : IsRoot C.s.w r0) (hu : Own r0 q0 u) : Rel F r0 q0 (cIsfile r0 u) (cIsfile r0 u) (Same Eq_) C := by
  unfold cIsfile
  refine Rel.bind h0 .lift_ ?_
  rintro _ p C1 s1 l1 rfl
  split
  · refine Rel.after s1 (rel_forPath s1 (l1.rely.ext.isRoot hroot) hu) fun r r' C2 s2 l2 hr => ?_
    cases r with
    | error e =>
      cases r' with
      | ok o => exact hr.elim
      | error e' =>
        have hr : e = e' := hr
        subst hr
        split
        · rename_i h; simp at h
        · rename_i h; simp at h
        · exact .pure_ fun _ _ _ => rfl
        · exact .raise_
    | ok o =>
      cases r' with
      | error e => exact hr.elim
      | ok o' =>
        have hr : OptRel (fun i i' => C2.ρ i i') o o' := hr
        cases o <;> cases o'
        · exact .pure_ fun _ _ _ => rfl
        · exact hr.elim
        · exact hr.elim
        · refine Rel.bind s2 (rel_tag hr) ?_
          rintro _ t C3 s3 l3 ⟨rfl, -⟩
          split <;> exact .pure_ fun _ _ _ => rfl
  · exact .pure_ fun _ _ _ => rfl

theorem rel_exists (hroot : IsRoot C.s.w r0) (hu : Own r0 q0 u) : Rel F r0 q0 (cExists r0 u) (cExists r0 u) (Same Eq_) C := by
  unfold cExists
  refine Rel.bind h0 .lift_ ?_
  rintro _ p C1 s1 l1 rfl
  split
  · refine Rel.after s1 (rel_forPath s1 (l1.rely.ext.isRoot hroot) hu) fun r r' C2 s2 l2 hr => ?_
    cases r with
    | error e =>
      cases r' with
      | ok o => exact hr.elim
      | error e' =>
        have hr : e = e' := hr
        subst hr
        split
        · rename_i h; simp at h
        · rename_i h; simp at h
        · exact .pure_ fun _ _ _ => rfl
        · exact .pure_ fun _ _ _ => rfl
        · exact .raise_
    | ok o =>
      cases r' with
      | error e => exact hr.elim
      | ok o' =>
        have hr : OptRel (fun i i' => C2.ρ i i') o o' := hr
        cases o <;> cases o'
        · exact .pure_ fun _ _ _ => rfl
        · exact hr.elim
        · exact hr.elim
        · exact .pure_ fun _ _ _ => rfl
  · exact .pure_ fun _ _ _ => rfl

theorem rel_islink (hroot : IsRoot C.s.w r0) (hu : Own r0 q0 u) : Rel F r0 q0 (cIslink r0 u) (cIslink r0 u) (Same Eq_) C := by
  unfold cIslink
  refine Rel.bind h0 .lift_ ?_
  rintro _ p C1 s1 l1 rfl
  split
  · refine Rel.bind s1 (rel_forPath s1 (l1.rely.ext.isRoot hroot) hu) fun o o' C2 s2 l2 hr => ?_
    cases o <;> cases o'
    · exact .pure_ fun _ _ _ => rfl
    · exact hr.elim
    · exact hr.elim
    · refine Rel.bind s2 (rel_tag hr) ?_
      rintro _ t C3 s3 l3 ⟨rfl, -⟩
      split <;> exact .pure_ fun _ _ _ => rfl
  · exact .pure_ fun _ _ _ => rfl

theorem rel_readlink (hroot : IsRoot C.s.w r0) (hu : Own r0 q0 u) : Rel F r0 q0 (cReadlink r0 u) (cReadlink r0 u) (Same Eq_) C := by
  unfold cReadlink
  refine Rel.bind h0 .lift_ ?_
  rintro _ p C1 s1 l1 rfl
  split
  · refine Rel.bind s1 (rel_forPath s1 (l1.rely.ext.isRoot hroot) hu) fun o o' C2 s2 l2 hr => ?_
    refine Rel.bind s2 (rel_some hr) fun i i' C3 s3 l3 hi => ?_
    refine Rel.bind s3 (rel_tag hi) ?_
    rintro _ t C4 s4 l4 ⟨rfl, -⟩
    split
    · exact .pure_ fun _ _ _ => rfl
    · exact .raise_
  · exact .raise_

theorem rel_listdir (hroot : IsRoot C.s.w r0) (hu : Own r0 q0 u) : Rel F r0 q0 (cListdir r0 u) (cListdir r0 u) (Same Eq_) C := by
  unfold cListdir
  refine Rel.bind h0 .lift_eq ?_
  rintro _ p C1 s1 l1 ⟨rfl, hp⟩
  refine Rel.bind s1 (rel_node s1 (l1.rely.ext.isRoot hroot) (.inr (hu p hp).2.2.2.2)) fun o o' C2 s2 l2 hr => ?_
  refine Rel.bind s2 (rel_some_at hr) fun i i' C3 s3 l3 hi => ?_
  refine Rel.bind s3 (rel_keys hi (hu p hp).2.2.2.2) ?_
  rintro _ t C4 s4 l4 rfl
  exact .pure_ fun _ _ _ => rfl

theorem rel_cInfo {f : Bool} (hroot : IsRoot C.s.w r0) (hu : Own r0 q0 u) :
    Rel F r0 q0 (cInfo r0 u f) (cInfo r0 u f) (Same fun a b _ => b.mode = a.mode) C := by
  unfold cInfo
  refine Rel.bind h0 (rel_forPath h0 hroot hu) fun o o' C2 s2 l2 hr => ?_
  refine Rel.bind s2 (rel_some hr) fun i i' C3 s3 l3 hi => ?_
  refine Rel.bind s3 (rel_info hi) fun a a' C4 s4 l4 _ => ?_
  refine Rel.bind s4 (rel_info (l4.ρ _ _ hi)) fun b b' C5 s5 l5 hb => ?_
  refine Rel.bind s5 (rel_info (l5.ρ _ _ (l4.ρ _ _ hi))) fun c c' C6 s6 l6 _ => ?_
  exact .pure_ fun _ _ _ => hb

theorem rel_isexec {k : Int} (hroot : IsRoot C.s.w r0) (hu : Own r0 q0 u) : Rel F r0 q0 (cIsexec r0 u k) (cIsexec r0 u k) (Same Eq_) C := by
  unfold cIsexec
  refine Rel.bind h0 (rel_cInfo h0 hroot hu) fun x x' C1 s1 l1 hx => .pure_ fun _ _ _ => ?_
  rw [hx]

theorem rel_setInfo {i : SetInfo} {f : Bool} (hroot : IsRoot C.s.w r0) (hu : Own r0 q0 u) :
    Rel F r0 q0 (cSetInfo r0 u i f) (cSetInfo r0 u i f) (Same Eq_) C := by
  unfold cSetInfo
  refine Rel.bind h0 (rel_forPath h0 hroot hu) fun o o' C1 s1 l1 hr => ?_
  refine Rel.bind s1 (rel_some hr) fun j j' C2 s2 l2 hj => ?_
  split <;> (simp only; split)
  · exact Rel.bind s2 (rel_setMode hj) fun _ _ C3 s3 l3 _ => rel_setMtime (l3.ρ _ _ hj)
  · exact rel_setMtime hj
  · exact Rel.bind s2 (rel_setMode hj) fun _ _ C3 s3 l3 _ => .pure_ fun _ _ _ => rfl
  · exact .pure_ fun _ _ _ => rfl

theorem rel_setExec {m : Int} (hroot : IsRoot C.s.w r0) (hu : Own r0 q0 u) : Rel F r0 q0 (cSetExec r0 u m) (cSetExec r0 u m) (Same Eq_) C := by
  unfold cSetExec
  refine Rel.bind h0 (rel_cInfo h0 hroot hu) fun x x' C1 s1 l1 hx => ?_
  rw [hx]
  exact rel_setInfo s1 (l1.rely.ext.isRoot hroot) hu

theorem rel_copystat {v : Uri} (hroot : IsRoot C.s.w r0) (hu : Own r0 q0 u) (hv : Own r0 q0 v) :
    Rel F r0 q0 (cCopystat r0 u v) (cCopystat r0 u v) (Same Eq_) C := by
  unfold cCopystat
  refine Rel.bind h0 (rel_forPath h0 hroot hu) fun o o' C1 s1 l1 ho => ?_
  refine Rel.bind s1 (rel_forPath s1 (l1.rely.ext.isRoot hroot) hv) fun x x' C2 s2 l2 hx => ?_
  refine Rel.bind s2 (rel_some (ho.mono fun _ _ h => l2.ρ _ _ h)) fun i i' C3 s3 l3 hi => ?_
  refine Rel.bind s3 (rel_some (hx.mono fun _ _ h => l3.ρ _ _ h)) fun j j' C4 s4 l4 hj => ?_
  refine Rel.bind s4 (rel_info (l4.ρ _ _ hi)) fun a a' C5 s5 l5 _ => ?_
  refine Rel.bind s5 (rel_setMtime (l5.ρ _ _ hj)) fun _ _ C6 s6 l6 _ => ?_
  refine Rel.bind s6 (rel_info (((l4.trans l5).trans l6).ρ _ _ hi)) fun b b' C7 s7 l7 hb => ?_
  rw [hb]
  exact rel_setMode (((l5.trans l6).trans l7).ρ _ _ hj)

theorem rel_mkdir (hroot : IsRoot C.s.w r0) (hu : Own r0 q0 u) : Rel F r0 q0 (cMkdir r0 u) (cMkdir r0 u) (Same Eq_) C := by
  unfold cMkdir
  refine Rel.bind h0 .lift_eq ?_
  rintro _ p C1 s1 l1 ⟨rfl, hp⟩
  split
  · refine Rel.bind s1 (rel_parent s1 (l1.rely.ext.isRoot hroot) (hu p hp).2.1.2) fun y y' C2 s2 l2 hy => ?_
    rw [hy.2.2]
    split
    · exact .raise_
    · refine rel_newDir hy.1 ?_
      rw [hy.2.1, split_last]
      exact .inr (hu p hp).2.1.2
  · exact .pure_ fun _ _ _ => rfl

theorem rel_removefile (hroot : IsRoot C.s.w r0) (hu : Own r0 q0 u) : Rel F r0 q0 (cRemovefile r0 u) (cRemovefile r0 u) (Same Eq_) C := by
  unfold cRemovefile
  refine Rel.bind h0 .lift_eq ?_
  rintro _ p C1 s1 l1 ⟨rfl, hp⟩
  refine Rel.bind s1 (rel_prev s1 (l1.rely.ext.isRoot hroot) (.inr (hu p hp).2.2.2.2)) fun y y' C2 s2 l2 hy => ?_
  obtain ⟨a, b⟩ := y
  obtain ⟨a', b'⟩ := y'
  have hy1 := hy.1
  simp only at hy1 ⊢
  cases a <;> cases a'
  · exact .pure_ fun _ _ _ => rfl
  · exact hy1.elim
  · exact hy1.elim
  · exact rel_del hy1 (.inr (hu p hp).2.2.1.2)

theorem rel_removedir (hroot : IsRoot C.s.w r0) (hu : Own r0 q0 u) : Rel F r0 q0 (cRemovedir r0 u) (cRemovedir r0 u) (Same Eq_) C := by
  unfold cRemovedir
  refine Rel.bind h0 .lift_eq ?_
  rintro _ p C1 s1 l1 ⟨rfl, hp⟩
  refine Rel.bind s1 (rel_prev s1 (l1.rely.ext.isRoot hroot) (.inr (hu p hp).2.2.2.2)) fun y y' C2 s2 l2 hy => ?_
  obtain ⟨a, b⟩ := y
  obtain ⟨a', b'⟩ := y'
  have hy1 := hy.1
  simp only at hy1 ⊢
  have hq := (hu p hp).2.2.1.2
  cases a <;> cases a'
  · exact .pure_ fun _ _ _ => rfl
  · exact hy1.elim
  · exact hy1.elim
  · rename_i i i'
    have hy1 : Pr r0 C2 i i' _ := hy1
    refine Rel.bind s2 (rel_child s2 hy1 (.inr hq)) fun o o' C3 s3 l3 ho => ?_
    refine Rel.bind s3 (rel_some_at ho) fun c c' C4 s4 l4 hc => ?_
    refine Rel.bind s4 (rel_isEmpty hc hq) ?_
    rintro _ b C5 s5 l5 rfl
    split
    · exact rel_del (hy1.stable ((l3.trans l4).trans l5)) (.inr hq)
    · exact .raise_

/-- the same file object, up to its number -/
def HRel (h h' : Handle) (C : Ctx) : Prop := C.ρ h.id h'.id ∧ h'.readable = h.readable ∧ h'.binary = h.binary

omit h0 in
theorem HRel.stable {h h' : Handle} {C C' : Ctx} (hl : Le C C') (hh : HRel h h' C) : HRel h h' C' := ⟨hl.ρ _ _ hh.1, hh.2⟩

theorem rel_openRead {b : Bool} (hroot : IsRoot C.s.w r0) (hu : Own r0 q0 u) : Rel F r0 q0 (cOpenRead r0 u b) (cOpenRead r0 u b) (Same HRel) C := by
  unfold cOpenRead
  refine Rel.bind h0 (rel_forPath h0 hroot hu) fun o o' C1 s1 l1 ho => ?_
  refine Rel.bind s1 (rel_some ho) fun i i' C2 s2 l2 hi => ?_
  refine Rel.bind s2 (rel_file (R := fun _ _ => True) (fun f f' hf => by exact ⟨trivial, hf.1, rfl, hf.2.2⟩) hi) fun _ _ C3 s3 l3 _ => ?_
  exact .pure_ fun D _ l => ⟨(l3.trans l).ρ _ _ hi, rfl, rfl⟩

theorem rel_reset {i i' : Nat} (hi : C.ρ i i') : Rel F r0 q0 (cReset i) (cReset i') (Same Eq_) C := by
  unfold cReset
  refine Rel.bind h0 (rel_file (R := fun _ _ => True) (fun f f' hf => by exact ⟨trivial, rfl, rfl, hf.2.2⟩) hi) fun _ _ C1 s1 l1 _ => ?_
  refine Rel.bind s1 rel_now fun t t' C2 s2 l2 _ => ?_
  refine Rel.bind s2 (rel_file (R := fun _ _ => True) (fun f f' hf => by exact ⟨trivial, hf.1, hf.2⟩) ((l1.trans l2).ρ _ _ hi)) fun _ _ C3 s3 l3 _ => ?_
  refine Rel.bind s3 (rel_file (R := fun _ _ => True) (fun f f' hf => by exact ⟨trivial, hf.1, hf.2.1, rfl, hf.2.2.2⟩)
    (((l1.trans l2).trans l3).ρ _ _ hi)) fun _ _ C4 s4 l4 _ => ?_
  refine Rel.bind s4 (rel_query (R := Eq_) (fun _ _ _ _ _ h => h) fun D hs _ => hs.gen) ?_
  rintro _ g C5 s5 l5 rfl
  refine rel_file (R := fun a b => b = a) (fun f f' hf => by exact ⟨rfl, hf.1, hf.2.1, hf.2.2.1, hf.2.2.2.1, by rw [hf.2.2.2.1]⟩)
    (((((l1.trans l2).trans l3).trans l4).trans l5).ρ _ _ hi)

theorem rel_openWrite {b : Bool} (hroot : IsRoot C.s.w r0) (hu : Own r0 q0 u) : Rel F r0 q0 (cOpenWrite r0 u b) (cOpenWrite r0 u b) (Same HRel) C := by
  unfold cOpenWrite
  refine Rel.bind h0 .lift_eq ?_
  rintro _ p C1 s1 l1 ⟨rfl, hp⟩
  refine Rel.bind s1 (rel_parent s1 (l1.rely.ext.isRoot hroot) (hu p hp).2.1.2) fun y y' C2 s2 l2 hy => ?_
  have hq : Cmp q0 ((splitC '/' p).dropLast ++ [y.2.1]) := by
    rw [hy.2.1, split_last]
    exact .inr (hu p hp).2.1.2
  rw [hy.2.2]
  split
  · refine Rel.bind s2 (rel_child s2 hy.1 hq) fun o o' C3 s3 l3 ho => ?_
    cases o <;> cases o'
    · exact .raise_
    · exact ho.elim
    · exact ho.elim
    · rename_i c c'
      have ho : Pr r0 C3 c c' _ := ho
      refine Rel.bind s3 (rel_tag ho.1) ?_
      rintro _ t C4 s4 l4 ⟨rfl, -⟩
      split
      · exact .raise_
      · refine Rel.bind s4 (rel_reset s4 (l4.ρ _ _ ho.1)) fun _ _ C5 s5 l5 _ => ?_
        exact .pure_ fun D _ l => ⟨((l4.trans l5).trans l).ρ _ _ ho.1, rfl, rfl⟩
      · exact .raise_
  · refine Rel.bind s2 (rel_newFile hy.1 hq) fun i i' C3 s3 l3 hi => ?_
    exact .pure_ fun D _ l => ⟨l.ρ _ _ hi.1, rfl, rfl⟩

omit h0 in
theorem rel_seek_ {i i' : Nat} (hi : C.ρ i i') (t wh : Int) :
    Rel F r0 q0 (call (aFile i fun f => (BytesIO.seek f.data f.pos t wh).map fun p => ((), { f with pos := p })))
      (call (aFile i' fun f => (BytesIO.seek f.data f.pos t wh).map fun p => ((), { f with pos := p }))) (Same Eq_) C := by
  refine rel_file (R := fun a b => b = a) (fun f f' hf => ?_) hi
  simp only
  rw [hf.1, hf.2.1]
  cases BytesIO.seek f.data f.pos t wh with
  | error e => rfl
  | ok x => exact ⟨trivial, rfl, rfl, hf.2.2⟩

theorem rel_len {i i' : Nat} (hi : C.ρ i i') : Rel F r0 q0 (cLen i) (cLen i') (Same Eq_) C := by
  unfold cLen
  refine Rel.bind h0 (rel_file (R := fun a b => b = a) (fun f f' hf => by exact ⟨hf.2.1, hf⟩) hi) ?_
  rintro _ pos C1 s1 l1 rfl
  refine Rel.bind s1 (rel_seek_ (l1.ρ _ _ hi) _ _) fun _ _ C2 s2 l2 _ => ?_
  refine Rel.bind s2 (rel_file (R := fun a b => b = a) (fun f f' hf => by exact ⟨hf.2.1, hf⟩) ((l1.trans l2).ρ _ _ hi)) ?_
  rintro _ l C3 s3 l3 rfl
  refine Rel.bind s3 (rel_file (R := fun _ _ => True) (fun f f' hf => by exact ⟨trivial, hf.1, rfl, hf.2.2⟩) (((l1.trans l2).trans l3).ρ _ _ hi))
    fun _ _ C4 s4 l4 _ => ?_
  exact .pure_ fun _ _ _ => rfl

theorem rel_openAppend {b : Bool} (hroot : IsRoot C.s.w r0) (hu : Own r0 q0 u) : Rel F r0 q0 (cOpenAppend r0 u b) (cOpenAppend r0 u b) (Same HRel) C := by
  unfold cOpenAppend
  refine Rel.bind h0 (rel_forPath h0 hroot hu) fun o o' C1 s1 l1 ho => ?_
  refine Rel.bind s1 (rel_some ho) fun i i' C2 s2 l2 hi => ?_
  refine Rel.bind s2 (rel_len s2 hi) ?_
  rintro _ l C3 s3 l3 rfl
  refine Rel.bind s3 (rel_file (R := fun _ _ => True) (fun f f' hf => by exact ⟨trivial, hf.1, rfl, hf.2.2⟩) (l3.ρ _ _ hi)) fun _ _ C4 s4 l4 _ => ?_
  exact .pure_ fun D _ l => ⟨((l3.trans l4).trans l).ρ _ _ hi, rfl, rfl⟩

theorem rel_open {o : Option Str} (hroot : IsRoot C.s.w r0) (hu : Own r0 q0 u) : Rel F r0 q0 (cOpen r0 u o) (cOpen r0 u o) (Same HRel) C := by
  unfold cOpen
  split
  · exact rel_openRead h0 hroot hu
  · simp only
    split
    · exact rel_openRead h0 hroot hu
    split
    · exact rel_openWrite h0 hroot hu
    split
    · exact rel_openAppend h0 hroot hu
    · exact .raise_

end

/-! ## File objects -/

section
variable {C : Ctx} (h0 : Sim F r0 q0 C) {h h' : Handle} (hh : HRel h h' C)
include h0 hh

theorem rel_write {d : PyData} : Rel F r0 q0 (cWrite h d) (cWrite h' d) (Same Eq_) C := by
  unfold cWrite
  have : h'.encode d = h.encode d := by unfold Handle.encode; rw [hh.2.2]
  rw [this]
  refine Rel.bind h0 .lift_ ?_
  rintro _ b C1 s1 l1 rfl
  refine Rel.bind s1 (rel_file (R := fun _ _ => True) (fun f f' hf => by exact ⟨trivial, by rw [hf.1, hf.2.1], by rw [hf.1, hf.2.1], hf.2.2⟩)
    (l1.ρ _ _ hh.1)) fun _ _ C2 s2 l2 _ => ?_
  refine Rel.bind s2 rel_now fun t t' C3 s3 l3 _ => ?_
  exact rel_file (R := fun a b => b = a) (fun f f' hf => by exact ⟨rfl, hf.1, hf.2⟩) (((l1.trans l2).trans l3).ρ _ _ hh.1)

omit h0 in
theorem decode_eq (b : Bytes) : h'.decode b = h.decode b := by unfold Handle.decode; rw [hh.2.2]

theorem rel_read {n : Int} : Rel F r0 q0 (cRead h n) (cRead h' n) (Same Eq_) C := by
  unfold cRead
  rw [hh.2.1]
  split
  · refine Rel.bind h0 (rel_file (R := fun a b => b = a) (fun f f' hf => by exact ⟨by rw [hf.1, hf.2.1], hf.1, by rw [hf.1, hf.2.1], hf.2.2⟩) hh.1) ?_
    rintro _ b C1 s1 l1 rfl
    rw [decode_eq (hh.stable l1)]
    exact .lift_
  · exact .raise_

omit h0 in
theorem rel_seek {t wh : Int} : Rel F r0 q0 (cSeek h t wh) (cSeek h' t wh) (Same Eq_) C := rel_seek_ hh.1 t wh

omit h0 in
theorem rel_tell : Rel F r0 q0 (cTell h) (cTell h') (Same Eq_) C := rel_file (R := fun a b => b = a) (fun f f' hf => by exact ⟨hf.2.1, hf⟩) hh.1

omit h0 in
theorem rel_size : Rel F r0 q0 (cSize h) (cSize h') (Same Eq_) C :=
  rel_file (R := fun a b => b = a) (fun f f' hf => by exact ⟨by show f'.data.length = f.data.length; rw [hf.1], hf⟩) hh.1

omit h0 in
theorem rel_truncate {n : Option Int} : Rel F r0 q0 (cTruncate h n) (cTruncate h' n) (Same Eq_) C := by
  refine rel_file (R := fun a b => b = a) (fun f f' hf => ?_) hh.1
  simp only
  rw [hf.1, hf.2.1]
  cases BytesIO.truncate f.data f.pos n with
  | error e => rfl
  | ok x => exact ⟨rfl, rfl, rfl, hf.2.2⟩

omit h0 in
theorem rel_close : Rel F r0 q0 (cClose h) (cClose h') (Same Eq_) C :=
  rel_file (R := fun a b => b = a) (fun f f' hf => by exact ⟨rfl, hf.1, rfl, hf.2.2⟩) hh.1

theorem rel_readline : Rel F r0 q0 (cReadline h) (cReadline h') (Same Eq_) C := by
  unfold cReadline
  refine Rel.bind h0 (rel_file (R := fun a b => b = a) (fun f f' hf => by exact ⟨by rw [hf.1, hf.2.1], hf.1, by rw [hf.1, hf.2.1], hf.2.2⟩) hh.1) ?_
  rintro _ b C1 s1 l1 rfl
  rw [decode_eq (hh.stable l1)]
  exact .lift_

end

end Verif.Conc
