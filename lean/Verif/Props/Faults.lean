import Verif.Any.FrailSys
import Verif.Props.Across
/-!
# C82–C86: operations that are interrupted

Every call of a backend may fail (Verif/Any/Frail.lean): `f.plan i` says whether the call with the number `i` fails, what it
raises, whether it has had its effect all the same, and how much of the data a failing `write` has written.  All theorems
are for every plan.  `g.st` is what the interrupted operation leaves behind.
-/
namespace Verif.Props
open Verif.Spec Verif.Any

/-- The operation that led from `f` to `g` returned and no call it made failed, or it raised what its first failing call
    raised, and made no call after that one. -/
def Honest {σ α : Type} (f g : Frail σ) (res : Except PyErr α) : Prop :=
  (∀ a, res = .ok a → ∀ i, f.now ≤ i → i < g.now → f.plan i = none) ∧
  ∀ e, res = .error e → ∃ i x, g.now = i + 1 ∧ f.now ≤ i ∧ f.plan i = some x ∧ x.exc = e ∧ ∀ j, f.now ≤ j → j < i → f.plan j = none

section
variable {ι : Type} {E : ι → Dict} {r : ι → Nat} (hr : Function.Injective r) {f : Frail Sys}
include hr

/-- what is known of an interrupted operation that would succeed -/
theorem interrupted {α : Type} {m : OM (Frail Sys) α} {m' : OM Sys α} {a : α} {s' : Sys}
    {Q : (Option ι → List Str → Option Any.Kind) → Prop} (hs : Sim m m') (e : m' f.st = (.ok a, s'))
    (he : (sysLaws E r hr).Ends m f.st Q) :
    ∃ res g, m f = (res, g) ∧ SysOk E r g.st ∧ Q (siteV r g.st) ∧ (∀ b, res = .ok b → b = a ∧ g.st = s') ∧ Honest f g res := by
  obtain ⟨h1, h2⟩ := he f rfl
  obtain ⟨-, h3, h4⟩ := hs f
  refine ⟨(m f).1, (m f).2, rfl, h1, h2, fun b hb => ?_, fun b hb => (h3 b hb).2, fun er hb => ?_⟩
  · have := (h3 b hb).1
    rw [e] at this
    injection this with h5 h6
    exact ⟨(Except.ok.inj h5).symm, h6.symm⟩
  · rcases h4 er hb with h5 | h5
    · exact h5
    · rw [e] at h5
      injection h5 with h6
      cases h6

/-! ## C82 -/

/-- An interrupted copy of a file leaves what was there, or a file with a beginning of the data; it changes nothing else.
    If the call returns, the copy is complete. -/
theorem C82_file (h : SysOk E r f.st) {k k' : Option ι} (hm : May k k') {init : List Str} {n m : Str} {ds e : List Str} {d : Bytes}
    (hn : Nm (init ++ [n])) (hd : siteV r f.st k (init ++ [n]) = some (.file d)) (hds : Nm ds) (he : Nm (e ++ [m]))
    (ht : FileTarget (siteV r f.st k') ds n (e ++ [m])) (hp : siteV r f.st k' e = some .dir)
    (hf : siteV r f.st k' (e ++ [m]) = none ∨ isF (siteV r f.st k' (e ++ [m])) = true)
    (hne : ¬ (k = k' ∧ init ++ [n] = e ++ [m])) (depth : Nat) (ig : List Str) (fl : Bool) :
    ∃ res g, uCopy frailSys depth (siteAt E k (init ++ [n])) (siteAt E k' ds) false ig fl f = (res, g) ∧ SysOk E r g.st ∧
      (∀ j p, ¬ (j = k' ∧ p = e ++ [m]) → siteV r g.st j p = siteV r f.st j p) ∧
      (siteV r g.st k' (e ++ [m]) = siteV r f.st k' (e ++ [m]) ∨
        ∃ d', d' <+: d ∧ siteV r g.st k' (e ++ [m]) = some (.file d')) ∧
      (res = .ok () → siteV r g.st k' (e ++ [m]) = some (.file d)) ∧ Honest f g res := by
  let L := sysLaws E r hr
  obtain ⟨s', a1, -, a3, -⟩ := C77_file hr h hm hn hd hds he ht hp hf hne depth ig fl
  obtain ⟨res, g, b1, b2, b3, b4, b5⟩ := interrupted hr (sim_uCopy sim_frPump _ _ _ _ _ _) a1
    (Laws.ends_copyFile (L := L) (sysFrailty hr) (depth := depth) (ig := ig) (fl := fl)
      (Q := fun W => W = siteV r f.st ∨ ∃ d', d' <+: d ∧ W = upd (siteV r f.st) k' (e ++ [m]) (some (.file d')))
      hm h hn hd hds he ht hp hf hne (.inl rfl) fun d' hd' => .inr ⟨d', hd', rfl⟩)
  refine ⟨res, g, b1, b2, fun j p hj => ?_, ?_, fun hres => ?_, b5⟩
  · rcases b3 with b3 | ⟨d', -, b3⟩
    · rw [b3]
    · rw [b3, upd_ne hj]
  · rcases b3 with b3 | ⟨d', hd', b3⟩
    · rw [b3]; exact .inl rfl
    · exact .inr ⟨d', hd', by rw [b3, upd_same]⟩
  · rw [(b4 _ hres).2]; exact a3

omit hr in
theorem part_cases {x y : Option Any.Kind} (h : Part x y) : y = none ∨ (x = some .dir ∧ y = some .dir) ∨
    ∃ d d', d' <+: d ∧ x = some (.file d) ∧ y = some (.file d') := by
  cases h with
  | none => exact .inl rfl
  | dir => exact .inr (.inl ⟨rfl, rfl⟩)
  | file h => exact .inr (.inr ⟨_, _, h, rfl, rfl⟩)

/-- An interrupted copy of a tree leaves below the destination a part of what is below the source: some of its
    directories, and files with a beginning of the data, nothing of ignored directories.  Apart from that, missing
    directories on the way to the destination may have been made.  If the call returns, the copy is complete. -/
theorem C82_tree (h : SysOk E r f.st) {k k' : Option ι} (hm : May k k') {init : List Str} {n : Str} {ds e : List Str}
    (H : Laws.Copyable (siteV r f.st k) (init ++ [n])) (hds : Nm ds) (he : Nm e) (ht : Target (siteV r f.st k') ds n e)
    (hclear : ∀ p, p <+: e → siteV r f.st k' p = some .dir ∨ siteV r f.st k' p = none) (hnew : siteV r f.st k' e = none)
    (hsd : ¬ (k = k' ∧ init ++ [n] <+: e)) {depth : Nat} (hl : e.length < depth)
    (hh : ∀ x, siteV r f.st k (init ++ [n] ++ x) = some .dir → x.length < depth) (ig : List Str) (fl : Bool) :
    ∃ res g, uCopy frailSys depth (siteAt E k (init ++ [n])) (siteAt E k' ds) true ig fl f = (res, g) ∧ SysOk E r g.st ∧
      (∀ j p, ¬ (j = k' ∧ e <+: p) → siteV r g.st j p = siteV r f.st j p ∨
        (j = k' ∧ p <+: e ∧ siteV r f.st j p = none ∧ siteV r g.st j p = some .dir)) ∧
      (∀ x, siteV r g.st k' (e ++ x) = none ∨ (¬ Ignored (siteV r f.st k) ig (init ++ [n]) x ∧
        ((siteV r f.st k (init ++ [n] ++ x) = some .dir ∧ siteV r g.st k' (e ++ x) = some .dir) ∨
          ∃ d d', d' <+: d ∧ siteV r f.st k (init ++ [n] ++ x) = some (.file d) ∧ siteV r g.st k' (e ++ x) = some (.file d')))) ∧
      (res = .ok () → (∀ p, p <+: e → siteV r g.st k' p = some .dir) ∧
        ∀ x, x ≠ [] → ¬ Ignored (siteV r f.st k) ig (init ++ [n]) x →
          siteV r g.st k' (e ++ x) = siteV r f.st k (init ++ [n] ++ x)) ∧ Honest f g res := by
  let L := sysLaws E r hr
  obtain ⟨s', a1, -, a3, a4, -⟩ := C78_tree hr h hm H hds he ht hclear hnew hsd hl hh ig fl
  obtain ⟨res, g, b1, b2, b3, b4, b5⟩ := interrupted hr (sim_uCopy sim_frPump _ _ _ _ _ _) a1
    (Laws.ends_copyTree (L := L) (sysFrailty hr) (ig := ig) (fl := fl) hm h H hds he ht hclear hnew hsd hl hh)
  refine ⟨res, g, b1, b2, b3.1, fun x => ?_, fun hres => ?_, b5⟩
  · have b6 := b3.2 x
    unfold kept at b6
    split at b6
    · exact .inl ((part_cases b6).elim id (by simp))
    · rename_i hi
      rcases part_cases b6 with h7 | h7
      · exact .inl h7
      · exact .inr ⟨hi, h7⟩
  · rw [(b4 _ hres).2]; exact ⟨a3, a4⟩

/-! ## C83 -/

/-- An interrupted recursive remove has removed some of what is at the path or below it, and nothing else; nothing is
    changed that is still there.  If the call returns, all of it is gone. -/
theorem C83_tree (h : SysOk E r f.st) {k : Option ι} {q : List Str} (hsub : Sub (siteV r f.st k) q) (hq : q ≠ [])
    (hd : siteV r f.st k q = some .dir) {depth : Nat} (hh : ∀ x, siteV r f.st k (q ++ x) = some .dir → x.length < depth) :
    ∃ res g, uRemove frailSys depth (siteAt E k q) true f = (res, g) ∧ SysOk E r g.st ∧
      (∀ j p, ¬ (j = k ∧ q <+: p) → siteV r g.st j p = siteV r f.st j p) ∧
      (∀ p, q <+: p → siteV r g.st k p = siteV r f.st k p ∨ siteV r g.st k p = none) ∧
      (res = .ok () → ∀ p, q <+: p → siteV r g.st k p = none) ∧ Honest f g res := by
  obtain ⟨s', a1, -, a3, -⟩ := C76_tree hr h hsub hq hd hh
  let Q := fun W => ∃ P : List Str → Prop, (∀ p, P p → q <+: p) ∧ W = wipe (siteV r f.st) k P
  have hQ : ∀ W P, Q W → (∀ p, P p → q <+: p) → Q (wipe W k P) := by
    rintro W P' ⟨P, h1, rfl⟩ h2
    refine ⟨fun p => P p ∨ P' p, fun p hp => hp.elim (h1 p) (h2 p), ?_⟩
    funext j p
    unfold wipe
    by_cases hj : j = k <;> by_cases hP : P p <;> by_cases hP' : P' p <;> simp [hj, hP, hP']
  obtain ⟨res, g, b1, b2, ⟨P, b3, b3'⟩, b4, b5⟩ := interrupted hr (sim_uRemove (O := sysOps) (pumpF := frPump) _ _ _) a1
    (Laws.ends_uRemove_tree (L := sysLaws E r hr) (pumpF := frPump) (Q := Q) hQ h
      ⟨fun _ => False, by simp, by funext j p; simp [wipe, sysLaws]⟩ hsub hq hd hh)
  refine ⟨res, g, b1, b2, fun j p hj => ?_, fun p hp => ?_, fun hres => ?_, b5⟩
  · rw [b3']; unfold wipe; rw [if_neg fun c => hj ⟨c.1, b3 _ c.2⟩]
  · rw [b3']; unfold wipe
    by_cases hP : P p
    · right; rw [if_pos ⟨rfl, hP⟩]
    · left; rw [if_neg fun c => hP c.2]
  · rw [(b4 _ hres).2]; exact a3

/-- An interrupted remove of a file leaves the file, or has removed it. -/
theorem C83_file (h : SysOk E r f.st) {k : Option ι} {q : List Str} (hn : Nm q) {d : Bytes} (hd : siteV r f.st k q = some (.file d))
    (depth : Nat) (rec : Bool) :
    ∃ res g, uRemove frailSys depth (siteAt E k q) rec f = (res, g) ∧ SysOk E r g.st ∧
      (∀ j p, ¬ (j = k ∧ p = q) → siteV r g.st j p = siteV r f.st j p) ∧
      (siteV r g.st k q = some (.file d) ∨ siteV r g.st k q = none) ∧
      (res = .ok () → siteV r g.st k q = none) ∧ Honest f g res := by
  obtain ⟨s', a1, -, a3, -⟩ := C76_file hr h hn hd depth rec
  obtain ⟨res, g, b1, b2, b3, b4, b5⟩ := interrupted hr (sim_uRemove (O := sysOps) (pumpF := frPump) _ _ _) a1
    (Laws.ends_uRemove_file (L := sysLaws E r hr) (pumpF := frPump)
      (Q := fun W => W = siteV r f.st ∨ W = upd (siteV r f.st) k q none) h hn (.inl rfl) (.inr rfl) hd)
  refine ⟨res, g, b1, b2, fun j p hj => ?_, ?_, fun hres => ?_, b5⟩
  · rcases b3 with b3 | b3
    · rw [b3]
    · rw [b3, upd_ne hj]
  · rcases b3 with b3 | b3
    · rw [b3]; exact .inl hd
    · rw [b3, upd_same]; exact .inr rfl
  · rw [(b4 _ hres).2]; exact a3

/-! ## C84 -/

/-- An interrupted move of a file: the file is complete at its old place, or at its new one. -/
theorem C84_file (h : SysOk E r f.st) {k k' : Option ι} (hm : May k k') (hkk : k ≠ none ∨ k' ≠ none) {init : List Str} {n m : Str}
    {ds e : List Str} {d : Bytes}
    (hn : Nm (init ++ [n])) (hd : siteV r f.st k (init ++ [n]) = some (.file d)) (hds : Nm ds) (he : Nm (e ++ [m]))
    (ht : FileTarget (siteV r f.st k') ds n (e ++ [m])) (hp : siteV r f.st k' e = some .dir)
    (hf : siteV r f.st k' (e ++ [m]) = none ∨ isF (siteV r f.st k' (e ++ [m])) = true)
    (hne : ¬ (k = k' ∧ init ++ [n] = e ++ [m])) (depth : Nat) :
    ∃ res g, uMove frailSys depth (siteAt E k (init ++ [n])) (siteAt E k' ds) f = (res, g) ∧ SysOk E r g.st ∧
      (∀ j p, ¬ (j = k' ∧ p = e ++ [m]) → ¬ (j = k ∧ p = init ++ [n]) → siteV r g.st j p = siteV r f.st j p) ∧
      ((siteV r g.st k (init ++ [n]) = some (.file d) ∧
          (siteV r g.st k' (e ++ [m]) = siteV r f.st k' (e ++ [m]) ∨ ∃ d', d' <+: d ∧ siteV r g.st k' (e ++ [m]) = some (.file d'))) ∨
        (siteV r g.st k (init ++ [n]) = none ∧ siteV r g.st k' (e ++ [m]) = some (.file d))) ∧
      (res = .ok () → siteV r g.st k (init ++ [n]) = none ∧ siteV r g.st k' (e ++ [m]) = some (.file d)) ∧ Honest f g res := by
  let L := sysLaws E r hr
  obtain ⟨s', a1, -, a3, a4, -⟩ := C79_file hr h hm hkk hn hd hds he ht hp hf hne depth
  obtain ⟨res, g, b1, b2, b3, b4, b5⟩ := interrupted hr (sim_uMove sim_frPump _ _ _) a1
    (Laws.ends_moveFile (L := L) (sysFrailty hr) (depth := depth)
      (Q := fun W => (W = siteV r f.st ∨ ∃ d', d' <+: d ∧ W = upd (siteV r f.st) k' (e ++ [m]) (some (.file d'))) ∨
        W = upd (upd (siteV r f.st) k' (e ++ [m]) (some (.file d))) k (init ++ [n]) none)
      hm h (noMoveSelf hkk _ _) hn hd hds he ht hp hf hne (.inl (.inl rfl)) (fun d' hd' => .inl (.inr ⟨d', hd', rfl⟩)) (.inr rfl))
  have hne' : ¬ (k' = k ∧ e ++ [m] = init ++ [n]) := fun c => hne ⟨c.1.symm, c.2.symm⟩
  refine ⟨res, g, b1, b2, fun j p hj hj' => ?_, ?_, fun hres => ?_, b5⟩
  · rcases b3 with (b3 | ⟨d', -, b3⟩) | b3
    · rw [b3]
    · rw [b3, upd_ne hj]
    · rw [b3, upd_ne hj', upd_ne hj]
  · rcases b3 with (b3 | ⟨d', hd', b3⟩) | b3
    · rw [b3]; exact .inl ⟨hd, .inl rfl⟩
    · rw [b3]; exact .inl ⟨by rw [upd_ne hne]; exact hd, .inr ⟨d', hd', by rw [upd_same]⟩⟩
    · rw [b3]; exact .inr ⟨by rw [upd_same], by rw [upd_ne hne', upd_same]⟩
  · rw [(b4 _ hres).2]; exact ⟨a4, a3⟩

/-- An interrupted move of a tree: the tree is complete at its old place, or at its new one.  In the first case the new
    place has a part of it as after an interrupted copy; in the second some of the old one may be left. -/
theorem C84_tree (h : SysOk E r f.st) {k k' : Option ι} (hm : May k k') (hkk : k ≠ none ∨ k' ≠ none) {init : List Str} {n : Str}
    {ds e : List Str}
    (H : Laws.Copyable (siteV r f.st k) (init ++ [n])) (hds : Nm ds) (he : Nm e) (ht : Target (siteV r f.st k') ds n e)
    (hclear : ∀ p, p <+: e → siteV r f.st k' p = some .dir ∨ siteV r f.st k' p = none) (hnew : siteV r f.st k' e = none)
    (hsd : ¬ (k = k' ∧ init ++ [n] <+: e)) {depth : Nat} (hl : e.length < depth)
    (hh : ∀ x, siteV r f.st k (init ++ [n] ++ x) = some .dir → x.length < depth) :
    ∃ res g, uMove frailSys depth (siteAt E k (init ++ [n])) (siteAt E k' ds) f = (res, g) ∧ SysOk E r g.st ∧
      (∀ j p, ¬ (j = k' ∧ e <+: p) → ¬ (j = k ∧ init ++ [n] <+: p) → siteV r g.st j p = siteV r f.st j p ∨
        (j = k' ∧ p <+: e ∧ siteV r f.st j p = none ∧ siteV r g.st j p = some .dir)) ∧
      (((∀ x, siteV r g.st k (init ++ [n] ++ x) = siteV r f.st k (init ++ [n] ++ x)) ∧
          ∀ x, siteV r g.st k' (e ++ x) = none ∨
            (siteV r f.st k (init ++ [n] ++ x) = some .dir ∧ siteV r g.st k' (e ++ x) = some .dir) ∨
            ∃ d d', d' <+: d ∧ siteV r f.st k (init ++ [n] ++ x) = some (.file d) ∧ siteV r g.st k' (e ++ x) = some (.file d')) ∨
        ((∀ x, siteV r g.st k' (e ++ x) = siteV r f.st k (init ++ [n] ++ x)) ∧
          ∀ x, siteV r g.st k (init ++ [n] ++ x) = siteV r f.st k (init ++ [n] ++ x) ∨ siteV r g.st k (init ++ [n] ++ x) = none)) ∧
      (res = .ok () → (∀ x, siteV r g.st k' (e ++ x) = siteV r f.st k (init ++ [n] ++ x)) ∧
        ∀ x, siteV r g.st k (init ++ [n] ++ x) = none) ∧ Honest f g res := by
  let L := sysLaws E r hr
  obtain ⟨s', a1, -, a3, a4, -⟩ := C79_tree hr h hm hkk H hds he ht hclear hnew hsd hl hh
  obtain ⟨res, g, b1, b2, b3, b4, b5⟩ := interrupted hr (sim_uMove sim_frPump _ _ _) a1
    (Laws.ends_moveTree (L := L) (sysFrailty hr) hm h (noMoveSelf hkk _ _) H hds he ht hclear hnew hsd hl hh)
  -- the destination is not below the source, nor the source below the destination
  have apart : ∀ {p : List Str}, e <+: p ∨ p <+: e → ¬ (k' = k ∧ init ++ [n] <+: p) := by
    rintro p hp ⟨rfl, h4⟩
    apply hsd
    refine ⟨rfl, ?_⟩
    rcases hp with hp | hp
    · rcases List.prefix_or_prefix_of_prefix h4 hp with h5 | h5
      · exact h5
      · exfalso
        obtain ⟨t, ht'⟩ := h5
        have := L.none_below (k := k') (t := t) h hnew
        change siteV r f.st k' (e ++ t) = none at this
        rw [ht', H.dir] at this
        simp at this
    · exact h4.trans hp
  have below : ∀ p, init ++ [n] <+: p → ¬ (k = k' ∧ (e <+: p ∨ p <+: e)) := by
    rintro p hp ⟨rfl, h4⟩
    exact apart h4 ⟨rfl, hp⟩
  refine ⟨res, g, b1, b2, ?_, ?_, fun hres => ?_, b5⟩
  · intro j p hj hj'
    rcases b3 with b3 | ⟨P, b3, b3'⟩
    · exact b3.1 j p hj
    · rw [b3']
      unfold wipe
      rw [if_neg fun c => hj' ⟨c.1, b3 _ c.2⟩, graft_out (fun c => hj ⟨c.1, c.2.1⟩)]
      unfold mkdirs
      split
      · rename_i hc
        rcases hclear p hc.2 with h6 | h6
        · left; rw [hc.1]; exact h6.symm
        · right; exact ⟨hc.1, hc.2, by rw [hc.1]; exact h6, rfl⟩
      · exact .inl rfl
  · rcases b3 with b3 | ⟨P, b3, b3'⟩
    · refine .inl ⟨fun x => ?_, fun x => part_cases (b3.2 x)⟩
      rcases b3.1 k (init ++ [n] ++ x) (fun c => below _ (List.prefix_append _ _) ⟨c.1, .inl c.2⟩) with h6 | ⟨h6, h7, -⟩
      · exact h6
      · exact absurd ⟨h6, .inr h7⟩ (below _ (List.prefix_append _ _))
    · refine .inr ⟨fun x => ?_, fun x => ?_⟩
      · rw [b3']
        unfold wipe
        rw [if_neg fun c => apart (.inl (List.prefix_append e x)) ⟨c.1, b3 _ c.2⟩]
        by_cases hx : x = []
        · subst hx
          rw [List.append_nil, List.append_nil, H.dir, graft_out (fun c => c.2.2 rfl)]
          unfold mkdirs
          rw [if_pos ⟨rfl, List.prefix_refl _⟩]
        · rw [graft_in hx]; rfl
      · rw [b3']
        unfold wipe
        split
        · exact .inr rfl
        · left
          rw [graft_out (fun c => below _ (List.prefix_append _ _) ⟨c.1, .inl c.2.1⟩)]
          unfold mkdirs
          rw [if_neg (fun c => below _ (List.prefix_append _ _) ⟨c.1, .inr c.2⟩)]
          rfl
  · rw [(b4 _ hres).2]; exact ⟨a3, a4⟩

/-! ## C85 -/

/-- An interrupted makedirs has made the missing directories down to some point of the path, and nothing else. -/
theorem C85_makedirs (h : SysOk E r f.st) {k : Option ι} {cs : List Str} (hn : Nm cs)
    (hp : ∀ p, p <+: cs → siteV r f.st k p = some .dir ∨ siteV r f.st k p = none) {depth : Nat} (hl : cs.length < depth) :
    ∃ res g, uMakedirs frailSys depth (siteAt E k cs) f = (res, g) ∧ SysOk E r g.st ∧
      (∃ q, q <+: cs ∧ (∀ p, p <+: q → siteV r g.st k p = some .dir) ∧
        ∀ j p, ¬ (j = k ∧ p <+: q) → siteV r g.st j p = siteV r f.st j p) ∧
      (res = .ok () → siteV r g.st k cs = some .dir) ∧ Honest f g res := by
  obtain ⟨s', a1, -, a3, -⟩ := C74_makedirs hr h hn hp hl
  obtain ⟨res, g, b1, b2, ⟨q, b3, b3'⟩, b4, b5⟩ := interrupted hr (sim_uMakedirs (pumpF := frPump) _ _) a1
    (Laws.ends_uMakedirs (L := sysLaws E r hr) (pumpF := frPump)
      (Q := fun W => ∃ q, q <+: cs ∧ W = mkdirs (siteV r f.st) k q) h hn hp hl fun p hp => ⟨p, hp, rfl⟩)
  refine ⟨res, g, b1, b2, ⟨q, b3, fun p hp => ?_, fun j p hj => ?_⟩, fun hres => ?_, b5⟩
  · rw [b3']; unfold mkdirs; rw [if_pos ⟨rfl, hp⟩]
  · rw [b3']; unfold mkdirs; rw [if_neg hj]
  · rw [(b4 _ hres).2]; exact a3 _ (List.prefix_refl _)

/-- Making the directories again, undisturbed, makes all of them. -/
theorem C85_again (h : SysOk E r f.st) {k : Option ι} {cs : List Str} (hn : Nm cs)
    (hp : ∀ p, p <+: cs → siteV r f.st k p = some .dir ∨ siteV r f.st k p = none) {depth : Nat} (hl : cs.length < depth)
    {res : Except PyErr Unit} {g : Frail Sys} (e : uMakedirs frailSys depth (siteAt E k cs) f = (res, g)) :
    ∃ s', uMakedirs sysOps depth (siteAt E k cs) g.st = (.ok (), s') ∧ SysOk E r s' ∧
      (∀ p, p <+: cs → siteV r s' k p = some .dir) ∧ ∀ j p, ¬ (j = k ∧ p <+: cs) → siteV r s' j p = siteV r f.st j p := by
  obtain ⟨res', g', b1, b2, ⟨q, b3, b4, b5⟩, -⟩ := C85_makedirs hr h hn hp hl
  obtain ⟨rfl, rfl⟩ : res = res' ∧ g = g' := by simpa using e.symm.trans b1
  have hp' : ∀ p, p <+: cs → siteV r g.st k p = some .dir ∨ siteV r g.st k p = none := by
    intro p hp'
    by_cases hpq : p <+: q
    · exact .inl (b4 p hpq)
    · rw [b5 k p fun c => hpq c.2]; exact hp p hp'
  obtain ⟨s', c1, c2, c3, c4⟩ := C74_makedirs hr b2 (k := k) hn hp' hl
  exact ⟨s', c1, c2, c3, fun j p hj => (c4 j p hj).trans (b5 j p fun c => hj ⟨c.1, c.2.trans b3⟩)⟩

/-! ## C86 -/

/-- Removing again, undisturbed, after an interrupted recursive remove removes the rest (unless nothing is left). -/
theorem C86_remove (h : SysOk E r f.st) {k : Option ι} {q : List Str} (hsub : Sub (siteV r f.st k) q) (hq : q ≠ [])
    (hd : siteV r f.st k q = some .dir) {depth : Nat} (hh : ∀ x, siteV r f.st k (q ++ x) = some .dir → x.length < depth)
    {res : Except PyErr Unit} {g : Frail Sys} (e : uRemove frailSys depth (siteAt E k q) true f = (res, g)) :
    (∀ p, q <+: p → siteV r g.st k p = none) ∨
    ∃ s', uRemove sysOps depth (siteAt E k q) true g.st = (.ok (), s') ∧ SysOk E r s' ∧
      (∀ p, q <+: p → siteV r s' k p = none) ∧ ∀ j p, ¬ (j = k ∧ q <+: p) → siteV r s' j p = siteV r f.st j p := by
  obtain ⟨res', g', b1, b2, b3, b4, -⟩ := C83_tree hr h hsub hq hd hh
  obtain ⟨rfl, rfl⟩ : res = res' ∧ g = g' := by simpa using e.symm.trans b1
  have same : ∀ {p y}, q <+: p → siteV r g.st k p = some y → siteV r f.st k p = some y := by
    intro p y hp hy
    rcases b4 p hp with h5 | h5
    · rw [← h5]; exact hy
    · rw [h5] at hy; simp at hy
  rcases b4 q (List.prefix_refl _) with h5 | h5
  · right
    obtain ⟨s', c1, c2, c3, c4⟩ := C76_tree hr b2 (k := k) (q := q)
      ⟨fun t ht => hsub.nm t (fun h6 => ht ((b4 _ (List.prefix_append _ _)).elim (fun e => e.trans h6) id)),
        fun t ht => hsub.noLink t (same (List.prefix_append _ _) ht)⟩
      hq (h5.trans hd) (fun x hx => hh x (same (List.prefix_append _ _) hx))
    exact ⟨s', c1, c2, c3, fun j p hj => (c4 j p hj).trans (b3 j p hj)⟩
  · left
    rintro p ⟨t, rfl⟩
    exact (sysLaws E r hr).none_below (k := k) (t := t) b2 h5

/-- Copying a file again, undisturbed, after an interrupted copy gives a complete copy. -/
theorem C86_copy_file (h : SysOk E r f.st) {k k' : Option ι} (hm : May k k') {init : List Str} {n m : Str} {ds e : List Str} {d : Bytes}
    (hn : Nm (init ++ [n])) (hd : siteV r f.st k (init ++ [n]) = some (.file d)) (hds : Nm ds) (he : Nm (e ++ [m]))
    (ht : FileTarget (siteV r f.st k') ds n (e ++ [m])) (hp : siteV r f.st k' e = some .dir)
    (hf : siteV r f.st k' (e ++ [m]) = none ∨ isF (siteV r f.st k' (e ++ [m])) = true)
    (hne : ¬ (k = k' ∧ init ++ [n] = e ++ [m])) {depth : Nat} {ig : List Str} {fl : Bool}
    {res : Except PyErr Unit} {g : Frail Sys}
    (er : uCopy frailSys depth (siteAt E k (init ++ [n])) (siteAt E k' ds) false ig fl f = (res, g)) :
    ∃ s', uCopy sysOps depth (siteAt E k (init ++ [n])) (siteAt E k' ds) false ig fl g.st = (.ok (), s') ∧ SysOk E r s' ∧
      siteV r s' k' (e ++ [m]) = some (.file d) ∧ ∀ j p, ¬ (j = k' ∧ p = e ++ [m]) → siteV r s' j p = siteV r f.st j p := by
  obtain ⟨res', g', b1, b2, b3, b4, -⟩ := C82_file hr h hm hn hd hds he ht hp hf hne depth ig fl
  obtain ⟨rfl, rfl⟩ : res = res' ∧ g = g' := by simpa using er.symm.trans b1
  have hf' : siteV r g.st k' (e ++ [m]) = none ∨ isF (siteV r g.st k' (e ++ [m])) = true := by
    rcases b4 with b4 | ⟨d', -, b4⟩
    · rw [b4]; exact hf
    · rw [b4]; exact .inr rfl
  have hp' : siteV r g.st k' e = some .dir := (b3 k' e fun c => by simpa using c.2).trans hp
  have ht' : FileTarget (siteV r g.st k') ds n (e ++ [m]) := by
    generalize hg : e ++ [m] = q at *
    cases ht with
    | into h6 =>
      refine .into ((b3 k' ds fun c => ?_).trans h6)
      have := congrArg List.length c.2
      simp at this
    | at_ h6 =>
      refine .at_ ?_
      intro h7
      rcases hf' with h8 | h8
      · rw [h7] at h8; simp at h8
      · rw [h7] at h8; simp [isF] at h8
  obtain ⟨s', c1, c2, c3, c4⟩ := C77_file hr b2 hm hn ((b3 k _ hne).trans hd) hds he ht' hp' hf' hne depth ig fl
  exact ⟨s', c1, c2, c3, fun j p hj => (c4 j p hj).trans (b3 j p hj)⟩

end

/-! ## The sample, where the call with a given number fails -/

/-- in the sample, the call with the number `i` fails, after `write` has written `b` bytes -/
def failAt (i : Nat) (done : Bool) (b : Nat) : Frail Sys :=
  ⟨sampleSys, fun j => if j = i then some ⟨.injected 28, done, b⟩ else none, 0⟩

/-- what there is in the sample after an interrupted operation -/
abbrev left_ (g : Frail Sys) := siteV (fun _ : Unit => 0) g.st

/-- /a/f in memory to the local directory /t/d, with a failing write: one byte arrives; the call raises what `write` raised -/
example : (∃ res g, uCopy frailSys 100 (sAt (some ()) [cl!"a", cl!"f"]) (sAt none [cl!"t", cl!"d"]) false [] true (failAt 21 false 1) = (res, g) ∧
      left_ g none [cl!"t", cl!"g"] = some (.file [1, 2, 3])) ∧
    (uCopy frailSys 100 (sAt (some ()) [cl!"a", cl!"f"]) (sAt none [cl!"t", cl!"d"]) false [] true (failAt 21 false 1)).1 = .error (.injected 28) ∧
    left_ (uCopy frailSys 100 (sAt (some ()) [cl!"a", cl!"f"]) (sAt none [cl!"t", cl!"d"]) false [] true (failAt 21 false 1)).2
      none [cl!"t", cl!"d", cl!"f"] = some (.file [104]) := by
  obtain ⟨res, g, h1, -, h2, -⟩ := C82_file unit_inj (f := failAt 21 false 1) sampleSys_ok (k := some ()) (k' := none) (.inr (.inl rfl)) (init := [cl!"a"])
    (n := cl!"f") (m := cl!"f") (ds := [cl!"t", cl!"d"]) (e := [cl!"t", cl!"d"]) (d := [104, 105]) (by decide +kernel) (by decide +kernel) (by decide +kernel)
    (by decide +kernel) (.into (by decide +kernel)) (by decide +kernel) (.inl (by decide +kernel)) (by simp) 100 [] true
  exact ⟨⟨res, g, h1, (h2 none [cl!"t", cl!"g"] (by decide)).trans (by decide +kernel)⟩, by decide +kernel, by decide +kernel⟩

/-- the same call makes 23 calls if nothing fails -/
example : (uCopy frailSys 100 (sAt (some ()) [cl!"a", cl!"f"]) (sAt none [cl!"t", cl!"d"]) false [] true (failAt 23 false 0)).1 = .ok () ∧
    (uCopy frailSys 100 (sAt (some ()) [cl!"a", cl!"f"]) (sAt none [cl!"t", cl!"d"]) false [] true (failAt 22 false 0)).1 = .error (.injected 28) := by
  constructor <;> decide +kernel

/-- the local /t to the new /n in memory: /n and /n/d are made, then a call fails -/
example : ∃ res g, uCopy frailSys 100 (sAt none [cl!"t"]) (sAt (some ()) [cl!"n"]) true [] true (failAt 50 false 0) = (res, g) ∧
    (∀ x, left_ g (some ()) ([cl!"n"] ++ x) = none ∨ sV none ([cl!"t"] ++ x) ≠ none) ∧
    left_ (uCopy frailSys 100 (sAt none [cl!"t"]) (sAt (some ()) [cl!"n"]) true [] true (failAt 50 false 0)).2 (some ()) [cl!"n", cl!"d"] = some .dir := by
  obtain ⟨res, g, h1, -, -, h2, -⟩ := C82_tree unit_inj (f := failAt 50 false 0) sampleSys_ok (k := none) (k' := some ()) (.inl rfl) (init := []) (n := cl!"t")
    (ds := [cl!"n"]) (e := [cl!"n"]) (sCopyable (by decide +kernel) (by decide) (by decide +kernel) (by decide +kernel))
    (by decide +kernel) (by decide +kernel) (.new (by decide +kernel)) (all_prefixes (by decide +kernel)) (by decide +kernel) (by simp)
    (depth := 100) (by decide) (sDepth (by decide +kernel)) [] true
  refine ⟨res, g, h1, fun x => ?_, by decide +kernel⟩
  rcases h2 x with h3 | ⟨-, h3 | ⟨d, d', -, h3, -⟩⟩
  · exact .inl h3
  · refine .inr fun hc => ?_
    exact absurd (hc.symm.trans h3.1) (by simp)
  · refine .inr fun hc => ?_
    exact absurd (hc.symm.trans h3) (by simp)

/-- removing the local /t, interrupted after /t/g is gone -/
example : ∃ res g, uRemove frailSys 100 (sAt none [cl!"t"]) true (failAt 14 false 0) = (res, g) ∧ left_ g none [] = some .dir ∧
    left_ (uRemove frailSys 100 (sAt none [cl!"t"]) true (failAt 14 false 0)).2 none [cl!"t", cl!"d"] = some .dir ∧
    left_ (uRemove frailSys 100 (sAt none [cl!"t"]) true (failAt 14 false 0)).2 none [cl!"t", cl!"g"] = none := by
  obtain ⟨res, g, h1, -, h2, -⟩ := C83_tree unit_inj (f := failAt 14 false 0) sampleSys_ok (k := none) (q := [cl!"t"]) (sSub (by decide +kernel)) (by decide)
    (by decide +kernel) (depth := 100) (sDepth (by decide +kernel))
  exact ⟨res, g, h1, (h2 none [] (by decide)).trans (by decide +kernel), by decide +kernel, by decide +kernel⟩

/-- removing it again -/
example : ∃ res g, uRemove frailSys 100 (sAt none [cl!"t"]) true (failAt 14 false 0) = (res, g) ∧
    ((∀ p, [cl!"t"] <+: p → left_ g none p = none) ∨
    ∃ s', uRemove sysOps 100 (sAt none [cl!"t"]) true g.st = (.ok (), s') ∧ siteV (fun _ : Unit => 0) s' none [cl!"t", cl!"d"] = none) := by
  have h1 : Sub (sV none) [cl!"t"] := sSub (by decide +kernel)
  have h2 : sV none [cl!"t"] = some .dir := by decide +kernel
  have h3 : ∀ x, sV none ([cl!"t"] ++ x) = some .dir → x.length < 100 := sDepth (by decide +kernel)
  obtain ⟨res, g, e, -⟩ := C83_tree unit_inj (f := failAt 14 false 0) sampleSys_ok h1 (by decide) h2 h3
  refine ⟨res, g, e, ?_⟩
  rcases C86_remove unit_inj sampleSys_ok h1 (by decide) h2 h3 e with h | ⟨s', h4, -, h5, -⟩
  · exact .inl h
  · exact .inr ⟨s', h4, h5 _ (by decide)⟩

example : ∃ res g, uRemove frailSys 100 (sAt none [cl!"t", cl!"g"]) false (failAt 4 true 0) = (res, g) ∧
    (left_ g none [cl!"t", cl!"g"] = some (.file [1, 2, 3]) ∨ left_ g none [cl!"t", cl!"g"] = none) := by
  obtain ⟨res, g, h1, -, -, h2, -⟩ := C83_file unit_inj (f := failAt 4 true 0) sampleSys_ok (k := none) (q := [cl!"t", cl!"g"]) (d := [1, 2, 3]) (by decide +kernel)
    (by decide +kernel) 100 false
  exact ⟨res, g, h1, h2⟩

/-- /a/f in memory moved to the local /t/h: the copy is complete, then `removefile` fails -/
example : ∃ res g, uMove frailSys 100 (sAt (some ()) [cl!"a", cl!"f"]) (sAt none [cl!"t", cl!"h"]) (failAt 30 false 0) = (res, g) ∧
    (left_ g (some ()) [cl!"a", cl!"f"] = some (.file [104, 105]) ∨ left_ g none [cl!"t", cl!"h"] = some (.file [104, 105])) := by
  obtain ⟨res, g, h1, -, -, h2, -⟩ := C84_file unit_inj (f := failAt 30 false 0) sampleSys_ok (k := some ()) (k' := none) (.inr (.inl rfl)) (.inl (by simp)) (init := [cl!"a"])
    (n := cl!"f") (m := cl!"h") (ds := [cl!"t", cl!"h"]) (e := [cl!"t"]) (d := [104, 105]) (by decide +kernel) (by decide +kernel) (by decide +kernel)
    (by decide +kernel) (.at_ (by decide +kernel)) (by decide +kernel) (.inl (by decide +kernel)) (by simp) 100
  exact ⟨res, g, h1, h2.imp (·.1) (·.2)⟩

/-- the local /t moved into /a in memory, interrupted while the local files are removed -/
example : ∃ res g, uMove frailSys 100 (sAt none [cl!"t"]) (sAt (some ()) [cl!"a"]) (failAt 79 true 0) = (res, g) ∧
    (left_ g none [cl!"t", cl!"g"] = some (.file [1, 2, 3]) ∨ left_ g (some ()) [cl!"a", cl!"t", cl!"g"] = some (.file [1, 2, 3])) ∧
    left_ (uMove frailSys 100 (sAt none [cl!"t"]) (sAt (some ()) [cl!"a"]) (failAt 79 true 0)).2 none [cl!"t"] = some .dir ∧
    left_ (uMove frailSys 100 (sAt none [cl!"t"]) (sAt (some ()) [cl!"a"]) (failAt 79 true 0)).2 none [cl!"t", cl!"g"] = none := by
  obtain ⟨res, g, h1, -, -, h2, -⟩ := C84_tree unit_inj (f := failAt 79 true 0) sampleSys_ok (k := none) (k' := some ()) (.inl rfl) (.inr (by simp)) (init := [])
    (n := cl!"t") (ds := [cl!"a"]) (e := [cl!"a", cl!"t"]) (sCopyable (by decide +kernel) (by decide) (by decide +kernel) (by decide +kernel))
    (by decide +kernel) (by decide +kernel) (.into (by decide +kernel)) (all_prefixes (by decide +kernel)) (by decide +kernel) (by simp)
    (depth := 100) (by decide) (sDepth (by decide +kernel))
  refine ⟨res, g, h1, ?_, by decide +kernel, by decide +kernel⟩
  rcases h2 with h2 | h2
  · exact .inl ((h2.1 [cl!"g"]).trans (by decide +kernel))
  · exact .inr ((h2.1 [cl!"g"]).trans (by decide +kernel))

/-- making the local /t/x/y, interrupted after /t/x is made; and again -/
example : ∃ res g, uMakedirs frailSys 100 (sAt none [cl!"t", cl!"x", cl!"y"]) (failAt 16 true 0) = (res, g) ∧ left_ g none [cl!"t", cl!"g"] = some (.file [1, 2, 3]) ∧
    left_ (uMakedirs frailSys 100 (sAt none [cl!"t", cl!"x", cl!"y"]) (failAt 16 true 0)).2 none [cl!"t", cl!"x"] = some .dir ∧
    left_ (uMakedirs frailSys 100 (sAt none [cl!"t", cl!"x", cl!"y"]) (failAt 16 true 0)).2 none [cl!"t", cl!"x", cl!"y"] = none := by
  obtain ⟨res, g, h1, -, ⟨q, h2, h3, h4⟩, -⟩ := C85_makedirs unit_inj (f := failAt 16 true 0) sampleSys_ok (k := none) (cs := [cl!"t", cl!"x", cl!"y"]) (depth := 100)
    (by decide +kernel) (all_prefixes (by decide +kernel)) (by decide)
  refine ⟨res, g, h1, (h4 _ _ fun c => ?_).trans (by decide +kernel), by decide +kernel, by decide +kernel⟩
  exact absurd (c.2.trans h2) (by decide)

example : ∃ res g, uMakedirs frailSys 100 (sAt none [cl!"t", cl!"x", cl!"y"]) (failAt 16 true 0) = (res, g) ∧
    ∃ s', uMakedirs sysOps 100 (sAt none [cl!"t", cl!"x", cl!"y"]) g.st = (.ok (), s') ∧
      siteV (fun _ : Unit => 0) s' none [cl!"t", cl!"x", cl!"y"] = some .dir := by
  have h1 : Nm [cl!"t", cl!"x", cl!"y"] := by decide +kernel
  have h2 : ∀ p, p <+: [cl!"t", cl!"x", cl!"y"] → sV none p = some .dir ∨ sV none p = none := all_prefixes (by decide +kernel)
  obtain ⟨res, g, e, -⟩ := C85_makedirs unit_inj (f := failAt 16 true 0) sampleSys_ok h1 h2 (depth := 100) (by decide)
  obtain ⟨s', a1, -, a2, -⟩ := C85_again unit_inj sampleSys_ok h1 h2 (by decide) e
  exact ⟨res, g, e, s', a1, a2 _ (List.prefix_refl _)⟩

/-- the interrupted copy of a file again -/
example : ∃ res g, uCopy frailSys 100 (sAt (some ()) [cl!"a", cl!"f"]) (sAt none [cl!"t", cl!"d"]) false [] true (failAt 21 false 1) = (res, g) ∧
    ∃ s', uCopy sysOps 100 (sAt (some ()) [cl!"a", cl!"f"]) (sAt none [cl!"t", cl!"d"]) false [] true g.st = (.ok (), s') ∧
      siteV (fun _ : Unit => 0) s' none [cl!"t", cl!"d", cl!"f"] = some (.file [104, 105]) := by
  have h1 : Nm ([cl!"a"] ++ [cl!"f"]) := by decide +kernel
  have h2 : Nm [cl!"t", cl!"d"] := by decide +kernel
  have h3 : Nm ([cl!"t", cl!"d"] ++ [cl!"f"]) := by decide +kernel
  have h4 : sV (some ()) ([cl!"a"] ++ [cl!"f"]) = some (.file [104, 105]) := by decide +kernel
  have h5 : sV none [cl!"t", cl!"d"] = some .dir := by decide +kernel
  have h6 : sV none ([cl!"t", cl!"d"] ++ [cl!"f"]) = none := by decide +kernel
  have h7 : ¬ (some () = none ∧ [cl!"a"] ++ [cl!"f"] = [cl!"t", cl!"d"] ++ [cl!"f"]) := by simp
  obtain ⟨res, g, e, -⟩ := C82_file unit_inj (f := failAt 21 false 1) sampleSys_ok (.inr (.inl rfl)) h1 h4 h2 h3 (.into h5) h5 (.inl h6) h7 100 [] true
  obtain ⟨s', a1, -, a2, -⟩ := C86_copy_file unit_inj sampleSys_ok (.inr (.inl rfl)) h1 h4 h2 h3 (.into h5) h5 (.inl h6) h7 e
  exact ⟨res, g, e, s', a1, a2⟩

/-- Copying a tree to a new name again after an interrupted copy does not complete the copy: the name is now that of a
    directory, so a second copy is made in it, and the first one stays incomplete. -/
theorem C86_copy_tree_refuted : ∃ f : Frail Sys, SysOk (fun _ : Unit => []) (fun _ => 0) f.st ∧ f.st = sampleSys ∧
    (uCopy sysOps 100 (sAt none [cl!"t"]) (sAt (some ()) [cl!"n"]) true [] true
      (uCopy frailSys 100 (sAt none [cl!"t"]) (sAt (some ()) [cl!"n"]) true [] true f).2.st).1 = .ok () ∧
    (let s := (uCopy sysOps 100 (sAt none [cl!"t"]) (sAt (some ()) [cl!"n"]) true [] true
      (uCopy frailSys 100 (sAt none [cl!"t"]) (sAt (some ()) [cl!"n"]) true [] true f).2.st).2
    siteV (fun _ : Unit => 0) s (some ()) [cl!"n", cl!"g"] = none ∧
    siteV (fun _ : Unit => 0) s (some ()) [cl!"n", cl!"t", cl!"g"] = some (.file [1, 2, 3])) :=
  ⟨failAt 50 false 0, sampleSys_ok, rfl, by decide +kernel, by decide +kernel⟩

end Verif.Props
