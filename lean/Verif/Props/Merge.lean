import Verif.Any.Merge
import Verif.Props.Faults
/-!
# C88, C89: copying and moving a tree over an existing one, and trying again
-/
namespace Verif.Props
open Verif.Spec Verif.Any

/-- The tree at `q` can be put over the one at `e`: where the first has a directory the second has none or a directory, and
    where it has a file the second has none or a file; what is ignored does not count. -/
def Merges (S T : List Str → Option Any.Kind) (ig q e : List Str) : Prop :=
  ∀ x, x ≠ [] → ¬ Ignored S ig q x →
    (S (q ++ x) = some .dir → T (e ++ x) = none ∨ T (e ++ x) = some .dir) ∧
    ∀ d, S (q ++ x) = some (.file d) → T (e ++ x) = none ∨ isF (T (e ++ x)) = true

theorem Merges.fits {S T : List Str → Option Any.Kind} {ig q e : List Str} (h : Merges S T ig q e)
    (hl : ∀ x, S (q ++ x) ≠ some .other) : ∀ x, x ≠ [] → Fits (kept S ig q x) (T (e ++ x)) := by
  intro x hx
  unfold kept
  split
  · trivial
  · rename_i hi
    obtain ⟨h1, h2⟩ := h x hx hi
    cases hv : S (q ++ x) with
    | none => trivial
    | some o =>
      cases o with
      | dir => exact h1 hv
      | file d => exact h2 d hv
      | other => exact absurd hv (hl x)

section
variable {ι : Type} {E : ι → Dict} {r : ι → Nat} (hr : Function.Injective r)
include hr

/-! ## C88 -/

/-- Copying a tree over an existing one: afterwards everything of the source is at the destination, what is there under
    other names stays, and nothing else changes. -/
theorem C88_copy {s : Sys} (h : SysOk E r s) {k k' : Option ι} (hm : May k k') {init : List Str} {n : Str} {ds e ig : List Str}
    (H : Laws.Copyable (siteV r s k) (init ++ [n])) (hds : Nm ds) (he : Nm e) (he0 : e ≠ []) (ht : Target (siteV r s k') ds n e)
    (hclear : ∀ p, p <+: e → siteV r s k' p = some .dir ∨ siteV r s k' p = none)
    (hfit : Merges (siteV r s k) (siteV r s k') ig (init ++ [n]) e)
    (hse : ¬ (k = k' ∧ (init ++ [n] <+: e ∨ e <+: init ++ [n]))) {depth : Nat} (hl : e.length < depth)
    (hh : ∀ x, siteV r s k (init ++ [n] ++ x) = some .dir → x.length < depth) (fl : Bool) :
    ∃ s', uCopy sysOps depth (siteAt E k (init ++ [n])) (siteAt E k' ds) true ig fl s = (.ok (), s') ∧ SysOk E r s' ∧
      (∀ p, p <+: e → siteV r s' k' p = some .dir) ∧
      (∀ x, x ≠ [] → ¬ Ignored (siteV r s k) ig (init ++ [n]) x → siteV r s k (init ++ [n] ++ x) ≠ none →
        siteV r s' k' (e ++ x) = siteV r s k (init ++ [n] ++ x)) ∧
      (∀ x, x ≠ [] → Ignored (siteV r s k) ig (init ++ [n]) x ∨ siteV r s k (init ++ [n] ++ x) = none →
        siteV r s' k' (e ++ x) = siteV r s k' (e ++ x)) ∧
      ∀ j p, ¬ (j = k' ∧ (p <+: e ∨ e <+: p)) → siteV r s' j p = siteV r s j p := by
  obtain ⟨s', h1, h2, h3⟩ := (sysLaws E r hr).mergeTree (ig := ig) (fl := fl) hm h H hds he ht hclear he0
    (hfit.fits H.sub.noLink) hse hl hh
  change siteV r s' = over (mkdirs (siteV r s) k' e) k' e (kept (siteV r s k) ig (init ++ [n])) at h3
  have hmk : ∀ x, x ≠ [] → mkdirs (siteV r s) k' e k' (e ++ x) = siteV r s k' (e ++ x) := by
    intro x hx
    unfold mkdirs
    rw [if_neg]
    rintro ⟨-, h4⟩
    have := h4.length_le
    have h5 : 0 < x.length := List.length_pos_iff.2 hx
    simp only [List.length_append] at this
    omega
  refine ⟨s', h1, h2, fun p hp => ?_, fun x hx hi hv => ?_, fun x hx hi => ?_, fun j p hj => ?_⟩
  · rw [h3, over_out]
    · simp [mkdirs, hp]
    · rintro ⟨-, h4, h5⟩
      exact h5 (hp.eq_of_length_le h4.length_le)
  · rw [h3, over_in hx, show kept (siteV r s k) ig (init ++ [n]) x = siteV r s k (init ++ [n] ++ x) from if_neg hi]
    cases hv' : siteV r s k (init ++ [n] ++ x) with
    | none => exact absurd hv' hv
    | some o => rfl
  · have : kept (siteV r s k) ig (init ++ [n]) x = none := by
      rcases hi with hi | hi
      · exact if_pos hi
      · unfold kept; rw [hi]; simp
    rw [h3, over_in hx, this, hmk x hx]
    rfl
  · rw [h3, over_out (fun c => hj ⟨c.1, .inr c.2.1⟩)]
    unfold mkdirs
    rw [if_neg (fun c => hj ⟨c.1, .inl c.2⟩)]

/-- Moving a tree over an existing one, other than within the local file system: as copying it, and then nothing is left
    at the source. -/
theorem C88_move {s : Sys} (h : SysOk E r s) {k k' : Option ι} (hm : May k k') (hkk : k ≠ none ∨ k' ≠ none) {init : List Str} {n : Str}
    {ds e : List Str}
    (H : Laws.Copyable (siteV r s k) (init ++ [n])) (hds : Nm ds) (he : Nm e) (he0 : e ≠ []) (ht : Target (siteV r s k') ds n e)
    (hclear : ∀ p, p <+: e → siteV r s k' p = some .dir ∨ siteV r s k' p = none)
    (hfit : Merges (siteV r s k) (siteV r s k') [] (init ++ [n]) e)
    (hse : ¬ (k = k' ∧ (init ++ [n] <+: e ∨ e <+: init ++ [n]))) {depth : Nat} (hl : e.length < depth)
    (hh : ∀ x, siteV r s k (init ++ [n] ++ x) = some .dir → x.length < depth) :
    ∃ s', uMove sysOps depth (siteAt E k (init ++ [n])) (siteAt E k' ds) s = (.ok (), s') ∧ SysOk E r s' ∧
      (∀ p, p <+: e → siteV r s' k' p = some .dir) ∧
      (∀ x, siteV r s' k (init ++ [n] ++ x) = none) ∧
      (∀ x, x ≠ [] → siteV r s k (init ++ [n] ++ x) ≠ none → siteV r s' k' (e ++ x) = siteV r s k (init ++ [n] ++ x)) ∧
      (∀ x, x ≠ [] → siteV r s k (init ++ [n] ++ x) = none → siteV r s' k' (e ++ x) = siteV r s k' (e ++ x)) ∧
      ∀ j p, ¬ (j = k' ∧ (p <+: e ∨ e <+: p)) → ¬ (j = k ∧ init ++ [n] <+: p) → siteV r s' j p = siteV r s j p := by
  have hfit' := hfit.fits H.sub.noLink
  rw [show kept (siteV r s k) [] (init ++ [n]) = fun x => siteV r s k (init ++ [n] ++ x) from funext fun x => kept_noIgnore] at hfit'
  obtain ⟨s', h1, h2, h3⟩ := (sysLaws E r hr).mergeMove hm h (noMoveSelf hkk _ _) H hds he ht hclear he0 hfit' hse hl hh
  change siteV r s' = wipe (over (mkdirs (siteV r s) k' e) k' e (fun x => siteV r s k (init ++ [n] ++ x))) k
    (fun p => init ++ [n] <+: p) at h3
  have hmk : ∀ x, x ≠ [] → mkdirs (siteV r s) k' e k' (e ++ x) = siteV r s k' (e ++ x) := by
    intro x hx
    unfold mkdirs
    rw [if_neg]
    rintro ⟨-, h4⟩
    have := h4.length_le
    have h5 : 0 < x.length := List.length_pos_iff.2 hx
    simp only [List.length_append] at this
    omega
  -- the destination is not below the source, nor the source below the destination
  have apart : ∀ {p : List Str}, e <+: p ∨ p <+: e → ¬ (k' = k ∧ init ++ [n] <+: p) := by
    rintro p hp ⟨rfl, h4⟩
    apply hse
    refine ⟨rfl, ?_⟩
    rcases hp with hp | hp
    · exact List.prefix_or_prefix_of_prefix h4 hp
    · exact .inl (h4.trans hp)
  refine ⟨s', h1, h2, fun p hp => ?_, fun x => ?_, fun x hx hv => ?_, fun x hx hv => ?_, fun j p hj hj' => ?_⟩
  · rw [h3]
    unfold wipe
    rw [if_neg (apart (.inr hp)), over_out]
    · simp [mkdirs, hp]
    · rintro ⟨-, h4, h5⟩
      exact h5 (hp.eq_of_length_le h4.length_le)
  · rw [h3]; unfold wipe; rw [if_pos ⟨rfl, List.prefix_append _ _⟩]
  · rw [h3]
    unfold wipe
    rw [if_neg (apart (.inl (List.prefix_append _ _))), over_in hx]
    cases hv' : siteV r s k (init ++ [n] ++ x) with
    | none => exact absurd hv' hv
    | some o => rfl
  · rw [h3]
    unfold wipe
    rw [if_neg (apart (.inl (List.prefix_append _ _))), over_in hx, hv, hmk x hx]
    rfl
  · rw [h3]
    unfold wipe
    rw [if_neg hj', over_out (fun c => hj ⟨c.1, .inr c.2.1⟩)]
    unfold mkdirs
    rw [if_neg (fun c => hj ⟨c.1, .inl c.2⟩)]

/-! ## C89 -/

variable {f : Frail Sys}

/-- Copying a tree into a directory again, undisturbed, after an interrupted copy, gives a complete copy, and the two calls
    together change nothing else. -/
theorem C89_copy_again (h : SysOk E r f.st) {k k' : Option ι} (hm : May k k') {init : List Str} {n : Str} {ds : List Str}
    (H : Laws.Copyable (siteV r f.st k) (init ++ [n])) (hds : Nm (ds ++ [n])) (hd : siteV r f.st k' ds = some .dir)
    (hnew : siteV r f.st k' (ds ++ [n]) = none)
    (hsd : ¬ (k = k' ∧ init ++ [n] <+: ds ++ [n])) {depth : Nat} (hl : ds.length + 1 < depth)
    (hh : ∀ x, siteV r f.st k (init ++ [n] ++ x) = some .dir → x.length < depth) {ig : List Str} {fl : Bool}
    {res : Except PyErr Unit} {g : Frail Sys}
    (er : uCopy frailSys depth (siteAt E k (init ++ [n])) (siteAt E k' ds) true ig fl f = (res, g)) :
    ∃ s', uCopy sysOps depth (siteAt E k (init ++ [n])) (siteAt E k' ds) true ig fl g.st = (.ok (), s') ∧ SysOk E r s' ∧
      siteV r s' k' (ds ++ [n]) = some .dir ∧
      (∀ x, x ≠ [] → ¬ Ignored (siteV r f.st k) ig (init ++ [n]) x →
        siteV r s' k' (ds ++ [n] ++ x) = siteV r f.st k (init ++ [n] ++ x)) ∧
      (∀ x, x ≠ [] → Ignored (siteV r f.st k) ig (init ++ [n]) x → siteV r s' k' (ds ++ [n] ++ x) = none) ∧
      ∀ j p, ¬ (j = k' ∧ ds ++ [n] <+: p) → siteV r s' j p = siteV r f.st j p := by
  let L := sysLaws E r hr
  have hup : ∀ p, p <+: ds ++ [n] → p ≠ ds ++ [n] → siteV r f.st k' p = some .dir := by
    intro p hp hne
    have hp' : p <+: ds := by
      rcases List.prefix_concat_iff.1 hp with h1 | h1
      · exact absurd h1 hne
      · exact h1
    by_cases e : p = ds
    · rw [e]; exact hd
    · exact L.above (k := k') h (by show siteV r f.st k' ds ≠ none; rw [hd]; simp) p hp' e
  have hclear : ∀ p, p <+: ds ++ [n] → siteV r f.st k' p = some .dir ∨ siteV r f.st k' p = none := by
    intro p hp
    by_cases e : p = ds ++ [n]
    · rw [e]; exact .inr hnew
    · exact .inl (hup p hp e)
  have hl' : (ds ++ [n]).length < depth := by simpa using hl
  obtain ⟨res', g', b1, b2, b3, b4, -⟩ := C82_tree hr h hm H hds.of_prefix hds (.into hd) hclear hnew hsd hl' hh ig fl
  obtain ⟨rfl, rfl⟩ : res = res' ∧ g = g' := by simpa using er.symm.trans b1
  -- nothing outside has changed
  have hout : ∀ j p, ¬ (j = k' ∧ ds ++ [n] <+: p) → siteV r g.st j p = siteV r f.st j p := by
    intro j p hj
    rcases b3 j p hj with h1 | ⟨rfl, h2, h3, -⟩
    · exact h1
    · rw [hup p h2 (fun e => hj ⟨rfl, by rw [e]⟩)] at h3; simp at h3
  have hse : ¬ (k = k' ∧ (init ++ [n] <+: ds ++ [n] ∨ ds ++ [n] <+: init ++ [n])) := by
    rintro ⟨rfl, h1 | ⟨t, ht⟩⟩
    · exact hsd ⟨rfl, h1⟩
    · have := L.none_below (k := k) (t := t) h hnew
      change siteV r f.st k (ds ++ [n] ++ t) = none at this
      rw [ht, H.dir] at this
      simp at this
  have hsrc : ∀ x, siteV r g.st k (init ++ [n] ++ x) = siteV r f.st k (init ++ [n] ++ x) := by
    intro x
    apply hout
    rintro ⟨rfl, h1⟩
    rcases List.prefix_or_prefix_of_prefix h1 (List.prefix_append (init ++ [n]) x) with h2 | h2
    · exact hse ⟨rfl, .inr h2⟩
    · exact hse ⟨rfl, .inl h2⟩
  have hsrc0 : siteV r g.st k (init ++ [n]) = some .dir := by
    have := hsrc []; simp only [List.append_nil] at this; rw [this]; exact H.dir
  have hig : ∀ x, Ignored (siteV r g.st k) ig (init ++ [n]) x ↔ Ignored (siteV r f.st k) ig (init ++ [n]) x := by
    intro x
    unfold Ignored
    simp only [List.append_assoc] at hsrc ⊢
    simp only [hsrc]
  have H' : Laws.Copyable (siteV r g.st k) (init ++ [n]) :=
    ⟨⟨fun t ht => H.sub.nm t (by rwa [hsrc] at ht), fun t => by rw [hsrc]; exact H.sub.noLink t⟩, H.ne, hsrc0, fun t m ht => by
      rw [List.append_assoc, hsrc, ← List.append_assoc] at ht; exact H.trim t m ht⟩
  have hmg : Merges (siteV r g.st k) (siteV r g.st k') ig (init ++ [n]) (ds ++ [n]) := by
    intro x _ _
    rw [hsrc]
    rcases b4 x with h1 | ⟨-, ⟨h1, h2⟩ | ⟨d, d', -, h1, h2⟩⟩
    · exact ⟨fun _ => .inl h1, fun _ _ => .inl h1⟩
    · exact ⟨fun _ => .inr h2, fun d hd' => by rw [h1] at hd'; simp at hd'⟩
    · exact ⟨fun hd' => by rw [h1] at hd'; simp at hd', fun _ _ => by rw [h2]; exact .inr rfl⟩
  have hds' : siteV r g.st k' ds = some .dir := by
    rw [hout k' ds (fun c => by have := c.2.length_le; simp only [List.length_append, List.length_singleton] at this; omega), hd]
  have hclear' : ∀ p, p <+: ds ++ [n] → siteV r g.st k' p = some .dir ∨ siteV r g.st k' p = none := by
    intro p hp
    by_cases e : p = ds ++ [n]
    · subst e
      have := b4 []
      simp only [List.append_nil] at this
      rcases this with h1 | ⟨-, ⟨-, h2⟩ | ⟨d, d', -, h1, -⟩⟩
      · exact .inr h1
      · exact .inl h2
      · rw [H.dir] at h1; simp at h1
    · rw [hout k' p (fun c => e (hp.eq_of_length_le c.2.length_le))]
      exact .inl (hup p hp e)
  obtain ⟨s', c1, c2, c3, c4, c5, c6⟩ := C88_copy hr b2 hm (ig := ig) H' hds.of_prefix hds (by simp) (.into hds') hclear' hmg hse hl'
    (fun x hx => hh x (by rwa [hsrc] at hx)) fl
  refine ⟨s', c1, c2, c3 _ (List.prefix_refl _), fun x hx hi => ?_, fun x hx hi => ?_, fun j p hj => ?_⟩
  · by_cases hv : siteV r f.st k (init ++ [n] ++ x) = none
    · rw [c5 x hx (.inr (by rw [hsrc]; exact hv)), hv]
      rcases b4 x with h1 | ⟨-, ⟨h1, -⟩ | ⟨d, d', -, h1, -⟩⟩
      · exact h1
      · rw [hv] at h1; simp at h1
      · rw [hv] at h1; simp at h1
    · rw [c4 x hx (by rw [hig]; exact hi) (by rw [hsrc]; exact hv), hsrc]
  · rw [c5 x hx (.inl ((hig x).2 hi))]
    rcases b4 x with h1 | ⟨h1, -⟩
    · exact h1
    · exact absurd hi h1
  · by_cases hp : j = k' ∧ (p <+: ds ++ [n] ∨ ds ++ [n] <+: p)
    · obtain ⟨rfl, hp⟩ := hp
      have hp : p <+: ds ++ [n] := hp.resolve_right fun c => hj ⟨rfl, c⟩
      rw [c3 p hp, hup p hp (fun e => hj ⟨rfl, by rw [e]⟩)]
    · rw [c6 j p hp, hout j p hj]

/-- Moving a tree into a directory again, undisturbed, after an interrupted move, completes the move, unless it was complete
    already. -/
theorem C89_move_again (h : SysOk E r f.st) {k k' : Option ι} (hm : May k k') (hkk : k ≠ none ∨ k' ≠ none) {init : List Str} {n : Str}
    {ds : List Str}
    (H : Laws.Copyable (siteV r f.st k) (init ++ [n])) (hds : Nm (ds ++ [n])) (hd : siteV r f.st k' ds = some .dir)
    (hnew : siteV r f.st k' (ds ++ [n]) = none)
    (hsd : ¬ (k = k' ∧ init ++ [n] <+: ds ++ [n])) {depth : Nat} (hl : ds.length + 1 < depth)
    (hh : ∀ x, siteV r f.st k (init ++ [n] ++ x) = some .dir → x.length < depth)
    {res : Except PyErr Unit} {g : Frail Sys}
    (er : uMove frailSys depth (siteAt E k (init ++ [n])) (siteAt E k' ds) f = (res, g)) :
    ∃ s', (s' = g.st ∨ uMove sysOps depth (siteAt E k (init ++ [n])) (siteAt E k' ds) g.st = (.ok (), s')) ∧ SysOk E r s' ∧
      (∀ x, siteV r s' k' (ds ++ [n] ++ x) = siteV r f.st k (init ++ [n] ++ x)) ∧
      (∀ x, siteV r s' k (init ++ [n] ++ x) = none) ∧
      ∀ j p, ¬ (j = k' ∧ ds ++ [n] <+: p) → ¬ (j = k ∧ init ++ [n] <+: p) → siteV r s' j p = siteV r f.st j p := by
  let L := sysLaws E r hr
  have hup : ∀ p, p <+: ds ++ [n] → p ≠ ds ++ [n] → siteV r f.st k' p = some .dir := by
    intro p hp hne
    have hp' : p <+: ds := by
      rcases List.prefix_concat_iff.1 hp with h1 | h1
      · exact absurd h1 hne
      · exact h1
    by_cases e : p = ds
    · rw [e]; exact hd
    · exact L.above (k := k') h (by show siteV r f.st k' ds ≠ none; rw [hd]; simp) p hp' e
  have hclear : ∀ p, p <+: ds ++ [n] → siteV r f.st k' p = some .dir ∨ siteV r f.st k' p = none := by
    intro p hp
    by_cases e : p = ds ++ [n]
    · rw [e]; exact .inr hnew
    · exact .inl (hup p hp e)
  have hl' : (ds ++ [n]).length < depth := by simpa using hl
  obtain ⟨res', g', b1, b2, b3, b4, -⟩ := C84_tree hr h hm hkk H hds.of_prefix hds (.into hd) hclear hnew hsd hl' hh
  obtain ⟨rfl, rfl⟩ : res = res' ∧ g = g' := by simpa using er.symm.trans b1
  have hout : ∀ j p, ¬ (j = k' ∧ ds ++ [n] <+: p) → ¬ (j = k ∧ init ++ [n] <+: p) → siteV r g.st j p = siteV r f.st j p := by
    intro j p hj hj'
    rcases b3 j p hj hj' with h1 | ⟨rfl, h2, h3, -⟩
    · exact h1
    · rw [hup p h2 (fun e => hj ⟨rfl, by rw [e]⟩)] at h3; simp at h3
  have hse : ¬ (k = k' ∧ (init ++ [n] <+: ds ++ [n] ∨ ds ++ [n] <+: init ++ [n])) := by
    rintro ⟨rfl, h1 | ⟨t, ht⟩⟩
    · exact hsd ⟨rfl, h1⟩
    · have := L.none_below (k := k) (t := t) h hnew
      change siteV r f.st k (ds ++ [n] ++ t) = none at this
      rw [ht, H.dir] at this
      simp at this
  -- the source has lost something only if the destination is complete
  have hsrc : ∀ x, siteV r g.st k (init ++ [n] ++ x) = siteV r f.st k (init ++ [n] ++ x) ∨
      (siteV r g.st k (init ++ [n] ++ x) = none ∧ ∀ y, siteV r g.st k' (ds ++ [n] ++ y) = siteV r f.st k (init ++ [n] ++ y)) := by
    intro x
    rcases b4 with ⟨h1, -⟩ | ⟨h1, h2⟩
    · exact .inl (h1 x)
    · exact (h2 x).imp id fun h3 => ⟨h3, h1⟩
  -- the destination has parts of what was at the source
  have hdst : ∀ x, siteV r g.st k' (ds ++ [n] ++ x) = none ∨
      (siteV r f.st k (init ++ [n] ++ x) = some .dir ∧ siteV r g.st k' (ds ++ [n] ++ x) = some .dir) ∨
      ∃ d d', siteV r f.st k (init ++ [n] ++ x) = some (.file d) ∧ siteV r g.st k' (ds ++ [n] ++ x) = some (.file d') := by
    intro x
    rcases b4 with ⟨-, h1⟩ | ⟨h1, -⟩
    · rcases h1 x with h2 | h2 | ⟨d, d', -, h2, h3⟩
      · exact .inl h2
      · exact .inr (.inl h2)
      · exact .inr (.inr ⟨d, d', h2, h3⟩)
    · rw [h1]
      cases hv : siteV r f.st k (init ++ [n] ++ x) with
      | none => exact .inl rfl
      | some o =>
        cases o with
        | dir => exact .inr (.inl ⟨rfl, rfl⟩)
        | file d => exact .inr (.inr ⟨d, d, rfl, rfl⟩)
        | other => exact absurd hv (H.sub.noLink x)
  have same : ∀ {x y}, siteV r g.st k (init ++ [n] ++ x) = some y → siteV r f.st k (init ++ [n] ++ x) = some y := by
    intro x y hy
    rcases hsrc x with h1 | ⟨h1, -⟩
    · rw [← h1]; exact hy
    · rw [h1] at hy; simp at hy
  have h0 := hsrc []
  simp only [List.append_nil] at h0
  rcases h0 with h0 | ⟨h0, h0'⟩
  · have H' : Laws.Copyable (siteV r g.st k) (init ++ [n]) :=
      ⟨⟨fun t ht => by
          obtain ⟨y, hy⟩ := Option.ne_none_iff_exists'.1 ht
          exact H.sub.nm t (by rw [same hy]; simp), fun t ht => H.sub.noLink t (same ht)⟩, H.ne, h0.trans H.dir, fun t m ht => by
        rw [List.append_assoc] at ht; have := same ht; rw [← List.append_assoc] at this; exact H.trim t m this⟩
    have hmg : Merges (siteV r g.st k) (siteV r g.st k') [] (init ++ [n]) (ds ++ [n]) := by
      intro x _ _
      refine ⟨fun hv => ?_, fun d hv => ?_⟩
      · have := same hv
        rcases hdst x with h1 | ⟨-, h2⟩ | ⟨d, d', h1, -⟩
        · exact .inl h1
        · exact .inr h2
        · rw [this] at h1; simp at h1
      · have := same hv
        rcases hdst x with h1 | ⟨h1, -⟩ | ⟨d, d', -, h2⟩
        · exact .inl h1
        · rw [this] at h1; simp at h1
        · rw [h2]; exact .inr rfl
    have hprop : ∀ p, p <+: ds ++ [n] → p ≠ ds ++ [n] → siteV r g.st k' p = some .dir := by
      intro p hp hne
      rw [hout k' p (fun c => hne (hp.eq_of_length_le c.2.length_le)) (fun c => hse ⟨c.1.symm, .inl (c.2.trans hp)⟩)]
      exact hup p hp hne
    have hds' : siteV r g.st k' ds = some .dir := hprop ds (List.prefix_append _ _) (by simp)
    have hclear' : ∀ p, p <+: ds ++ [n] → siteV r g.st k' p = some .dir ∨ siteV r g.st k' p = none := by
      intro p hp
      by_cases e : p = ds ++ [n]
      · subst e
        have := hdst []
        simp only [List.append_nil] at this
        rcases this with h1 | ⟨-, h2⟩ | ⟨d, d', h1, -⟩
        · exact .inr h1
        · exact .inl h2
        · rw [H.dir] at h1; simp at h1
      · exact .inl (hprop p hp e)
    obtain ⟨s', c1, c2, c3, c4, c5, c6, c7⟩ := C88_move hr b2 hm hkk H' hds.of_prefix hds (by simp) (.into hds') hclear' hmg hse hl'
      (fun x hx => hh x (same hx))
    refine ⟨s', .inr c1, c2, fun x => ?_, c4, fun j p hj hj' => ?_⟩
    · by_cases hx : x = []
      · subst hx
        rw [List.append_nil, List.append_nil, c3 _ (List.prefix_refl _), H.dir]
      · by_cases hv : siteV r g.st k (init ++ [n] ++ x) = none
        · rw [c6 x hx hv]
          rcases hsrc x with h1 | ⟨-, h1⟩
          · rw [← h1, hv]
            rcases hdst x with h2 | ⟨h2, -⟩ | ⟨d, d', h2, -⟩
            · exact h2
            · rw [← h1, hv] at h2; simp at h2
            · rw [← h1, hv] at h2; simp at h2
          · exact h1 x
        · rw [c5 x hx hv]
          obtain ⟨y, hy⟩ := Option.ne_none_iff_exists'.1 hv
          rw [hy, same hy]
    · by_cases hp : j = k' ∧ (p <+: ds ++ [n] ∨ ds ++ [n] <+: p)
      · obtain ⟨rfl, hp⟩ := hp
        have hp : p <+: ds ++ [n] := hp.resolve_right fun c => hj ⟨rfl, c⟩
        rw [c3 p hp, hup p hp (fun e => hj ⟨rfl, by rw [e]⟩)]
      · rw [c7 j p hp hj', hout j p hj hj']
  · refine ⟨g.st, .inl rfl, b2, h0', fun x => ?_, hout⟩
    exact L.none_below (k := k) (t := x) b2 h0

end

/-! ## Cases that meet the hypotheses -/

/-- /t/a/ with a longer f, an empty b/ and another file z -/
def mergeDisk : Disk :=
  ⟨[([], .dir 0o755), ([cl!"t"], .dir 0o755), ([cl!"t", cl!"a"], .dir 0o755), ([cl!"t", cl!"a", cl!"b"], .dir 0o755),
    ([cl!"t", cl!"a", cl!"f"], .file 0o644 [9, 9, 9]), ([cl!"t", cl!"a", cl!"z"], .file 0o644 [7])], [], 0o22, []⟩

/-- the sample memory file system and these local files -/
def mergeSys : Sys := ⟨sample, mergeDisk⟩

theorem mergeSys_ok : SysOk (fun _ : Unit => []) (fun _ => 0) mergeSys :=
  ⟨sample_reachable.inv, sampleSys_ok.fs, diskOk_of (by decide) (by decide) (by decide)⟩

/-- whether the one may be put over the other -/
def fitsB : Option Any.Kind → Option Any.Kind → Bool
  | some .dir, t => t == none || t == some .dir
  | some (.file _), t => t == none || isF t
  | _, _ => true

theorem merges_of {s : Sys} (hs : s.mem = sample) {T : List Str → Option Any.Kind} {ig q e : List Str}
    (h : ∀ p ∈ sPaths (some ()), q <+: p → fitsB (sV (some ()) p) (T (e ++ p.drop q.length)) = true) :
    Merges (siteV (fun _ : Unit => 0) s (some ())) T ig q e := by
  intro x _ _
  rw [show siteV (fun _ : Unit => 0) s (some ()) = sV (some ()) from by
    funext p; simp only [sV, siteV, hs, sampleSys]]
  have key : ∀ {v}, sV (some ()) (q ++ x) = some v → fitsB (some v) (T (e ++ x)) = true := by
    intro v hv
    have := h _ (mem_sPaths (k := some ()) (p := q ++ x) (by rw [hv]; simp)) (List.prefix_append _ _)
    rw [hv, List.drop_left] at this
    exact this
  exact ⟨fun hv => by simpa [fitsB] using key hv, fun d hv => by simpa [fitsB] using key hv⟩

/-- /a of the memory file system copied into /t, where there is an /t/a: f is replaced, z stays -/
example : ∃ s', uCopy sysOps 100 (sAt (some ()) [cl!"a"]) (sAt none [cl!"t"]) true [] true mergeSys = (.ok (), s') ∧
    siteV (fun _ : Unit => 0) s' none [cl!"t", cl!"a", cl!"f"] = some (.file [104, 105]) ∧
    siteV (fun _ : Unit => 0) s' none [cl!"t", cl!"a", cl!"z"] = some (.file [7]) := by
  obtain ⟨s', h1, -, -, h2, h3, -⟩ := C88_copy unit_inj mergeSys_ok (k := some ()) (k' := none) (.inr (.inl rfl)) (init := []) (n := cl!"a")
    (ds := [cl!"t"]) (e := [cl!"t", cl!"a"]) (ig := []) (sCopyable (k := some ()) (by decide +kernel) (by decide) (by decide +kernel) (by decide +kernel))
    (by decide +kernel) (by decide +kernel) (by decide) (.into (by decide +kernel)) (all_prefixes (by decide +kernel)) (merges_of rfl (by decide +kernel))
    (by simp) (depth := 100) (by decide) (sDepth (k := some ()) (by decide +kernel)) true
  refine ⟨s', h1, ?_, ?_⟩
  · refine (h2 [cl!"f"] (by decide) ?_ (by decide +kernel)).trans (by decide +kernel)
    rintro ⟨a, n, b, -, h4, -⟩
    simp at h4
  · exact (h3 [cl!"z"] (by decide) (.inr (by decide +kernel))).trans (by decide +kernel)

/-- the same moved -/
example : ∃ s', uMove sysOps 100 (sAt (some ()) [cl!"a"]) (sAt none [cl!"t"]) mergeSys = (.ok (), s') ∧
    siteV (fun _ : Unit => 0) s' none [cl!"t", cl!"a", cl!"f"] = some (.file [104, 105]) ∧
    siteV (fun _ : Unit => 0) s' none [cl!"t", cl!"a", cl!"z"] = some (.file [7]) ∧
    siteV (fun _ : Unit => 0) s' (some ()) [cl!"a", cl!"f"] = none := by
  obtain ⟨s', h1, -, -, h0, h2, h3, -⟩ := C88_move unit_inj mergeSys_ok (k := some ()) (k' := none) (.inr (.inl rfl)) (.inl (by simp)) (init := [])
    (n := cl!"a") (ds := [cl!"t"]) (e := [cl!"t", cl!"a"])
    (sCopyable (k := some ()) (by decide +kernel) (by decide) (by decide +kernel) (by decide +kernel))
    (by decide +kernel) (by decide +kernel) (by decide) (.into (by decide +kernel)) (all_prefixes (by decide +kernel)) (merges_of rfl (by decide +kernel))
    (by simp) (depth := 100) (by decide) (sDepth (k := some ()) (by decide +kernel))
  exact ⟨s', h1, (h2 [cl!"f"] (by decide) (by decide +kernel)).trans (by decide +kernel),
    (h3 [cl!"z"] (by decide) (by decide +kernel)).trans (by decide +kernel), h0 [cl!"f"]⟩

/-- Without the condition the copy fails: a directory where the source has a file (EISDIR), a file where it has a
    directory (EEXIST). -/
theorem C88_conflict : ∃ s s' : Sys, SysOk (fun _ : Unit => []) (fun _ => 0) s ∧ SysOk (fun _ : Unit => []) (fun _ => 0) s' ∧
    (uCopy sysOps 100 (sAt (some ()) [cl!"a"]) (sAt none [cl!"t"]) true [] true s).1 = .error (.os .EISDIR) ∧
    (uCopy sysOps 100 (sAt (some ()) [cl!"a"]) (sAt none [cl!"t"]) true [] true s').1 = .error (.os .EEXIST) :=
  ⟨⟨sample, ⟨[([], .dir 0o755), ([cl!"t"], .dir 0o755), ([cl!"t", cl!"a"], .dir 0o755), ([cl!"t", cl!"a", cl!"f"], .dir 0o755)], [], 0o22, []⟩⟩,
    ⟨sample, ⟨[([], .dir 0o755), ([cl!"t"], .dir 0o755), ([cl!"t", cl!"a"], .dir 0o755), ([cl!"t", cl!"a", cl!"b"], .file 0o644 [])], [], 0o22, []⟩⟩,
    ⟨sample_reachable.inv, sampleSys_ok.fs, diskOk_of (by decide) (by decide) (by decide)⟩,
    ⟨sample_reachable.inv, sampleSys_ok.fs, diskOk_of (by decide) (by decide) (by decide)⟩, by decide +kernel, by decide +kernel⟩

/-- the copy of the local /t into /a in memory, interrupted while /t/g is written; and again -/
example : ∃ res g, uCopy frailSys 100 (sAt none [cl!"t"]) (sAt (some ()) [cl!"a"]) true [] true (failAt 50 false 0) = (res, g) ∧
    ∃ s', uCopy sysOps 100 (sAt none [cl!"t"]) (sAt (some ()) [cl!"a"]) true [] true g.st = (.ok (), s') ∧
      siteV (fun _ : Unit => 0) s' (some ()) [cl!"a", cl!"t", cl!"g"] = some (.file [1, 2, 3]) := by
  have h1 : Laws.Copyable (sV none) ([] ++ [cl!"t"]) := sCopyable (by decide +kernel) (by decide) (by decide +kernel) (by decide +kernel)
  have h2 : Nm ([cl!"a"] ++ [cl!"t"]) := by decide +kernel
  have h3 : sV (some ()) [cl!"a"] = some .dir := by decide +kernel
  have h4 : sV (some ()) ([cl!"a"] ++ [cl!"t"]) = none := by decide +kernel
  have h5 : ∀ x, sV none ([] ++ [cl!"t"] ++ x) = some .dir → x.length < 100 := sDepth (by decide +kernel)
  have h6 : ¬ (none = some () ∧ [] ++ [cl!"t"] <+: [cl!"a"] ++ [cl!"t"]) := by simp
  obtain ⟨res, g, e, -⟩ := C82_tree unit_inj (f := failAt 50 false 0) sampleSys_ok (.inl rfl) h1 h2.of_prefix h2 (.into h3)
    (all_prefixes (by decide +kernel)) h4 h6 (depth := 100) (by decide) h5 [] true
  obtain ⟨s', a1, -, -, a2, -⟩ := C89_copy_again unit_inj sampleSys_ok (.inl rfl) h1 h2 h3 h4 h6 (by decide) h5 e
  refine ⟨res, g, e, s', a1, (a2 [cl!"g"] (by decide) ?_).trans (by decide +kernel)⟩
  rintro ⟨a, n, b, -, h4, -⟩
  simp at h4

/-- the copy is interrupted there indeed: a directory without the file -/
example : left_ (uCopy frailSys 100 (sAt none [cl!"t"]) (sAt (some ()) [cl!"a"]) true [] true (failAt 50 false 0)).2 (some ()) [cl!"a", cl!"t"] = some .dir ∧
    left_ (uCopy frailSys 100 (sAt none [cl!"t"]) (sAt (some ()) [cl!"a"]) true [] true (failAt 50 false 0)).2 (some ()) [cl!"a", cl!"t", cl!"g"] ≠
      some (.file [1, 2, 3]) := by decide +kernel

/-- the move of the local /t into /a in memory, interrupted while the local files are removed; and again -/
example : ∃ res g, uMove frailSys 100 (sAt none [cl!"t"]) (sAt (some ()) [cl!"a"]) (failAt 79 true 0) = (res, g) ∧
    ∃ s', (s' = g.st ∨ uMove sysOps 100 (sAt none [cl!"t"]) (sAt (some ()) [cl!"a"]) g.st = (.ok (), s')) ∧
      siteV (fun _ : Unit => 0) s' (some ()) [cl!"a", cl!"t", cl!"g"] = some (.file [1, 2, 3]) ∧
      siteV (fun _ : Unit => 0) s' none [cl!"t"] = none := by
  have h1 : Laws.Copyable (sV none) ([] ++ [cl!"t"]) := sCopyable (by decide +kernel) (by decide) (by decide +kernel) (by decide +kernel)
  have h2 : Nm ([cl!"a"] ++ [cl!"t"]) := by decide +kernel
  have h3 : sV (some ()) [cl!"a"] = some .dir := by decide +kernel
  have h4 : sV (some ()) ([cl!"a"] ++ [cl!"t"]) = none := by decide +kernel
  have h5 : ∀ x, sV none ([] ++ [cl!"t"] ++ x) = some .dir → x.length < 100 := sDepth (by decide +kernel)
  have h6 : ¬ (none = some () ∧ [] ++ [cl!"t"] <+: [cl!"a"] ++ [cl!"t"]) := by simp
  obtain ⟨res, g, e, -⟩ := C84_tree unit_inj (f := failAt 79 true 0) sampleSys_ok (.inl rfl) (.inr (by simp)) h1 h2.of_prefix h2 (.into h3)
    (all_prefixes (by decide +kernel)) h4 h6 (depth := 100) (by decide) h5
  obtain ⟨s', a1, -, a2, a3, -⟩ := C89_move_again unit_inj sampleSys_ok (.inl rfl) (.inr (by simp)) h1 h2 h3 h4 h6 (by decide) h5 e
  exact ⟨res, g, e, s', a1, (a2 [cl!"g"]).trans (by decide +kernel), a3 []⟩

end Verif.Props
