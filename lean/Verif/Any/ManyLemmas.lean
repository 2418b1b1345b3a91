import Verif.Any.Many
import Verif.Any.SameMove
/-!
# Several plain file systems: what the trees have at each name
-/
namespace Verif.Any
open Verif.Spec Verif.Gen

namespace Tree

theorem nodup_lay (e : List Str) : ∀ (l : Tree) {t : Tree}, (t.map (·.1)).Nodup → ((t.lay e l).map (·.1)).Nodup
  | [], _, h => h
  | _ :: l, _, h => nodup_set (nodup_lay e l h) _ _

theorem lay_out {e q : List Str} {t : Tree} : ∀ (l : Tree), (∀ x ∈ l, e ++ x.1 ≠ []) → (∀ x ∈ l, e ++ x.1 ≠ q) → (t.lay e l).get q = t.get q
  | [], _, _ => rfl
  | x :: l, h0, h => by
    show ((t.lay e l).set (e ++ x.1) x.2).get q = _
    rw [get_set (h0 x (by simp)), if_neg (fun c => h x (by simp) c.symm)]
    exact lay_out l (fun y hy => h0 y (by simp [hy])) (fun y hy => h y (by simp [hy]))

theorem lay_in {e : List Str} {t : Tree} : ∀ (l : Tree), (∀ x ∈ l, e ++ x.1 ≠ []) → ∀ {x : List Str} {o : Kind}, l.lookup x = some o →
    (t.lay e l).get (e ++ x) = some o
  | [], _, _, _, h => by simp at h
  | y :: l, h0, x, o, h => by
    show ((t.lay e l).set (e ++ y.1) y.2).get (e ++ x) = _
    rw [get_set (h0 y (by simp))]
    rw [List.lookup_cons] at h
    by_cases c : x = y.1
    · subst c
      rw [if_pos rfl]
      simpa using h
    · have : (x == y.1) = false := by simpa using c
      rw [this] at h
      rw [if_neg (fun d => c (List.append_cancel_left d))]
      exact lay_in l (fun z hz => h0 z (by simp [hz])) h

theorem nodup_below {t : Tree} (h : (t.map (·.1)).Nodup) (ig p : List Str) : ((t.below ig p).map (·.1)).Nodup := by
  have h1 : (((t.filter fun x => p <+: x.1 ∧ x.1 ≠ p ∧ ¬ t.Left ig p (x.1.drop p.length))).map (·.1)).Nodup :=
    h.sublist ((List.filter_sublist).map _)
  have e1 : (t.below ig p).map (·.1) =
      ((t.filter fun x => p <+: x.1 ∧ x.1 ≠ p ∧ ¬ t.Left ig p (x.1.drop p.length)).map (·.1)).map (·.drop p.length) := by
    simp [below]
  rw [e1]
  refine List.pairwise_map.2 (h1.imp_of_mem fun {a b} ha hb hne he => hne ?_)
  obtain ⟨x, hx, rfl⟩ := List.mem_map.1 ha
  obtain ⟨y, hy, rfl⟩ := List.mem_map.1 hb
  obtain ⟨⟨a, ha⟩, -⟩ := by simpa using (List.mem_filter.1 hx).2
  obtain ⟨⟨b, hb⟩, -⟩ := by simpa using (List.mem_filter.1 hy).2
  rw [← ha, ← hb, List.drop_left, List.drop_left] at he
  rw [← ha, ← hb, he]

theorem lookup_below {t : Tree} (h : (t.map (·.1)).Nodup) {ig p x : List Str} {o : Kind} :
    (t.below ig p).lookup x = some o ↔ x ≠ [] ∧ ¬ t.Left ig p x ∧ t.lookup (p ++ x) = some o := by
  rw [lookup_nodup (nodup_below h ig p), lookup_nodup h]
  constructor
  · intro hm
    obtain ⟨y, hy, he⟩ := List.mem_map.1 hm
    obtain ⟨h1, h2⟩ := List.mem_filter.1 hy
    obtain ⟨⟨a, ha⟩, h3, h4⟩ := by simpa using h2
    obtain ⟨rfl, rfl⟩ := by simpa using he
    rw [← ha, List.drop_left] at h4 ⊢
    refine ⟨?_, h4, ?_⟩
    · rintro rfl; rw [List.append_nil] at ha; exact h3 ha.symm
    · rw [ha]; exact h1
  · rintro ⟨h1, h2, h3⟩
    refine List.mem_map.2 ⟨(p ++ x, o), List.mem_filter.2 ⟨h3, ?_⟩, by simp⟩
    simpa [h1] using h2

theorem mem_below {t : Tree} (h : (t.map (·.1)).Nodup) {ig p : List Str} {x : List Str × Kind} (hx : x ∈ t.below ig p) :
    x.1 ≠ [] ∧ ¬ t.Left ig p x.1 ∧ t.lookup (p ++ x.1) = some x.2 :=
  (lookup_below h).1 ((lookup_nodup (nodup_below h ig p)).2 hx)

theorem lookup_way {e a : List Str} (h : a <+: e) (h0 : a ≠ []) : (way e).lookup a = some .dir := by
  have key : ∀ l : List (List Str), a ∈ l → (l.map fun a => (a, Kind.dir)).lookup a = some .dir := by
    intro l hl
    induction l with
    | nil => simp at hl
    | cons b l ih =>
      rw [List.map_cons, List.lookup_cons]
      by_cases c : a = b
      · simp [c]
      · have : (a == b) = false := by simpa using c
        rw [this]
        exact ih (by simpa [c] using hl)
  exact key _ (List.mem_filter.2 ⟨(List.mem_inits _ _).2 h, by simpa using h0⟩)

theorem mem_way {e : List Str} {x : List Str × Kind} (h : x ∈ way e) : x.1 <+: e ∧ x.1 ≠ [] := by
  obtain ⟨a, ha, rfl⟩ := List.mem_map.1 h
  obtain ⟨h1, h2⟩ := List.mem_filter.1 ha
  exact ⟨(List.mem_inits _ _).1 h1, by simpa using h2⟩

section
variable {t t' : Tree} {ig p e : List Str} (h : (t.map (·.1)).Nodup)
include h

theorem below_ne (e : List Str) : ∀ x ∈ t.below ig p, e ++ x.1 ≠ [] := by
  intro x hx c
  exact (mem_below h hx).1 (List.append_eq_nil_iff.1 c).2

theorem over_in {x : List Str} (hx : x ≠ []) (hl : ¬ t.Left ig p x) (hv : t.get (p ++ x) ≠ none) :
    (t.over ig p t' e).get (e ++ x) = t.get (p ++ x) := by
  rw [get_ne (by simp [hx])] at hv
  rw [get_ne (p := p ++ x) (by simp [hx])]
  cases ho : t.lookup (p ++ x) with
  | none => exact absurd ho hv
  | some o => exact lay_in (e := e) (t := t'.lay [] (way e)) (t.below ig p) (below_ne h e) ((lookup_below h).2 ⟨hx, hl, ho⟩)

theorem over_keep {x : List Str} (hx : x ≠ []) (hl : t.Left ig p x ∨ t.get (p ++ x) = none) :
    (t.over ig p t' e).get (e ++ x) = t'.get (e ++ x) := by
  unfold over
  rw [lay_out _ (below_ne h e), lay_out]
  · intro y hy; simpa using (mem_way hy).2
  · intro y hy c
    rw [List.nil_append] at c
    have := (mem_way hy).1.length_le
    rw [c, List.length_append] at this
    exact hx (List.eq_nil_of_length_eq_zero (by omega))
  · intro y hy c
    obtain ⟨h1, h2, h3⟩ := mem_below h hy
    rw [List.append_cancel_left c] at h2 h3
    rcases hl with hl | hl
    · exact h2 hl
    · rw [get_ne (by simp [hx]), h3] at hl
      simp at hl

theorem over_way {a : List Str} (ha : a <+: e) : (t.over ig p t' e).get a = some .dir := by
  by_cases h0 : a = []
  · rw [h0, get_nil]
  unfold over
  rw [lay_out _ (below_ne h e)]
  · have := lay_in (e := []) (t := t') (way e) (fun y hy => by simpa using (mem_way hy).2) (lookup_way ha h0)
    simpa using this
  · intro y hy c
    have := ha.length_le
    rw [← c, List.length_append] at this
    exact (mem_below h hy).1 (List.eq_nil_of_length_eq_zero (by omega))

theorem over_far {q : List Str} (h1 : ¬ q <+: e) (h2 : ¬ e <+: q) : (t.over ig p t' e).get q = t'.get q := by
  unfold over
  rw [lay_out _ (below_ne h e), lay_out]
  · intro y hy; simpa using (mem_way hy).2
  · intro y hy c
    rw [List.nil_append] at c
    exact h1 (c ▸ (mem_way hy).1)
  · intro y hy c
    exact h2 (c ▸ List.prefix_append _ _)

end

theorem nodup_over {t t' : Tree} (h : (t'.map (·.1)).Nodup) (ig p e : List Str) : ((t.over ig p t' e).map (·.1)).Nodup :=
  nodup_lay _ _ (nodup_lay _ _ h)

theorem nodup_cut {t : Tree} (h : (t.map (·.1)).Nodup) (p : List Str) : ((t.cut p).map (·.1)).Nodup :=
  (List.filter_sublist.map _).nodup h

theorem get_cut {t : Tree} (h : (t.map (·.1)).Nodup) {p q : List Str} (hp : p ≠ []) : (t.cut p).get q = if p <+: q then none else t.get q := by
  by_cases hq : q = []
  · subst hq
    rw [if_neg (fun c => hp (List.prefix_nil.1 c))]; rfl
  rw [get_ne hq, get_ne hq]
  refine Option.ext fun o => ?_
  rw [lookup_nodup (nodup_cut h p)]
  unfold cut
  rw [List.mem_filter, ← lookup_nodup h]
  split
  · rename_i c; simp [c]
  · rename_i c; simp [c]

end Tree
end Verif.Any
