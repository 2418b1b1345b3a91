import Verif.Any.Says
import Verif.Any.ManyLemmas
import Verif.Gen.WalkLemmas
/-! # The order of the directories, and their list -/
namespace Verif.Any
open Verif.Spec Verif.Gen

theorem Order.trans {td : Bool} : ∀ {a b c : List Str}, Order td a b → Order td b c → Order td a c
  | [], [], _, h, _ => absurd h id
  | [], _ :: _, [], h, h' => by simp only [Order] at h h'; rw [h] at h'; cases h'
  | [], _ :: _, _ :: _, h, _ => h
  | _ :: _, [], [], _, h' => absurd h' id
  | _ :: _, [], _ :: _, h, h' => by simp only [Order] at h h'; rw [h] at h'; cases h'
  | _ :: _, _ :: _, [], _, h' => h'
  | _ :: _, _ :: _, _ :: _, .inl h, .inl h' =>
    .inl ⟨strLe_trans h.1 h'.1, fun c => h'.2 (strLe_antisymm h'.1 (c ▸ h.1))⟩
  | _ :: _, _ :: _, _ :: _, .inl h, .inr h' => .inl (h'.1 ▸ h)
  | _ :: _, _ :: _, _ :: _, .inr h, .inl h' => .inl (h.1 ▸ h')
  | _ :: _, _ :: _, _ :: _, .inr h, .inr h' => .inr ⟨h.1.trans h'.1, Order.trans h.2 h'.2⟩

theorem comes_order {td : Bool} : ∀ {a b : List Str}, comes td a b = true → a ≠ b → Order td a b
  | [], [], _, c => absurd rfl c
  | [], _ :: _, h, _ => h
  | _ :: _, [], h, _ => by simpa [comes, Order] using h
  | a :: x, b :: y, h, c => by
    by_cases e : a = b
    · rw [comes, if_pos e] at h
      exact .inr ⟨e, comes_order h fun d => c (by rw [e, d])⟩
    · rw [comes, if_neg e] at h
      exact .inl ⟨h, e⟩

theorem not_comes {td : Bool} : ∀ {a b : List Str}, comes td a b = false → Order td b a
  | [], [], h => by simp [comes] at h
  | [], _ :: _, h => by simpa [comes, Order] using h
  | _ :: _, [], h => by simpa [comes, Order] using h
  | a :: x, b :: y, h => by
    by_cases e : a = b
    · rw [comes, if_pos e] at h
      exact .inr ⟨e.symm, not_comes h⟩
    · rw [comes, if_neg e] at h
      exact .inl ⟨(strLe_total a b).resolve_left (by rw [h]; simp), fun c => e c.symm⟩

theorem mem_putIn {td : Bool} {a x : List Str} : ∀ {l : List (List Str)}, x ∈ putIn td a l ↔ x = a ∨ x ∈ l
  | [] => by simp [putIn]
  | b :: l => by
    unfold putIn
    split
    · simp
    · rw [List.mem_cons, mem_putIn, List.mem_cons]
      tauto

theorem mem_inOrder {td : Bool} {x : List Str} : ∀ {l : List (List Str)}, x ∈ inOrder td l ↔ x ∈ l
  | [] => by simp [inOrder]
  | b :: l => by
    show x ∈ putIn td b (inOrder td l) ↔ _
    rw [mem_putIn, mem_inOrder, List.mem_cons]

theorem putIn_sorted {td : Bool} {a : List Str} : ∀ {l : List (List Str)}, a ∉ l → l.Pairwise (Order td) → (putIn td a l).Pairwise (Order td)
  | [], _, _ => by simp [putIn]
  | b :: l, hn, h => by
    rw [List.mem_cons, not_or] at hn
    obtain ⟨h1, h2⟩ := List.pairwise_cons.1 h
    unfold putIn
    split
    · rename_i c
      have hab := comes_order c hn.1
      refine List.pairwise_cons.2 ⟨fun x hx => ?_, h⟩
      rcases List.mem_cons.1 hx with rfl | hx
      · exact hab
      · exact Order.trans hab (h1 x hx)
    · rename_i c
      rw [Bool.not_eq_true] at c
      refine List.pairwise_cons.2 ⟨fun x hx => ?_, putIn_sorted hn.2 h2⟩
      rcases mem_putIn.1 hx with rfl | hx
      · exact not_comes c
      · exact h1 x hx

theorem inOrder_sorted {td : Bool} : ∀ {l : List (List Str)}, l.Nodup → (inOrder td l).Pairwise (Order td)
  | [], _ => by simp [inOrder]
  | b :: l, h => by
    obtain ⟨h1, h2⟩ := List.nodup_cons.1 h
    exact putIn_sorted (fun c => h1 (mem_inOrder.1 c)) (inOrder_sorted h2)

/-- there is only one way to visit the directories in order -/
theorem order_ext {td : Bool} : ∀ {l m : List (List Str)}, l.Pairwise (Order td) → m.Pairwise (Order td) → (∀ x, x ∈ l ↔ x ∈ m) → l = m
  | [], [], _, _, _ => rfl
  | [], b :: _, _, _, h => absurd ((h b).2 (by simp)) (by simp)
  | a :: _, [], _, _, h => absurd ((h a).1 (by simp)) (by simp)
  | a :: l, b :: m, h1, h2, h => by
    obtain ⟨a1, a2⟩ := List.pairwise_cons.1 h1
    obtain ⟨b1, b2⟩ := List.pairwise_cons.1 h2
    have e : a = b := by
      rcases List.mem_cons.1 ((h a).1 (by simp)) with c | c
      · exact c
      rcases List.mem_cons.1 ((h b).2 (by simp)) with d | d
      · exact d.symm
      exact absurd (Order.trans (a1 b d) (b1 a c)) Order.irrefl
    subst e
    rw [order_ext a2 b2 fun x => ?_]
    have := h x
    rw [List.mem_cons, List.mem_cons] at this
    constructor
    · intro c
      rcases this.1 (.inr c) with d | d
      · exact absurd (d ▸ a1 x c) Order.irrefl
      · exact d
    · intro c
      rcases this.2 (.inr c) with d | d
      · exact absurd (d ▸ b1 x c) Order.irrefl
      · exact d

namespace Tree
variable {t : Tree}

theorem mem_dirs (h : (t.map (·.1)).Nodup) {p x : List Str} : x ∈ t.dirs p ↔ p <+: x ∧ t.get x = some .dir := by
  unfold dirs
  rw [List.mem_append]
  by_cases hx : x = []
  · subst hx
    have : t.get [] = some .dir := rfl
    constructor
    · rintro (c | c)
      · split at c
        · rename_i e; exact ⟨by rw [e], rfl⟩
        · simp at c
      · obtain ⟨e, he, e1⟩ := List.mem_map.1 c
        have := (List.mem_filter.1 he).2
        simp [e1] at this
    · rintro ⟨c, -⟩
      have : p = [] := by simpa using c
      rw [if_pos this]
      simp
  · rw [get_ne hx]
    constructor
    · rintro (c | c)
      · split at c
        · simp at c; exact absurd c hx
        · simp at c
      · obtain ⟨⟨y, o⟩, he, e1⟩ := List.mem_map.1 c
        obtain ⟨h1, h2⟩ := List.mem_filter.1 he
        simp only [decide_eq_true_eq] at h2 e1
        subst e1
        refine ⟨h2.2.1, ?_⟩
        rw [(lookup_nodup h).2 h1]
        cases o <;> simp_all [isD]
    · rintro ⟨c, d⟩
      refine .inr (List.mem_map.2 ⟨(x, .dir), List.mem_filter.2 ⟨(lookup_nodup h).1 d, ?_⟩, rfl⟩)
      simp [hx, c, isD]

theorem nodup_dirs (h : (t.map (·.1)).Nodup) (p : List Str) : (t.dirs p).Nodup := by
  unfold dirs
  have h2 : ((t.filter fun x => x.1 ≠ [] ∧ p <+: x.1 ∧ isD (some x.2) = true).map (·.1)).Nodup :=
    h.sublist (List.filter_sublist.map _)
  split
  · refine List.nodup_append.2 ⟨by simp, h2, ?_⟩
    rintro x hx y hy rfl
    rw [List.mem_singleton] at hx
    subst hx
    obtain ⟨e, he, e1⟩ := List.mem_map.1 hy
    have := (List.mem_filter.1 he).2
    simp [e1] at this
  · simpa using h2

/-- the walk over a tree -/
theorem dirs_walk (h : (t.map (·.1)).Nodup) {td : Bool} {p : List Str} {ps : List (List Str)} (h1 : ∀ x, x ∈ ps ↔ p <+: x ∧ t.get x = some .dir)
    (h2 : ps.Pairwise (Order td)) : ps = inOrder td (t.dirs p) :=
  order_ext h2 (inOrder_sorted (nodup_dirs h p)) fun x => by rw [h1, mem_inOrder, mem_dirs h]

theorem lay_way_get {p q : List Str} : (t.lay [] (way p)).get q = if q <+: p then some .dir else t.get q := by
  split
  · rename_i c
    by_cases h0 : q = []
    · subst h0; rfl
    · have := lay_in (e := []) (t := t) (way p) (fun x hx => by simpa using (mem_way hx).2) (lookup_way c h0)
      simpa using this
  · rename_i c
    exact lay_out (way p) (fun x hx => by simpa using (mem_way hx).2) fun x hx e => c (by
      have := (mem_way hx).1
      rw [List.nil_append] at e
      rwa [e] at this)

end Tree

end Verif.Any
