import Verif.Any.SameAlg
import Verif.Props.LocalMove
/-!
# A file system of the repository and the plain file system: moving

A memory file system copies and removes (fs.py:986-995), local files are renamed (localfs.py:129-150): the tree is the same.
-/
namespace Verif.Any
open Verif.Spec Verif.Gen
open Verif.Props (Named ToDir C98_into C98_rename C98_replace C79_file C79_tree site_wc)

namespace Tree

theorem shift_nodup {t : Tree} (h : (t.map (·.1)).Nodup) (p e : List Str) : ((t.shift p e).map (·.1)).Nodup := by
  have h1 : ((t.filter fun x => ¬ e <+: x.1).map (·.1)).Nodup := h.sublist ((List.filter_sublist).map _)
  have e1 : (t.shift p e).map (·.1) = ((t.filter fun x => ¬ e <+: x.1).map (·.1)).map (rebase p e) := by
    simp [shift, rebase]
  rw [e1]
  refine List.pairwise_map.2 (h1.imp_of_mem fun {a b} ha hb hne he => hne ?_)
  obtain ⟨x, hx, rfl⟩ := List.mem_map.1 ha
  obtain ⟨y, hy, rfl⟩ := List.mem_map.1 hb
  exact rebase_inj (by simpa using (List.mem_filter.1 hx).2) (by simpa using (List.mem_filter.1 hy).2) he

theorem lookup_shift {t : Tree} (h : (t.map (·.1)).Nodup) {p e q : List Str} {o : Kind} :
    (t.shift p e).lookup q = some o ↔ ∃ a, t.lookup a = some o ∧ ¬ e <+: a ∧ q = rebase p e a := by
  rw [lookup_nodup (shift_nodup h p e)]
  constructor
  · intro hm
    obtain ⟨⟨a, o'⟩, ha, he⟩ := List.mem_map.1 hm
    obtain ⟨rfl, rfl⟩ := by simpa using he
    obtain ⟨h1, h2⟩ := List.mem_filter.1 ha
    exact ⟨a, (lookup_nodup h).2 h1, by simpa using h2, rfl⟩
  · rintro ⟨a, h1, h2, rfl⟩
    exact List.mem_map.2 ⟨(a, o), List.mem_filter.2 ⟨(lookup_nodup h).1 h1, by simpa using h2⟩, rfl⟩

theorem get_shift {t : Tree} (h : (t.map (·.1)).Nodup) {p e : List Str} (h1 : ¬ p <+: e) (h2 : ¬ e <+: p) :
    (∀ x, (t.shift p e).get (e ++ x) = t.get (p ++ x)) ∧ (∀ q, p <+: q → ¬ e <+: q → (t.shift p e).get q = none) ∧
    ∀ q, ¬ p <+: q → ¬ e <+: q → (t.shift p e).get q = t.get q := by
  have hp : p ≠ [] := by rintro rfl; exact h1 List.nil_prefix
  have he : e ≠ [] := by rintro rfl; exact h2 List.nil_prefix
  refine ⟨fun x => ?_, fun q hq hq' => ?_, fun q hq hq' => ?_⟩
  · rw [get_ne (by simp [he]), get_ne (by simp [hp])]
    apply Option.ext
    intro o
    rw [lookup_shift h]
    constructor
    · rintro ⟨a, ha, hn, hr⟩
      unfold rebase at hr
      split at hr
      · rename_i hpa
        obtain ⟨y, rfl⟩ := hpa
        rw [List.drop_left] at hr
        rw [List.append_cancel_left hr]; exact ha
      · exact absurd ⟨x, hr⟩ hn
    · intro ho
      refine ⟨p ++ x, ho, fun c => ?_, ?_⟩
      · rcases prefix_cases c (List.prefix_append p x) with c | c
        · exact h2 c
        · exact h1 c
      · unfold rebase
        rw [if_pos (List.prefix_append _ _), List.drop_left]
  · rw [get_ne (by rintro rfl; exact hp (List.prefix_nil.1 hq))]
    by_contra hc
    obtain ⟨o, ho⟩ := Option.ne_none_iff_exists'.1 hc
    obtain ⟨a, -, hn, hr⟩ := (lookup_shift h).1 ho
    unfold rebase at hr
    split at hr
    · exact hq' ⟨_, hr.symm⟩
    · rename_i hpa; exact hpa (hr ▸ hq)
  · by_cases hne : q = []
    · subst hne; rfl
    · rw [get_ne hne, get_ne hne]
      apply Option.ext
      intro o
      rw [lookup_shift h]
      constructor
      · rintro ⟨a, ha, hn, hr⟩
        unfold rebase at hr
        split at hr
        · exact absurd ⟨_, hr.symm⟩ hq'
        · rw [hr]; exact ha
      · intro ho
        refine ⟨q, ho, hq', ?_⟩
        unfold rebase
        rw [if_neg hq]

end Tree

section
variable {ι : Type} {E : ι → Dict} {r : ι → Nat} {k : Option ι} {F : Option ι → List Str → Option Kind} (hr : Function.Injective r)
include hr

/-- moving in any place, in terms of what is there -/
theorem site_move {s : Sys} (h : SysOk E r s) {a q e : List Str} {n m : Str} (hp : Nm (a ++ [n])) (hq : Nm q) (he : Nm (e ++ [m]))
    (hv : siteV r s k (a ++ [n]) ≠ none)
    (ht : (siteV r s k q = some .dir ∧ e = q ∧ m = n) ∨ (siteV r s k q ≠ some .dir ∧ q = e ++ [m]))
    (hsub : ∀ x, siteV r s k (a ++ [n] ++ x) ≠ none → Fit (a ++ [n] ++ x)) (hlink : ∀ x, siteV r s k (a ++ [n] ++ x) ≠ some .other)
    (h1 : ¬ a ++ [n] <+: e ++ [m]) (h2 : ¬ e ++ [m] <+: a ++ [n]) (hd : siteV r s k e = some .dir)
    (hf : siteV r s k (e ++ [m]) = none ∨ (isF (siteV r s k (e ++ [m])) = true ∧ isF (siteV r s k (a ++ [n])) = true ∧ q = e ++ [m]))
    {depth : Nat} (hl : (e ++ [m]).length < depth) (hh : ∀ x, siteV r s k (a ++ [n] ++ x) ≠ none → x.length < depth) :
    ∃ s', uMove sysOps depth (siteAt E k (a ++ [n])) (siteAt E k q) s = (.ok (), s') ∧ SysOk E r s' ∧
      (∀ x, siteV r s' k (e ++ [m] ++ x) = siteV r s k (a ++ [n] ++ x)) ∧
      (∀ x, a ++ [n] <+: x → ¬ e ++ [m] <+: x → siteV r s' k x = none) ∧
      (∀ x, ¬ a ++ [n] <+: x → ¬ e ++ [m] <+: x → siteV r s' k x = siteV r s k x) ∧ (∀ j, j ≠ k → siteV r s' j = siteV r s j) ∧
      (k = none → ∀ x, ¬ a ++ [n] <+: x → ¬ e ++ [m] <+: x → s'.disk.tree x = s.disk.tree x) := by
  cases k with
  | none =>
    have hob : ∃ o, s.disk.tree (a ++ [n]) = some o := Option.ne_none_iff_exists'.1 (fun c => hv (siteV_lnone.2 c))
    obtain ⟨o, ho⟩ := hob
    have hN : Named s.disk (a ++ [n]) (a ++ [n]) o := ⟨hp, hp, ⟨0, by omega, .here _⟩, ho⟩
    have hT : ∀ {x}, Nm x → siteV r s none x = some .dir → ToDir s.disk x x := fun hx hd =>
      ⟨hx, hx, ⟨0, by omega, .here _⟩, siteV_ldir.1 hd⟩
    suffices fin : ∃ s', uMove sysOps depth (siteAt E none (a ++ [n])) (siteAt E none q) s = (.ok (), s') ∧ SysOk E r s' ∧ s'.mem = s.mem ∧
        Shifted s.disk s'.disk (a ++ [n]) (e ++ [m]) by
      obtain ⟨s', b1, b2, b3, b4⟩ := fin
      refine ⟨s', b1, b2, fun x => ?_, fun x c1 c2 => ?_, fun x c1 c2 => ?_, fun j hj => ?_, fun _ x c1 c2 => b4.rest x c1 c2⟩
      · simp only [siteV, b4.there]
      · simp only [siteV, b4.gone x c1 c2]; rfl
      · simp only [siteV, b4.rest x c1 c2]
      · cases j with
        | none => exact absurd rfl hj
        | some i => simp only [siteV, b3]
    rcases ht with ⟨g1, rfl, rfl⟩ | ⟨g1, rfl⟩
    · have hnone : siteV r s none (e ++ [m]) = none := by
        rcases hf with hf | ⟨-, -, hf⟩
        · exact hf
        · exact absurd (congrArg List.length hf) (by simp)
      exact C98_into h hN (hT hq g1) he (siteV_lnone.1 hnone) (fun c => h1 (c.trans (List.prefix_append _ _))) depth
    · rcases hf with hf | ⟨hf1, hf2, -⟩
      · exact C98_rename h hN (hT he.of_prefix hd) he (siteV_lnone.1 hf) h1 depth
      · have fi : ∀ {x}, isF (siteV r s none x) = true → ∃ pm d, s.disk.tree x = some (.file pm d) := by
          intro x hx
          cases hg : siteV r s none x with
          | none => rw [hg] at hx; simp [isF] at hx
          | some y =>
            cases y with
            | dir => rw [hg] at hx; simp [isF] at hx
            | other => rw [hg] at hx; simp [isF] at hx
            | file d =>
              obtain ⟨pm, hpm⟩ := siteV_lfile.1 hg
              exact ⟨pm, d, hpm⟩
        obtain ⟨pm1, d1, g2⟩ := fi hf1
        obtain ⟨pm2, d2, g3⟩ := fi hf2
        have ho' : isDirD (some o) = false := by rw [← ho, g3]; rfl
        refine C98_replace h hN ho' (hT he.of_prefix hd) he g2 ?_ (fun c => h1 (c ▸ List.prefix_refl _)) depth
        have hc : Clear (siteV r s none) (e ++ [m]) :=
          (sysLaws E r hr).clear_of h (k := none) (by show siteV r s none (e ++ [m]) ≠ none; rw [siteV_lfile.2 ⟨_, g2⟩]; simp) (by
            show siteV r s none (e ++ [m]) ≠ some .other; rw [siteV_lfile.2 ⟨_, g2⟩]; simp)
        refine (site_wc h (k := none) he _ _).trans ?_
        rw [site_isdir h he hc, siteV_lfile.2 ⟨_, g2⟩]; rfl
  | some i =>
    cases hg : siteV r s (some i) (a ++ [n]) with
    | none => exact absurd hg hv
    | some y =>
      cases y with
      | other => exact absurd hg (by simpa using hlink [])
      | file d =>
        have hT : FileTarget (siteV r s (some i)) q n (e ++ [m]) := by
          rcases ht with ⟨g1, rfl, rfl⟩ | ⟨g1, rfl⟩
          · exact .into g1
          · exact .at_ g1
        have hf' : siteV r s (some i) (e ++ [m]) = none ∨ isF (siteV r s (some i) (e ++ [m])) = true := hf.imp id fun c => c.1
        have leaf : ∀ {z}, (siteV r s (some i) z = none ∨ isF (siteV r s (some i) z) = true) → ∀ x, x ≠ [] → siteV r s (some i) (z ++ x) = none := by
          intro z hz x hx
          by_contra hc
          have := (sysLaws E r hr).above h (k := some i) (cs := z ++ x) hc z (List.prefix_append _ _) (by simp [hx])
          change siteV r s (some i) z = some .dir at this
          rw [this] at hz
          simp [isF] at hz
        obtain ⟨s', b1, b2, b3, b4, b5⟩ := C79_file hr h (k := some i) (k' := some i) (.inr (.inr rfl)) (.inl (by simp)) hp hg hq he hT hd hf'
          (fun c => h1 (c.2 ▸ List.prefix_refl _)) depth
        refine ⟨s', b1, b2, fun x => ?_, fun x c1 c2 => ?_, fun x c1 c2 => ?_, fun j hj => ?_, fun c => by simp at c⟩
        · by_cases hx : x = []
          · subst hx; rw [List.append_nil, List.append_nil, b3, hg]
          · rw [leaf (.inr (by rw [hg]; rfl)) x hx, b5 (some i) _ (by simp [hx]) ?_, leaf hf' x hx]
            rintro ⟨-, c⟩
            exact h2 (c ▸ List.prefix_append _ _)
        · by_cases hx : x = a ++ [n]
          · rw [hx, b4]
          · rw [b5 (some i) x (fun c => c2 (c.2 ▸ List.prefix_refl _)) (fun c => hx c.2)]
            obtain ⟨y, rfl⟩ := c1
            exact leaf (.inr (by rw [hg]; rfl)) y (by rintro rfl; simp at hx)
        · exact b5 (some i) x (fun c => c2 (c.2 ▸ List.prefix_refl _)) (fun c => c1 (c.2 ▸ List.prefix_refl _))
        · funext x
          exact b5 j x (fun c => hj c.1) (fun c => hj c.1)
      | dir =>
        have hnone : siteV r s (some i) (e ++ [m]) = none := by
          rcases hf with hf | ⟨-, hf, -⟩
          · exact hf
          · rw [hg] at hf; simp [isF] at hf
        have hT : Target (siteV r s (some i)) q n (e ++ [m]) := by
          rcases ht with ⟨g1, rfl, rfl⟩ | ⟨g1, rfl⟩
          · exact .into g1
          · exact .new hnone
        have H : Laws.Copyable (siteV r s (some i)) (a ++ [n]) :=
          ⟨⟨fun x hx => (hsub x hx).nm, fun x => hlink _⟩, by simp, hg, fun x y hy => by
            rw [List.append_assoc] at hy
            exact (hsub (x ++ [y]) (by rw [hy]; simp)).trim y (by simp)⟩
        have above : ∀ x, x <+: e → siteV r s (some i) x = some .dir := by
          intro x hx
          by_cases c : x = e
          · rw [c, hd]
          · exact (sysLaws E r hr).above h (k := some i) (cs := e) (by show siteV r s (some i) e ≠ none; rw [hd]; simp) x hx c
        have pre : ∀ x, x <+: e ++ [m] → x <+: e ∨ x = e ++ [m] := fun x hx => prefix_snoc_iff.1 hx
        obtain ⟨s', b1, b2, b3, b4, b5, b6⟩ := C79_tree hr h (k := some i) (k' := some i) (.inr (.inr rfl)) (.inl (by simp)) H hq he hT
          (fun x hx => by
            rcases pre x hx with c | c
            · exact .inl (above x c)
            · rw [c]; exact .inr hnone) hnone (fun c => h1 c.2) hl (fun x hx => hh x (by rw [hx]; simp))
        refine ⟨s', b1, b2, b3, fun x c1 c2 => ?_, fun x c1 c2 => ?_, fun j hj => ?_, fun c => by simp at c⟩
        · obtain ⟨y, rfl⟩ := c1
          exact b4 y
        · by_cases c3 : x <+: e ++ [m]
          · rw [b5 x c3]
            rcases pre x c3 with c | c
            · rw [above x c]
            · exact absurd (c ▸ List.prefix_refl _) c2
          · exact b6 (some i) x (fun c => c.2.elim c3 c2) (fun c => c1 c.2)
        · funext x
          exact b6 j x (fun c => hj c.1) (fun c => hj c.1)

theorem alike_move (depth : Nat) {p q : List Str} (hne : p ≠ []) (hp : Fit p) (hq : Fit q) (hqn : Fit (q ++ [p.getLastD []])) :
    Alike E r k F (fun _ _ => True) (pMove depth (pAt p) (pAt q)) (uMove sysOps depth (siteAt E k p) (siteAt E k q)) := by
  rcases List.eq_nil_or_concat p with rfl | ⟨a, n, rfl⟩
  · exact absurd rfl hne
  rw [List.concat_eq_append] at *
  intro t s h
  unfold pMove
  rw [pAt_comps hp.nm, pAt_comps hq.nm]
  dsimp only
  have hqn : Fit (q ++ [n]) := by simpa using hqn
  split
  · rename_i hc
    obtain ⟨c1, c2, c3, c4, c5, c6, c7⟩ := hc
    have hfe : Fit (t.dest (a ++ [n]) q) := by
      unfold Tree.dest
      split
      · simpa using hqn
      · exact hq
    have hte : (t.get q = some .dir ∧ t.dest (a ++ [n]) q = q ++ [n]) ∨ (t.get q ≠ some .dir ∧ t.dest (a ++ [n]) q = q) := by
      unfold Tree.dest
      split
      · rename_i c; exact .inl ⟨c, by simp⟩
      · rename_i c; exact .inr ⟨c, rfl⟩
    revert c2 c3 c4 c5 c6 hfe hte
    generalize t.dest (a ++ [n]) q = e'
    intro c2 c3 c4 c5 c6 hfe hte
    rcases List.eq_nil_or_concat e' with rfl | ⟨e, m, rfl⟩
    · exact absurd List.nil_prefix c3
    rw [List.concat_eq_append] at *
    rw [List.dropLast_concat] at c4
    obtain ⟨s', b1, b2, b3, b4, b5, b6, -⟩ := site_move (k := k) hr h.ok (n := n) (m := m) (a := a) (e := e) (q := q) hp.nm hq.nm hfe.nm
      (by rw [h.here]; exact c1)
      (by
        rw [h.here]
        rcases hte with ⟨g1, g2⟩ | ⟨g1, g2⟩
        · obtain ⟨g3, g4⟩ := List.append_inj' g2 rfl
          exact .inl ⟨g1, g3, by simpa using g4⟩
        · exact .inr ⟨g1, g2.symm⟩)
      (fun x hx => h.fit _ (by rw [← h.here]; exact hx)) (fun x => by rw [h.here]; exact h.noLink _) c2 c3 (by rw [h.here]; exact c4)
      (by
        rw [h.here, h.here]
        rcases c5 with c5 | ⟨g1, g2, g3⟩
        · exact .inl c5
        · exact .inr ⟨g1, g2, g3.symm⟩) c6
      (fun x hx => by
        rw [h.here, Tree.get_ne (by simp)] at hx
        obtain ⟨y, hy, hyx⟩ := (lookup_isSome t _).2 hx
        have := c7 y hy (by rw [hyx]; exact List.prefix_append _ _)
        rw [hyx] at this
        simp only [List.length_append] at this
        omega)
    rw [b1]
    obtain ⟨g1, g2, g3⟩ := Tree.get_shift h.keys c2 c3
    have cases3 : ∀ x, (∃ y, x = e ++ [m] ++ y) ∨ (a ++ [n] <+: x ∧ ¬ e ++ [m] <+: x) ∨ (¬ a ++ [n] <+: x ∧ ¬ e ++ [m] <+: x) := by
      intro x
      by_cases d1 : e ++ [m] <+: x
      · obtain ⟨y, rfl⟩ := d1; exact .inl ⟨y, rfl⟩
      · by_cases d2 : a ++ [n] <+: x
        · exact .inr (.inl ⟨d2, d1⟩)
        · exact .inr (.inr ⟨d2, d1⟩)
    refine .ok trivial ⟨b2, fun x => ?_, fun j hj => by rw [b6 j hj, h.there j hj], Tree.shift_nodup h.keys _ _, fun x hx => ?_, fun x => ?_⟩
    · rcases cases3 x with ⟨y, rfl⟩ | ⟨d1, d2⟩ | ⟨d1, d2⟩
      · rw [b3, g1, h.here]
      · rw [b4 x d1 d2, g2 x d1 d2]
      · rw [b5 x d1 d2, g3 x d1 d2, h.here]
    · rcases cases3 x with ⟨y, rfl⟩ | ⟨d1, d2⟩ | ⟨d1, d2⟩
      · rw [g1] at hx
        exact hfe.append (by simp) (h.fit _ hx)
      · rw [g2 x d1 d2] at hx; exact absurd rfl hx
      · rw [g3 x d1 d2] at hx; exact h.fit x hx
    · rcases cases3 x with ⟨y, rfl⟩ | ⟨d1, d2⟩ | ⟨d1, d2⟩
      · rw [g1]; exact h.noLink _
      · rw [g2 x d1 d2]; simp
      · rw [g3 x d1 d2]; exact h.noLink _
  · exact .out _ _

end
end Verif.Any
