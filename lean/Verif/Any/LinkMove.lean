import Verif.Any.LinkCopy
import Verif.Any.SameMove
import Verif.Props.MoveInv
/-!
# A file system of the repository and the plain file system with links: moving

`move` of fs.py and of localfs.py (Verif/Any/Ops.lean, Verif/Any/LocMove.lean) of what has no links in it, by paths that lead over
no links, is that of Verif/Any/LinkPlain.lean; links elsewhere stay as they are.
-/
namespace Verif.Any
open Verif.Spec Verif.Gen Verif.Props
open Mem (World Meth Inv)

namespace LTree

theorem get_ne {t : LTree} {p : List Str} (h : p ≠ []) : t.get p = t.lookup p := if_neg h

theorem shift_nodup {t : LTree} (h : (t.map (·.1)).Nodup) (p e : List Str) : ((t.shift p e).map (·.1)).Nodup := by
  have h1 : ((t.filter fun x => ¬ e <+: x.1).map (·.1)).Nodup := h.sublist ((List.filter_sublist).map _)
  have e1 : (t.shift p e).map (·.1) = ((t.filter fun x => ¬ e <+: x.1).map (·.1)).map (rebase p e) := by
    simp [shift, rebase]
  rw [e1]
  refine List.pairwise_map.2 (h1.imp_of_mem fun {a b} ha hb hne he => hne ?_)
  obtain ⟨x, hx, rfl⟩ := List.mem_map.1 ha
  obtain ⟨y, hy, rfl⟩ := List.mem_map.1 hb
  exact rebase_inj (by simpa using (List.mem_filter.1 hx).2) (by simpa using (List.mem_filter.1 hy).2) he

theorem lookup_shift {t : LTree} (h : (t.map (·.1)).Nodup) {p e q : List Str} {o : LKind} :
    (t.shift p e).lookup q = some o ↔ ∃ a, t.lookup a = some o ∧ ¬ e <+: a ∧ q = rebase p e a := by
  rw [lookup_nodup (shift_nodup h p e)]
  constructor
  · intro hm
    obtain ⟨⟨a, o'⟩, ha, he⟩ := List.mem_map.1 hm
    obtain ⟨rfl, rfl⟩ := by simpa using he
    obtain ⟨h1, h2⟩ := List.mem_filter.1 ha
    exact ⟨a, (lookup_nodup h).2 h1, by simpa using h2, rfl⟩
  · rintro ⟨a, h1, h2, rfl⟩
    exact List.mem_map.2 ⟨(a, o), List.mem_filter.2 ⟨(lookup_nodup h).1 h1, by simpa using h2⟩, rfl⟩

theorem get_shift {t : LTree} (h : (t.map (·.1)).Nodup) {p e : List Str} (h1 : ¬ p <+: e) (h2 : ¬ e <+: p) :
    (∀ x, (t.shift p e).get (e ++ x) = t.get (p ++ x)) ∧ (∀ q, p <+: q → ¬ e <+: q → (t.shift p e).get q = none) ∧
    ∀ q, ¬ p <+: q → ¬ e <+: q → (t.shift p e).get q = t.get q := by
  have hp : p ≠ [] := by rintro rfl; exact h1 List.nil_prefix
  have he : e ≠ [] := by rintro rfl; exact h2 List.nil_prefix
  refine ⟨fun x => ?_, fun q hq hq' => ?_, fun q hq hq' => ?_⟩
  · rw [get_ne (by simp [he]), get_ne (by simp [hp])]
    apply Option.ext
    intro o
    rw [lookup_shift h]
    constructor
    · rintro ⟨a, ha, hn, hr⟩
      unfold rebase at hr
      split at hr
      · rename_i hpa
        obtain ⟨y, rfl⟩ := hpa
        rw [List.drop_left] at hr
        rw [List.append_cancel_left hr]; exact ha
      · exact absurd ⟨x, hr⟩ hn
    · intro ho
      refine ⟨p ++ x, ho, fun c => ?_, ?_⟩
      · rcases prefix_cases c (List.prefix_append p x) with c | c
        · exact h2 c
        · exact h1 c
      · unfold rebase
        rw [if_pos (List.prefix_append _ _), List.drop_left]
  · rw [get_ne (by rintro rfl; exact hp (List.prefix_nil.1 hq))]
    by_contra hc
    obtain ⟨o, ho⟩ := Option.ne_none_iff_exists'.1 hc
    obtain ⟨a, -, hn, hr⟩ := (lookup_shift h).1 ho
    unfold rebase at hr
    split at hr
    · exact hq' ⟨_, hr.symm⟩
    · rename_i hpa; exact hpa (hr ▸ hq)
  · by_cases hne : q = []
    · subst hne; rfl
    · rw [get_ne hne, get_ne hne]
      apply Option.ext
      intro o
      rw [lookup_shift h]
      constructor
      · rintro ⟨a, ha, hn, hr⟩
        unfold rebase at hr
        split at hr
        · exact absurd ⟨_, hr.symm⟩ hq'
        · rw [hr]; exact ha
      · intro ho
        refine ⟨q, ho, hq', ?_⟩
        unfold rebase
        rw [if_neg hq]

end LTree

/-- moving in a memory file system is a matter of that file system -/
theorem sys_uMove (D : Dict) (cs ds : List Str) (depth : Nat) {s : Sys} {a : Except PyErr Unit} {w : World}
    (e : Gen.uMove depth (mem D cs) (mem D ds) s.mem = (a, w)) :
    uMove sysOps depth (mem D cs) (mem D ds) s = (a, { s with mem := w }) := by
  rw [memPart.uMove depth (mem_stays D cs) (mem_stays D ds)]
  show ((uMove memOps depth (mem D cs) (mem D ds) s.mem).1, ({ s with mem := (uMove memOps depth (mem D cs) (mem D ds) s.mem).2 } : Sys)) = _
  rw [memOps_uMove depth (mem D cs) (mem D ds) s.mem, e]

section
variable {ι : Type} {E : ι → Dict} {r : ι → Nat} {k : Option ι} {F : Others ι} (hr : Function.Injective r)
include hr

/-- moving leaves alone the links that are neither at the old nor at the new name -/
theorem links_move {s s' : Sys} (h : SysOk E r s) {i : ι} {a q e : List Str} {n m : Str} (hp : Nm (a ++ [n])) (he : Nm (e ++ [m]))
    (hv : siteV r s (some i) (a ++ [n]) ≠ none)
    (ht : (siteV r s (some i) q = some .dir ∧ e = q ∧ m = n) ∨ (siteV r s (some i) q ≠ some .dir ∧ q = e ++ [m]))
    (hsub : ∀ x, siteV r s (some i) (a ++ [n] ++ x) ≠ none → Fit (a ++ [n] ++ x))
    (hlink : ∀ x, siteV r s (some i) (a ++ [n] ++ x) ≠ some .other)
    (h1 : ¬ a ++ [n] <+: e ++ [m]) (h2 : ¬ e ++ [m] <+: a ++ [n]) (hd : siteV r s (some i) e = some .dir)
    (hf : siteV r s (some i) (e ++ [m]) = none ∨
      (isF (siteV r s (some i) (e ++ [m])) = true ∧ isF (siteV r s (some i) (a ++ [n])) = true ∧ q = e ++ [m]))
    {depth : Nat} (hl : (e ++ [m]).length < depth) (hh : ∀ x, siteV r s (some i) (a ++ [n] ++ x) ≠ none → x.length < depth)
    (hmove : uMove sysOps depth (siteAt E (some i) (a ++ [n])) (siteAt E (some i) q) s = (.ok (), s')) :
    (∀ x, ¬ a ++ [n] <+: x → ¬ e ++ [m] <+: x → view s'.mem (r i) x = view s.mem (r i) x) ∧ Rest r (some i) s s' := by
  have hq : q = e ++ [m] ∨ (q = e ∧ m = n) := by
    rcases ht with ⟨-, g1, g2⟩ | ⟨-, g⟩
    · exact .inr ⟨g1.symm, g2⟩
    · exact .inl g
  have hde := siteV_dir.1 hd
  have nolink : ∀ x, ¬ (view s.mem (r i)).isLink (a ++ [n] ++ x) := by
    rintro x ⟨u, m, z, c⟩
    exact hlink x (by show (view s.mem (r i) _).map _ = _; rw [c]; rfl)
  cases hg : siteV r s (some i) (a ++ [n]) with
  | none => exact absurd hg hv
  | some y =>
    cases y with
    | other => exact absurd hg (by simpa using hlink [])
    | file d =>
      obtain ⟨md, z, hvf⟩ := siteV_file.1 hg
      obtain ⟨w', e1, hb⟩ := memMove_file h.inv (h.fs i) hp.ok he.ok hvf hde
        (by
          rcases hf with hf | ⟨hf, -⟩
          · exact .inl (siteV_none.1 hf)
          · cases hx : siteV r s (some i) (e ++ [m]) with
            | none => rw [hx] at hf; simp [isF] at hf
            | some y =>
              cases y with
              | dir => rw [hx] at hf; simp [isF] at hf
              | other => rw [hx] at hf; simp [isF] at hf
              | file d' => obtain ⟨md', z', g⟩ := siteV_file.1 hx; exact .inr ⟨_, _, _, g⟩)
        (fun c => h1 (c ▸ List.prefix_refl _)) hq depth
      have e2 := hmove.symm.trans (sys_uMove (E i) (a ++ [n]) q depth e1)
      rw [(Prod.mk.inj e2).2]
      refine ⟨fun x c1 c2 => ?_, rest_mem h hr hb⟩
      show view w' (r i) x = _
      rw [hb.view]
      have g1 : x ≠ a ++ [n] := fun c => c1 (c ▸ List.prefix_refl _)
      have g2 : x ≠ e ++ [m] := fun c => c2 (c ▸ List.prefix_refl _)
      simp [NS.erase, NS.set, g1, g2]
    | dir =>
      have hvd := siteV_dir.1 hg
      have hnone : siteV r s (some i) (e ++ [m]) = none := by
        rcases hf with hf | ⟨-, hf, -⟩
        · exact hf
        · rw [hg] at hf; simp [isF] at hf
      have H : Gen.Copyable (view s.mem (r i)) (a ++ [n]) (e ++ [m]) true :=
        ⟨fun x hx => (hsub x fun c => hx (siteV_none.1 c)).nm.ok, quiet_no_links nolink, fun _ => nolink, fun x y hy => by
            rw [List.append_assoc] at hy
            exact (hsub (x ++ [y]) (by rw [siteV_dir.2 hy]; simp)).trim y (by simp), he.ok, by simp, by simp, h1, h2⟩
      obtain ⟨w', e1, hb, ho⟩ := memMove_dir h.inv (h.fs i) H hvd hde (siteV_none.1 hnone) hq (by omega)
        (depth := depth) (fun x hx => hh x (by rw [siteV_dir.2 hx]; simp))
      have e2 := hmove.symm.trans (sys_uMove (E i) (a ++ [n]) q depth e1)
      rw [(Prod.mk.inj e2).2]
      exact ⟨ho, rest_mem h hr hb⟩

theorem lalike_move (depth : Nat) {p q : List Str} (hp : Nm p) (hq : Nm q) :
    LAlike E r k F (lMove depth p q) (uMove sysOps depth (siteAt E k p) (siteAt E k q)) := by
  intro t s h
  unfold lMove
  dsimp only
  split
  swap
  · exact .out _ _
  rename_i hc
  obtain ⟨c1, c2, c3, c4, c5, c6, c7, c8⟩ := hc
  rcases List.eq_nil_or_concat p with rfl | ⟨a, n, rfl⟩
  · exact absurd List.nil_prefix c2
  rw [List.concat_eq_append] at *
  have hte : (t.get q = some .dir ∧ t.dest (a ++ [n]) q = q ++ [n]) ∨ (t.get q ≠ some .dir ∧ t.dest (a ++ [n]) q = q) := by
    unfold LTree.dest
    split
    · rename_i c; exact .inl ⟨c, by simp⟩
    · rename_i c; exact .inr ⟨c, rfl⟩
  revert c2 c3 c4 c5 c6 c7 hte
  generalize t.dest (a ++ [n]) q = e'
  intro c2 c3 c4 c5 c6 c7 hte
  rcases List.eq_nil_or_concat e' with rfl | ⟨e, m, rfl⟩
  · exact absurd List.nil_prefix c3
  rw [List.concat_eq_append] at *
  rw [List.dropLast_concat] at c4
  have mem8 : ∀ x o, t.get (a ++ [n] ++ x) = some o → o.isLink = false ∧ Fit (a ++ [n] ++ x) ∧ x.length < depth := by
    intro x o hx
    rw [LTree.get_ne (by simp), lookup_nodup h.keys] at hx
    obtain ⟨g1, g2, g3⟩ := c8 _ hx (List.prefix_append _ _)
    refine ⟨g1, g2, ?_⟩
    simp only [List.length_append] at g3
    omega
  have some_of : ∀ x, siteV r s k x ≠ none → ∃ o, t.get x = some o := fun x hx =>
    Option.ne_none_iff_exists'.1 fun c => hx (h.gone c)
  have hv : siteV r s k (a ++ [n]) ≠ none := by
    rw [h.here]; simpa using c1
  have hd' : ∀ x, siteV r s k x = some .dir ↔ t.get x = some .dir := fun x => ⟨h.isDir, h.dir⟩
  have ht : (siteV r s k q = some .dir ∧ e = q ∧ m = n) ∨ (siteV r s k q ≠ some .dir ∧ q = e ++ [m]) := by
    rcases hte with ⟨g1, g2⟩ | ⟨g1, g2⟩
    · obtain ⟨g3, g4⟩ := List.append_inj' g2 rfl
      exact .inl ⟨h.dir g1, g3, by simpa using g4⟩
    · exact .inr ⟨fun c => g1 (h.isDir c), g2.symm⟩
  have hsub : ∀ x, siteV r s k (a ++ [n] ++ x) ≠ none → Fit (a ++ [n] ++ x) := fun x hx => by
    obtain ⟨o, ho⟩ := some_of _ hx
    exact (mem8 x o ho).2.1
  have hh : ∀ x, siteV r s k (a ++ [n] ++ x) ≠ none → x.length < depth := fun x hx => by
    obtain ⟨o, ho⟩ := some_of _ hx
    exact (mem8 x o ho).2.2
  have hlink : ∀ x, siteV r s k (a ++ [n] ++ x) ≠ some .other := fun x hx => by
    obtain ⟨o, ho⟩ := some_of _ (by rw [hx]; simp)
    have := (mem8 x o ho).1
    rw [h.here, ho] at hx
    cases o <;> simp_all [LKind.kind, LKind.isLink]
  have hf : siteV r s k (e ++ [m]) = none ∨
      (isF (siteV r s k (e ++ [m])) = true ∧ isF (siteV r s k (a ++ [n])) = true ∧ q = e ++ [m]) := by
    rw [h.here, h.here]
    rcases c6 with c6 | ⟨g1, g2, g3⟩
    · exact .inl (by rw [c6]; rfl)
    · exact .inr ⟨g1, g2, g3.symm⟩
  obtain ⟨s', b1, b2, b3, b4, b5, b6, b7⟩ := site_move (k := k) hr h.ok (n := n) (m := m) (a := a) (e := e) (q := q) hp hq c5 hv ht hsub hlink
    c2 c3 (h.dir c4) hf c7 hh
  rw [b1]
  obtain ⟨g1, g2, g3⟩ := LTree.get_shift h.keys c2 c3
  have cases3 : ∀ x, (∃ y, x = e ++ [m] ++ y) ∨ (a ++ [n] <+: x ∧ ¬ e ++ [m] <+: x) ∨ (¬ a ++ [n] <+: x ∧ ¬ e ++ [m] <+: x) := by
    intro x
    by_cases d1 : e ++ [m] <+: x
    · obtain ⟨y, rfl⟩ := d1; exact .inl ⟨y, rfl⟩
    · by_cases d2 : a ++ [n] <+: x
      · exact .inr (.inl ⟨d2, d1⟩)
      · exact .inr (.inr ⟨d2, d1⟩)
  have lm : ∀ i (e' : k = some i), (∀ x, ¬ a ++ [n] <+: x → ¬ e ++ [m] <+: x → view s'.mem (r i) x = view s.mem (r i) x) ∧ Rest r (some i) s s' := by
    rintro i rfl
    exact links_move hr h.ok hp c5 hv ht hsub hlink c2 c3 (h.dir c4) hf c7 hh b1
  refine .ok ⟨b2, fun x => ?_, fun x y hx => ?_, fun j hj => by rw [b6 j hj, h.there j hj],
    fun i e' j hj => by rw [(lm i e').2 i rfl j hj, h.rest i e' j hj], LTree.shift_nodup h.keys _ _⟩
  · rcases cases3 x with ⟨y, rfl⟩ | ⟨d1, d2⟩ | ⟨d1, d2⟩
    · rw [b3, g1, h.here]
    · rw [b4 x d1 d2, g2 x d1 d2]; rfl
    · rw [b5 x d1 d2, g3 x d1 d2, h.here]
  · rcases cases3 x with ⟨z, rfl⟩ | ⟨d1, d2⟩ | ⟨d1, d2⟩
    · rw [g1] at hx
      have := (mem8 z _ hx).1
      simp [LKind.isLink] at this
    · rw [g2 x d1 d2] at hx; simp at hx
    · rw [g3 x d1 d2] at hx
      obtain ⟨l1, l2⟩ := h.links x y hx
      refine ⟨l1, ?_⟩
      cases k with
      | none => exact (b7 rfl x d1 d2).trans l2
      | some i =>
        have := (lm i rfl).1 x d1 d2
        show ∃ m z, view s'.mem (r i) x = _
        rw [this]
        exact l2

end
end Verif.Any
