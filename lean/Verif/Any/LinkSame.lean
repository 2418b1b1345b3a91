import Verif.Any.LinkPlain
import Verif.Props.LocalLinks
/-!
# A file system of the repository and the plain file system with links: where paths lead
-/
namespace Verif.Spec

/-- what is left of a path after its first stretch -/
theorem Goes.rest {ns : NS} {d : Nat} {q0 a q b : List Str} {out : Out} (h : Goes ns d q0 a (.found q))
    (h' : Goes ns d q0 (a ++ b) out) : Goes ns d q b out := by
  generalize ho : Out.found q = o at h
  induction h generalizing q with
  | done => simp at ho; subst ho; exact h'
  | notDir => simp at ho
  | missing => simp at ho
  | @step d q o n rest out h1 h2 h3 _ ih =>
    have ih := fun g => ih (q := _) g ho
    rw [List.cons_append] at h'
    generalize rest ++ b = l at h' ih
    cases h' with
    | notDir g1 g2 => exact absurd h1 (fun hd => by obtain ⟨x, hx, hx'⟩ := NS.isDir_iff.1 hd; rw [g1] at hx; cases hx; simp_all)
    | missing _ g2 => rw [h2] at g2; simp at g2
    | step _ _ _ g4 => exact ih g4
    | link _ g2 => rw [h2] at g2; cases g2; simp [Obj.isLink] at h3
    | linkLostMid _ g2 => rw [h2] at g2; cases g2; simp [Obj.isLink] at h3
    | linkLost _ g2 => rw [h2] at g2; cases g2; simp [Obj.isLink] at h3
    | linkFail _ g2 => rw [h2] at g2; cases g2; simp [Obj.isLink] at h3
    | badLink _ g2 => rw [h2] at g2; cases g2; simp [Obj.isLink] at h3
  | linkLost => simp at ho
  | linkLostMid => simp at ho
  | linkFail _ _ _ _ h5 => subst ho; simp at h5
  | badLink => simp at ho
  | @link d q t m s n rest ts q' out h1 h2 h3 h4 h5 _ ih2 =>
    have ih2 := fun g => ih2 (q := _) g ho
    rw [List.cons_append] at h'
    generalize rest ++ b = l at h' ih2
    cases h' with
    | notDir g1 g2 => exact absurd h1 (fun hd => by obtain ⟨x, hx, hx'⟩ := NS.isDir_iff.1 hd; rw [g1] at hx; cases hx; simp_all)
    | missing _ g2 => rw [h2] at g2; simp at g2
    | step _ g2 g3 => rw [h2] at g2; cases g2; simp [Obj.isLink] at g3
    | link _ g2 g3 g4 g5 =>
      rw [h2] at g2; cases g2
      rw [h3] at g3; cases g3
      have := h4.det g4
      cases this
      exact ih2 g5
    | linkLostMid _ g2 g3 g4 =>
      rw [h2] at g2; cases g2
      rw [h3] at g3; cases g3
      have := h4.det g4
      cases this
    | linkLost _ g2 g3 g4 =>
      rw [h2] at g2; cases g2
      rw [h3] at g3; cases g3
      have := h4.det g4
      cases this
    | linkFail _ g2 g3 g4 g5 =>
      rw [h2] at g2; cases g2
      rw [h3] at g3; cases g3
      have := h4.det g4
      subst this
      simp at g5
    | badLink _ g2 g3 => rw [h2] at g2; cases g2; rw [h3] at g3; simp at g3

end Verif.Spec

namespace Verif.Any
open Verif.Spec Verif.Gen
open Mem (World Meth)

/-! ## The plain tree -/

namespace LTree

/-- the tree without the targets of links -/
def flat (t : LTree) : Tree := t.map fun e => (e.1, e.2.kind)

theorem get_flat (t : LTree) (p : List Str) : t.flat.get p = (t.get p).map LKind.kind := by
  unfold Tree.get get
  split
  · rfl
  · induction t with
    | nil => rfl
    | cons e t ih =>
      obtain ⟨a, b⟩ := e
      show List.lookup p ((a, b.kind) :: LTree.flat t) = _
      rw [List.lookup_cons, List.lookup_cons]
      cases p == a
      · exact ih
      · rfl

theorem names_flat (t : LTree) (q : List Str) : t.flat.names q = t.names q := by
  unfold Tree.names names flat
  rw [List.filterMap_map]
  rfl

theorem get_set {t : LTree} {p q : List Str} {o : LKind} (h : p ≠ []) : (t.set p o).get q = if q = p then some o else t.get q := by
  unfold get
  by_cases hq : q = []
  · subst hq
    rw [if_pos rfl, if_pos rfl, if_neg (fun e => h e.symm)]
  · rw [if_neg hq, if_neg hq]
    unfold set
    split
    · rename_i e; subst e; simp
    · rename_i e
      have : (q == p) = false := by simpa using e
      rw [List.lookup_cons, this]
      exact lookup_filter_ne _ e

theorem get_del {t : LTree} {p q : List Str} (h : p ≠ []) : (t.del p).get q = if q = p then none else t.get q := by
  unfold get
  by_cases hq : q = []
  · subst hq
    rw [if_pos rfl, if_pos rfl, if_neg (fun e => h e.symm)]
  · rw [if_neg hq, if_neg hq]
    unfold del
    split
    · rename_i e; subst e; exact lookup_filter_eq _ _
    · rename_i e; exact lookup_filter_ne _ e

theorem keys_set {t : LTree} (h : (t.map (·.1)).Nodup) (p : List Str) (o : LKind) : ((t.set p o).map (·.1)).Nodup := by
  unfold set
  rw [List.map_cons, List.nodup_cons]
  refine ⟨?_, (List.filter_sublist.map _).nodup h⟩
  intro hm
  obtain ⟨x, h1, h2⟩ := List.mem_map.1 hm
  have := (List.mem_filter.1 h1).2
  simp [h2] at this

theorem keys_del {t : LTree} (h : (t.map (·.1)).Nodup) (p : List Str) : ((t.del p).map (·.1)).Nodup :=
  (List.filter_sublist.map _).nodup h

theorem names_sorted {t : LTree} (h : (t.map (·.1)).Nodup) (q : List Str) : (t.names q).Pairwise strLt := by
  rw [← names_flat]
  refine Tree.names_sorted ?_ q
  have : t.flat.map (·.1) = t.map (·.1) := by unfold flat; rw [List.map_map]; rfl
  rw [this]; exact h

theorem mem_names {t : LTree} {q : List Str} {n : Str} : n ∈ t.names q ↔ t.get (q ++ [n]) ≠ none := by
  rw [← names_flat, Tree.mem_names, get_flat]
  cases t.get (q ++ [n]) <;> simp

end LTree

/-! ## The relation -/

/-- at the name `p` there is a link to the path with the names `t` -/
def LinkTo {ι : Type} (E : ι → Dict) (r : ι → Nat) (s : Sys) : Option ι → List Str → List Str → Prop
  | none, p, t => s.disk.tree p = some (.link (pathOf t))
  | some i, p, t => ∃ m z, view s.mem (r i) p = some (.link (mem (E i) t) m z)

/-- what is in the other places: what is at which name, and of the memory file systems everything -/
structure Others (ι : Type) where
  kinds : Option ι → List Str → Option Kind
  views : ι → NS

/-- in the state `s` the place `k` holds the tree `t`, the other places what `F` says -/
structure LRel {ι : Type} (E : ι → Dict) (r : ι → Nat) (k : Option ι) (F : Others ι) (t : LTree) (s : Sys) :
    Prop where
  ok : SysOk E r s
  here : ∀ p, siteV r s k p = (t.get p).map LKind.kind
  links : ∀ p x, t.get p = some (.link x) → Nm x ∧ LinkTo E r s k p x
  there : ∀ j, j ≠ k → siteV r s j = F.kinds j
  rest : ∀ i, k = some i → ∀ j, j ≠ i → view s.mem (r j) = F.views j
  keys : (t.map (·.1)).Nodup

section
variable {ι : Type} {E : ι → Dict} {r : ι → Nat} {k : Option ι} {F : Others ι} {t : LTree} {s : Sys}

theorem LRel.dir (h : LRel E r k F t s) {p : List Str} (e : t.get p = some .dir) : siteV r s k p = some .dir := by rw [h.here, e]; rfl
theorem LRel.file (h : LRel E r k F t s) {p : List Str} {d : Bytes} (e : t.get p = some (.file d)) : siteV r s k p = some (.file d) := by
  rw [h.here, e]; rfl
theorem LRel.gone (h : LRel E r k F t s) {p : List Str} (e : t.get p = none) : siteV r s k p = none := by rw [h.here, e]; rfl
theorem LRel.other (h : LRel E r k F t s) {p x : List Str} (e : t.get p = some (.link x)) : siteV r s k p = some .other := by
  rw [h.here, e]; rfl
theorem LRel.isDir (h : LRel E r k F t s) {p : List Str} (e : siteV r s k p = some .dir) : t.get p = some .dir := by
  rw [h.here] at e
  cases hp : t.get p with
  | none => simp [hp] at e
  | some o => cases o <;> simp_all [LKind.kind]

/-- where a path comes to, in the terms of the place -/
def Way {ι : Type} (r : ι → Nat) (s : Sys) (j : Nat) (cur rest q : List Str) (found : Bool) : Option ι → Prop
  | none => ∃ n ≤ j, Leads s.disk true n (cur ++ rest) q
  | some i => Goes (view s.mem (r i)) j cur rest (if found then .found q else .missing)

theorem site_dirs (h : SysOk E r s) {p q : List Str} (hq : siteV r s k q ≠ none) (hp : p <+: q) (hne : p ≠ q) : siteV r s k p = some .dir := by
  obtain ⟨x, rfl⟩ := hp
  cases x with
  | nil => simp at hne
  | cons n x =>
    induction x using List.reverseRecOn generalizing n with
    | nil => exact site_tree h hq
    | append_singleton x m ih =>
      refine ih n ?_ (by simp)
      have : siteV r s k (p ++ n :: x) = some .dir := site_tree h (n := m) (by simpa using hq)
      rw [this]; simp

theorem hop_way (h : LRel E r k F t s) {j : Nat} {jump : List Str → Option (List Str)}
    (hj : ∀ x y, Nm x → jump x = some y → ∃ j', j = j' + 1 ∧ Nm y ∧ Clear (siteV r s k) y ∧ Way r s j' [] x y (t.get y).isSome k) :
    ∀ (rest cur q : List Str), siteV r s k cur = some .dir → Nm (cur ++ rest) → t.hop jump cur rest = some q →
      Nm q ∧ Clear (siteV r s k) q ∧ Way r s j cur rest q (t.get q).isSome k := by
  intro rest
  induction rest with
  | nil =>
    intro cur q hd hn e
    simp only [LTree.hop, Option.some.injEq] at e
    subst e
    rw [List.append_nil] at hn
    refine ⟨hn, ⟨fun p hp hne => .inl (site_dirs h.ok (by rw [hd]; simp) hp hne), by rw [hd]; simp⟩, ?_⟩
    rw [h.isDir hd]
    cases k with
    | none => exact ⟨0, Nat.zero_le _, by rw [List.append_nil]; exact .here _⟩
    | some i => exact .done
  | cons n rest ih =>
    intro cur q hd hn e
    have hn' : Nm (cur ++ [n] ++ rest) := by simpa using hn
    rw [LTree.hop] at e
    cases hg : t.get (cur ++ [n]) with
    | none =>
      rw [hg] at e
      simp only [Option.some.injEq] at e
      subst e
      have hno : ∀ x, siteV r s k (cur ++ [n] ++ x) = none := by
        intro x
        by_contra hc
        rcases List.eq_nil_or_concat x with rfl | ⟨_, _, rfl⟩
        · rw [List.append_nil] at hc; exact hc (h.gone hg)
        · have := site_dirs h.ok hc (List.prefix_append _ _) (by simp)
          rw [h.gone hg] at this; simp at this
      have hq : siteV r s k (cur ++ n :: rest) = none := by simpa using hno rest
      have hq' : t.get (cur ++ n :: rest) = none := by
        have := h.here (cur ++ n :: rest)
        rw [hq] at this
        cases hx : t.get (cur ++ n :: rest) with
        | none => rfl
        | some o => rw [hx] at this; simp at this
      refine ⟨hn, ⟨fun p hp hne => ?_, by rw [hq]; simp⟩, ?_⟩
      · by_cases hc : cur ++ [n] <+: p
        · obtain ⟨x, rfl⟩ := hc
          exact .inr (hno x)
        · have : p <+: cur := by
            have h1 : cur ++ [n] <+: cur ++ n :: rest := ⟨rest, by simp⟩
            have h2 := (List.prefix_or_prefix_of_prefix hp h1).resolve_right hc
            rcases List.prefix_concat_iff.1 h2 with h2 | h2
            · exact absurd (h2 ▸ List.prefix_refl _) hc
            · exact h2
          by_cases e : p = cur
          · rw [e]; exact .inl hd
          · exact .inl (site_dirs h.ok (by rw [hd]; simp) this e)
      · rw [hq']
        cases k with
        | none => exact ⟨0, Nat.zero_le _, .here _⟩
        | some i => exact .missing (siteV_dir.1 hd) (siteV_none.1 (h.gone hg))
    | some o =>
      rw [hg] at e
      cases o with
      | dir =>
        obtain ⟨a1, a2, a3⟩ := ih _ _ (h.dir hg) hn' e
        refine ⟨a1, a2, ?_⟩
        cases k with
        | none =>
          obtain ⟨m, hm, hl⟩ := a3
          exact ⟨m, hm, by simpa using hl⟩
        | some i =>
          obtain ⟨o, ho, ho'⟩ := NS.isDir_iff.1 (siteV_dir.1 (h.dir hg))
          exact .step (siteV_dir.1 hd) ho (by cases o <;> simp_all [Obj.isDir, Obj.isLink]) a3
      | file d =>
        simp only [Option.ite_none_right_eq_some, Option.some.injEq] at e
        obtain ⟨rfl, rfl⟩ := e
        have hv := h.file hg
        refine ⟨hn, ⟨fun p hp hne => .inl (site_dirs h.ok (by rw [hv]; simp) hp hne), by rw [hv]; simp⟩, ?_⟩
        rw [hg]
        cases k with
        | none => exact ⟨0, Nat.zero_le _, .here _⟩
        | some i =>
          obtain ⟨m, z, hf⟩ := siteV_file.1 hv
          exact .step (siteV_dir.1 hd) hf rfl .done
      | link x =>
        simp only [Option.ite_none_right_eq_some] at e
        obtain ⟨⟨hnx, hor⟩, e⟩ := e
        obtain ⟨j', rfl, a1, a2, a3⟩ := hj _ _ hnx e
        obtain ⟨hx, hl⟩ := h.links _ _ hg
        refine ⟨a1, a2, ?_⟩
        cases k with
        | none =>
          obtain ⟨m, hm, hle⟩ := a3
          refine ⟨m + 1, by omega, ?_⟩
          have : cur ++ n :: rest = cur ++ [n] ++ rest := by simp
          rw [this]
          exact .link hl hn' hnx (.inr rfl) hle
        | some i =>
          obtain ⟨m, z, hl⟩ := hl
          have hst := stepsOf_mem hx.ok (E i)
          have hd' := siteV_dir.1 hd
          cases rest with
          | nil =>
            have a3' : Goes (view s.mem (r i)) j' [] x (if (t.get q).isSome then .found q else .missing) := by
              rw [List.append_nil] at a3; exact a3
            show Goes _ _ _ _ _
            cases hs : (t.get q).isSome with
            | true => rw [hs] at a3'; exact .link hd' hl hst a3' .done
            | false => rw [hs] at a3'; exact .linkLost hd' hl hst a3'
          | cons n' rest =>
            have hs := hor.resolve_left (by simp)
            cases hy : jump x with
            | none => rw [hy] at hs; simp at hs
            | some y =>
              rw [hy] at hs
              obtain ⟨j'', hj'', b1, b2, b3⟩ := hj _ _ hx hy
              obtain rfl : j'' = j' := by omega
              have b3' : Goes (view s.mem (r i)) j'' [] x (.found y) := by
                have hs' : (t.get y).isSome = true := hs
                have : Goes (view s.mem (r i)) j'' [] x (if (t.get y).isSome then .found y else .missing) := b3
                rw [hs'] at this; exact this
              exact .link hd' hl hst b3' (b3'.rest a3).succ

theorem lead_way (h : LRel E r k F t s) : ∀ (j : Nat) {p q : List Str}, Nm p → t.lead j p = some q →
    Nm q ∧ Clear (siteV r s k) q ∧ Way r s j [] p q (t.get q).isSome k
  | 0, p, q, hn, e => hop_way h (fun _ _ _ hx => by simp at hx) p [] q (site_root h.ok) hn e
  | j + 1, p, q, hn, e => hop_way h (fun x y hx he => ⟨j, rfl, lead_way h j hx he⟩) p [] q (site_root h.ok) hn e

end

end Verif.Any
