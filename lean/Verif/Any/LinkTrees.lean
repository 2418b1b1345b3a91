import Verif.Any.LinkActs
import Verif.Gen.RemoveLemmas
/-!
# Removing trees with links in them

`remove(recursive=True)` of a directory with links in it is what the plain file system with links (Verif/Any/LinkPlain.lean)
says, in memory and on local files.
-/
namespace Verif.Any
open Verif.Spec Verif.Gen Verif.Props
open Mem (World)

namespace LTree

theorem get_wipe {t : LTree} {p q : List Str} (h : p ≠ []) : (t.wipe p).get q = if p <+: q then none else t.get q := by
  unfold get
  by_cases hq : q = []
  · subst hq
    rw [if_pos rfl, if_pos rfl, if_neg (fun e => h (List.prefix_nil.1 e))]
  · rw [if_neg hq, if_neg hq]
    unfold wipe
    induction t with
    | nil => simp
    | cons e t ih =>
      rw [List.filter_cons]
      by_cases he : p <+: e.1
      · rw [if_neg (by simpa using he), ih, List.lookup_cons]
        by_cases hqe : q = e.1
        · subst hqe; simp [he]
        · have : (q == e.1) = false := by simpa using hqe
          rw [this]
      · rw [if_pos (by simpa using he), List.lookup_cons, List.lookup_cons]
        by_cases hqe : q = e.1
        · subst hqe; simp [he]
        · have : (q == e.1) = false := by simpa using hqe
          rw [this]; exact ih

theorem keys_wipe {t : LTree} (h : (t.map (·.1)).Nodup) (p : List Str) : ((t.wipe p).map (·.1)).Nodup :=
  (List.filter_sublist.map _).nodup h

theorem mem_of_get {t : LTree} {p : List Str} {o : LKind} (hne : p ≠ []) (h : t.get p = some o) : (p, o) ∈ t := by
  unfold get at h
  rw [if_neg hne] at h
  induction t with
  | nil => simp at h
  | cons e t ih =>
    rw [List.lookup_cons] at h
    by_cases he : p = e.1
    · subst he
      simp at h
      subst h
      simp
    · have : (p == e.1) = false := by simpa using he
      rw [this] at h
      exact List.mem_cons_of_mem _ (ih h)

theorem clear_iff {t : LTree} {p : List Str} : t.clear p = true ↔
    ∀ a n b, p = a ++ n :: b → t.get a = some .dir ∨ t.get a = none := by
  unfold clear
  rw [List.all_eq_true]
  constructor
  · rintro h a n b rfl
    have := h a.length (by simp)
    simpa using this
  · intro h i hi
    have hi := List.mem_range.1 hi
    have := h (p.take i) p[i] (p.drop (i + 1)) (by simp)
    simpa using this

theorem tame_clear {t : LTree} {k : Nat} {p : List Str} (h : t.tame k p = true) : t.clear p = true := by
  cases k with
  | zero => exact h
  | succ k => rw [tame] at h; exact (Bool.and_eq_true _ _ ▸ h : _ ∧ _).1

theorem tame_link {t : LTree} {k : Nat} {p x : List Str} (h : t.tame (k + 1) p = true) (hg : t.get p = some (.link x)) : t.tame k x = true := by
  rw [tame, hg] at h
  exact (Bool.and_eq_true _ _ ▸ h : _ ∧ _).2

end LTree

/-! ## In memory: asking for links that are tame does not raise -/

/-- there is nothing but what the tree has -/
structure Within (ns : NS) (t : LTree) : Prop where
  root : ns.isDir []
  dir : ∀ p, ns.isDir p → t.get p = some .dir
  file : ∀ p d m z, ns p = some (.file d m z) → ∃ d, t.get p = some (.file d)
  link : ∀ p u m z, ns p = some (.link u m z) → ∃ x, t.get p = some (.link x) ∧ stepsOf u = some x

/-- nothing is found by following a path, or nothing is wrong -/
def Good (o : Option Out) : Prop := o = none ∨ o = some .missing ∨ ∃ q, o = some (.found q)

theorem tame_good {ns : NS} {t : LTree} (h : Within ns t) : ∀ (d : Nat) (p : List Str), t.tame d p = true → Good (Spec.follow ns d [] p) := by
  intro d
  induction d with
  | zero =>
    intro p hp
    have hc := LTree.clear_iff.1 (LTree.tame_clear hp)
    rw [follow_eq]
    suffices H : ∀ (rest a : List Str), p = a ++ rest → ns.isDir a → Good (followAux (linkRes ns 0) ns a rest) from H p [] rfl h.root
    intro rest
    induction rest with
    | nil => intro a _ _; exact .inr (.inr ⟨a, rfl⟩)
    | cons n rest ih =>
      intro a e ha
      rw [followAux_dir ha]
      cases ho : ns (a ++ [n]) with
      | none => exact .inr (.inl rfl)
      | some o =>
        cases o with
        | dir m z => exact ih (a ++ [n]) (by simp [e]) ⟨m, z, ho⟩
        | file b m z =>
          cases rest with
          | nil => exact .inr (.inr ⟨_, rfl⟩)
          | cons n' rest =>
            obtain ⟨b', hb⟩ := h.file _ _ _ _ ho
            have := hc (a ++ [n]) n' rest (by simp [e])
            rw [hb] at this; simp at this
        | link u m z => exact .inl rfl
  | succ d IH =>
    intro p hp
    have hc := LTree.clear_iff.1 (LTree.tame_clear hp)
    rw [follow_eq]
    suffices H : ∀ (rest a : List Str), p = a ++ rest → ns.isDir a → Good (followAux (linkRes ns (d + 1)) ns a rest) from H p [] rfl h.root
    intro rest
    induction rest with
    | nil => intro a _ _; exact .inr (.inr ⟨a, rfl⟩)
    | cons n rest ih =>
      intro a e ha
      rw [followAux_dir ha]
      cases ho : ns (a ++ [n]) with
      | none => exact .inr (.inl rfl)
      | some o =>
        cases o with
        | dir m z => exact ih (a ++ [n]) (by simp [e]) ⟨m, z, ho⟩
        | file b m z =>
          cases rest with
          | nil => exact .inr (.inr ⟨_, rfl⟩)
          | cons n' rest =>
            obtain ⟨b', hb⟩ := h.file _ _ _ _ ho
            have := hc (a ++ [n]) n' rest (by simp [e])
            rw [hb] at this; simp at this
        | link u m z =>
          obtain ⟨x, hx, hs⟩ := h.link _ _ _ _ ho
          cases rest with
          | cons n' rest =>
            have := hc (a ++ [n]) n' rest (by simp [e])
            rw [hx] at this; simp at this
          | nil =>
            have hr : linkRes ns (d + 1) u = Spec.follow ns d [] x := by simp only [linkRes, hs]
            dsimp only
            rw [hr]
            rcases IH x (LTree.tame_link hp (by rw [e]; exact hx)) with g | g | ⟨q, g⟩ <;> rw [g]
            · exact .inl rfl
            · exact .inr (.inl rfl)
            · exact .inr (.inr ⟨q, rfl⟩)

theorem tame_ans {ns : NS} {t : LTree} (h : Within ns t) {p : List Str} (hp : t.tame 32 p = true) : ∃ b, dirAns ns p = .ok b := by
  unfold dirAns
  rcases tame_good h 32 p hp with g | g | ⟨q, g⟩ <;> (rw [show maxDepth = 32 from rfl, g]; exact ⟨_, rfl⟩)

section
variable {ι : Type} {E : ι → Dict} {r : ι → Nat} {k : Option ι} {F : Others ι} {t : LTree} {s : Sys}

theorem LRel.within {i : ι} (h : LRel E r (some i) F t s) {ns : NS} (hroot : ns [] = view s.mem (r i) [])
    (hl : ∀ p, ns p = view s.mem (r i) p ∨ ns p = none) : Within ns t := by
  have up : ∀ p o, ns p = some o → view s.mem (r i) p = some o := fun p o ho => by
    rcases hl p with e | e
    · rw [← e, ho]
    · rw [e] at ho; simp at ho
  have hv : ∀ p o, ns p = some o → (t.get p).map LKind.kind = some (kindO o) := fun p o ho => by
    rw [← h.here p]
    show (view s.mem (r i) p).map kindO = _
    rw [up p o ho]; rfl
  refine ⟨?_, fun p hp => ?_, fun p d m z hp => ?_, fun p u m z hp => ?_⟩
  · unfold NS.isDir
    rw [hroot]
    exact siteV_dir.1 (site_root h.ok)
  · obtain ⟨m, z, hp⟩ := hp
    have := hv p _ hp
    cases hg : t.get p with
    | none => rw [hg] at this; simp at this
    | some o => rw [hg] at this; cases o <;> simp_all [LKind.kind, kindO]
  · have := hv p _ hp
    cases hg : t.get p with
    | none => rw [hg] at this; simp at this
    | some o => rw [hg] at this; cases o <;> simp_all [LKind.kind, kindO]
  · have h1 := hv p _ hp
    cases hg : t.get p with
    | none => rw [hg] at h1; simp at h1
    | some o =>
      rw [hg] at h1
      cases o with
      | dir => simp [LKind.kind, kindO] at h1
      | file d => simp [LKind.kind, kindO] at h1
      | link x =>
        obtain ⟨hx, m', z', e⟩ := h.links p x hg
        rw [up p _ hp] at e
        obtain ⟨rfl, -, -⟩ : u = _ ∧ _ ∧ _ := by simpa using e
        exact ⟨x, rfl, stepsOf_mem hx.ok (E i)⟩

/-! ## Removing -/

theorem LRel.wipe (h : LRel E r k F t s) {s' : Sys} {p : List Str} (hok : SysOk E r s') (hv : siteV r s' = Any.wipe (siteV r s) k (fun q => p <+: q))
    (hne : p ≠ []) (hk : ∀ q x, ¬ p <+: q → LinkTo E r s k q x → LinkTo E r s' k q x) (hrest : Rest r k s s') : LRel E r k F (t.wipe p) s' := by
  refine ⟨hok, fun q => ?_, fun q x hq => ?_, fun j hj => ?_, fun i e j hj => by rw [hrest i e j hj, h.rest i e j hj], LTree.keys_wipe h.keys p⟩
  · rw [hv, LTree.get_wipe hne]
    by_cases e : p <+: q
    · rw [if_pos e]; simp [Any.wipe, e]
    · rw [if_neg e]; simp only [Any.wipe, e, and_false, if_false]; exact h.here q
  · rw [LTree.get_wipe hne] at hq
    by_cases e : p <+: q
    · rw [if_pos e] at hq; simp at hq
    · rw [if_neg e] at hq
      obtain ⟨h1, h2⟩ := h.links q x hq
      exact ⟨h1, hk q x e h2⟩
  · rw [← h.there j hj, hv]
    funext q
    simp [Any.wipe, hj]

theorem LRel.steady {i : ι} (h : LRel E r (some i) F t s) {p : List Str} (hne : p ≠ []) {depth : Nat} (hr : t.removable depth p = true) :
    Gen.Steady (view s.mem (r i)) p := by
  intro ns' hl x hx
  have hw : Within ns' t := h.within
    ((hl []).resolve_right fun c => hne (List.prefix_nil.1 c.2.1)) fun q => (hl q).imp_right (·.1)
  obtain ⟨u, m, z, hx⟩ := hx
  obtain ⟨y, hy, -⟩ := hw.link _ _ _ _ hx
  refine tame_ans hw ?_
  have := List.all_eq_true.1 hr _ (LTree.mem_of_get (by simp [hne]) hy)
  simp [LKind.isLink] at this
  exact this.2

theorem removable_nm {depth : Nat} {p x : List Str} (hne : p ≠ []) (hr : t.removable depth p = true) (hx : t.get (p ++ x) ≠ none) : Nm (p ++ x) := by
  obtain ⟨o, ho⟩ := Option.ne_none_iff_exists'.1 hx
  have := List.all_eq_true.1 hr _ (LTree.mem_of_get (by simp [hne]) ho)
  simp at this
  exact this.1.1

theorem removable_dir {depth : Nat} {p x : List Str} (hne : p ≠ []) (hr : t.removable depth p = true) (hx : t.get (p ++ x) = some .dir) : x.length < depth := by
  have := List.all_eq_true.1 hr _ (LTree.mem_of_get (by simp [hne]) hx)
  simp at this
  omega

/-- `remove(recursive=True)` by a path without links -/
theorem lalike_removeTree (hr : Function.Injective r) {p : List Str} (hn : Nm p) (depth : Nat) :
    LAlike E r k F (lRemoveTree depth p) (uRemove sysOps depth (siteAt E k p) true) := by
  intro t s h
  by_cases hp : p ≠ [] ∧ t.get p.dropLast = some .dir
  swap
  · have e0 : lRemoveTree depth p t = (.error .outside, t) := by unfold lRemoveTree; rw [if_neg hp]
    rw [e0]; exact .out _ _
  obtain ⟨hne, hd⟩ := hp
  have e0 : lRemoveTree depth p t = match t.get p with
      | none => (.error .fileDoesNotExist, t)
      | some .dir => if t.removable depth p then (.ok (), t.wipe p) else (.error .outside, t)
      | some _ => (.ok (), t.del p) := by
    unfold lRemoveTree; rw [if_pos ⟨hne, hd⟩]; rfl
  obtain ⟨q, n, rfl⟩ : ∃ q n, p = q ++ [n] := by
    rcases List.eq_nil_or_concat p with c | ⟨q, n, c⟩
    · exact absurd c hne
    · exact ⟨q, n, by rw [c, List.concat_eq_append]⟩
  rw [List.dropLast_concat] at hd
  have hcq : Clear (siteV r s k) q := (sysLaws E r hr).clear_dir h.ok (h.dir hd)
  -- a file or a link
  have leaf : ∀ o, t.get (q ++ [n]) = some o → o ≠ .dir →
      ∃ s', uRemove sysOps depth (siteAt E k (q ++ [n])) true s = (.ok (), s') ∧ LRel E r k F (t.del (q ++ [n])) s' := by
    intro o hg ho
    cases k with
    | none =>
      have fin : ∀ s', uRemove sysOps depth (siteAt E none (q ++ [n])) true s = (.ok (), s') → SysOk E r s' →
          siteV r s' = upd (siteV r s) none (q ++ [n]) none →
          ∃ s', uRemove sysOps depth (siteAt E none (q ++ [n])) true s = (.ok (), s') ∧ LRel E r none F (t.del (q ++ [n])) s' := by
        intro s' e1 h1 h2
        have hf := fewer_uRemove depth (siteAt E none (q ++ [n])) true s
        rw [e1] at hf
        exact ⟨s', e1, h.del h1 h2 (by simp) (fewer_keep hf h2)⟩
      cases o with
      | dir => exact absurd rfl ho
      | file d =>
        have hv := h.file hg
        obtain ⟨s', e1, h1, h2⟩ := site_remove_file (E := E) h.ok hr (k := none) hn (h.clear_in hcq (.inl hd) (by rw [hv]; simp)) hv depth true
        exact fin s' e1 h1 h2
      | link x =>
        obtain ⟨s', e1, h1, h2, h3, -⟩ := C96_link (E := E) h.ok hr hn (h.other hg) depth true
        refine fin s' e1 h1 ?_
        funext j p
        by_cases hj : j = none ∧ p = q ++ [n]
        · obtain ⟨rfl, rfl⟩ := hj
          rw [upd_same, h2]
        · rw [upd_ne hj, h3 j p hj]
    | some i =>
      have hvd := siteV_dir.1 (h.dir hd)
      have hob : ∃ o, view s.mem (r i) (q ++ [n]) = some o ∧ o.isDir = false := by
        cases o with
        | dir => exact absurd rfl ho
        | file d => obtain ⟨m, z, ho⟩ := siteV_file.1 (h.file hg); exact ⟨_, ho, rfl⟩
        | link x => obtain ⟨-, m, z, ho⟩ := h.links _ x hg; exact ⟨_, ho, rfl⟩
      obtain ⟨o, ho, hod⟩ := hob
      obtain ⟨w', e1, hb⟩ := Mem.uRemove_leaf h.ok.inv ((h.ok.fs i).serves _) depth true (stepsOf_mem hn.ok (E i)) hn.ok.nil_not_mem
        (mem_last (hn.ok.clean n (by simp)) (E i)) (isDir_goes hvd) (.inr (plain_snoc hvd n)) ho hod
      refine ⟨_, sys_uRemove (E i) (q ++ [n]) depth e1, h.del (h.ok.mem hb) (h.ok.siteV_mem hr hb ?_ fun p hp => ?_) (by simp) (keep_mem h.ok hr hb fun p hp => ?_)⟩
      · simp [NS.erase]
      · simp [NS.erase, hp]
      · simp [NS.erase, hp]
  cases hg : t.get (q ++ [n]) with
  | none =>
    rw [e0, hg, site_remove_none h.ok hn (h.clear_in hcq (.inl hd) (by rw [h.gone hg]; simp)) (h.gone hg) depth true]
    exact .err h
  | some o =>
    rw [e0, hg]
    cases o with
    | file d => obtain ⟨s', e1, h1⟩ := leaf _ hg (by simp); rw [e1]; exact .ok h1
    | link x => obtain ⟨s', e1, h1⟩ := leaf _ hg (by simp); rw [e1]; exact .ok h1
    | dir =>
      dsimp only
      split
      swap
      · exact .out _ _
      rename_i hrem
      have hsub : ∀ x, siteV r s k (q ++ [n] ++ x) ≠ none → Nm (q ++ [n] ++ x) := fun x hx =>
        removable_nm hne hrem fun c => hx (h.gone c)
      have hh : ∀ x, siteV r s k (q ++ [n] ++ x) = some .dir → x.length < depth := fun x hx =>
        removable_dir hne hrem (by
          rw [h.here] at hx
          cases hgx : t.get (q ++ [n] ++ x) with
          | none => rw [hgx] at hx; simp at hx
          | some o => rw [hgx] at hx; cases o <;> simp_all [LKind.kind])
      cases k with
      | none =>
        obtain ⟨s', e1, h1, h2, h3, h4⟩ := C96_tree (E := E) h.ok hr hsub hne (h.dir hg) hh
        have hv : siteV r s' = Any.wipe (siteV r s) none (fun x => q ++ [n] <+: x) := by
          funext j x
          by_cases hj : j = none ∧ q ++ [n] <+: x
          · obtain ⟨rfl, hx⟩ := hj
            simp [Any.wipe, hx, h2 x hx]
          · simp only [Any.wipe, if_neg hj]; exact h3 j x hj
        rw [e1]
        exact .ok (h.wipe h1 hv hne (fun x y hx hl => (h4 x hx).trans hl) rest_loc)
      | some i =>
        have hvd := siteV_dir.1 (h.dir hd)
        have hvg := siteV_dir.1 (h.dir hg)
        obtain ⟨w', e1, hb⟩ := removeDirRec_eq (depth := depth) h.ok.inv (h.ok.fs i)
          (fun x hx => (hsub x fun c => hx (siteV_none.1 c)).ok) (h.steady hne hrem) hvg
          (fun x hx => hh x (siteV_dir.2 hx))
        have e2 := (Mem.uRemove_dir h.ok.inv ((h.ok.fs i).serves _) depth true (stepsOf_mem hn.ok (E i)) (isDir_goes hvd)
          (.inr (plain_snoc hvd n)) hvg).trans ((if_pos rfl).trans e1)
        have e3 : uRemove sysOps depth (siteAt E (some i) (q ++ [n])) true s = _ := sys_uRemove (E i) (q ++ [n]) depth e2
        rw [e3]
        have hw : ∀ x, view w' (r i) x = if q ++ [n] <+: x then none else view s.mem (r i) x := fun x => by
          rw [hb.view]; simp [NS.del]
        refine .ok (h.wipe (h.ok.mem hb) ?_ hne (fun x y hx ⟨m, z, hl⟩ => ⟨m, z, ?_⟩) (rest_mem h.ok hr hb))
        · funext j x
          by_cases hj : j = some i ∧ q ++ [n] <+: x
          · obtain ⟨rfl, hx⟩ := hj
            simp only [Any.wipe, hx, and_self, if_true]
            show (view w' (r i) x).map kindO = none
            rw [hw, if_pos hx]; rfl
          · simp only [Any.wipe, if_neg hj]
            cases j with
            | none => rfl
            | some j =>
              show (view w' (r j) x).map kindO = (view s.mem (r j) x).map kindO
              by_cases hij : j = i
              · subst hij
                rw [hw, if_neg fun c => hj ⟨rfl, c⟩]
              · rw [hb.other (r j) (h.ok.fs j).isRoot fun c => hij (hr c)]
        · show view w' (r i) x = _
          rw [hw, if_neg hx]; exact hl

end
end Verif.Any
