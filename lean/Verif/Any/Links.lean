import Verif.Any.Walk
/-!
# Removing trees with links in them

`Linked L J k`: what is known about links in the place `k`, in the states satisfying `J`.  `isdir` of a link may say
anything, and something else later.
-/
namespace Verif.Any
open Mem (Meth)
open Verif.Spec Verif.Gen

variable {σ : Type} {O : Ops σ} {κ : Type} {I : σ → Prop} {may : κ → κ → Prop}

/-- links can be recognised and removed; removing keeps `J` -/
structure Linked (L : Laws O κ I may) (J : σ → Prop) (k : κ) : Prop where
  inv : ∀ {s}, J s → I s
  isdir : ∀ {s cs}, J s → Nm cs → L.V s k cs = some .other → ∃ b, O.isdir (L.C k) (L.at_ k cs) s = (.ok b, s)
  islink : ∀ {s cs}, J s → Nm cs → L.V s k cs = some .other → O.islink (L.C k) (L.at_ k cs) s = (.ok true, s)
  removefile : ∀ {s cs}, J s → Nm cs → L.V s k cs ≠ none → L.V s k cs ≠ some .dir →
    ∃ s', O.removefile (L.C k) (L.at_ k cs) s = (.ok (), s') ∧ J s' ∧ L.V s' = upd (L.V s) k cs none
  removedir : ∀ {s cs}, J s → Nm cs → cs ≠ [] → L.V s k cs = some .dir → (∀ n, L.V s k (cs ++ [n]) = none) →
    ∃ s', O.removedir (L.C k) (L.at_ k cs) s = (.ok (), s') ∧ J s' ∧ L.V s' = upd (L.V s) k cs none

namespace Linked
variable {L : Laws O κ I may} {J : σ → Prop} {k : κ} (K : Linked L J k) {s : σ} {q : List Str}
include K

theorem classify (hs : J s) : ∀ l : List Str, (∀ n ∈ l, Nm (q ++ [n]) ∧ L.V s k (q ++ [n]) ≠ none) →
    ∃ D F, Any.classify O (L.C k) (L.at_ k q) l s = (.ok (D, F), s) ∧ D.Sublist l ∧ F.Sublist l ∧
      (∀ n ∈ l, n ∈ D ∨ n ∈ F) ∧ (∀ n ∈ D, L.V s k (q ++ [n]) = some .dir ∨ L.V s k (q ++ [n]) = some .other) ∧
      (∀ n ∈ F, L.V s k (q ++ [n]) ≠ some .dir) ∧ (l.Nodup → ∀ n ∈ D, n ∉ F) := by
  intro l
  induction l with
  | nil => intro _; exact ⟨[], [], rfl, .slnil, .slnil, by simp, by simp, by simp, by simp⟩
  | cons n l ih =>
    intro hl
    obtain ⟨h1, h2⟩ := hl n (by simp)
    obtain ⟨D, F, a1, a2, a3, a4, a5, a6, a7⟩ := ih fun x hx => hl x (by simp [hx])
    have hb : ∃ b, O.isdir (L.C k) (L.at_ k (q ++ [n])) s = (.ok b, s) ∧
        (b = true → L.V s k (q ++ [n]) = some .dir ∨ L.V s k (q ++ [n]) = some .other) ∧
        (b = false → L.V s k (q ++ [n]) ≠ some .dir) := by
      by_cases ho : L.V s k (q ++ [n]) = some .other
      · obtain ⟨b, hb⟩ := K.isdir hs h1 ho
        exact ⟨b, hb, fun _ => .inr ho, fun _ => by rw [ho]; simp⟩
      · refine ⟨_, L.isdir (K.inv hs) h1 (L.clear_of (K.inv hs) h2 ho), fun h => .inl (isD_iff.1 h), fun h e => ?_⟩
        rw [e] at h; simp [isD] at h
    obtain ⟨b, b1, b2, b3⟩ := hb
    cases b with
    | true =>
      refine ⟨n :: D, F, ?_, a2.cons_cons n, a3.cons n, ?_, ?_, a6, ?_⟩
      · unfold Any.classify
        rw [bind_lift (L.div1 h1), bind_ok b1, bind_ok a1]
        rfl
      · intro m hm
        rcases List.mem_cons.1 hm with rfl | hm
        · exact .inl (by simp)
        · exact (a4 m hm).imp (fun h => by simp [h]) id
      · intro m hm
        rcases List.mem_cons.1 hm with rfl | hm
        · exact b2 rfl
        · exact a5 m hm
      · intro hnd m hm hF
        rcases List.mem_cons.1 hm with rfl | hm
        · exact (List.nodup_cons.1 hnd).1 (a3.subset hF)
        · exact a7 (List.nodup_cons.1 hnd).2 m hm hF
    | false =>
      refine ⟨D, n :: F, ?_, a2.cons n, a3.cons_cons n, ?_, a5, ?_, ?_⟩
      · unfold Any.classify
        rw [bind_lift (L.div1 h1), bind_ok b1, bind_ok a1]
        rfl
      · intro m hm
        rcases List.mem_cons.1 hm with rfl | hm
        · exact .inr (by simp)
        · exact (a4 m hm).imp id (fun h => by simp [h])
      · intro m hm
        rcases List.mem_cons.1 hm with rfl | hm
        · exact b3 rfl
        · exact a6 m hm
      · intro hnd m hm hF
        rcases List.mem_cons.1 hF with rfl | hF
        · exact (List.nodup_cons.1 hnd).1 (a2.subset hm)
        · exact a7 (List.nodup_cons.1 hnd).2 m hm hF

/-- the files and links of a directory are removed -/
theorem removeFiles : ∀ (l : List Str) {s : σ}, J s → l.Nodup →
    (∀ n ∈ l, Nm (q ++ [n]) ∧ L.V s k (q ++ [n]) ≠ none ∧ L.V s k (q ++ [n]) ≠ some .dir) →
    ∃ s', (l.forM fun f => do
        let p ← OM.lift ((L.at_ k q).div f)
        O.removefile (L.C k) p : OM σ Unit) s = (.ok (), s') ∧ J s' ∧
      L.V s' = wipe (L.V s) k (fun p => ∃ n ∈ l, p = q ++ [n]) := by
  intro l
  induction l with
  | nil => intro s hs _ _; exact ⟨s, rfl, hs, (wipe_false (by simp)).symm⟩
  | cons n l ih =>
    intro s hs hnd hl
    obtain ⟨h1, h2, h3⟩ := hl n (by simp)
    obtain ⟨s1, k1, k2, k3⟩ := K.removefile hs h1 h2 h3
    have hnn := (List.nodup_cons.1 hnd).1
    obtain ⟨s2, j1, j2, j3⟩ := ih k2 (List.nodup_cons.1 hnd).2 (by
      intro m hm
      obtain ⟨g1, g2⟩ := hl m (by simp [hm])
      refine ⟨g1, ?_⟩
      rw [k3, upd_ne (by rintro ⟨-, h⟩; simp at h; subst h; exact hnn hm)]
      exact g2)
    refine ⟨s2, ?_, j2, ?_⟩
    · rw [List.forM_eq_forM, List.forM_cons, bind_ok (a := ()) (s' := s1) (by rw [bind_lift (L.div1 h1)]; exact k1)]
      exact j1
    · rw [j3, k3, upd_none, wipe_wipe]
      exact wipe_congr fun p => by simp

/-- the empty sub-directories, and the links, of a directory are removed -/
theorem removeDirs : ∀ (l : List Str) {s : σ}, J s → l.Nodup →
    (∀ n ∈ l, Nm (q ++ [n]) ∧ (L.V s k (q ++ [n]) = some .other ∨
      (L.V s k (q ++ [n]) = some .dir ∧ ∀ m, L.V s k (q ++ [n] ++ [m]) = none))) →
    ∃ s', (l.forM fun d => do
        let p ← OM.lift ((L.at_ k q).div d)
        if ← O.islink (L.C k) p then O.removefile (L.C k) p else O.removedir (L.C k) p : OM σ Unit) s = (.ok (), s') ∧ J s' ∧
      L.V s' = wipe (L.V s) k (fun p => ∃ n ∈ l, p = q ++ [n]) := by
  intro l
  induction l with
  | nil => intro s hs _ _; exact ⟨s, rfl, hs, (wipe_false (by simp)).symm⟩
  | cons n l ih =>
    intro s hs hnd hl
    obtain ⟨h1, h2⟩ := hl n (by simp)
    have hnn := (List.nodup_cons.1 hnd).1
    have step : ∃ s1, (do
        let p ← OM.lift ((L.at_ k q).div n)
        if ← O.islink (L.C k) p then O.removefile (L.C k) p else O.removedir (L.C k) p : OM σ Unit) s = (.ok (), s1) ∧ J s1 ∧
        L.V s1 = upd (L.V s) k (q ++ [n]) none := by
      rcases h2 with h2 | ⟨h2, h3⟩
      · obtain ⟨s1, k1, k2, k3⟩ := K.removefile hs h1 (by rw [h2]; simp) (by rw [h2]; simp)
        refine ⟨s1, ?_, k2, k3⟩
        rw [bind_lift (L.div1 h1), bind_ok (K.islink hs h1 h2), if_pos rfl]
        exact k1
      · obtain ⟨s1, k1, k2, k3⟩ := K.removedir hs h1 (by simp) h2 h3
        refine ⟨s1, ?_, k2, k3⟩
        rw [bind_lift (L.div1 h1), bind_ok (L.islink (K.inv hs) h1 (L.clear_dir (K.inv hs) h2) (by rw [h2]; simp)),
          if_neg Bool.false_ne_true]
        exact k1
    obtain ⟨s1, k1, k2, k3⟩ := step
    have hle : ∀ p, p ≠ q ++ [n] → L.V s1 k p = L.V s k p := fun p hp => by
      rw [k3, upd_ne (by rintro ⟨-, h⟩; exact hp h)]
    obtain ⟨s2, j1, j2, j3⟩ := ih k2 (List.nodup_cons.1 hnd).2 (by
      intro m hm
      obtain ⟨g1, g2⟩ := hl m (by simp [hm])
      have hne : q ++ [m] ≠ q ++ [n] := by intro h; simp at h; subst h; exact hnn hm
      refine ⟨g1, ?_⟩
      rw [hle _ hne]
      refine g2.imp id fun ⟨g3, g4⟩ => ⟨g3, fun x => ?_⟩
      by_cases hx : q ++ [m] ++ [x] = q ++ [n]
      · rw [hx, k3, upd_same]
      · rw [hle _ hx]; exact g4 x)
    refine ⟨s2, ?_, j2, ?_⟩
    · rw [List.forM_eq_forM, List.forM_cons, bind_ok (a := ()) (s' := s1) k1]
      exact j1
    · rw [j3, k3, upd_none, wipe_wipe]
      exact wipe_congr fun p => by simp

theorem remove_walk (depth : Nat) : ∀ (q : List Str) {s : σ}, J s →
    (∀ t, L.V s k (q ++ t) ≠ none → Nm (q ++ t)) → L.V s k q = some .dir → (∀ x, L.V s k (q ++ x) = some .dir → x.length < depth) →
    ∃ s', walk O (L.C k) false false (L.remover k) depth (L.at_ k q) () s = (.ok (), s') ∧ J s' ∧
      L.V s' = wipe (L.V s) k (fun p => q <+: p ∧ p ≠ q) := by
  induction depth with
  | zero =>
    intro q s _ _ hd hh
    exact absurd (hh [] (by simpa using hd)) (by simp)
  | succ depth ih =>
    intro q s hs hsub hd hh
    have loop : ∀ (l : List Str) {s1 : σ}, J s1 → l.Nodup → (∀ t, L.V s1 k (q ++ t) ≠ none → Nm (q ++ t)) →
        (∀ n ∈ l, L.V s1 k (q ++ [n]) = some .dir ∨ L.V s1 k (q ++ [n]) = some .other) →
        (∀ x, L.V s1 k (q ++ x) = some .dir → x.length < depth + 1) →
        ∃ s', walkDirs O false (walk O (L.C k) false false (L.remover k) depth) (L.at_ k q) l () s1 = (.ok (), s') ∧ J s' ∧
          L.V s' = wipe (L.V s1) k (fun p => ∃ n ∈ l, q ++ [n] <+: p ∧ p ≠ q ++ [n]) := by
      intro l
      induction l with
      | nil => intro s1 hs1 _ _ _ _; exact ⟨s1, rfl, hs1, (wipe_false (by simp)).symm⟩
      | cons n l ihl =>
        intro s1 hs1 hnd hsub1 hl hh1
        have hnn := (List.nodup_cons.1 hnd).1
        have hdn := hl n (by simp)
        have hnm : Nm (q ++ [n]) := hsub1 [n] (by rcases hdn with h | h <;> rw [h] <;> simp)
        rcases hdn with hdn | hdn
        · obtain ⟨s2, h1, h2, h3⟩ := ih (q ++ [n]) hs1 (fun t ht => by
            rw [List.append_assoc] at ht ⊢; exact hsub1 _ ht) hdn (by
            intro x hx
            have := hh1 (n :: x) (by simpa using hx)
            simp at this; omega)
          have hle : ∀ p, L.V s2 k p = none ∨ L.V s2 k p = L.V s1 k p := by
            intro p
            rw [h3]
            by_cases hp : q ++ [n] <+: p ∧ p ≠ q ++ [n]
            · exact .inl (wipe_in hp)
            · exact .inr (wipe_out hp)
          obtain ⟨s3, j1, j2, j3⟩ := ihl h2 (List.nodup_cons.1 hnd).2
            (fun x hx => hsub1 x (by rcases hle (q ++ x) with h | h
                                     · exact absurd h hx
                                     · rwa [← h]))
            (by
              intro m hm
              rw [h3, wipe_out]
              · exact hl m (by simp [hm])
              · rintro ⟨a, -⟩
                have := prefix_snoc_inj a (List.prefix_refl (q ++ [m]))
                subst this; exact hnn hm)
            (by
              intro x hx
              rcases hle (q ++ x) with h | h
              · rw [h] at hx; simp at hx
              · exact hh1 x (by rw [← h]; exact hx))
          refine ⟨s3, ?_, j2, ?_⟩
          · unfold Any.walkDirs
            rw [bind_lift (L.div1 hnm), bind_ok (L.uIslink (K.inv hs1) hnm (L.clear_dir (K.inv hs1) hdn) (by rw [hdn]; simp))]
            show ((do
              let t ← walk O (L.C k) false false (L.remover k) depth (L.at_ k (q ++ [n])) ()
              walkDirs O false (walk O (L.C k) false false (L.remover k) depth) (L.at_ k q) l t : OM σ Unit)) s1 = _
            rw [bind_ok h1, j1]
          · rw [j3, h3, wipe_wipe]
            exact wipe_congr fun p => by simp
        · obtain ⟨s3, j1, j2, j3⟩ := ihl hs1 (List.nodup_cons.1 hnd).2 hsub1 (fun m hm => hl m (by simp [hm])) hh1
          refine ⟨s3, ?_, j2, ?_⟩
          · have hl' : uIslink O (L.at_ k (q ++ [n])) s1 = (.ok true, s1) :=
              (L.withConn (K.inv hs1) hnm _ _).trans (K.islink hs1 hnm hdn)
            unfold Any.walkDirs
            rw [bind_lift (L.div1 hnm), bind_ok hl']
            exact j1
          · rw [j3]
            apply wipe_ext
            intro p hp
            constructor
            · rintro ⟨m, hm, h⟩; exact ⟨m, by simp [hm], h⟩
            · rintro ⟨m, hm, h1, h2⟩
              rcases List.mem_cons.1 hm with rfl | hm
              · have := L.above (K.inv hs1) hp _ h1 (Ne.symm h2)
                rw [hdn] at this; simp at this
              · exact ⟨m, hm, h1, h2⟩
    have hI := K.inv hs
    obtain ⟨D, F, cl, sD, sF, cov, hD, hF, disj⟩ := K.classify hs (q := q) (L.names s k q) fun n hn => by
      have := (L.mem_names hI).1 hn
      exact ⟨hsub [n] this, this⟩
    have hndD : D.Nodup := sD.nodup (L.names_nodup hI)
    have hndF : F.Nodup := sF.nodup (L.names_nodup hI)
    have hvF : ∀ n ∈ F, L.V s k (q ++ [n]) ≠ none := fun n hn => (L.mem_names hI).1 (sF.subset hn)
    have hvD : ∀ n ∈ D, L.V s k (q ++ [n]) ≠ none := fun n hn => (L.mem_names hI).1 (sD.subset hn)
    obtain ⟨s1, a1, a2, a3⟩ := loop D hs hndD hsub hD hh
    have keep1 : ∀ n, L.V s1 k (q ++ [n]) = L.V s k (q ++ [n]) := by
      intro n
      rw [a3, wipe_out]
      rintro ⟨m, hm, b, c⟩
      have := prefix_snoc_inj b (List.prefix_refl (q ++ [n]))
      subst this; exact c rfl
    obtain ⟨s2, b1, b2, b3⟩ := K.removeFiles (q := q) F a2 hndF (by
      intro n hn
      rw [keep1]
      exact ⟨hsub [n] (hvF n hn), hvF n hn, hF n hn⟩)
    obtain ⟨s3, c1, c2, c3⟩ := K.removeDirs (q := q) D b2 hndD (by
      intro n hn
      have hnF : ¬ ∃ m ∈ F, q ++ [n] = q ++ [m] := by
        rintro ⟨m, hm, h⟩; simp at h; subst h; exact disj (L.names_nodup hI) n hn hm
      refine ⟨hsub [n] (hvD n hn), ?_⟩
      rw [b3, wipe_out hnF, keep1]
      rcases hD n hn with h | h
      · refine .inr ⟨h, fun m => ?_⟩
        by_cases hx : ∃ n' ∈ F, q ++ [n] ++ [m] = q ++ [n']
        · rw [wipe_in hx]
        · rw [wipe_out hx, a3, wipe_in]
          exact ⟨n, hn, List.prefix_append _ _, by simp⟩
      · exact .inl h)
    refine ⟨s3, ?_, c2, ?_⟩
    · unfold Any.walk
      rw [bind_ok (L.listdir hI (by have := hsub []; simp only [List.append_nil] at this; exact this (by rw [hd]; simp)) hd),
        sortStr_of_pairwise (L.names_sorted hI), bind_ok cl]
      have : L.remover k () (L.at_ k q) D F s1 = (.ok ((), D), s3) := by
        unfold Laws.remover removeBody
        rw [bind_ok (a := ()) (s' := s3) (by rw [bind_ok b1]; exact c1)]
        rfl
      show (if false = true then _ else (do
        let t ← walkDirs O false (walk O (L.C k) false false (L.remover k) depth) (L.at_ k q) D ()
        let x ← L.remover k t (L.at_ k q) D F
        pure x.1 : OM σ Unit)) s = _
      rw [if_neg Bool.false_ne_true, bind_ok a1, bind_ok this]
      rfl
    · rw [c3, b3, a3, wipe_wipe, wipe_wipe]
      apply wipe_ext
      intro p hp
      constructor
      · rintro (⟨n, hn, x, y⟩ | ⟨n, hn, rfl⟩ | ⟨n, hn, rfl⟩)
        · refine ⟨(List.prefix_append _ _).trans x, ?_⟩
          rintro rfl
          have := x.length_le
          simp only [List.length_append, List.length_singleton] at this
          omega
        · exact ⟨List.prefix_append _ _, by simp⟩
        · exact ⟨List.prefix_append _ _, by simp⟩
      · rintro ⟨⟨x, rfl⟩, hne⟩
        cases x with
        | nil => simp at hne
        | cons n x =>
          have hv : L.V s k (q ++ [n]) ≠ none := fun h => hp (by
            have := L.none_below hI (t := x) h
            simpa using this)
          rcases cov n ((L.mem_names hI).2 hv) with hm | hm
          · by_cases hx : x = []
            · subst hx; exact .inr (.inr ⟨n, hm, rfl⟩)
            · exact .inl ⟨n, hm, ⟨x, by simp⟩, by simp [hx]⟩
          · by_cases hx : x = []
            · subst hx; exact .inr (.inl ⟨n, hm, rfl⟩)
            · exact absurd (L.above hI hp _ ⟨x, by simp⟩ (by simp [hx])) (hF n hm)

/-- a whole tree is removed, with the links in it, and nothing else -/
theorem uRemove_tree {depth : Nat} (hs : J s) (hsub : ∀ t, L.V s k (q ++ t) ≠ none → Nm (q ++ t)) (hq : q ≠ [])
    (hd : L.V s k q = some .dir) (hh : ∀ x, L.V s k (q ++ x) = some .dir → x.length < depth) :
    ∃ s', uRemove O depth (L.at_ k q) true s = (.ok (), s') ∧ J s' ∧ L.V s' = wipe (L.V s) k (fun p => q <+: p) := by
  have hn : Nm q := by have := hsub []; simp only [List.append_nil] at this; exact this (by rw [hd]; simp)
  have hI := K.inv hs
  have hc := L.clear_dir hI hd
  obtain ⟨s1, a1, a2, a3⟩ := K.remove_walk depth q hs hsub hd hh
  have hd1 : L.V s1 k q = some .dir := by rw [a3, wipe_out (by simp), hd]
  obtain ⟨s2, b1, b2, b3⟩ := K.removedir a2 hn hq hd1 (fun n => by
    rw [a3, wipe_in]; exact ⟨List.prefix_append _ _, by simp⟩)
  refine ⟨s2, ?_, b2, ?_⟩
  · unfold Any.uRemove
    rw [L.withConn hI hn, bind_ok (L.islink hI hn hc (by rw [hd]; simp)), if_neg Bool.false_ne_true,
      bind_ok (L.exists_ hI hn hc), hd]
    show ((do if ← O.isdir (L.C k) (L.at_ k q) then _ else _ : OM σ Unit)) s = _
    rw [bind_ok (L.isdir hI hn hc), hd]
    show removeDirRec O depth (L.C k) (L.at_ k q) s = _
    unfold removeDirRec
    have a1' : walk O (L.C k) false false (fun (_ : Unit) top dirs files => do
        removeBody O (L.C k) top dirs files
        pure ((), dirs)) depth (L.at_ k q) () s = (.ok (), s1) := a1
    rw [bind_ok a1', bind_ok (L.islink (K.inv a2) hn (L.clear_dir (K.inv a2) hd1) (by rw [hd1]; simp)), if_neg Bool.false_ne_true]
    exact b1
  · rw [b3, a3, upd_none, wipe_wipe]
    apply wipe_congr
    intro p
    constructor
    · rintro (h | rfl)
      · exact h.1
      · exact List.prefix_refl _
    · intro h
      by_cases hp : p = q
      · exact .inr hp
      · exact .inl ⟨h, hp⟩

/-- a link is removed, whether or not the removal is recursive, and nothing else -/
theorem uRemove_link {depth : Nat} {rec : Bool} (hs : J s) (hn : Nm q) (hl : L.V s k q = some .other) :
    ∃ s', uRemove O depth (L.at_ k q) rec s = (.ok (), s') ∧ J s' ∧ L.V s' = upd (L.V s) k q none := by
  obtain ⟨s2, b1, b2, b3⟩ := K.removefile hs hn (by rw [hl]; simp) (by rw [hl]; simp)
  refine ⟨s2, ?_, b2, b3⟩
  unfold Any.uRemove
  rw [L.withConn (K.inv hs) hn, bind_ok (K.islink hs hn hl), if_pos rfl]
  exact b1

end Linked
end Verif.Any
