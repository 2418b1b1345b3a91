import Verif.Props.CopyTree
/-!
# Moving in memory: what is elsewhere

The moves of C51 in any world with the invariant, for paths that lead over no links: what is neither at the old nor at the new name
stays, links included.
-/
namespace Verif.Props
open Verif.Spec Verif.Mem Verif.Gen

/-- moving a file, onto a free name or a file, or into a directory -/
theorem memMove_file {w : World} (h : Inv w) {D : Dict} {r : Nat} (hf : Fs w D r) {init pre q : List Str} {n m : Str} {data : Bytes} {md z : Int}
    (hs : Ok (init ++ [n])) (he : Ok (pre ++ [m])) (hv : view w r (init ++ [n]) = some (.file data md z))
    (hpre : (view w r).isDir pre) (hn : view w r (pre ++ [m]) = none ∨ (view w r).isFile (pre ++ [m])) (hne : pre ++ [m] ≠ init ++ [n])
    (hq : q = pre ++ [m] ∨ (q = pre ∧ m = n)) (depth : Nat) :
    ∃ w', uMove depth (mem D (init ++ [n])) (mem D q) w = (.ok (), w') ∧
      Becomes w w' r (((view w r).set (pre ++ [m]) (.file data md z)).erase (init ++ [n])) := by
  have hqd := view_parent hv
  have hg := isDir_goes hqd
  have hp : Plain (view w r) (init ++ [n]) := plain_snoc hqd n
  have hgf := hg.snoc hqd hv rfl
  have hu := hf.serves (init ++ [n])
  have hst := stepsOf_mem hs D
  have hste := stepsOf_mem he D
  have hk : Sink (view w r) pre m (pre ++ [m]) := by
    rcases hn with hn | ⟨b, m', z', hb⟩
    · exact .new (isDir_goes hpre) hpre hn
    · exact .old (isDir_goes hpre) hb ((isDir_goes hpre).snoc hpre hb rfl) ⟨b, m', z', hb⟩
  obtain ⟨w1, h1, h2⟩ := copyOne_file h hu (hf.serves (pre ++ [m])) hst hste (fl := true)
    ⟨⟨init, hg, hqd, .inr hp, .inl rfl⟩, hgf, hv⟩ hk hne
  have hcopy : uCopy depth (mem D (init ++ [n])) (mem D q) false [] true w = (.ok (), w1) := by
    rw [copy_start h hu hst hgf hv]
    rcases hq with rfl | ⟨rfl, rfl⟩
    · have e : uIsdir (mem D (pre ++ [m])) w = (.ok false, w) := by rw [uIsdir_ans h (hf.serves _) hste, hk.dirAns]
      rw [bind_ok e]
      exact h1
    · have hokp : Ok q := he.of_prefix
      have hnc := hs.clean m (by simp)
      have e : uIsdir (mem D q) w = (.ok true, w) := by
        rw [uIsdir_ans h (hf.serves _) (stepsOf_mem hokp D), dirAns_dir (isDir_goes hpre) hpre]
      rw [bind_ok e]
      simp only [if_true]
      rw [mem_last hnc, bind_lift (mem_div hokp.clean hnc D)]
      exact h1
  have hkeep : (view w r).Keeps (view w1 r) := by
    rw [h2.view]
    rcases hn with hn | ⟨b, m', z', hb⟩
    · exact NS.set_keeps_new hn
    · exact (NS.set_sameKinds (o' := .file data md z) hb rfl).keeps
  obtain ⟨w2, h3, h4⟩ := uRemove_leaf h2.inv (h2.serves hu) depth false hst hs.nil_not_mem (mem_last (hs.clean n (by simp)) D) (hg.keeps hkeep)
    (.inr (fun a b c e => hkeep.isDir (hp a b c e)))
    (by rw [h2.view, NS.set_ne _ _ hne.symm]; exact hv) rfl
  refine ⟨w2, ?_, (h2.trans h4).congr (by rw [h2.view])⟩
  unfold uMove
  rw [withConn_serves hu hst]
  unfold Gen.move
  have e1 := uIsfile_goes h hu hst hgf
  simp only [answer, hv, Option.any_some, Obj.isFile] at e1
  rw [bind_ok e1]
  simp only [if_true]
  rw [bind_ok hcopy]
  exact h3

/-- moving a directory without links to a free name, or into a directory -/
theorem memMove_dir {w : World} (h : Inv w) {D : Dict} {r : Nat} (hf : Fs w D r) {init pre q : List Str} {n m : Str}
    (H : Copyable (view w r) (init ++ [n]) (pre ++ [m]) true) (hs : (view w r).isDir (init ++ [n])) (hpre : (view w r).isDir pre)
    (hn : view w r (pre ++ [m]) = none) (hq : q = pre ++ [m] ∨ (q = pre ∧ m = n)) {depth : Nat} (hd : 0 < depth)
    (hh : ∀ t, (view w r).isDir (init ++ [n] ++ t) → t.length < depth) :
    ∃ w', uMove depth (mem D (init ++ [n])) (mem D q) w = (.ok (), w') ∧ Becomes w w' r (view w' r) ∧
      ∀ p, ¬ init ++ [n] <+: p → ¬ pre ++ [m] <+: p → view w' r p = view w r p := by
  obtain ⟨w1, h1, h2, h3⟩ := copyTree_eq (rest := []) h hf H hs hpre hn (by simpa using H.ok) hd hh []
  simp only [List.append_nil] at h1
  have hoks : Ok (init ++ [n]) := by
    have := H.writable [] (by obtain ⟨m, t, h⟩ := hs; simp [h])
    simpa using this
  have hcopy : uCopy depth (mem D (init ++ [n])) (mem D q) true [] true w = (.ok (), w1) := by
    have hgs := isDir_goes hs
    have e0 := uExists_goes h (hf.serves _) (stepsOf_mem hoks D) hgs
    have e1 := uIsdir_goes h (hf.serves _) (stepsOf_mem hoks D) hgs
    obtain ⟨m', t', hb⟩ := hs
    simp only [answer, hb, Option.any_some, Obj.isDir] at e0 e1
    unfold uCopy
    rw [withConn_serves (hf.serves _) (stepsOf_mem hoks D)]
    unfold Gen.copy
    rw [bind_ok e0]
    simp only [Bool.not_true, Bool.false_eq_true, if_false]
    rw [bind_ok e1]
    simp only [Bool.not_true, Bool.false_eq_true, if_false]
    rcases hq with rfl | ⟨rfl, rfl⟩
    · have e : uIsdir (mem D (pre ++ [m])) w = (.ok false, w) := by
        rw [uIsdir_ans h (hf.serves _) (stepsOf_mem H.ok D), dirAns_goes ((isDir_goes hpre).append (.missing hpre hn))]
        rfl
      rw [bind_ok e]
      simp only [Bool.false_eq_true, if_false]
      exact h1
    · have hnc := hoks.clean m (by simp)
      have hokp : Ok q := H.ok.of_prefix
      have e : uIsdir (mem D q) w = (.ok true, w) := by
        rw [uIsdir_ans h (hf.serves _) (stepsOf_mem hokp D), dirAns_dir (isDir_goes hpre) hpre]
      rw [bind_ok e]
      simp only [if_true]
      rw [mem_last hnc, bind_lift (mem_div hokp.clean hnc D)]
      exact h1
  have same : ∀ x, view w1 r (init ++ [n] ++ x) = view w r (init ++ [n] ++ x) := fun x => h3.outside _ (H.apart x)
  have hs1 : (view w1 r).isDir (init ++ [n]) := by
    have := same []
    simp only [List.append_nil] at this
    unfold NS.isDir; rw [this]; exact hs
  have hok1 : Writable (view w1 r) (init ++ [n]) := by intro x hx; rw [same] at hx; exact H.writable x hx
  have hf1 := hf.becomes h2
  obtain ⟨w2, k1, k2⟩ := removeDirRec_eq h2.inv hf1 hok1
    (steady_no_links fun x hx => by
      unfold NS.isLink at hx; rw [same] at hx; exact H.noLinks rfl x hx) hs1
    (depth := depth) (by intro x hx; unfold NS.isDir at hx; rw [same] at hx; exact hh x hx)
  have hi := isDir_prefix hs1
  have k3 : uRemove depth (mem D (init ++ [n])) true w1 = (.ok (), w2) := by
    rw [uRemove_dir h2.inv (hf1.serves _) depth true (stepsOf_mem hoks D) (isDir_goes hi) (.inr (plain_snoc hi n)) hs1]
    exact k1
  refine ⟨w2, ?_, (h2.trans k2).congr k2.view.symm, fun p c1 c2 => ?_⟩
  · unfold uMove
    rw [withConn_serves (hf.serves _) (stepsOf_mem hoks D)]
    unfold Gen.move
    have e1 := uIsfile_goes h (hf.serves _) (stepsOf_mem hoks D) (isDir_goes hs)
    obtain ⟨m, t, e⟩ := hs
    simp only [answer, e, Option.any_some, Obj.isFile] at e1
    rw [bind_ok e1]
    simp only [Bool.false_eq_true, if_false]
    rw [bind_ok hcopy]
    exact k3
  · rw [k2.view, NS.del, if_neg c1, h3.outside p c2]

end Verif.Props
