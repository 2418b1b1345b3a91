import Verif.Any.FrailCopy
/-! # Memory and local files with failing calls -/
namespace Verif.Any
open Verif.Spec Verif.Gen Laws
open Mem (World)

section
variable {ι : Type} {E : ι → Dict} {r : ι → Nat} {s : Sys} (hr : Function.Injective r)
  {Q : (Option ι → List Str → Option Kind) → Prop}
include hr

theorem ends_pumpLoop {k k' : Option ι} {q q' : List Str} {inf outf : Hd} {data : Bytes}
    (hne : ¬ (k' = k ∧ q' = q)) (n : Nat) : ∀ {s : Sys} {g : Bytes} {pos : Nat}, SysOk E r s → RdAt r s k q inf data pos →
    WrAt r s k' q' outf g → siteV r s k' q' = some (.file g) → data.length - pos < n →
    (∀ x, x <+: data.drop pos → Q (upd (siteV r s) k' q' (some (.file (g ++ x))))) →
    (sysLaws E r hr).Ends (frPumpLoop inf outf n) s Q := by
  induction n with
  | zero => intro s g pos _ _ _ _ h; omega
  | succ n ih =>
    intro s g pos h hrd hwr hg hlen hQ
    obtain ⟨s1, e1, ok1, v1, rd1, keep1⟩ := read_step h hr hrd 8192
    have hQ0 : Q (siteV r s) := by
      have := hQ [] List.nil_prefix
      rwa [List.append_nil, upd_self hg] at this
    have hQ1 : Q (siteV r s1) := by rw [v1]; exact hQ0
    unfold frPumpLoop
    refine Ends.bind (sim_fr _) e1 (Ends.act e1 h hQ0 ok1 hQ1) ?_
    by_cases hd : data.drop pos = []
    · have : isEmptyData (.bytes ((data.drop pos).take 8192)) = true := by simp [hd, isEmptyData]
      rw [if_pos this]
      exact Ends.pure ok1 hQ1
    · have hl : pos < data.length := by
        by_contra hc
        exact hd (List.drop_eq_nil_of_le (by omega))
      have hne' : ((data.drop pos).take 8192).isEmpty = false := by
        cases hx : (data.drop pos).take 8192 with
        | cons a b => rfl
        | nil =>
          have := congrArg List.length hx
          rw [List.length_take, List.length_drop, List.length_nil] at this
          omega
      have hQb : ∀ x, x <+: (data.drop pos).take 8192 → Q (upd (siteV r s1) k' q' (some (.file (g ++ x)))) := by
        intro x hx
        rw [v1]
        exact hQ x (hx.trans (List.take_prefix _ _))
      obtain ⟨s2, e2, ok2, v2, wr2, keep2⟩ := write_step ok1 hr (keep1 hne hwr) ((data.drop pos).take 8192)
      have : isEmptyData (.bytes ((data.drop pos).take 8192)) = false := hne'
      rw [this, if_neg Bool.false_ne_true]
      refine Ends.bind (sim_frWrite _ _) e2 ?_ ?_
      · rintro f rfl
        unfold frWrite
        cases f.plan f.now with
        | none =>
          dsimp only
          rw [e2]
          exact ⟨ok2, by show Q (siteV r s2); rw [v2]; exact hQb _ (List.prefix_refl _)⟩
        | some x =>
          dsimp only
          obtain ⟨s3, e3, ok3, v3, -, -⟩ := write_step ok1 hr (keep1 hne hwr) (((data.drop pos).take 8192).take x.part)
          rw [e3]
          exact ⟨ok3, by show Q (siteV r s3); rw [v3]; exact hQb _ (List.take_prefix _ _)⟩
      · refine ih ok2 (keep2 (fun e => hne ⟨e.1.symm, e.2.symm⟩) rd1) wr2 (by rw [v2, upd_same])
          (by simp only [List.length_take, List.length_drop]; omega) ?_
        intro x hx
        rw [v2, v1, upd_upd, List.append_assoc]
        apply hQ
        have : data.drop (pos + ((data.drop pos).take 8192).length) = (data.drop pos).drop 8192 := by
          rw [List.drop_drop]
          rw [List.length_take, List.length_drop]
          by_cases hc : 8192 ≤ data.length - pos
          · rw [Nat.min_eq_left hc]
          · rw [Nat.min_eq_right (by omega), List.drop_eq_nil_of_le (by omega), List.drop_eq_nil_of_le (by omega)]
        rw [this] at hx
        obtain ⟨y, hy⟩ := hx
        exact ⟨y, by rw [List.append_assoc, hy, List.take_append_drop]⟩

/-- copying a file leaves what was there, or a file with a beginning of the data -/
theorem ends_content (h : SysOk E r s) {k k' : Option ι} {cs ds : List Str} {n : Str} {d : Bytes}
    (hn : Nm cs) (hn' : Nm (ds ++ [n])) (hv : siteV r s k cs = some (.file d)) (hd : siteV r s k' ds = some .dir)
    (hv' : siteV r s k' (ds ++ [n]) = none ∨ isF (siteV r s k' (ds ++ [n])) = true) (hne : ¬ (k = k' ∧ cs = ds ++ [n]))
    (hQ : Q (siteV r s)) (hQ' : ∀ d', d' <+: d → Q (upd (siteV r s) k' (ds ++ [n]) (some (.file d')))) :
    (sysLaws E r hr).Ends (copyContent frailSys (siteAt E k cs) (siteAt E k' (ds ++ [n]))) s Q := by
  let L := sysLaws E r hr
  obtain ⟨s1, inf, e1, ok1, v1, rd1⟩ := site_openR h hn hv
  obtain ⟨s2, outf, e2, ok2, v2, wr2, keep2⟩ := site_openW ok1 hr hn' (by rw [v1]; exact hd) (by rw [v1]; exact hv')
  have rd2 := keep2 hne rd1
  have c1 : uOpenR sysOps (siteAt E k cs) s = (.ok inf, s1) := by
    unfold uOpenR
    exact (L.withConn h hn _ _).trans e1
  have c2 : uOpenW sysOps (siteAt E k' (ds ++ [n])) s1 = (.ok outf, s2) := by
    unfold uOpenW
    exact (L.withConn ok1 hn' _ _).trans e2
  have hQ1 : Q (siteV r s1) := by rw [v1]; exact hQ
  have hQ2 : Q (siteV r s2) := by rw [v2, v1]; exact hQ' [] List.nil_prefix
  unfold copyContent
  refine Ends.bind (sim_openR _) c1 (Ends.withConn (L := L) h hn hQ (Ends.act e1 h hQ ok1 hQ1)) ?_
  refine Ends.bind (sim_openW _) c2 (Ends.withConn (L := L) ok1 hn' hQ1 (Ends.act e2 ok1 hQ1 ok2 hQ2)) ?_
  show L.Ends (frPump inf outf) s2 Q
  unfold frPump
  refine Ends.bind (sim_still _) (hSize_eq rd2) ?_ ?_
  · rintro f rfl
    unfold still
    rw [hSize_eq rd2]
    exact ⟨ok2, hQ2⟩
  · refine ends_pumpLoop hr (fun e => hne ⟨e.1.symm, e.2.symm⟩) (d.length + 1) ok2 rd2 wr2 (by rw [v2, upd_same]) (by omega) ?_
    intro x hx
    rw [v2, v1, upd_upd]
    exact hQ' _ hx

/-- copying between memory and local files with failing calls -/
theorem sysFrailty : (sysLaws E r hr).Frailty frPump where
  sim := sim_frPump
  copy := by
    intro s k k' cs ds n d Q hm h hn hn' hv hd hv' hne hQ hQ'
    obtain ⟨s1, e1, ok1, v1⟩ := site_content h hr hn hn' hv hd hv' hne
    have hQ1 : Q (siteV r s1) := by rw [v1]; exact hQ' d (List.prefix_refl _)
    refine Ends.bind (sim_copyContent sim_frPump _ _) e1 (ends_content hr h hn hn' hv hd hv' hne hQ hQ') ?_
    by_cases hk : k = k'
    · subst hk
      obtain ⟨s2, e2, ok2, v2⟩ := site_copystat ok1 hr hn hn' (d := d) (d' := d)
        (by rw [v1, upd_ne (fun e => hne ⟨rfl, e.2⟩)]; exact hv) (by rw [v1, upd_same])
      rw [if_pos]
      · exact Ends.act e2 ok1 hQ1 ok2 (by show Q (siteV r s2); rw [v2]; exact hQ1)
      · cases k <;> rfl
    · rw [if_neg]
      · exact Ends.pure ok1 hQ1
      · cases k with
        | none =>
          cases k' with
          | none => exact absurd rfl hk
          | some j => simp [sysLaws, siteAt, Gen.mem, loc, Uri.scheme]
        | some i =>
          cases k' with
          | none => simp [sysLaws, siteAt, Gen.mem, loc, Uri.scheme]
          | some j =>
            rcases hm with h | h | h
            · simp at h
            · simp at h
            · exact absurd h hk

end
end Verif.Any
