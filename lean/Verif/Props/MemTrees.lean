import Verif.Any.MemFlow
import Verif.Props.CopyTree
/-!
# C113: memory trees seen through their links

`reached ns p` is what the path `p` leads to when links are followed, `Shown ns p n` says that the directory it leads to has
the name `n`.  `Passable` and `Whole` (Spec/Through) say what is assumed of the tree; `C113_repeated_refuted` and
`C113_lost_refuted` show that the code fails without it.
-/
namespace Verif.Props
open Verif.Spec Verif.Mem Verif.Gen Verif.Any

section
variable {w : World} {E : Dict} {r : Nat}

/-- `walk` with followlinks yields every path below the top that leads to a directory, once; with it the names in that
    directory, in order, those that lead to directories and the others. -/
theorem C113_walk (h : Reachable w) (hf : Fs w E r) {src : List Str} (hok : Ok src) (P : Passable (view w r) src)
    (hans : ∀ x n, Ok (src ++ x) → Shown (view w r) (src ++ x) n → ∃ b, dirAns (view w r) (src ++ (x ++ [n])) = .ok b)
    (hroot : LeadsToDir (view w r) src) {depth : Nat} (hh : ∀ x, LeadsToDir (view w r) (src ++ x) → x.length < depth) (td : Bool) :
    ∃ (ps : List (List Str)) (row : List Str → Uri × List Str × List Str),
      Gen.uWalk depth (mem E src) td true w = (.ok (ps.map row), w) ∧
      (∀ p, p ∈ ps ↔ LeadsToDir (view w r) (src ++ p)) ∧ ps.Pairwise (Order td) ∧
      ∀ p ∈ ps, (row p).1 = mem E (src ++ p) ∧ (row p).2.1.Pairwise strLt ∧ (row p).2.2.Pairwise strLt ∧
        (∀ n, n ∈ (row p).2.1 ↔ Shown (view w r) (src ++ p) n ∧ LeadsToDir (view w r) (src ++ (p ++ [n]))) ∧
        ∀ n, n ∈ (row p).2.2 ↔ Shown (view w r) (src ++ p) n ∧ ¬ LeadsToDir (view w r) (src ++ (p ++ [n])) := by
  let S : Source memOps true := memSource (E := E) (src := src) h.inv hf (· = w) (fun e => by rw [e]; exact ⟨h.inv, hf, fun _ o ho => ⟨o, ho, rfl⟩⟩)
    (fun e x q m _ _ _ hm => by rw [e] at hm; exact hm)
    (fun {w'} e x b hx => by
      rw [e]
      rcases seenM_file hx with ⟨q, m, t, h1, h2⟩ | ⟨h1, -, a, n, rfl, h2⟩
      · refine dirAns_notDir h1 ?_
        rintro ⟨m', t', h3⟩
        rw [h2] at h3; simp at h3
      · have hok := seenM_ok (by rw [hx]; simp)
        rw [← List.append_assoc] at hok
        obtain ⟨c, hc⟩ := hans a n hok.of_prefix h2
        rw [hc]
        cases c with
        | false => rfl
        | true =>
          obtain ⟨m, t, h3⟩ := leads_reached.1 (dirAns_true hc)
          rw [h1] at h3; simp at h3) P
  have hT : ∀ x, S.T x = some .dir ↔ LeadsToDir (view w r) (src ++ x) := by
    intro x
    refine seenM_dir.trans ⟨fun h => h.2, fun h => ⟨P.written hok x ?_, h⟩⟩
    obtain ⟨m, t, h⟩ := leads_reached.1 h
    rw [h]; simp
  have hA : ∀ x, S.asDir x = true ↔ LeadsToDir (view w r) (src ++ x) := by
    intro x
    rw [← hT]
    constructor
    · intro hx
      unfold Source.asDir at hx
      cases hc : S.T x with
      | none => rw [hc] at hx; simp at hx
      | some o =>
        cases o with
        | dir => rfl
        | file b => rw [hc] at hx; simp at hx
        | link t => exact absurd hc (seenM_nolink h.inv hf)
    · exact Source.asDir_dir _
  obtain ⟨ps, h1, h2, h3⟩ := S.walk_collect td (s := w) rfl depth [] [] ((hT []).2 (by rwa [List.append_nil]))
    (fun y hy => hh y ((hT y).1 (by rwa [List.nil_append] at hy)))
  have hps : ∀ p, p ∈ ps ↔ LeadsToDir (view w r) (src ++ p) := fun p => by
    rw [h2, hT]; exact ⟨fun h => h.2, fun h => ⟨List.nil_prefix, h⟩⟩
  refine ⟨ps, S.row, ?_, hps, h3, fun p hp => ?_⟩
  · rw [uWalk_eq hf hok]
    refine (memOps_walk r td true (fun _ _ _ _ => agree_pure _) depth _ _ w).symm.trans ?_
    have c1 : S.src [] = mem E src := by show mem E (src ++ []) = _; rw [List.append_nil]
    rw [c1, List.nil_append] at h1
    exact h1
  have hld := (hps p).1 hp
  have hokp : Ok (src ++ p) := P.written hok p (by obtain ⟨m, t, h⟩ := leads_reached.1 hld; rw [h]; simp)
  have hsort : (S.names p).Pairwise strLt := by
    show (namesM w r src p).Pairwise strLt
    unfold namesM
    rw [if_pos hokp]
    split
    · exact names_sorted h.inv
    · exact .nil
  have hmem : ∀ n, n ∈ S.names p ↔ Shown (view w r) (src ++ p) n := fun n =>
    mem_namesM.trans ⟨fun h => h.2, fun h => ⟨hokp, h⟩⟩
  refine ⟨rfl, hsort.filter _, hsort.filter _, ?_, ?_⟩
  · intro n
    show n ∈ (S.names p).filter _ ↔ _
    rw [List.mem_filter, hmem, hA]
  · intro n
    show n ∈ (S.names p).filter _ ↔ _
    rw [List.mem_filter, hmem, ← hA]
    simp

/-- Copying a tree through its links to a new name: the missing directories are made; files are copies of the files that the
    paths lead to, directories stand for the directories that they lead to; there is no link in the copy, what is to be left
    out is left out, and nothing else changes. -/
theorem C113_copy (h : Reachable w) (hf : Fs w E r) {init pre rest : List Str} {n0 n : Str} (hok : Ok (init ++ [n0]))
    (W : Whole (view w r) (init ++ [n0]) (pre ++ [n])) (hroot : LeadsToDir (view w r) (init ++ [n0]))
    (honce : n0 ∉ init ∨ Plain (view w r) (init ++ [n0])) (hpre : (view w r).isDir pre) (hn : view w r (pre ++ [n]) = none)
    (he : Ok (pre ++ [n] ++ rest)) {depth : Nat} (hlen : rest.length < depth)
    (hh : ∀ x, LeadsToDir (view w r) (init ++ [n0] ++ x) → x.length < depth) (ig : List Str) :
    ∃ w', Gen.uCopy depth (mem E (init ++ [n0])) (mem E (pre ++ [n] ++ rest)) true ig true w = (.ok (), w') ∧
      Becomes w w' r (view w' r) ∧
      (∀ p, ¬ pre ++ [n] <+: p → view w' r p = view w r p) ∧
      (∀ p, pre ++ [n] <+: p → p <+: pre ++ [n] ++ rest → (view w' r).isDir p) ∧
      (∀ p, pre ++ [n] <+: p → ¬ p <+: pre ++ [n] ++ rest → ¬ pre ++ [n] ++ rest <+: p → view w' r p = none) ∧
      (∀ x, x ≠ [] → Pruned (view w r) ig (init ++ [n0]) x → view w' r (pre ++ [n] ++ rest ++ x) = none) ∧
      (∀ x, ¬ Pruned (view w r) ig (init ++ [n0]) x →
        OptCopy (reached (view w r) (init ++ [n0] ++ x)) (view w' r (pre ++ [n] ++ rest ++ x))) := by
  obtain ⟨w', h1, h2, h3, h4, h5, h6, h7⟩ := copyThrough (ig := ig) h.inv hf hok W hroot honce hpre hn he hlen hh
  refine ⟨w', ?_, h2, h3, h4, h5, h6, h7⟩
  obtain ⟨q, hgs, hd⟩ := hroot
  have e0 := uExists_goes h.inv (hf.serves _) (stepsOf_mem hok E) hgs
  have e1 := uIsdir_goes h.inv (hf.serves _) (stepsOf_mem hok E) hgs
  obtain ⟨m', t', hb⟩ := hd
  simp only [answer, hb, Option.any_some, Obj.isDir] at e0 e1
  have e : Mem.uIsdir (mem E (pre ++ [n] ++ rest)) w = (.ok false, w) := by
    rw [uIsdir_ans h.inv (hf.serves _) (stepsOf_mem he E), show pre ++ [n] ++ rest = pre ++ n :: rest by simp,
      dirAns_goes ((isDir_goes hpre).append (.missing hpre hn))]
    rfl
  unfold Gen.uCopy
  rw [withConn_serves (hf.serves _) (stepsOf_mem hok E)]
  unfold Gen.copy
  rw [Mem.bind_ok e0]
  simp only [Bool.not_true, Bool.false_eq_true, if_false]
  rw [Mem.bind_ok e1]
  simp only [Bool.not_true, Bool.false_eq_true, if_false]
  rw [Mem.bind_ok e]
  simp only [Bool.false_eq_true, if_false]
  exact h1

/-- When the destination is a directory, the copy is put into it under the last name of the source. -/
theorem C113_into (h : Reachable w) (hf : Fs w E r) {init pre : List Str} {n : Str} (hok : Ok (init ++ [n]))
    (W : Whole (view w r) (init ++ [n]) (pre ++ [n])) (hroot : LeadsToDir (view w r) (init ++ [n]))
    (honce : n ∉ init ∨ Plain (view w r) (init ++ [n])) (hpre : (view w r).isDir pre) (hn : view w r (pre ++ [n]) = none)
    (he : Ok (pre ++ [n])) {depth : Nat} (hlen : 0 < depth)
    (hh : ∀ x, LeadsToDir (view w r) (init ++ [n] ++ x) → x.length < depth) (ig : List Str) :
    ∃ w', Gen.uCopy depth (mem E (init ++ [n])) (mem E pre) true ig true w = (.ok (), w') ∧
      Becomes w w' r (view w' r) ∧
      (∀ p, ¬ pre ++ [n] <+: p → view w' r p = view w r p) ∧
      (∀ x, x ≠ [] → Pruned (view w r) ig (init ++ [n]) x → view w' r (pre ++ [n] ++ x) = none) ∧
      (∀ x, ¬ Pruned (view w r) ig (init ++ [n]) x → OptCopy (reached (view w r) (init ++ [n] ++ x)) (view w' r (pre ++ [n] ++ x))) := by
  obtain ⟨w', h1, h2, h3, -, -, h6, h7⟩ := copyThrough (rest := []) (ig := ig) h.inv hf hok W hroot honce hpre hn (by simpa using he) hlen hh
  simp only [List.append_nil] at h1 h6 h7
  refine ⟨w', ?_, h2, h3, h6, h7⟩
  obtain ⟨q, hgs, hd⟩ := hroot
  have e0 := uExists_goes h.inv (hf.serves _) (stepsOf_mem hok E) hgs
  have e1 := uIsdir_goes h.inv (hf.serves _) (stepsOf_mem hok E) hgs
  obtain ⟨m', t', hb⟩ := hd
  simp only [answer, hb, Option.any_some, Obj.isDir] at e0 e1
  have hokp : Ok pre := he.of_prefix
  have e : Mem.uIsdir (mem E pre) w = (.ok true, w) := by
    rw [uIsdir_ans h.inv (hf.serves _) (stepsOf_mem hokp E), dirAns_dir (isDir_goes hpre) hpre]
  have hnc := hok.clean n (by simp)
  unfold Gen.uCopy
  rw [withConn_serves (hf.serves _) (stepsOf_mem hok E)]
  unfold Gen.copy
  rw [Mem.bind_ok e0]
  simp only [Bool.not_true, Bool.false_eq_true, if_false]
  rw [Mem.bind_ok e1]
  simp only [Bool.not_true, Bool.false_eq_true, if_false]
  rw [Mem.bind_ok e]
  simp only [if_true]
  rw [mem_last hnc, Mem.bind_lift (mem_div hokp.clean hnc E)]
  exact h1

/-- Moving a directory that has links in it: the links are replaced by copies of what they lead to, the directory is gone,
    and nothing else changes; what the links led to stays. -/
theorem C113_move (h : Reachable w) (hf : Fs w E r) {init pre rest : List Str} {n0 n : Str}
    (W : Whole (view w r) (init ++ [n0]) (pre ++ [n])) (hok : Ok (init ++ [n0])) (hroot : (view w r).isDir (init ++ [n0]))
    (hpre : (view w r).isDir pre) (hn : view w r (pre ++ [n]) = none) (hsd : ¬ init ++ [n0] <+: pre ++ [n])
    (he : Ok (pre ++ [n] ++ rest)) {depth : Nat} (hlen : rest.length < depth)
    (hh : ∀ x, LeadsToDir (view w r) (init ++ [n0] ++ x) → x.length < depth)
    (hlinks : ∀ p u m t, view w r p = some (.link u m t) → ∃ ts, stepsOf u = some ts ∧ Clear (view w r) ts ∧ ¬ pre ++ [n] <+: ts) :
    ∃ w', Gen.uMove depth (mem E (init ++ [n0])) (mem E (pre ++ [n] ++ rest)) w = (.ok (), w') ∧
      Becomes w w' r (view w' r) ∧
      (∀ x, view w' r (init ++ [n0] ++ x) = none) ∧
      (∀ p, ¬ init ++ [n0] <+: p → ¬ pre ++ [n] <+: p → view w' r p = view w r p) ∧
      (∀ p, pre ++ [n] <+: p → p <+: pre ++ [n] ++ rest → (view w' r).isDir p) ∧
      (∀ p, pre ++ [n] <+: p → ¬ p <+: pre ++ [n] ++ rest → ¬ pre ++ [n] ++ rest <+: p → view w' r p = none) ∧
      (∀ x, OptCopy (reached (view w r) (init ++ [n0] ++ x)) (view w' r (pre ++ [n] ++ rest ++ x))) := by
  have hroot' : LeadsToDir (view w r) (init ++ [n0]) := ⟨_, isDir_goes hroot, hroot⟩
  obtain ⟨w1, h1, h2, h3, h4, h5, -, h6⟩ := C113_copy h hf hok W hroot' (.inr (plain_snoc (isDir_prefix hroot) n0)) hpre hn he hlen hh []
  have h6 : ∀ x, OptCopy (reached (view w r) (init ++ [n0] ++ x)) (view w1 r (pre ++ [n] ++ rest ++ x)) := fun x => h6 x (by
    rintro ⟨a, m, b, -, hm, -⟩; simp at hm)
  have hds : ¬ pre ++ [n] <+: init ++ [n0] := by
    rintro ⟨x, hx⟩
    obtain ⟨m, t, hv⟩ := hroot
    rw [← hx] at hv
    obtain ⟨o', ho'⟩ := view_prefix hv
    rw [hn] at ho'; simp at ho'
  have apart : ∀ p, pre ++ [n] <+: p → ¬ init ++ [n0] <+: p := by
    intro p hp hsp
    rcases List.prefix_or_prefix_of_prefix hp hsp with h | h
    · exact hds h
    · exact hsd h
  have same : ∀ x, view w1 r (init ++ [n0] ++ x) = view w r (init ++ [n0] ++ x) := fun x => h3 _ (fun hp => apart _ hp (List.prefix_append _ _))
  have hs1 : (view w1 r).isDir (init ++ [n0]) := by
    have := same []
    simp only [List.append_nil] at this
    unfold NS.isDir; rw [this]; exact hroot
  have hr1 : Reachable w1 := by
    have := h.step (.copy depth (mem E (init ++ [n0])) (mem E (pre ++ [n] ++ rest)) true [] true)
    simp only [Op.run, h1] at this
    exact this
  have wr : ∀ x, view w r (init ++ [n0] ++ x) ≠ none → Ok (init ++ [n0] ++ x) := by
    intro x
    induction x using List.reverseRecOn with
    | nil => intro _; rwa [List.append_nil]
    | append_singleton x m ih =>
      intro hx
      obtain ⟨o, ho⟩ := Option.ne_none_iff_exists'.1 hx
      rw [← List.append_assoc] at ho
      have hd := view_parent ho
      obtain ⟨a, b, hab⟩ := hd
      exact W.ok x m (ih (by rw [hab]; simp)) ⟨_, isDir_goes ⟨a, b, hab⟩, by rw [ho]; simp⟩
  have nolink : ∀ p u m t, view w1 r p = some (.link u m t) → view w r p = some (.link u m t) := by
    intro p u m t hp
    by_cases hd : pre ++ [n] <+: p
    · exfalso
      by_cases k1 : pre ++ [n] ++ rest <+: p
      · obtain ⟨x, rfl⟩ := k1
        have := h6 x
        rw [hp] at this
        cases hr : reached (view w r) (init ++ [n0] ++ x) with
        | none => rw [hr] at this; exact this
        | some o =>
          rw [hr] at this
          obtain ⟨q, g1, g2⟩ := reached_some hr
          obtain ⟨o2, h9, h10⟩ := found_there h.inv hf g1
          rw [g2] at h9; cases h9
          cases o with
          | link _ _ _ => simp [Obj.isLink] at h10
          | dir _ _ => exact this
          | file _ _ _ => exact this
      · by_cases k2 : p <+: pre ++ [n] ++ rest
        · obtain ⟨a, b, hab⟩ := h4 p hd k2
          rw [hp] at hab; simp at hab
        · rw [h5 p hd k2 k1] at hp; simp at hp
    · rw [← h3 p hd]; exact hp
  obtain ⟨w2, k1, k2, -, -⟩ := C46_remove hr1 (hf.becomes h2) (q := init ++ [n0]) (by simp) (depth := depth)
    (by intro x hx; rw [same] at hx; exact wr x hx)
    (steady_clear (by
      intro p u m t hp
      obtain ⟨ts, g1, g2, g3⟩ := hlinks p u m t (nolink p u m t hp)
      refine ⟨ts, g1, fun a x b hab => ?_⟩
      have := g2 a x b hab
      unfold NS.isFile NS.isLink at this ⊢
      rw [h3 a (fun hc => g3 (hc.trans ⟨x :: b, hab.symm⟩))]
      exact this) _) hs1
    (by intro x hx; unfold NS.isDir at hx; rw [same] at hx; exact hh x ⟨_, isDir_goes hx, hx⟩)
  have hdel : ∀ p, ¬ init ++ [n0] <+: p → view w2 r p = view w1 r p := by
    intro p hp; rw [k2.view, NS.del, if_neg hp]
  refine ⟨w2, ?_, (h2.trans k2).congr k2.view.symm, ?_, ?_, ?_, ?_, ?_⟩
  · unfold Gen.uMove
    rw [withConn_serves (hf.serves _) (stepsOf_mem hok E)]
    unfold Gen.move
    have e1 := uIsfile_goes h.inv (hf.serves _) (stepsOf_mem hok E) (isDir_goes hroot)
    obtain ⟨m, t, e⟩ := hroot
    simp only [answer, e, Option.any_some, Obj.isFile] at e1
    rw [Mem.bind_ok e1]
    simp only [Bool.false_eq_true, if_false]
    rw [Mem.bind_ok h1]
    exact k1
  · intro x; rw [k2.view, NS.del, if_pos (List.prefix_append _ _)]
  · intro p hp hp'; rw [hdel p hp, h3 p hp']
  · intro p hp hp'
    obtain ⟨m, t, e⟩ := h4 p hp hp'
    exact ⟨m, t, by rw [hdel p (apart p hp), e]⟩
  · intro p hp hp' hp''; rw [hdel p (apart p hp)]; exact h5 p hp hp' hp''
  · intro x
    rw [hdel _ (apart _ (by rw [List.append_assoc]; exact List.prefix_append _ _))]
    exact h6 x
end

/-! ## Examples -/

/-- the names met on paths of `k + 1` names below `src` -/
def metAt (w : World) (r : Nat) (src : List Str) : Nat → List (List Str × Str)
  | 0 => match placeOf (view w r) src with
    | some q => (names w r q).map fun n => ([], n)
    | none => []
  | k + 1 => (metAt w r src k).flatMap fun (x, m) => match placeOf (view w r) (src ++ (x ++ [m])) with
    | some q => (names w r q).map fun n => (x ++ [m], n)
    | none => []

theorem mem_metAt {w : World} {r : Nat} {src : List Str} : ∀ (x : List Str) (n : Str), Shown (view w r) (src ++ x) n →
    (x, n) ∈ metAt w r src x.length := by
  intro x
  induction x using List.reverseRecOn with
  | nil =>
    rintro n ⟨q, h1, h2⟩
    rw [List.append_nil] at h1
    simp only [List.length_nil, metAt, placeOf_iff.2 h1]
    exact List.mem_map.2 ⟨n, mem_names.2 h2, rfl⟩
  | append_singleton x m ih =>
    rintro n ⟨q, h1, h2⟩
    have h3 := ih m (shown_snoc (by rw [List.append_assoc]; exact h1))
    rw [List.length_append]
    simp only [List.length_cons, List.length_nil, metAt]
    refine List.mem_flatMap.2 ⟨(x, m), h3, ?_⟩
    simp only [placeOf_iff.2 h1]
    exact List.mem_map.2 ⟨n, mem_names.2 h2, rfl⟩

/-- if no path is longer than `k` names, everything met can be enumerated -/
theorem met_all {w : World} {r : Nat} {src : List Str} {k : Nat} (hk : metAt w r src k = []) {x : List Str} {n : Str}
    (h : Shown (view w r) (src ++ x) n) : x.length < k ∧ (x, n) ∈ (List.range k).flatMap (metAt w r src) := by
  have hm := mem_metAt x n h
  have : x.length < k := by
    by_contra hc
    have : ∀ j, metAt w r src (k + j) = [] := by
      intro j
      induction j with
      | zero => exact hk
      | succ j ih => rw [← Nat.add_assoc, metAt, ih]; rfl
    have h0 := this (x.length - k)
    rw [Nat.add_sub_cancel' (by omega)] at h0
    rw [h0] at hm; simp at hm
  exact ⟨this, List.mem_flatMap.2 ⟨x.length, List.mem_range.2 this, hm⟩⟩

/-- no path is longer -/
theorem met_length {w : World} {r : Nat} {src : List Str} {k : Nat} (hk : metAt w r src k = []) {x : List Str}
    (h : LeadsToDir (view w r) (src ++ x)) : x.length < k + 1 := by
  rcases List.eq_nil_or_concat x with rfl | ⟨y, n, rfl⟩
  · simp
  · rw [List.concat_eq_append] at *
    obtain ⟨q, h1, -⟩ := h
    rw [← List.append_assoc] at h1
    have := (met_all hk (shown_snoc h1)).1
    simp; omega

/-- no name comes again on a path -/
theorem passable_of {w : World} {r : Nat} {src : List Str} {k : Nat} (hk : metAt w r src k = [])
    (hc : ∀ y ∈ (List.range k).flatMap (metAt w r src), Ok (src ++ (y.1 ++ [y.2])) ∧ y.2 ∉ src ++ y.1) : Passable (view w r) src :=
  ⟨fun x n _ h => (hc (x, n) (met_all hk h).2).1, fun x n _ h => .inl (hc (x, n) (met_all hk h).2).2⟩

/-- /t/f is a file, /t/l leads to the directory /a, in which are a file and a link to it; /k leads to /t -/
def throughOps : List Op :=
  [.mkdir (mu cl!"/t"), .mkdir (mu cl!"/a"), .mkdir (mu cl!"/a/s"), .open_ (mu cl!"/t/f") (some cl!"w"), .write ⟨4, false, false⟩ (.str cl!"hi"),
   .open_ (mu cl!"/a/g") (some cl!"w"), .write ⟨5, false, false⟩ (.str cl!"ho"), .symlink (mu cl!"/a/g") (mu cl!"/a/m"),
   .symlink (mu cl!"/a") (mu cl!"/t/l"), .symlink (mu cl!"/t") (mu cl!"/k")]
/-- the state after these calls -/
def throughW : World := runAll throughOps (World.init fun n => n)
theorem throughW_reachable : Reachable throughW := ⟨_, _, rfl⟩

theorem fs_throughW : Fs throughW [] 0 :=
  ⟨by decide, by decide +kernel, by
    intro p cb m h
    have : (throughW.hooks 0) = [] := by decide +kernel
    rw [this] at h; simp at h⟩

example : (reached (view throughW 0) [cl!"k", cl!"l", cl!"m"]).map entO = some (.file [104, 111]) := by decide +kernel

theorem throughW_met {src : List Str} (hs : src ∈ [[cl!"k"], [cl!"t"]]) : metAt throughW 0 src 3 = [] := by
  revert src hs; decide +kernel

theorem throughW_passable {src : List Str} (hs : src ∈ [[cl!"k"], [cl!"t"]]) : Passable (view throughW 0) src :=
  passable_of (throughW_met hs) (by revert src hs; decide +kernel)

/-- `Whole` for a concrete tree -/
theorem whole_of {w : World} {r : Nat} {src d : List Str} {k : Nat} (hk : metAt w r src k = []) (P : Passable (view w r) src)
    (hc : ∀ y ∈ (List.range k).flatMap (metAt w r src), reached (view w r) (src ++ (y.1 ++ [y.2])) ≠ none ∧ Trimmed y.2 ∧
      placeOf (view w r) (src ++ (y.1 ++ [y.2])) ≠ some d.dropLast)
    (h0 : placeOf (view w r) src ≠ some d.dropLast) : Whole (view w r) src d := by
  refine ⟨P, fun x m _ h => (hc _ (met_all hk h).2).1, fun x m _ h => ?_, fun x q _ h1 _ => ?_⟩
  · obtain ⟨q, h1, -⟩ := h
    rw [← List.append_assoc] at h1
    exact (hc _ (met_all hk (shown_snoc h1)).2).2.1
  · rintro rfl
    rcases List.eq_nil_or_concat x with rfl | ⟨y, m, rfl⟩
    · rw [List.append_nil] at h1; exact h0 (placeOf_iff.2 h1)
    · rw [List.concat_eq_append] at *
      have h2 := h1
      rw [← List.append_assoc] at h1
      exact (hc _ (met_all hk (shown_snoc h1)).2).2.2 (placeOf_iff.2 h2)

theorem throughW_whole {src : List Str} (hs : src ∈ [[cl!"k"], [cl!"t"]]) : Whole (view throughW 0) src ([] ++ [cl!"n"]) :=
  whole_of (throughW_met hs) (throughW_passable hs) (by revert src hs; decide +kernel) (by revert src hs; decide +kernel)

/-- the same with an empty directory /z -/
def intoW : World := runAll (throughOps ++ [.mkdir (mu cl!"/z")]) (World.init fun n => n)
theorem intoW_reachable : Reachable intoW := ⟨_, _, rfl⟩
theorem fs_intoW : Fs intoW [] 0 :=
  ⟨by decide, by decide +kernel, by
    intro p cb m h
    have : (intoW.hooks 0) = [] := by decide +kernel
    rw [this] at h; simp at h⟩
theorem intoW_met : metAt intoW 0 [cl!"k"] 3 = [] := by decide +kernel
theorem intoW_whole : Whole (view intoW 0) [cl!"k"] ([cl!"z"] ++ [cl!"k"]) :=
  whole_of intoW_met (passable_of intoW_met (by decide +kernel)) (by decide +kernel) (by decide +kernel)

/-- walking /k -/
example : ∃ (ps : List (List Str)) (row : List Str → Uri × List Str × List Str),
    Gen.uWalk 100 (mem [] [cl!"k"]) true true throughW = (.ok (ps.map row), throughW) ∧
    [cl!"l", cl!"s"] ∈ ps ∧ cl!"l" ∈ (row []).2.1 ∧ cl!"m" ∈ (row [cl!"l"]).2.2 := by
  obtain ⟨ps, row, h1, h2, -, h3⟩ := C113_walk throughW_reachable fs_throughW (src := [cl!"k"]) (by decide +kernel) (throughW_passable (by simp))
    (fun x n _ h => by
      have h1 := (met_all (throughW_met (by simp)) h).2
      have : ∀ y ∈ (List.range 3).flatMap (metAt throughW 0 [cl!"k"]), (dirAns (view throughW 0) ([cl!"k"] ++ (y.1 ++ [y.2]))).isOk = true := by decide +kernel
      have := this _ h1
      cases hc : dirAns (view throughW 0) ([cl!"k"] ++ (x ++ [n])) with
      | ok b => exact ⟨b, rfl⟩
      | error e => simp only [hc] at this; simp [Except.isOk, Except.toBool] at this)
    ⟨[cl!"t"], by decide +kernel, by decide +kernel⟩ (depth := 100) (fun x hx => by have := met_length (throughW_met (by simp)) hx; omega) true
  have hl : LeadsToDir (view throughW 0) ([cl!"k"] ++ [cl!"l"]) := ⟨[cl!"a"], by decide +kernel, by decide +kernel⟩
  refine ⟨ps, row, h1, (h2 _).2 ⟨[cl!"a", cl!"s"], by decide +kernel, by decide +kernel⟩, ?_, ?_⟩
  · exact ((h3 [] ((h2 _).2 ⟨[cl!"t"], by decide +kernel, by decide +kernel⟩)).2.2.2.1 _).2 ⟨⟨[cl!"t"], by decide +kernel, by decide +kernel⟩, hl⟩
  · refine ((h3 [cl!"l"] ((h2 _).2 hl)).2.2.2.2 _).2 ⟨⟨[cl!"a"], by decide +kernel, by decide +kernel⟩, ?_⟩
    rintro ⟨q, g1, g2⟩
    have := g1.det (by decide +kernel : Goes (view throughW 0) maxDepth [] ([cl!"k"] ++ [cl!"l"] ++ [cl!"m"]) (.found [cl!"a", cl!"g"]))
    simp only [Out.found.injEq] at this
    rw [this] at g2
    revert g2
    decide +kernel

/-- copying /k, a link to /t, to /n/x -/
example : ∃ w', Gen.uCopy 100 (mem [] [cl!"k"]) (mem [] [cl!"n", cl!"x"]) true [cl!"s"] true throughW = (.ok (), w') ∧
    view w' 0 ([cl!"n", cl!"x"] ++ [cl!"l", cl!"s"]) = none ∧
    OptCopy (reached (view throughW 0) [cl!"k", cl!"l", cl!"m"]) (view w' 0 [cl!"n", cl!"x", cl!"l", cl!"m"]) := by
  obtain ⟨w', h1, -, -, -, -, h6, h7⟩ := C113_copy (init := []) (n0 := cl!"k") (pre := []) (n := cl!"n") (rest := [cl!"x"]) throughW_reachable fs_throughW
    (by decide +kernel) (throughW_whole (by simp)) ⟨[cl!"t"], by decide +kernel, by decide +kernel⟩ (.inl (by simp)) (by decide +kernel) (by decide +kernel) (by decide +kernel) (depth := 100)
    (by decide) (fun x hx => by have := met_length (throughW_met (by simp)) hx; omega) [cl!"s"]
  refine ⟨w', h1, h6 _ (by simp) ⟨[cl!"l"], cl!"s", [], rfl, by simp, [cl!"a", cl!"s"], by decide +kernel, by decide +kernel⟩, h7 [cl!"l", cl!"m"] ?_⟩
  rintro ⟨a, n, b, h1, h2, -⟩
  have : n ∈ [cl!"l", cl!"m"] := by rw [h1]; simp
  simp only [List.mem_singleton] at h2
  subst h2
  revert this
  decide

/-- copying /k into the directory /n -/
example : ∃ w', Gen.uCopy 100 (mem [] [cl!"k"]) (mem [] [cl!"z"]) true [] true intoW = (.ok (), w') ∧
    OptCopy (reached (view intoW 0) [cl!"k", cl!"f"]) (view w' 0 [cl!"z", cl!"k", cl!"f"]) := by
  obtain ⟨w', h1, -, -, -, h5⟩ := C113_into (init := []) (n := cl!"k") (pre := [cl!"z"]) intoW_reachable fs_intoW
    (by decide +kernel) intoW_whole ⟨[cl!"t"], by decide +kernel, by decide +kernel⟩ (.inl (by simp)) (by decide +kernel) (by decide +kernel) (by decide +kernel) (depth := 100)
    (by decide) (fun x hx => by have := met_length intoW_met hx; omega) []
  exact ⟨w', h1, h5 [cl!"f"] (by rintro ⟨a, n, b, h1, h2, -⟩; simp at h2)⟩

/-- moving /t, with a link in it, to /n -/
example : ∃ w', Gen.uMove 100 (mem [] [cl!"t"]) (mem [] [cl!"n"]) throughW = (.ok (), w') ∧ (∀ x, view w' 0 ([cl!"t"] ++ x) = none) ∧
    (view w' 0).isDir [cl!"a"] ∧ OptCopy (reached (view throughW 0) [cl!"t", cl!"l"]) (view w' 0 [cl!"n", cl!"l"]) := by
  obtain ⟨w', h1, -, h3, h4, -, -, h7⟩ := C113_move (init := []) (n0 := cl!"t") (pre := []) (n := cl!"n") (rest := []) throughW_reachable fs_throughW
    (throughW_whole (by simp)) (by decide +kernel) (by decide +kernel) (by decide +kernel) (by decide +kernel) (by decide) (by decide +kernel) (depth := 100)
    (by decide) (fun x hx => by have := met_length (throughW_met (by simp)) hx; omega) (by
      intro p u m t hp
      have hm := view_mem_allPaths throughW_reachable.inv fs_throughW.isRoot (q := p) (by rw [hp]; simp)
      have : ∀ p ∈ allPaths throughW throughW.next 0, (view throughW 0 p).all (fun o => match o with
          | .link u _ _ => match stepsOf u with
            | some ts => decide (¬ [cl!"n"] <+: ts) && (List.range ts.length).all fun k => (view throughW 0 (ts.take k)).all Obj.isDir
            | none => false
          | _ => true) = true := by decide +kernel
      have := this p hm
      rw [hp] at this
      simp only [Option.all_some] at this
      cases hs : stepsOf u with
      | none => rw [hs] at this; simp at this
      | some ts =>
        rw [hs] at this
        simp only [Bool.and_eq_true, decide_eq_true_eq, List.all_eq_true, List.mem_range] at this
        refine ⟨ts, rfl, fun a x b hab => ?_, this.1⟩
        have h1 := this.2 a.length (by rw [hab]; simp)
        rw [hab, List.take_left] at h1
        constructor
        · rintro ⟨d, m, t, e⟩; rw [e] at h1; simp [Obj.isDir] at h1
        · rintro ⟨d, m, t, e⟩; rw [e] at h1; simp [Obj.isDir] at h1)
  refine ⟨w', h1, h3, ?_, h7 [cl!"l"]⟩
  have := h4 [cl!"a"] (by decide) (by decide)
  have hd : (view throughW 0).isDir [cl!"a"] := by decide +kernel
  unfold NS.isDir at hd ⊢
  rw [this]
  exact hd

/-! ## What goes wrong otherwise -/

/-- /s/a leads to /d, in which there is a name `a` again: walking /s through links fails, so does copying it. -/
def againW : World := runAll [.mkdir (mu cl!"/s"), .mkdir (mu cl!"/d"), .mkdir (mu cl!"/d/a"), .symlink (mu cl!"/d") (mu cl!"/s/a")] (World.init fun n => n)

/-- The directory holds only directories and links to directories, no path below it is longer than two names, and yet walking it
    through links fails with AttributeError; so does copying it. -/
theorem C113_repeated_refuted : Reachable againW ∧ LeadsToDir (view againW 0) [cl!"s", cl!"a", cl!"a"] ∧ metAt againW 0 [cl!"s"] 2 = [] ∧
    (Gen.uWalk 100 (mem [] [cl!"s"]) true true againW).1 = .error .attributeError ∧
    (Gen.uCopy 100 (mem [] [cl!"s"]) (mem [] [cl!"n"]) true [] true againW).1 = .error .attributeError :=
  ⟨⟨_, _, rfl⟩, ⟨[cl!"d", cl!"a"], by decide +kernel, by decide +kernel⟩, by decide +kernel, by decide +kernel, by decide +kernel⟩

/-- /s/a leads nowhere, /s/b is a file -/
def lostW : World := runAll [.mkdir (mu cl!"/s"), .symlink (mu cl!"/d") (mu cl!"/s/a"), .open_ (mu cl!"/s/b") (some cl!"w")] (World.init fun n => n)

/-- A link that leads nowhere stops the copy, which then has a directory at the destination but not the files that would have come later. -/
theorem C113_lost_refuted : Reachable lostW ∧ (view lostW 0).isFile [cl!"s", cl!"b"] ∧ view lostW 0 [cl!"n"] = none ∧
    (Gen.uCopy 100 (mem [] [cl!"s"]) (mem [] [cl!"n"]) true [] true lostW).1 = .error (.os .ENOENT) ∧
    (view (Gen.uCopy 100 (mem [] [cl!"s"]) (mem [] [cl!"n"]) true [] true lostW).2 0).isDir [cl!"n"] ∧
    view (Gen.uCopy 100 (mem [] [cl!"s"]) (mem [] [cl!"n"]) true [] true lostW).2 0 [cl!"n", cl!"b"] = none :=
  ⟨⟨_, _, rfl⟩, by decide +kernel, by decide +kernel, by decide +kernel, by decide +kernel, by decide +kernel⟩

end Verif.Props
