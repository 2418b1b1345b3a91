import Verif.Gen.CopyTree
import Verif.Props.Copy
/-!
# C48, C49 the recursive copy; C51 moving directories

`Copyable ns s e fl` (Gen/CopyTree) lists what is assumed: names that can be written in URIs, directory names
without whitespace at the ends, neither of source and destination inside the other, either no links are
followed or there are none, and what `isdir` says about the links in the tree does not depend on what is put at
the destination.  `quiet_no_links` and `quiet_plain` give simple conditions for the last one.
-/
namespace Verif.Props
open Verif.Spec Verif.Mem Verif.Gen

/-- What `copy(recursive=True)` does when the destination does not exist: it makes the missing directories
    `e, …, e ++ rest` and puts a copy of the tree there, without what is pruned by `ignore`. -/
theorem C49_ignore {w : World} (h : Reachable w) {E : Dict} {r : Nat} (hf : Fs w E r) {s pre rest : List Str} {n : Str} {fl : Bool}
    (H : Copyable (view w r) s (pre ++ [n]) fl) (hs : (view w r).isDir s) (hpre : (view w r).isDir pre)
    (hn : view w r (pre ++ [n]) = none) (hok : Ok (pre ++ [n] ++ rest)) {depth : Nat} (hlen : rest.length < depth)
    (hh : ∀ t, (view w r).isDir (s ++ t) → t.length < depth) (ig : List Str) :
    ∃ w', uCopy depth (mem E s) (mem E (pre ++ [n] ++ rest)) true ig fl w = (.ok (), w') ∧
      Becomes w w' r (view w' r) ∧
      (∀ p, ¬ pre ++ [n] <+: p → view w' r p = view w r p) ∧
      (∀ p, pre ++ [n] <+: p → p <+: pre ++ [n] ++ rest → (view w' r).isDir p) ∧
      (∀ p, pre ++ [n] <+: p → ¬ p <+: pre ++ [n] ++ rest → ¬ pre ++ [n] ++ rest <+: p → view w' r p = none) ∧
      (∀ x, x ≠ [] → Pruned (view w r) ig s x → view w' r (pre ++ [n] ++ rest ++ x) = none) ∧
      (∀ x, ¬ Pruned (view w r) ig s x → OptCopy (view w r (s ++ x)) (view w' r (pre ++ [n] ++ rest ++ x))) := by
  obtain ⟨w', h1, h2, h3⟩ := copyTree_eq h.inv hf H hs hpre hn hok hlen hh ig
  have hoks : Ok s := by
    have := H.writable [] (by obtain ⟨m, t, h⟩ := hs; simp [h])
    simpa using this
  refine ⟨w', ?_, h2, h3.outside, h3.way, h3.aside, fun x hx => (h3.below x hx).1, ?_⟩
  · have hgs := isDir_goes hs
    have e0 := uExists_goes h.inv (hf.serves _) (stepsOf_mem hoks E) hgs
    have e1 := uIsdir_goes h.inv (hf.serves _) (stepsOf_mem hoks E) hgs
    obtain ⟨m', t', hb⟩ := hs
    simp only [answer, hb, Option.any_some, Obj.isDir] at e0 e1
    have e : uIsdir (mem E (pre ++ [n] ++ rest)) w = (.ok false, w) := by
      rw [uIsdir_ans h.inv (hf.serves _) (stepsOf_mem hok E), show pre ++ [n] ++ rest = pre ++ n :: rest by simp,
        dirAns_goes ((isDir_goes hpre).append (.missing hpre hn))]
      rfl
    unfold uCopy
    rw [withConn_serves (hf.serves _) (stepsOf_mem hoks E)]
    unfold Gen.copy
    rw [bind_ok e0]
    simp only [Bool.not_true, Bool.false_eq_true, if_false]
    rw [bind_ok e1]
    simp only [Bool.not_true, Bool.false_eq_true, if_false]
    rw [bind_ok e]
    simp only [Bool.false_eq_true, if_false]
    exact h1
  · intro x hp
    by_cases hx : x = []
    · subst hx
      obtain ⟨m, t, e⟩ := hs
      obtain ⟨m', t', e'⟩ := h3.way _ (List.prefix_append _ _) (List.prefix_refl _)
      simp only [List.append_nil, e, e']
      trivial
    · exact (h3.below x hx).2 hp

/-- Without `ignore`: every relative path of the source is at the destination, with the same kind, bytes, mode
    and mtime of files and targets of links, and nothing else is there. -/
theorem C48_copy {w : World} (h : Reachable w) {E : Dict} {r : Nat} (hf : Fs w E r) {s pre rest : List Str} {n : Str} {fl : Bool}
    (H : Copyable (view w r) s (pre ++ [n]) fl) (hs : (view w r).isDir s) (hpre : (view w r).isDir pre)
    (hn : view w r (pre ++ [n]) = none) (hok : Ok (pre ++ [n] ++ rest)) {depth : Nat} (hlen : rest.length < depth)
    (hh : ∀ t, (view w r).isDir (s ++ t) → t.length < depth) :
    ∃ w', uCopy depth (mem E s) (mem E (pre ++ [n] ++ rest)) true [] fl w = (.ok (), w') ∧
      Becomes w w' r (view w' r) ∧
      (∀ p, ¬ pre ++ [n] <+: p → view w' r p = view w r p) ∧
      (∀ p, pre ++ [n] <+: p → p <+: pre ++ [n] ++ rest → (view w' r).isDir p) ∧
      (∀ p, pre ++ [n] <+: p → ¬ p <+: pre ++ [n] ++ rest → ¬ pre ++ [n] ++ rest <+: p → view w' r p = none) ∧
      (∀ x, OptCopy (view w r (s ++ x)) (view w' r (pre ++ [n] ++ rest ++ x))) := by
  obtain ⟨w', h1, h2, h3, h4, h5, -, h6⟩ := C49_ignore h hf H hs hpre hn hok hlen hh []
  refine ⟨w', h1, h2, h3, h4, h5, fun x => h6 x ?_⟩
  rintro ⟨a, m, b, -, hm, -⟩
  simp at hm

/-- When the destination is a directory, the copy is put into it under the source's last name. -/
theorem C48_into {w : World} (h : Reachable w) {E : Dict} {r : Nat} (hf : Fs w E r) {init pre : List Str} {n : Str} {fl : Bool}
    (H : Copyable (view w r) (init ++ [n]) (pre ++ [n]) fl) (hs : (view w r).isDir (init ++ [n])) (hpre : (view w r).isDir pre)
    (hn : view w r (pre ++ [n]) = none) {depth : Nat} (hd0 : 0 < depth)
    (hh : ∀ t, (view w r).isDir (init ++ [n] ++ t) → t.length < depth) (ig : List Str) :
    ∃ w', uCopy depth (mem E (init ++ [n])) (mem E pre) true ig fl w = (.ok (), w') ∧
      Becomes w w' r (view w' r) ∧
      (∀ p, ¬ pre ++ [n] <+: p → view w' r p = view w r p) ∧
      (∀ x, x ≠ [] → Pruned (view w r) ig (init ++ [n]) x → view w' r (pre ++ [n] ++ x) = none) ∧
      (∀ x, ¬ Pruned (view w r) ig (init ++ [n]) x → OptCopy (view w r (init ++ [n] ++ x)) (view w' r (pre ++ [n] ++ x))) := by
  obtain ⟨w', h1, h2, h3⟩ := copyTree_eq (rest := []) h.inv hf H hs hpre hn (by simpa using H.ok) hd0 hh ig
  simp only [List.append_nil] at h1
  have hoks : Ok (init ++ [n]) := by
    have := H.writable [] (by obtain ⟨m, t, h⟩ := hs; simp [h])
    simpa using this
  have hb := h3.below
  have hway := h3.way _ (List.prefix_append _ _) (List.prefix_refl _)
  simp only [List.append_nil] at hb hway
  refine ⟨w', ?_, h2, h3.outside, fun x hx => (hb x hx).1, ?_⟩
  · have hgs := isDir_goes hs
    have e0 := uExists_goes h.inv (hf.serves _) (stepsOf_mem hoks E) hgs
    have e1 := uIsdir_goes h.inv (hf.serves _) (stepsOf_mem hoks E) hgs
    obtain ⟨m', t', hb⟩ := hs
    simp only [answer, hb, Option.any_some, Obj.isDir] at e0 e1
    have hokp : Ok pre := H.ok.of_prefix
    have e : uIsdir (mem E pre) w = (.ok true, w) := by
      rw [uIsdir_ans h.inv (hf.serves _) (stepsOf_mem hokp E), dirAns_dir (isDir_goes hpre) hpre]
    have hnc := hoks.clean n (by simp)
    unfold uCopy
    rw [withConn_serves (hf.serves _) (stepsOf_mem hoks E)]
    unfold Gen.copy
    rw [bind_ok e0]
    simp only [Bool.not_true, Bool.false_eq_true, if_false]
    rw [bind_ok e1]
    simp only [Bool.not_true, Bool.false_eq_true, if_false]
    rw [bind_ok e]
    simp only [if_true]
    rw [mem_last hnc, bind_lift (mem_div hokp.clean hnc E)]
    exact h1
  · intro x hp
    by_cases hx : x = []
    · subst hx
      obtain ⟨m, t, e⟩ := hs
      obtain ⟨m', t', e'⟩ := hway
      simp only [List.append_nil, e, e']
      trivial
    · exact (hb x hx).2 hp

/-! ## When does `isdir` not depend on the destination? -/

theorem quiet_no_links {ns : NS} {s d : List Str} (h : ∀ t, ¬ ns.isLink (s ++ t)) :
    ∀ t, ns.isLink (s ++ t) → ∃ b, ∀ ns', Outside d ns ns' → dirAns ns' (s ++ t) = .ok b := fun t ht => absurd ht (h t)

theorem plain_outside {ns ns' : NS} {d ts : List Str} (ho : Outside d ns ns') (hd : ¬ d <+: ts) (h : Plain ns ts) : Plain ns' ts := by
  intro a n b hab
  obtain ⟨m, t, e⟩ := h a n b hab
  refine ⟨m, t, ?_⟩
  rw [ho, e]
  intro hx
  exact hd (hx.trans ⟨n :: b, hab.symm⟩)

/-- It does not when every link in the tree leads directly (not through other links) to a place that is not at
    or below the destination; that place may be missing. -/
theorem quiet_plain {w : World} {r : Nat} {s d : List Str} (hap : ∀ t, ¬ d <+: s ++ t)
    (h : ∀ t u m x, view w r (s ++ t) = some (.link u m x) → ∃ ts, stepsOf u = some ts ∧ Plain (view w r) ts ∧
      ¬ (view w r).isLink ts ∧ ¬ d <+: ts) :
    ∀ t, (view w r).isLink (s ++ t) → ∃ b, ∀ ns', Outside d (view w r) ns' → dirAns ns' (s ++ t) = .ok b := by
  intro t hl
  obtain ⟨u, m, x, hu⟩ := hl
  obtain ⟨ts, h1, h2, h3, h4⟩ := h t u m x hu
  have hp := plain_of_view hu
  rcases List.eq_nil_or_concat (s ++ t) with he | ⟨a, n, he⟩
  · exfalso
    rw [he] at hu
    simp only [view, phys, Option.map_some, Option.some.injEq] at hu
    have := hap t
    rw [he] at this
    -- the root is no link
    refine absurd h3 ?_
    intro _
    have hts : Plain (view w r) ts := h2
    cases ts with
    | nil => exact h3 ⟨u, m, x, by simpa [view, phys] using hu⟩
    | cons c ts =>
      obtain ⟨m', x', e⟩ := hts [] c ts rfl
      simp only [view, phys, Option.map_some, Option.some.injEq] at e
      rw [e] at hu; simp at hu
  · rw [List.concat_eq_append] at he
    have key : ∀ ns', Outside d (view w r) ns' → ns'.isDir a ∧ Goes ns' maxDepth [] a (.found a) ∧
        ns' (a ++ [n]) = some (.link u m x) ∧ Plain ns' ts ∧ ns' ts = view w r ts := by
      intro ns' ho
      have hp' := plain_outside ho (hap t) hp
      rw [he] at hp'
      refine ⟨hp' a n [] rfl, Plain.goes_init hp', ?_, plain_outside ho h4 h2, ho _ h4⟩
      rw [← he, ho _ (hap t), hu]
    cases hts : view w r ts with
    | some o =>
      have hol : o.isLink = false := by
        cases o with
        | link u' m' x' => exact absurd ⟨u', m', x', hts⟩ h3
        | file => rfl
        | dir => rfl
      refine ⟨o.isDir, fun ns' ho => ?_⟩
      obtain ⟨k1, k2, k3, k4, k5⟩ := key ns' ho
      have hg : Goes ns' (31 + 1) [] (a ++ [n]) (.found ts) :=
        Goes.snoc_link (d := 31) k2 k1 k3 h1 (Plain.goes k4 (k5.trans hts) hol)
      rw [he, dirAns_goes (show Goes ns' maxDepth [] (a ++ [n]) (.found ts) from hg), answer, k5, hts]
      rfl
    | none =>
      refine ⟨false, fun ns' ho => ?_⟩
      obtain ⟨k1, k2, k3, k4, k5⟩ := key ns' ho
      rcases List.eq_nil_or_concat ts with rfl | ⟨b, y, rfl⟩
      · simp [view, phys] at hts
      · rw [List.concat_eq_append] at *
        have hg : Goes ns' (31 + 1) [] (a ++ [n]) .missing :=
          Goes.snoc_link (d := 31) k2 k1 k3 h1 (Goes.snoc_missing (Plain.goes_init k4) (k4 b y [] rfl) (k5.trans hts))
        rw [he, dirAns_goes (show Goes ns' maxDepth [] (a ++ [n]) .missing from hg)]
        rfl

/-! ## C51 for directories -/

/-- Moving a directory without links to a destination that does not exist: the destination becomes a copy of
    what the source was, the source is gone, and nothing else changes. -/
theorem C51_dir {w : World} (h : Reachable w) {E : Dict} {r : Nat} (hf : Fs w E r) {s pre rest : List Str} {n : Str}
    (H : Copyable (view w r) s (pre ++ [n]) true) (hs : (view w r).isDir s) (hpre : (view w r).isDir pre)
    (hn : view w r (pre ++ [n]) = none) (hok : Ok (pre ++ [n] ++ rest)) {depth : Nat} (hlen : rest.length < depth)
    (hh : ∀ t, (view w r).isDir (s ++ t) → t.length < depth) :
    ∃ w', uMove depth (mem E s) (mem E (pre ++ [n] ++ rest)) w = (.ok (), w') ∧
      Becomes w w' r (view w' r) ∧
      (∀ x, view w' r (s ++ x) = none) ∧
      (∀ p, ¬ s <+: p → ¬ pre ++ [n] <+: p → view w' r p = view w r p) ∧
      (∀ p, pre ++ [n] <+: p → p <+: pre ++ [n] ++ rest → (view w' r).isDir p) ∧
      (∀ p, pre ++ [n] <+: p → ¬ p <+: pre ++ [n] ++ rest → ¬ pre ++ [n] ++ rest <+: p → view w' r p = none) ∧
      (∀ x, OptCopy (view w r (s ++ x)) (view w' r (pre ++ [n] ++ rest ++ x))) := by
  obtain ⟨w1, h1, h2, h3, h4, h5, h6⟩ := C48_copy h hf H hs hpre hn hok hlen hh
  have hoks : Ok s := by
    have := H.writable [] (by obtain ⟨m, t, h⟩ := hs; simp [h])
    simpa using this
  have same : ∀ x, view w1 r (s ++ x) = view w r (s ++ x) := fun x => h3 _ (H.apart x)
  have hs1 : (view w1 r).isDir s := by
    have := same []
    simp only [List.append_nil] at this
    unfold NS.isDir; rw [this]; exact hs
  have hr1 : Reachable w1 := by
    have := h.step (.copy depth (mem E s) (mem E (pre ++ [n] ++ rest)) true [] true)
    simp only [Op.run, h1] at this
    exact this
  obtain ⟨w2, k1, k2, -, -⟩ := C46_remove hr1 (hf.becomes h2) (q := s) H.s_ne (depth := depth)
    (by intro x hx; rw [same] at hx; exact H.writable x hx)
    (steady_no_links fun x hx => by
      unfold NS.isLink at hx; rw [same] at hx; exact H.noLinks rfl x hx) hs1
    (by intro x hx; unfold NS.isDir at hx; rw [same] at hx; exact hh x hx)
  have hdel : ∀ p, ¬ s <+: p → view w2 r p = view w1 r p := by
    intro p hp; rw [k2.view, NS.del, if_neg hp]
  have hsd : ∀ p, pre ++ [n] <+: p → ¬ s <+: p := by
    intro p hp hsp
    rcases List.prefix_or_prefix_of_prefix hp hsp with h | h
    · exact H.d_s h
    · exact H.s_d h
  refine ⟨w2, ?_, (h2.trans k2).congr k2.view.symm, ?_, ?_, ?_, ?_, ?_⟩
  · unfold uMove
    rw [withConn_serves (hf.serves _) (stepsOf_mem hoks E)]
    unfold Gen.move
    have e1 := uIsfile_goes h.inv (hf.serves _) (stepsOf_mem hoks E) (isDir_goes hs)
    obtain ⟨m, t, e⟩ := hs
    simp only [answer, e, Option.any_some, Obj.isFile] at e1
    rw [bind_ok e1]
    simp only [Bool.false_eq_true, if_false]
    rw [bind_ok h1]
    exact k1
  · intro x; rw [k2.view, NS.del, if_pos (List.prefix_append _ _)]
  · intro p hp hp'; rw [hdel p hp, h3 p hp']
  · intro p hp hp'
    obtain ⟨m, t, e⟩ := h4 p hp hp'
    exact ⟨m, t, by rw [hdel p (hsd p hp), e]⟩
  · intro p hp hp' hp''; rw [hdel p (hsd p hp)]; exact h5 p hp hp' hp''
  · intro x
    rw [hdel _ (hsd _ (by rw [List.append_assoc]; exact List.prefix_append _ _))]
    exact h6 x

/-! ## Examples -/

/-- `Copyable` for a concrete tree, checked location by location -/
theorem copyable_of {w : World} (h : Reachable w) {r : Nat} (hr : IsRoot w r) {s d : List Str} {fl : Bool}
    (h1 : ∀ p ∈ allPaths w w.next r, s <+: p → Ok p) (h2 : ∀ p ∈ allPaths w w.next r, s <+: p → ∀ n ∈ p, Trimmed n)
    (h3 : ∀ t u m x, view w r (s ++ t) = some (.link u m x) → fl = false ∧ ∃ ts, stepsOf u = some ts ∧ Plain (view w r) ts ∧
      ¬ (view w r).isLink ts ∧ ¬ d <+: ts)
    (ok : Ok d) (s_ne : s ≠ []) (d_ne : d ≠ []) (s_d : ¬ s <+: d) (d_s : ¬ d <+: s) : Copyable (view w r) s d fl := by
  have hap : ∀ t, ¬ d <+: s ++ t := by
    intro x hp
    rcases List.prefix_or_prefix_of_prefix hp (List.prefix_append s x) with h1 | h1
    · exact d_s h1
    · exact s_d h1
  refine ⟨?_, quiet_plain hap fun t u m x hu => (h3 t u m x hu).2, ?_, ?_, ok, s_ne, d_ne, s_d, d_s⟩
  · intro x hx; exact h1 _ (view_mem_allPaths h.inv hr hx) (List.prefix_append _ _)
  · rintro hfl t ⟨u, m, x, e⟩
    have := (h3 t u m x e).1
    rw [hfl] at this; simp at this
  · rintro t n ⟨m, x, e⟩
    exact h2 _ (view_mem_allPaths h.inv hr (by rw [e]; simp)) (by rw [List.append_assoc]; exact List.prefix_append _ _) n (by simp)

theorem sample_copyable : Copyable (view sample 0) [cl!"a"] [cl!"c"] true :=
  copyable_of sample_reachable fs_sample.isRoot (by decide +kernel) (by decide +kernel)
    (by
      intro t u m x e
      have hx : ∀ p ∈ allPaths sample sample.next 0, [cl!"a"] <+: p → ¬ (view sample 0).isLink p := by decide +kernel
      exact absurd ⟨u, m, x, e⟩ (hx _ (view_mem_allPaths sample_reachable.inv fs_sample.isRoot (by rw [e]; simp)) (List.prefix_append _ _)))
    (by decide +kernel) (by decide) (by decide) (by decide) (by decide)

theorem linked_copyable {d : List Str} (ok : Ok d) (d_ne : d ≠ []) (s_d : ¬ [cl!"d"] <+: d) (d_s : ¬ d <+: [cl!"d"])
    (d_a : ¬ d <+: [cl!"a"]) (d_n : ¬ d <+: [cl!"nowhere"]) : Copyable (view linked 0) [cl!"d"] d false :=
  copyable_of linked_reachable fs_linked.isRoot (by decide +kernel) (by decide +kernel)
    (by
      intro t u m x e
      refine ⟨rfl, ?_⟩
      have hp := view_mem_allPaths linked_reachable.inv fs_linked.isRoot (q := [cl!"d"] ++ t) (by rw [e]; simp)
      have e0 : allPaths linked linked.next 0 = [[], [cl!"a"], [cl!"a", cl!"b"], [cl!"d"], [cl!"d", cl!"k"], [cl!"d", cl!"n"], [cl!"d", cl!"e"]] := by
        decide +kernel
      have e1 : view linked 0 [cl!"d", cl!"k"] = some (.link (mu cl!"/a") 0 4) := by decide +kernel
      have e2 : view linked 0 [cl!"d", cl!"n"] = some (.link (mu cl!"/nowhere") 0 5) := by decide +kernel
      have e3 : ∀ p ∈ [[], [cl!"a"], [cl!"a", cl!"b"], [cl!"d"], [cl!"d", cl!"e"]], ¬ (view linked 0).isLink p := by decide +kernel
      have hpl : ∀ c : Str, Plain (view linked 0) [c] := by
        intro c a n b hab
        cases a with
        | nil => exact isDir_root linked_reachable.inv fs_linked.isRoot
        | cons y a => simp at hab
      rw [e0] at hp
      by_cases h1 : [cl!"d"] ++ t = [cl!"d", cl!"k"]
      · rw [h1, e1] at e
        simp only [Option.some.injEq, Obj.link.injEq] at e
        rw [← e.1]
        exact ⟨[cl!"a"], by decide +kernel, hpl _, by decide +kernel, d_a⟩
      by_cases h2 : [cl!"d"] ++ t = [cl!"d", cl!"n"]
      · rw [h2, e2] at e
        simp only [Option.some.injEq, Obj.link.injEq] at e
        rw [← e.1]
        exact ⟨[cl!"nowhere"], by decide +kernel, hpl _, by decide +kernel, d_n⟩
      refine absurd ⟨u, m, x, e⟩ (e3 _ ?_)
      simp only [List.mem_cons, h1, h2, false_or] at hp ⊢
      tauto)
    ok (by decide) d_ne s_d d_s

/-- /d (with two links and a directory) copied to /z/y, ignoring `e` -/
example : ∃ w', uCopy 100 (mem [] [cl!"d"]) (mem [] [cl!"z", cl!"y"]) true [cl!"e"] false linked = (.ok (), w') ∧
    (∀ p, ¬ [cl!"z"] <+: p → view w' 0 p = view linked 0 p) ∧
    ∀ x, ¬ Pruned (view linked 0) [cl!"e"] [cl!"d"] x → OptCopy (view linked 0 ([cl!"d"] ++ x)) (view w' 0 ([cl!"z", cl!"y"] ++ x)) := by
  obtain ⟨w', h1, -, h3, -, -, -, h6⟩ := C49_ignore (pre := []) (n := cl!"z") (rest := [cl!"y"]) linked_reachable fs_linked
    (linked_copyable (by decide +kernel) (by decide) (by decide) (by decide) (by decide) (by decide))
    (by decide +kernel) (by decide +kernel) (by decide +kernel) (by decide +kernel) (depth := 100) (by decide)
    (fun t ht => Nat.lt_trans (C43_depth linked_reachable fs_linked.isRoot _ t ht) (by decide +kernel)) [cl!"e"]
  exact ⟨w', h1, h3, h6⟩

/-- what that means for the single locations -/
example : (view (uCopy 100 (mem [] [cl!"d"]) (mem [] [cl!"z", cl!"y"]) true [cl!"e"] false linked).2 0).isLink [cl!"z", cl!"y", cl!"k"] ∧
    view (uCopy 100 (mem [] [cl!"d"]) (mem [] [cl!"z", cl!"y"]) true [cl!"e"] false linked).2 0 [cl!"z", cl!"y", cl!"e"] = none := by
  decide +kernel

example : ∃ w', uCopy 100 (mem [] [cl!"a"]) (mem [] [cl!"c"]) true [] true sample = (.ok (), w') ∧
    ∀ x, OptCopy (view sample 0 ([cl!"a"] ++ x)) (view w' 0 ([cl!"c"] ++ x)) := by
  obtain ⟨w', h1, -, -, -, -, h6⟩ := C48_copy (pre := []) (n := cl!"c") (rest := []) sample_reachable fs_sample sample_copyable
    (by decide +kernel) (by decide +kernel) (by decide +kernel) (by decide +kernel) (depth := 100) (by decide) (sample_depth _)
  exact ⟨w', h1, h6⟩

example : ∃ w', uMove 100 (mem [] [cl!"a"]) (mem [] [cl!"c"]) sample = (.ok (), w') ∧ (∀ x, view w' 0 ([cl!"a"] ++ x) = none) ∧
    ∀ x, OptCopy (view sample 0 ([cl!"a"] ++ x)) (view w' 0 ([cl!"c"] ++ x)) := by
  obtain ⟨w', h1, -, h3, -, -, -, h6⟩ := C51_dir (pre := []) (n := cl!"c") (rest := []) sample_reachable fs_sample sample_copyable
    (by decide +kernel) (by decide +kernel) (by decide +kernel) (by decide +kernel) (depth := 100) (by decide) (sample_depth _)
  exact ⟨w', h1, h3, h6⟩

/-- /d copied into the directory /a, i.e. to /a/d -/
example : ∃ w', uCopy 100 (mem [] [cl!"d"]) (mem [] [cl!"a"]) true [cl!"k"] false linked = (.ok (), w') ∧
    view w' 0 ([cl!"a", cl!"d"] ++ [cl!"k"]) = none ∧
    OptCopy (view linked 0 [cl!"d", cl!"n"]) (view w' 0 [cl!"a", cl!"d", cl!"n"]) := by
  obtain ⟨w', h1, -, -, h4, h5⟩ := C48_into (init := []) (n := cl!"d") (pre := [cl!"a"]) linked_reachable fs_linked
    (linked_copyable (by decide +kernel) (by decide) (by decide) (by decide) (by decide) (by decide))
    (by decide +kernel) (by decide +kernel) (by decide +kernel) (depth := 100) (by decide)
    (fun t ht => Nat.lt_trans (C43_depth linked_reachable fs_linked.isRoot _ t ht) (by decide +kernel)) [cl!"k"]
  refine ⟨w', h1, h4 [cl!"k"] (by decide) ⟨[], cl!"k", [], rfl, by decide, [cl!"a"], by decide +kernel, by decide +kernel⟩, h5 [cl!"n"] ?_⟩
  rintro ⟨a, m, b, e, hm, -⟩
  rw [List.mem_singleton] at hm
  subst hm
  cases a with
  | nil => simp at e
  | cons y a => simp at e

/-! ## Why the conditions -/

/-- A directory name with whitespace at its ends: `copy` loses track of it. -/
theorem C48_whitespace_refuted : ∃ w, Reachable w ∧
    (view w 0).isFile [cl!"a", cl!" x", cl!"f"] ∧ (view w 0) [cl!"c"] = none ∧
    (uCopy 100 (mem [] [cl!"a"]) (mem [] [cl!"c"]) true [] false w).1 = .error (.os .ENOENT) :=
  ⟨runAll [.mkdir (mem [] [cl!"a"]), .mkdir (mem [] [cl!"a", cl!" x"]), .open_ (mem [] [cl!"a", cl!" x", cl!"f"]) (some cl!"w")]
    (World.init fun n => n), ⟨_, _, rfl⟩, by decide +kernel, by decide +kernel, by decide +kernel⟩

/-- The root as the source (copied to another file system here): the contents of /a end up beside it. -/
theorem C48_root_refuted : ∃ w, Reachable w ∧
    (uCopy 100 (mem [] []) (mem [(cl!"k", cl!"v")] [cl!"c"]) true [] false w).1 = .ok () ∧
    (view w 0).isDir [cl!"a", cl!"b"] ∧
    view (uCopy 100 (mem [] []) (mem [(cl!"k", cl!"v")] [cl!"c"]) true [] false w).2 3 [cl!"c", cl!"a", cl!"b"] = none ∧
    (view (uCopy 100 (mem [] []) (mem [(cl!"k", cl!"v")] [cl!"c"]) true [] false w).2 3).isDir [cl!"c", cl!"b"] :=
  ⟨runAll [.mkdir (mem [] [cl!"a"]), .mkdir (mem [] [cl!"a", cl!"b"])] (World.init fun n => n), ⟨_, _, rfl⟩,
    by decide +kernel, by decide +kernel, by decide +kernel, by decide +kernel⟩

/-- Directories do not keep their mtime. -/
theorem C48_dir_mtime_refuted : ∃ w, Reachable w ∧ (view w 0) [cl!"a"] = some (.dir 0 1) ∧
    (view (uCopy 100 (mem [] [cl!"a"]) (mem [] [cl!"c"]) true [] false w).2 0) [cl!"c"] = some (.dir 0 2) :=
  ⟨runAll [.mkdir (mem [] [cl!"a"])] (World.init fun n => n), ⟨_, _, rfl⟩, by decide +kernel, by decide +kernel⟩

end Verif.Props
