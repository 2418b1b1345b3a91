import Verif.Gen.RemoveLemmas
import Verif.Props.Walk
/-!
# C46 recursive remove

The tree removed is given by its physical path; its names can be written in a URI, and the recursion limit
exceeds its height (`C43_depth`).  The walk asks `isdir` about the links in the tree while parts of it are
already gone, so that question must not raise at any such moment (`Steady`).  `C46_crash` shows what happens
otherwise.  `steady_no_links` and `steady_clear` give simple sufficient conditions.
-/
namespace Verif.Props
open Verif.Spec Verif.Mem Verif.Gen

/-- The call returns; at and below the directory nothing is left; everything else (including what links in
    the tree lead to) is as before.  File systems of other connections are untouched too (`Becomes.other`). -/
theorem C46_remove {w : World} (h : Reachable w) {E : Dict} {r : Nat} (hf : Fs w E r) {q : List Str} (hne : q ≠ [])
    (hok : Writable (view w r) q) (ha : Steady (view w r) q) (hd : (view w r).isDir q) {depth : Nat}
    (hdepth : ∀ t, (view w r).isDir (q ++ t) → t.length < depth) :
    ∃ w', uRemove depth (mem E q) true w = (.ok (), w') ∧ Becomes w w' r ((view w r).del q) ∧
      (∀ p, q <+: p → view w' r p = none) ∧ (∀ p, ¬ q <+: p → view w' r p = view w r p) := by
  rcases List.eq_nil_or_concat q with rfl | ⟨init, n, rfl⟩
  · exact absurd rfl hne
  rw [List.concat_eq_append] at *
  have hq := ok_of_writable hok hd
  have hi := isDir_prefix hd
  obtain ⟨w', h1, h2⟩ := removeDirRec_eq h.inv hf hok ha hd hdepth
  refine ⟨w', ?_, h2, ?_, ?_⟩
  · rw [uRemove_dir h.inv (hf.serves _) depth true (stepsOf_mem hq E) (isDir_goes hi) (.inr (plain_snoc hi n)) hd]
    exact h1
  · intro p hp; rw [h2.view, NS.del, if_pos hp]
  · intro p hp; rw [h2.view, NS.del, if_neg hp]

/-- For the root the same, but the root itself stays. -/
theorem C46_root {w : World} (h : Reachable w) {E : Dict} {r : Nat} (hf : Fs w E r)
    (hok : Writable (view w r) []) (ha : Steady (view w r) []) {depth : Nat}
    (hdepth : ∀ t, (view w r).isDir t → t.length < depth) :
    ∃ w', uRemove depth (mem E []) true w = (.ok (), w') ∧
      Becomes w w' r (fun p => if p = [] then view w r [] else none) := by
  have hd := isDir_root h.inv hf.isRoot
  obtain ⟨w', h1, h2⟩ := remove_walk depth [] h.inv hf hok ha hd (by simpa using hdepth)
  have hs := stepsOf_mem (E := E) .nil
  refine ⟨w', ?_, h2.congr ?_⟩
  · unfold uRemove
    rw [withConn_serves (hf.serves _) hs]
    have e2 := exists_goes h.inv hf.isRoot hs .done
    have e3 := isdir_goes h.inv hf.isRoot hs .done
    obtain ⟨m, t, e⟩ := hd
    simp only [answer, e, Option.any_some, Obj.isDir] at e2 e3
    rw [bind_query (islink_root hs)]
    simp only [Bool.false_eq_true, if_false]
    rw [bind_query e2]
    simp only [Bool.not_true, Bool.false_eq_true, if_false]
    rw [bind_query e3]
    simp only [if_true]
    unfold removeDirRec
    refine (bind_ok h1).trans ?_
    rw [bind_query (islink_root hs)]
    simp only [Bool.false_eq_true, if_false]
    unfold removedir
    obtain ⟨p, h3, h4⟩ := stepsOf_strip hs
    rcases h4 with ⟨rfl, -⟩ | ⟨-, h4⟩
    · rw [bind_lift h3]
      rw [bind_query (a := (none, some r)) (by rfl)]
      rfl
    · exact absurd h4 splitC_ne_nil
  · funext p
    unfold strip
    by_cases hp : p = []
    · simp [hp]
    · simp [hp]

/-! ## When does `isdir` keep answering? -/

theorem steady_no_links {ns : NS} {q : List Str} (h : ∀ s, ¬ ns.isLink (q ++ s)) : Steady ns q := by
  intro ns' hl s hs
  obtain ⟨u, m, t, e⟩ := hs
  exact absurd ⟨u, m, t, hl.some e⟩ (h s)

/-- no link or file on the way (before the last name) -/
def Clear (ns : NS) (ts : List Str) : Prop := ∀ a x b, ts = a ++ x :: b → ¬ ns.isFile a ∧ ¬ ns.isLink a

theorem goes_clear {q0 : List Str} {ns ns' : NS} (hl : Less q0 ns ns')
    (hc : ∀ p u m t, ns p = some (.link u m t) → ∃ ts, stepsOf u = some ts ∧ Clear ns ts)
    {d : Nat} {q ts : List Str} {out : Out} (h : Goes ns' d q ts out) :
    Clear ns (q ++ ts) → out ≠ .notDir ∧ out ≠ .dangling ∧ out ≠ .badLink := by
  induction h with
  | done => simp
  | @notDir d q o n rest h1 h2 =>
    intro hcl
    have := hcl q n rest rfl
    have e := hl.some h1
    cases o with
    | dir m t => simp [Obj.isDir] at h2
    | file b m t => exact absurd ⟨_, _, _, e⟩ this.1
    | link u m t => exact absurd ⟨_, _, _, e⟩ this.2
  | missing => simp
  | step _ _ _ _ ih => intro hcl; exact ih (by simpa using hcl)
  | @link d q t m s n rest ts q' out h1 h2 h3 h4 h5 ih1 ih2 =>
    intro hcl
    cases rest with
    | nil => cases h5; simp
    | cons x rest => exact absurd ⟨_, _, _, hl.some h2⟩ (hcl (q ++ [n]) x rest (by simp)).2
  | linkLost => simp
  | @linkLostMid d q t m s n n' rest ts h1 h2 h3 h4 ih =>
    intro hcl
    exact absurd ⟨_, _, _, hl.some h2⟩ (hcl (q ++ [n]) n' rest (by simp)).2
  | @linkFail d q t m s n rest ts out h1 h2 h3 h4 h5 ih =>
    intro _
    obtain ⟨ts', e, hcl⟩ := hc _ _ _ _ (hl.some h2)
    rw [h3] at e
    simp only [Option.some.injEq] at e
    subst e
    exact ih hcl
  | @badLink d q t m s n rest h1 h2 h3 =>
    intro _
    obtain ⟨ts', e, -⟩ := hc _ _ _ _ (hl.some h2)
    rw [h3] at e; simp at e

/-- It does when the targets of all links are `Clear`, i.e. when no target path leads through another link
    or through a file (the target itself may be anything or missing). -/
theorem steady_clear {w : World} {r : Nat}
    (hc : ∀ p u m t, view w r p = some (.link u m t) → ∃ ts, stepsOf u = some ts ∧ Clear (view w r) ts)
    (q : List Str) : Steady (view w r) q := by
  intro ns' hl s hs
  have hcl : Clear (view w r) (q ++ s) := by
    intro a x b e
    obtain ⟨u, m, t, hv⟩ := hs
    have hv := hl.some hv
    rw [e] at hv
    obtain ⟨m', t', e'⟩ := plain_of_view hv a x b rfl
    constructor
    · rintro ⟨_, _, _, h⟩; rw [h] at e'; simp at e'
    · rintro ⟨_, _, _, h⟩; rw [h] at e'; simp at e'
  unfold dirAns
  cases hfo : follow ns' maxDepth [] (q ++ s) with
  | none => exact ⟨_, rfl⟩
  | some out =>
    have := goes_clear hl hc (goes_iff.2 hfo) hcl
    cases out with
    | found q' => exact ⟨_, rfl⟩
    | missing => exact ⟨_, rfl⟩
    | notDir => exact absurd rfl this.1
    | dangling => exact absurd rfl this.2.1
    | badLink => exact absurd rfl this.2.2

/-! ## What happens otherwise -/

/-- /d/a/k, /d/m are directories, /d/m/x → /d/m/y/z and /d/m/y → /d/a/k -/
def trapOps : List Op :=
  [.mkdir (mu cl!"/d"), .mkdir (mu cl!"/d/a"), .mkdir (mu cl!"/d/a/k"), .mkdir (mu cl!"/d/m"),
   .symlink (mu cl!"/d/a/k") (mu cl!"/d/m/y"), .symlink (mu cl!"/d/m/y/z") (mu cl!"/d/m/x")]

/-- the state after these calls -/
def trapped : World := runAll trapOps (World.init fun n => n)
theorem trapped_reachable : Reachable trapped := ⟨_, _, rfl⟩
theorem fs_trapped : Fs trapped [] 0 :=
  ⟨by decide, by decide +kernel, by
    intro p cb m h
    have : (trapped.hooks 0) = [] := by decide +kernel
    rw [this] at h; simp at h⟩

/-- The recursive removal fails half-way although nothing is wrong with the tree: it removes /d/a/k, whereupon
    the link /d/m/x, whose target /d/m/y/z leads through the link to it, makes `isdir` raise. -/
theorem C46_crash : ∃ w, Reachable w ∧ Answers (view w 0) [] ∧ (view w 0).isDir [cl!"d", cl!"a", cl!"k"] ∧
    (uRemove 100 (mem [] [cl!"d"]) true w).1 = .error .attributeError ∧
    view (uRemove 100 (mem [] [cl!"d"]) true w).2 0 [cl!"d", cl!"a", cl!"k"] = none ∧
    (view (uRemove 100 (mem [] [cl!"d"]) true w).2 0).isDir [cl!"d", cl!"m"] :=
  ⟨trapped, trapped_reachable, answers_of trapped_reachable fs_trapped.isRoot _ (by decide +kernel),
   by decide +kernel, by decide +kernel, by decide +kernel, by decide +kernel⟩

/-! ## Examples -/

theorem sample_depth (q t : List Str) (ht : (view sample 0).isDir (q ++ t)) : t.length < 100 :=
  Nat.lt_trans (C43_depth sample_reachable fs_sample.isRoot q t ht) (by decide +kernel)

/-- /a contains a directory and a file; the links /l and /m to it and into it stay -/
example : ∃ w', uRemove 100 (mem [] [cl!"a"]) true sample = (.ok (), w') ∧
    Becomes sample w' 0 ((view sample 0).del [cl!"a"]) ∧
    (∀ p, [cl!"a"] <+: p → view w' 0 p = none) ∧ (∀ p, ¬ [cl!"a"] <+: p → view w' 0 p = view sample 0 p) :=
  C46_remove sample_reachable fs_sample (by decide) (sample_writable.below [cl!"a"])
    (steady_no_links fun s hs => by
      have hx : ∀ p ∈ allPaths sample sample.next 0, [cl!"a"] <+: p → ¬ (view sample 0).isLink p := by decide +kernel
      refine hx _ (view_mem_allPaths sample_reachable.inv fs_sample.isRoot ?_) (List.prefix_append [cl!"a"] s) hs
      obtain ⟨u, m, t, e⟩ := hs
      simp only [List.nil_append] at e
      rw [e]; simp)
    (by decide +kernel) (sample_depth _)

/-- /d with /d/k → /a and /d/n → /nowhere: the links go, what they lead to stays -/
def linked : World := runAll [.mkdir (mu cl!"/a"), .mkdir (mu cl!"/a/b"), .mkdir (mu cl!"/d"), .symlink (mu cl!"/a") (mu cl!"/d/k"),
  .symlink (mu cl!"/nowhere") (mu cl!"/d/n"), .mkdir (mu cl!"/d/e")] (World.init fun n => n)
theorem linked_reachable : Reachable linked := ⟨_, _, rfl⟩
theorem fs_linked : Fs linked [] 0 :=
  ⟨by decide, by decide +kernel, by
    intro p cb m h
    have : (linked.hooks 0) = [] := by decide +kernel
    rw [this] at h; simp at h⟩

theorem linked_clear (p : List Str) (u : Uri) (m t : Int) (h : view linked 0 p = some (.link u m t)) :
    ∃ ts, stepsOf u = some ts ∧ Clear (view linked 0) ts := by
  have hx : ∀ p ∈ allPaths linked linked.next 0, match view linked 0 p with
      | some (.link u _ _) => ∃ x, stepsOf u = some [x]
      | _ => True := by
    intro p hp
    have e : allPaths linked linked.next 0 = [[], [cl!"a"], [cl!"a", cl!"b"], [cl!"d"], [cl!"d", cl!"k"], [cl!"d", cl!"n"], [cl!"d", cl!"e"]] := by
      decide +kernel
    rw [e] at hp
    have e1 : view linked 0 [cl!"d", cl!"k"] = some (.link (mu cl!"/a") 0 4) := by decide +kernel
    have e2 : view linked 0 [cl!"d", cl!"n"] = some (.link (mu cl!"/nowhere") 0 5) := by decide +kernel
    have e3 : ∀ p ∈ [[], [cl!"a"], [cl!"a", cl!"b"], [cl!"d"], [cl!"d", cl!"e"]], (view linked 0 p).any Obj.isLink = false := by
      decide +kernel
    by_cases h1 : p = [cl!"d", cl!"k"]
    · subst h1; rw [e1]; exact ⟨cl!"a", by decide +kernel⟩
    by_cases h2 : p = [cl!"d", cl!"n"]
    · subst h2; rw [e2]; exact ⟨cl!"nowhere", by decide +kernel⟩
    have := e3 p (by simp only [List.mem_cons, h1, h2, false_or] at hp ⊢; tauto)
    cases hv : view linked 0 p with
    | none => trivial
    | some o =>
      rw [hv] at this
      cases o with
      | link u m t => simp [Obj.isLink] at this
      | file b m t => trivial
      | dir m t => trivial
  have := hx p (view_mem_allPaths linked_reachable.inv fs_linked.isRoot (by rw [h]; simp))
  rw [h] at this
  obtain ⟨x, hx⟩ := this
  refine ⟨_, hx, ?_⟩
  intro a y b e
  have : a = [] := by
    cases a with
    | nil => rfl
    | cons z a => simp at e
  subst this
  obtain ⟨m', t', e'⟩ := isDir_root linked_reachable.inv fs_linked.isRoot
  constructor
  · rintro ⟨_, _, _, h⟩; rw [h] at e'; simp at e'
  · rintro ⟨_, _, _, h⟩; rw [h] at e'; simp at e'

example : ∃ w', uRemove 100 (mem [] [cl!"d"]) true linked = (.ok (), w') ∧
    Becomes linked w' 0 ((view linked 0).del [cl!"d"]) ∧
    (∀ p, [cl!"d"] <+: p → view w' 0 p = none) ∧ (∀ p, ¬ [cl!"d"] <+: p → view w' 0 p = view linked 0 p) :=
  C46_remove linked_reachable fs_linked (by decide)
    (writable_of linked_reachable fs_linked.isRoot _ (by decide +kernel)) (steady_clear linked_clear _) (by decide +kernel)
    (fun t ht => Nat.lt_trans (C43_depth linked_reachable fs_linked.isRoot _ t ht) (by decide +kernel))

example : view (uRemove 100 (mem [] [cl!"d"]) true linked).2 0 [cl!"a", cl!"b"] = view linked 0 [cl!"a", cl!"b"] ∧
    view (uRemove 100 (mem [] [cl!"d"]) true linked).2 0 [cl!"d"] = none := by decide +kernel

example : ∃ w', uRemove 100 (mem [] []) true linked = (.ok (), w') ∧
    Becomes linked w' 0 (fun p => if p = [] then view linked 0 [] else none) :=
  C46_root linked_reachable fs_linked
    (writable_of linked_reachable fs_linked.isRoot _ (by decide +kernel)) (steady_clear linked_clear _)
    (fun t ht => Nat.lt_trans (C43_depth linked_reachable fs_linked.isRoot [] t ht) (by decide +kernel))

end Verif.Props
