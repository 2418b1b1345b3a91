import Verif.Gen.WalkLemmas
import Verif.Spec.Paths
import Verif.Props.Dirs
/-!
# C43, C44, C45 walk

Assumptions on the walked tree: every name in it can be written in a URI (`Writable`), and `isdir` does not
raise for any link in it (`Answers`; see `C43_raises`).  `depth` is Python's recursion limit, which has to
exceed the number of nested directories; `C43_depth` shows that a finite limit is always enough.
-/
namespace Verif.Props
open Verif.Spec Verif.Mem Verif.Gen

theorem uWalk_eq {w : World} {E : Dict} {r : Nat} (hf : Fs w E r) {q : List Str} (hok : Ok q) (depth : Nat) (td fl : Bool) :
    uWalk depth (mem E q) td fl w = walk r td fl collect depth (mem E q) [] w := by
  unfold uWalk; rw [withConn_serves (hf.serves q) (stepsOf_mem hok E)]; rfl

theorem ok_of_writable {w : World} {r : Nat} {q : List Str} (hok : Writable (view w r) q) (hd : (view w r).isDir q) : Ok q := by
  have := hok [] (by obtain ⟨m, t, h⟩ := hd; simp [h])
  simpa using this

/-- every tree is finite: some recursion limit is enough -/
theorem C43_depth {w : World} (h : Reachable w) {r : Nat} (hr : IsRoot w r) (q t : List Str)
    (hd : (view w r).isDir (q ++ t)) : t.length < w.next := by
  have := view_length h.inv hr (q := q ++ t) (by obtain ⟨m, s, e⟩ := hd; simp [e])
  simp at this; omega

/-- The top-down walk terminates; it yields every directory below (and including) the top exactly once, none
    after a directory below it, those beside each other in the order of their names; the names are those of `row`. -/
theorem C43_walk {w : World} (h : Reachable w) {E : Dict} {r : Nat} (hf : Fs w E r) {q : List Str}
    (hok : Writable (view w r) q) (ha : Answers (view w r) q) (hd : (view w r).isDir q) {depth : Nat}
    (hdepth : ∀ t, (view w r).isDir (q ++ t) → t.length < depth) :
    ∃ ps : List (List Str), uWalk depth (mem E q) true false w = (.ok (ps.map (row E w r)), w) ∧
      (∀ p, p ∈ ps ↔ q <+: p ∧ (view w r).isDir p) ∧ ps.Nodup ∧ ps.Pairwise (fun a b => ¬ b <+: a) ∧ ps.Pairwise (Order true) := by
  rw [uWalk_eq hf (ok_of_writable hok hd)]
  obtain ⟨ps, h1, h2, h3⟩ := walk_collect h.inv hf true false depth q [] hok ha hd hdepth (by simp)
  have h3' : ps.Pairwise (fun a b => ¬ b <+: a) := h3.imp Order.down
  exact ⟨ps, by rw [h1]; simp, h2, h3'.imp (fun hab => by rintro rfl; exact hab (List.prefix_refl _)), h3', h3⟩

/-- The names yielded with a directory `p`: all its names, in order, split by what they are; a link counts as
    what it leads to. -/
theorem C43_row {w : World} (h : Reachable w) {E : Dict} {r : Nat} {q p : List Str} (ha : Answers (view w r) q)
    (hp : q <+: p) :
    ∃ dirs files, row E w r p = (mem E p, dirs, files) ∧ dirs.Pairwise strLt ∧ files.Pairwise strLt ∧
      (∀ n, view w r (p ++ [n]) ≠ none ↔ n ∈ dirs ∨ n ∈ files) ∧ (∀ n, n ∈ dirs → n ∉ files) ∧
      (∀ n, (view w r).isDir (p ++ [n]) → n ∈ dirs) ∧ (∀ n, (view w r).isFile (p ++ [n]) → n ∈ files) ∧
      (∀ n, (view w r).isLink (p ++ [n]) →
        (n ∈ dirs ↔ ∃ q', Goes (view w r) maxDepth [] (p ++ [n]) (.found q') ∧ (view w r).isDir q')) := by
  refine ⟨dirNames w r p, fileNames w r p, rfl, (names_sorted h.inv).filter _, (names_sorted h.inv).filter _,
    ?_, ?_, ?_, ?_, ?_⟩
  · intro n
    rw [← mem_names, dirNames, fileNames, List.mem_filter, List.mem_filter]
    cases isD (view w r) (p ++ [n]) <;> simp
  · intro n h1 h2
    have a := (List.mem_filter.1 h1).2
    have b := (List.mem_filter.1 h2).2
    simp only [a] at b
    simp at b
  · intro n hn
    refine List.mem_filter.2 ⟨mem_names.2 ?_, isD_of_dir hn⟩
    obtain ⟨m, t, e⟩ := hn; rw [e]; simp
  · intro n hn
    refine List.mem_filter.2 ⟨mem_names.2 ?_, ?_⟩
    · obtain ⟨b, m, t, e⟩ := hn; rw [e]; simp
    · unfold isD; rw [isD_file hn]; rfl
  · intro n hn
    have hex : view w r (p ++ [n]) ≠ none := by obtain ⟨u, m, t, e⟩ := hn; rw [e]; simp
    obtain ⟨s, rfl⟩ := hp
    have e := dirAns_isD (ha.below s) hex
    rw [dirNames, List.mem_filter, mem_names]
    constructor
    · rintro ⟨-, h2⟩
      rw [h2] at e
      exact dirAns_true e
    · rintro ⟨q', g1, g2⟩
      refine ⟨hex, ?_⟩
      unfold isD
      rw [dirAns_dir g1 g2]

/-- The bottom-up walk yields the same directories, none before a directory below it. -/
theorem C44_walk {w : World} (h : Reachable w) {E : Dict} {r : Nat} (hf : Fs w E r) {q : List Str}
    (hok : Writable (view w r) q) (ha : Answers (view w r) q) (hd : (view w r).isDir q) {depth : Nat}
    (hdepth : ∀ t, (view w r).isDir (q ++ t) → t.length < depth) :
    ∃ ps : List (List Str), uWalk depth (mem E q) false false w = (.ok (ps.map (row E w r)), w) ∧
      (∀ p, p ∈ ps ↔ q <+: p ∧ (view w r).isDir p) ∧ ps.Nodup ∧ ps.Pairwise (fun a b => ¬ a <+: b) ∧ ps.Pairwise (Order false) := by
  rw [uWalk_eq hf (ok_of_writable hok hd)]
  obtain ⟨ps, h1, h2, h3⟩ := walk_collect h.inv hf false false depth q [] hok ha hd hdepth (by simp)
  have h3' : ps.Pairwise (fun a b => ¬ a <+: b) := h3.imp Order.up
  exact ⟨ps, by rw [h1]; simp, h2, h3'.imp (fun hab => by rintro rfl; exact hab (List.prefix_refl _)), h3', h3⟩

/-- Both orders yield the same triples. -/
theorem C44_same_triples {w : World} (h : Reachable w) {E : Dict} {r : Nat} (hf : Fs w E r) {q : List Str}
    (hok : Writable (view w r) q) (ha : Answers (view w r) q) (hd : (view w r).isDir q) {depth : Nat}
    (hdepth : ∀ t, (view w r).isDir (q ++ t) → t.length < depth) :
    ∃ l l', uWalk depth (mem E q) true false w = (.ok l, w) ∧ uWalk depth (mem E q) false false w = (.ok l', w) ∧
      l.Perm l' := by
  obtain ⟨ps, h1, h2, h3, -⟩ := C43_walk h hf hok ha hd hdepth
  obtain ⟨ps', h1', h2', h3', -⟩ := C44_walk h hf hok ha hd hdepth
  exact ⟨_, _, h1, h1', List.Perm.map _ ((List.perm_ext_iff_of_nodup h3 h3').2 fun p => by rw [h2, h2'])⟩

/-- Without followlinks, neither a yielded directory nor any directory above it (up to the root) is a link. -/
theorem C45_no_links {w : World} (h : Reachable w) {E : Dict} {r : Nat} (hf : Fs w E r) {q : List Str} {td : Bool}
    (hok : Writable (view w r) q) (ha : Answers (view w r) q) (hd : (view w r).isDir q) {depth : Nat}
    (hdepth : ∀ t, (view w r).isDir (q ++ t) → t.length < depth) :
    ∃ l, uWalk depth (mem E q) td false w = (.ok l, w) ∧
      ∀ x ∈ l, ∃ p, x.1 = mem E p ∧ ∀ p', p' <+: p → ¬ (view w r).isLink p' := by
  rw [uWalk_eq hf (ok_of_writable hok hd)]
  obtain ⟨ps, h1, h2, h3⟩ := walk_collect h.inv hf td false depth q [] hok ha hd hdepth (by simp)
  refine ⟨_, h1, ?_⟩
  intro x hx
  simp only [List.nil_append, List.mem_map] at hx
  obtain ⟨p, hp, rfl⟩ := hx
  refine ⟨p, rfl, ?_⟩
  rintro p' ⟨s, rfl⟩ ⟨u, m, t, e⟩
  obtain ⟨m', t', e'⟩ := isDir_prefix ((h2 _).1 hp).2
  rw [e] at e'; simp at e'

/-- On a tree without links followlinks makes no difference. -/
theorem C45_no_difference {w : World} (h : Reachable w) {E : Dict} {r : Nat} (hf : Fs w E r) {q : List Str}
    (hok : Writable (view w r) q) (hl : ∀ t, ¬ (view w r).isLink (q ++ t)) (hd : (view w r).isDir q) {depth : Nat}
    (hdepth : ∀ t, (view w r).isDir (q ++ t) → t.length < depth) :
    ∃ ps : List (List Str), uWalk depth (mem E q) true true w = (.ok (ps.map (row E w r)), w) ∧
      (∀ p, p ∈ ps ↔ q <+: p ∧ (view w r).isDir p) ∧ ps.Nodup ∧ ps.Pairwise (fun a b => ¬ b <+: a) ∧ ps.Pairwise (Order true) := by
  rw [uWalk_eq hf (ok_of_writable hok hd)]
  obtain ⟨ps, h1, h2, h3⟩ := walk_collect h.inv hf true true depth q [] hok (fun s hs => absurd hs (hl s)) hd hdepth
    (fun _ => hl)
  have h3' : ps.Pairwise (fun a b => ¬ b <+: a) := h3.imp Order.down
  exact ⟨ps, by rw [h1]; simp, h2, h3'.imp (fun hab => by rintro rfl; exact hab (List.prefix_refl _)), h3', h3⟩

/-! ## Cycles -/

/-- a set of directories each of which has an entry leading back into the set (such as a link to a directory
    above it) -/
def Trap (ns : NS) (C : List Str → Prop) : Prop :=
  ∀ q, C q → ns.isDir q ∧ ∃ n q', Ok [n] ∧ C q' ∧ ns.isDir q' ∧ Goes ns maxDepth q [n] (.found q')

theorem uIslink_state {w : World} {r : Nat} {u : Uri} {ts : List Str} (hu : Serves w u r) (hs : stepsOf u = some ts) :
    (uIslink u w).2 = w := by
  unfold uIslink; rw [withConn_serves hu hs]; rfl

section
variable {w : World} {E : Dict} {r : Nat} (hw : Mem.Inv w) (hf : Fs w E r)
include hw hf

theorem classify_gen {ts : List Str} (hok : Ok ts) : ∀ l : List Str, (∀ n ∈ l, Ok (ts ++ [n])) →
    ∃ x, classify r (mem E ts) l w = (x, w) ∧
      ∀ dirs files, x = .ok (dirs, files) →
        ∀ n, n ∈ dirs ↔ n ∈ l ∧ dirAns (view w r) (ts ++ [n]) = .ok true := by
  intro l
  induction l with
  | nil => intro _; exact ⟨.ok ([], []), rfl, by intro d f h; simp at h; rw [h.1]; simp⟩
  | cons n l ih =>
    intro h
    obtain ⟨x, hx, hx'⟩ := ih fun m hm => h m (by simp [hm])
    have hn := h n (by simp)
    unfold classify
    rw [bind_lift (mem_div hok.clean (hn.clean n (by simp)) E)]
    cases hb : dirAns (view w r) (ts ++ [n]) with
    | error e =>
      refine ⟨.error e, ?_, by simp⟩
      exact bind_error (by rw [Mem.query_apply, isdir_ans hw hf.isRoot (stepsOf_mem hn E), hb])
    | ok b =>
      rw [bind_query (by rw [isdir_ans hw hf.isRoot (stepsOf_mem hn E), hb])]
      cases x with
      | error e => exact ⟨.error e, bind_error hx, by simp⟩
      | ok y =>
        obtain ⟨dirs, files⟩ := y
        rw [bind_ok hx]
        have := hx' dirs files rfl
        cases b with
        | true =>
          refine ⟨_, rfl, ?_⟩
          rintro d f hdf m
          simp only [if_true, Except.ok.injEq, Prod.mk.injEq] at hdf
          rw [← hdf.1, List.mem_cons, List.mem_cons, this]
          constructor
          · rintro (rfl | ⟨a, b⟩)
            · exact ⟨.inl rfl, hb⟩
            · exact ⟨.inr a, b⟩
          · rintro ⟨rfl | a, b⟩
            · exact .inl rfl
            · exact .inr ⟨a, b⟩
        | false =>
          refine ⟨_, rfl, ?_⟩
          rintro d f hdf m
          simp only [Bool.false_eq_true, if_false, Except.ok.injEq, Prod.mk.injEq] at hdf
          rw [← hdf.1, List.mem_cons, this]
          constructor
          · rintro ⟨a, b⟩; exact ⟨.inr a, b⟩
          · rintro ⟨rfl | a, b⟩
            · rw [hb] at b; simp at b
            · exact ⟨a, b⟩

theorem walk_trap {C : List Str → Prop} (hc : Trap (view w r) C) (hok : Writable (view w r) []) (td : Bool) (depth : Nat) :
    ∀ (ts q : List Str) (s : List (Uri × List Str × List Str)), Ok ts → Goes (view w r) maxDepth [] ts (.found q) →
      (view w r).isDir q →
      ∃ x, walk r td true collect depth (mem E ts) s w = (x, w) ∧ (C q → ∃ e, x = .error e) := by
  induction depth with
  | zero => intro ts q s _ _ _; exact ⟨_, rfl, fun _ => ⟨_, rfl⟩⟩
  | succ depth ih =>
    intro ts q s hts hg hd
    obtain ⟨i, d, hi, hid⟩ := isDir_view hd
    have hl : listdir w r (mem E ts) = .ok (names w r q) := by
      rw [names_eq hi hid]
      exact listdir_found hw hf.isRoot (stepsOf_mem hts E) (by rw [filter_clean hts.nil_not_mem]; exact hg) hi hid
    have hchild : ∀ n ∈ names w r q, Ok (ts ++ [n]) := by
      intro n hn
      have h1 := hok (q ++ [n]) (by simpa using mem_names.1 hn)
      rw [List.nil_append] at h1
      by_cases h0 : ts = []
      · subst h0
        cases hg
        simpa using h1
      · exact hts.append h0 (by simpa using h1.clean n (by simp))
    obtain ⟨x, hx, hx'⟩ := classify_gen hw hf hts (names w r q) hchild
    have start : walk r td true collect (depth + 1) (mem E ts) s w = (do
        let (dirs, nondirs) ← classify r (mem E ts) (names w r q)
        if td then
          let (s, dirs) ← collect s (mem E ts) dirs nondirs
          walkDirs true (walk r td true collect depth) (mem E ts) dirs s
        else
          let s ← walkDirs true (walk r td true collect depth) (mem E ts) dirs s
          let (s, _) ← collect s (mem E ts) dirs nondirs
          pure s : M _) w := by
      conv => lhs; unfold walk
      rw [bind_query hl, sortStr_of_pairwise (names_sorted hw)]
    rw [start]
    cases x with
    | error e => exact ⟨.error e, bind_error hx, fun _ => ⟨e, rfl⟩⟩
    | ok y =>
      obtain ⟨dirs, files⟩ := y
      rw [bind_ok hx]
      have hdirs := hx' dirs files rfl
      have loop : ∀ (l : List Str) (s : List (Uri × List Str × List Str)), (∀ n ∈ l, n ∈ dirs) →
          ∃ x, walkDirs true (walk r td true collect depth) (mem E ts) l s w = (x, w) ∧
            ((∃ n ∈ l, ∃ q', C q' ∧ Goes (view w r) maxDepth q [n] (.found q')) → ∃ e, x = .error e) := by
        intro l
        induction l with
        | nil => intro s _; exact ⟨_, rfl, by simp⟩
        | cons n l ihl =>
          intro s hl'
          obtain ⟨h1, h2⟩ := (hdirs n).1 (hl' n (by simp))
          have hn := hchild n h1
          unfold walkDirs
          rw [bind_lift (mem_div hts.clean (hn.clean n (by simp)) E)]
          have hst := Props.uIslink_state (hf.serves (ts ++ [n])) (stepsOf_mem hn E)
          cases hil : uIslink (mem E (ts ++ [n])) w with
          | mk y w' =>
            rw [hil] at hst
            simp only at hst
            subst hst
            cases y with
            | error e => exact ⟨.error e, bind_error hil, fun _ => ⟨e, rfl⟩⟩
            | ok b =>
              rw [bind_ok hil]
              simp only [Bool.or_true, if_true]
              obtain ⟨q', g1, g2⟩ := dirAns_true h2
              obtain ⟨z, hz, hz'⟩ := ih (ts ++ [n]) q' s hn g1 g2
              cases z with
              | error e => exact ⟨.error e, bind_error hz, fun _ => ⟨e, rfl⟩⟩
              | ok s' =>
                rw [bind_ok hz]
                obtain ⟨z', k1, k2⟩ := ihl s' fun m hm => hl' m (by simp [hm])
                refine ⟨z', k1, ?_⟩
                rintro ⟨m, hm, q2, c1, c2⟩
                rcases List.mem_cons.1 hm with rfl | hm
                · have := (hg.append c2).det g1
                  simp only [Out.found.injEq] at this
                  subst this
                  obtain ⟨e, he⟩ := hz' c1
                  simp at he
                · exact k2 ⟨m, hm, q2, c1, c2⟩
      have hin : C q → ∃ n ∈ dirs, ∃ q', C q' ∧ Goes (view w r) maxDepth q [n] (.found q') := by
        intro hcq
        obtain ⟨-, n, q', hn, h1, h2, h3⟩ := hc q hcq
        refine ⟨n, (hdirs n).2 ⟨mem_names.2 ?_, dirAns_dir (hg.append h3) h2⟩, q', h1, h3⟩
        intro hnone
        have := (Goes.missing (d := maxDepth) (rest := []) hd hnone).det h3
        simp at this
      cases td with
      | true =>
        obtain ⟨z, k1, k2⟩ := loop dirs (s ++ [(mem E ts, dirs, files)]) (fun _ h => h)
        exact ⟨z, k1, fun hcq => k2 (hin hcq)⟩
      | false =>
        obtain ⟨z, k1, k2⟩ := loop dirs s (fun _ h => h)
        simp only [Bool.false_eq_true, if_false]
        cases z with
        | error e => exact ⟨.error e, bind_error k1, fun _ => ⟨e, rfl⟩⟩
        | ok s' =>
          rw [bind_ok k1]
          refine ⟨_, rfl, fun hcq => ?_⟩
          obtain ⟨e, he⟩ := k2 (hin hcq)
          simp at he
end

/-- With followlinks a walk that starts in a trap never completes: whatever the recursion limit, it ends in an
    exception. -/
theorem C45_cycle {w : World} (h : Reachable w) {E : Dict} {r : Nat} (hf : Fs w E r) {C : List Str → Prop}
    (hc : Trap (view w r) C) (hok : Writable (view w r) []) {ts q : List Str} (hts : Ok ts)
    (hg : Goes (view w r) maxDepth [] ts (.found q)) (hq : C q) (td : Bool) (depth : Nat) :
    ∃ e, uWalk depth (mem E ts) td true w = (.error e, w) := by
  rw [uWalk_eq hf hts]
  obtain ⟨x, h1, h2⟩ := walk_trap h.inv hf hc hok td depth ts q [] hts hg (hc q hq).1
  obtain ⟨e, rfl⟩ := h2 hq
  exact ⟨e, h1⟩

/-! ## The examples: /a, /a/b, /a/f, /l → /a, … and, for the cycle, a link /a/up → / -/

theorem writable_of {w : World} (h : Reachable w) {r : Nat} (hr : IsRoot w r) (q : List Str)
    (hd : ∀ p ∈ allPaths w w.next r, q <+: p → Ok p) : Writable (view w r) q := by
  intro s hs
  exact hd _ (view_mem_allPaths h.inv hr hs) (List.prefix_append _ _)

/-- `Except.ok?` as a test -/
def isOk {α : Type} : Except PyErr α → Bool
  | .ok _ => true
  | .error _ => false

theorem answers_of {w : World} (h : Reachable w) {r : Nat} (hr : IsRoot w r) (q : List Str)
    (hd : ∀ p ∈ allPaths w w.next r, q <+: p → (view w r).isLink p → isOk (dirAns (view w r) p) = true) :
    Answers (view w r) q := by
  intro s hs
  have := hd _ (view_mem_allPaths h.inv hr (by obtain ⟨u, m, t, e⟩ := hs; rw [e]; simp)) (List.prefix_append _ _) hs
  cases he : dirAns (view w r) (q ++ s) with
  | error e => rw [he] at this; simp [isOk] at this
  | ok b => exact ⟨b, rfl⟩

theorem sample_writable : Writable (view sample 0) [] :=
  writable_of sample_reachable fs_sample.isRoot _ (by decide +kernel)
theorem sample_answers : Answers (view sample 0) [] :=
  answers_of sample_reachable fs_sample.isRoot _ (by decide +kernel)

example : ∃ ps : List (List Str), uWalk 100 (mem [] []) true false sample = (.ok (ps.map (row [] sample 0)), sample) ∧
    (∀ p, p ∈ ps ↔ [] <+: p ∧ (view sample 0).isDir p) ∧ ps.Nodup ∧ ps.Pairwise (fun a b => ¬ b <+: a) ∧ ps.Pairwise (Order true) :=
  C43_walk sample_reachable fs_sample sample_writable sample_answers (by decide +kernel) (fun t ht =>
    Nat.lt_trans (C43_depth sample_reachable fs_sample.isRoot [] t ht) (by decide +kernel))

example : (uWalk 100 (mem [] []) true false sample).1.toOption.map (fun l => l.map Prod.snd) =
    some [([cl!"a", cl!"l"], [cl!"gone", cl!"loop", cl!"m"]), ([cl!"b"], [cl!"f"]), ([], [])] := by decide +kernel
example : (uWalk 100 (mem [] []) false false sample).1.toOption.map (fun l => l.map Prod.snd) =
    some [([], []), ([cl!"b"], [cl!"f"]), ([cl!"a", cl!"l"], [cl!"gone", cl!"loop", cl!"m"])] := by decide +kernel

/-- the sample with a link /a/up to the root -/
def cyclic : World := runAll (sampleOps ++ [.symlink (mu cl!"/") (mu cl!"/a/up")]) (World.init fun n => n)

theorem cyclic_reachable : Reachable cyclic := ⟨_, _, rfl⟩

theorem fs_cyclic : Fs cyclic [] 0 :=
  ⟨by decide, by decide +kernel, by
    intro p cb m h
    have : (cyclic.hooks 0) = [] := by decide +kernel
    rw [this] at h; simp at h⟩

theorem cyclic_trap : Trap (view cyclic 0) (fun q => q = [] ∨ q = [cl!"a"]) := by
  rintro q (rfl | rfl)
  · exact ⟨by decide +kernel, cl!"a", [cl!"a"], by decide, .inr rfl, by decide +kernel, by decide +kernel⟩
  · exact ⟨by decide +kernel, cl!"up", [], by decide, .inl rfl, by decide +kernel, by decide +kernel⟩

example (td : Bool) (depth : Nat) : ∃ e, uWalk depth (mem [] []) td true cyclic = (.error e, cyclic) :=
  C45_cycle cyclic_reachable fs_cyclic cyclic_trap (writable_of cyclic_reachable fs_cyclic.isRoot _ (by decide +kernel))
    .nil .done (.inl rfl) td depth
/-- without followlinks the same walk is fine -/
example : isOk (uWalk 10 (mem [] []) true false cyclic).1 = true := by decide +kernel

/-- Walk does raise, although the top is a directory: a link inside whose target lies below a file -/
theorem C43_raises : ∃ w, Reachable w ∧ (view w 0).isDir [] ∧
    (uWalk 100 (mem [] []) true false w).1 = .error .attributeError :=
  ⟨runAll [.open_ (mu cl!"/f") (some cl!"w"), .symlink (mu cl!"/f/x") (mu cl!"/l")] (World.init fun n => n),
   ⟨_, _, rfl⟩, by decide +kernel, by decide +kernel⟩

end Verif.Props
