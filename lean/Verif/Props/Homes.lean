import Verif.Props.Threads
/-!
# Threads that work on whole trees at the same time, each in a home directory of its own (C104)
-/
namespace Verif.Props
open Verif.Mem Verif.Spec Verif.Conc Verif.Gen

/-! ## What the statements speak of -/

/-- a home directory: the file system, the directory that contains it, and its name; it need not be there -/
structure Home where
  root : Nat
  base : List Str
  name : Str

/-- the location of a home directory -/
def Home.path (H : Home) : List Str := H.base ++ [H.name]

/-- `u` is a memory URI, with fine names, of a location at or below the home directory -/
def Home.Has (w : World) (H : Home) (u : Uri) : Prop :=
  ∃ E cs, u = mem E cs ∧ Ok cs ∧ FineAll cs ∧ H.path <+: cs ∧ w.connOf (connKey u) = some H.root

/-- the call makes no link, does not ask for times, and all its URIs, if any, are in the home directory -/
def AtHome (w : World) (H : Home) (c : Call) : Prop :=
  (∀ u v, c ≠ .symlink u v) ∧ (∀ u f, c ≠ .info u f) ∧ (∀ u, c ≠ .mtime u) ∧
    (∀ u ∈ c.uris, H.Has w u) ∧ ∀ t, c = .tree t → ∀ u ∈ t.uris, H.Has w u

/-- every thread that makes calls makes them in its home directory; the directory that contains it is there; no home
    directory is inside another, nor the same as another -/
structure Homes (w : World) (h : Nat → Option Home) (scripts : Nat → Script) : Prop where
  calls : ∀ t c, (scripts t).Makes c → ∃ H, h t = some H ∧ AtHome w H c
  base : ∀ t H, h t = some H → IsRoot w H.root ∧ ∃ m tm, view w H.root H.base = some (.dir m tm)
  apart : ∀ t t' H H', t ≠ t' → h t = some H → h t' = some H' → H.root = H'.root → ¬ H.path <+: H'.path

/-- all names in the file systems are fine -/
def FineNames (w : World) : Prop := ∀ r q n, IsRoot w r → view w r (q ++ [n]) ≠ none → Fine n

/-! ## From homes to frames -/

/-- what all threads keep to -/
def homeFrame (w : World) (h : Nat → Option Home) : Frame :=
  ⟨fun l => ∀ q n, l.2 = q ++ [n] → Fine n, fun r q i => ∃ t H, h t = some H ∧ r = H.root ∧ q <+: H.base ∧ phys w r q = some i⟩

/-- where a thread works -/
def homeLocs (h : Nat → Option Home) (t : Nat) (l : Loc) : Prop := ∃ H, h t = some H ∧ l.1 = H.root ∧ H.path <+: l.2 ∧ FineAll l.2

/-- the ground of a home -/
def Home.ground (w : World) (H : Home) : Ground := ⟨w.connOf, H.root, H.base, H.name⟩

variable {w : World} {h : Nat → Option Home} {scripts : Nat → Script}

theorem Home.Has.inn {H : Home} {u : Uri} (hu : H.Has w u) : (H.ground w).Inn u := by
  obtain ⟨E, cs, rfl, h1, h2, h3, h4⟩ := hu
  exact ⟨E, cs, rfl, h1, h2, h3, by rw [mem_key E [] cs]; exact h4⟩

theorem Home.path_ne {H : Home} {cs : List Str} (h : H.path <+: cs) : cs ≠ [] := by
  rintro rfl
  rw [List.prefix_nil] at h
  simp [Home.path] at h

theorem Home.Has.owns {H : Home} {u : Uri} (hu : H.Has w u) {T : Loc → Prop} (hT : ∀ cs, FineAll cs → H.path <+: cs → T (H.root, cs))
    {r : Nat} (hr : r = H.root) : Owns T r u := by
  obtain ⟨E, cs, rfl, h1, h2, h3, h4⟩ := hu
  subst hr
  exact owns_mem h1 (Home.path_ne h3) (hT cs h2 h3)

theorem phys_some {r : Nat} {q : List Str} {o : Obj} (h : view w r q = some o) : ∃ i, phys w r q = some i ∧ objOf (w.node i) = o := by
  unfold view at h
  cases e : phys w r q with
  | none => rw [e] at h; simp at h
  | some i => rw [e] at h; exact ⟨i, rfl, by simpa using h⟩

/-- on the way to a directory there are only directories -/
theorem phys_way {r : Nat} {q : List Str} {m tm : Int} (h : view w r q = some (.dir m tm)) : ∀ p, p <+: q → ∃ i d, phys w r p = some i ∧ w.node i = .dir d := by
  rintro p ⟨p', rfl⟩
  obtain ⟨j, hj, ho⟩ := phys_some h
  clear h
  induction p generalizing r with
  | nil =>
    refine ⟨r, ?_⟩
    cases p' with
    | nil =>
      simp only [List.append_nil, phys, Option.some.injEq] at hj
      subst hj
      cases e : w.node r with
      | dir d => exact ⟨d, rfl, rfl⟩
      | file f => rw [e] at ho; simp [objOf] at ho
      | link f => rw [e] at ho; simp [objOf] at ho
    | cons n p' =>
      simp only [List.nil_append, phys] at hj
      cases e : w.node r with
      | dir d => exact ⟨d, rfl, rfl⟩
      | file f => rw [e] at hj; simp at hj
      | link f => rw [e] at hj; simp at hj
  | cons n p ih =>
    simp only [List.cons_append, phys] at hj ⊢
    cases e : w.node r with
    | file f => rw [e] at hj; simp at hj
    | link f => rw [e] at hj; simp at hj
    | dir d =>
      rw [e] at hj
      simp only at hj ⊢
      cases e2 : d.files.lookup n with
      | none => rw [e2] at hj; simp at hj
      | some i => rw [e2] at hj; exact ih hj

theorem Homes.sub (hh : Homes w h scripts) (t : Nat) : Sub (homeLocs h t) (homeFrame w h) where
  sub l := by
    rintro ⟨H, -, -, -, hl⟩ q n e
    exact hl n (by rw [e]; simp)
  apart l := by
    rintro ⟨H, ht, hr, hp, -⟩ q i ⟨t', H', ht', hr', hq, -⟩ hlq
    have hpre : H.path <+: H'.base := (hp.trans hlq).trans hq
    by_cases e : t = t'
    · subst e
      rw [ht, Option.some.injEq] at ht'
      subst ht'
      have := hpre.length_le
      simp [Home.path] at this
      omega
    · exact hh.apart t t' H H' e ht ht' (hr.symm.trans hr') (hpre.trans (List.prefix_append _ _))

theorem Homes.holds (hh : Homes w h scripts) {t : Nat} {H : Home} (ht : h t = some H) :
    (H.ground w).Holds False (homeFrame w h) (homeLocs h t) w where
  conn _ := rfl
  own _ cs h1 h2 := ⟨H, ht, rfl, h2, h1⟩
  fine _ r q n hf := hf q n rfl
  keep _ q hq := by
    obtain ⟨-, m, tm, hv⟩ := hh.base t H ht
    obtain ⟨i, d, hi, -⟩ := phys_way hv q hq
    exact ⟨i, t, H, ht, rfl, hq, hi⟩

theorem AtHome.uris_root {H : Home} {c : Call} (hc : AtHome w H c) {u : Uri} {us : List Uri} (hu : c.uris = u :: us) :
    w.connOf (connKey u) = some H.root := by
  obtain ⟨E, cs, rfl, -, -, -, h4⟩ := hc.2.2.2.1 u (by rw [hu]; simp)
  exact h4

theorem AtHome.private (hh : Homes w h scripts) {t : Nat} {H : Home} (ht : h t = some H) {c : Call} (hc : AtHome w H c) :
    c.Private w (homeFrame w h) H.root H.path where
  noLink := hc.1
  noInfo := hc.2.1
  noMtime := hc.2.2.1
  own u us hu r hr v hv := by
    rw [hc.uris_root hu, Option.some.injEq] at hr
    exact (hc.2.2.2.1 v (by rw [hu]; exact hv)).owns (fun cs _ h => ⟨rfl, h⟩) hr.symm
  tree tc htc := ⟨H.ground w, homeLocs h t, hh.sub t, hh.holds ht, rfl, rfl, fun u hu => (hc.2.2.2.2 tc htc u hu).inn⟩

theorem AtHome.within (hh : Homes w h scripts) {t : Nat} {H : Home} (ht : h t = some H) {c : Call} (hc : AtHome w H c) :
    c.Within w (homeFrame w h) (homeLocs h t) where
  noLink := hc.1
  own uv hu r hr := by
    have h4 := hc.2.2.2.1
    have h5 := @AtHome.uris_root w H c hc
    cases c <;> simp only [Call.touch, reduceCtorEq, Option.some.injEq] at hu <;> subst hu
    all_goals
      rw [h5 rfl, Option.some.injEq] at hr
      exact (h4 _ (by simp [Call.uris])).owns (fun cs h1 h2 => ⟨H, ht, rfl, h2, h1⟩) hr.symm
  tree tc htc := ⟨H.ground w, hh.holds ht, fun u hu => (hc.2.2.2.2 tc htc u hu).inn⟩

theorem AtHome.sited {H : Home} {c : Call} (hc : AtHome w H c) : c.Sited w := by
  intro u hu
  have : ∃ us, c.uris = u :: us := by
    cases c <;> simp only [Call.site, Option.some.injEq, reduceCtorEq] at hu <;> subst hu <;> exact ⟨_, rfl⟩
  obtain ⟨us, hus⟩ := this
  refine ⟨?_, by rw [hc.uris_root hus]; simp⟩
  obtain ⟨E, cs, rfl, -⟩ := hc.2.2.2.1 u (by rw [hus]; simp)
  rfl

theorem Homes.within (hh : Homes w h scripts) (t : Nat) (c : Call) (hm : (scripts t).Makes c) : c.Within w (homeFrame w h) (homeLocs h t) := by
  obtain ⟨H, ht, hc⟩ := hh.calls t c hm
  exact hc.within hh ht

theorem FineNames.frame (hf : FineNames w) (r : Nat) (q : List Str) (n : Str) (i : Nat) (hr : IsRoot w r) (hi : phys w r (q ++ [n]) = some i) :
    (homeFrame w h).fine (r, q ++ [n]) := by
  intro q' n' e
  have := List.append_inj' e rfl
  obtain ⟨-, e2⟩ := this
  have : n = n' := by simpa using e2
  subst this
  exact hf r q n hr (by unfold view; rw [hi]; simp)

theorem Homes.keep (hh : Homes w h scripts) (r : Nat) (q : List Str) (i : Nat) (hk : (homeFrame w h).keep r q i) :
    IsRoot w r ∧ phys w r q = some i ∧ ∃ d, w.node i = .dir d := by
  obtain ⟨t, H, ht, rfl, hq, hi⟩ := hk
  obtain ⟨hr, m, tm, hv⟩ := hh.base t H ht
  obtain ⟨j, d, hj, hd⟩ := phys_way hv q hq
  rw [hi, Option.some.injEq] at hj
  subst hj
  exact ⟨hr, hi, d, hd⟩

/-! ## C104 -/

/-- A thread that works in its home directory, among others that work in theirs, gets the answers it would get alone,
    and leaves the objects it would leave alone (up to times), however the accesses interleave: operations on whole
    trees included. -/
theorem C104_home (hw : Reachable w) (hl : NoLinks w) (hf : FineNames w) (hh : Homes w h scripts) {t : Nat} {H : Home} (ht : h t = some H) :
    ∃ n, ∀ sched : List Nat, n ≤ sched.count t →
      ((Pool.start w scripts).run sched).log t = some ((scripts t).seq [] [] w).1 ∧
      ∀ q, H.path <+: q → SameObj (view ((Pool.start w scripts).run sched).world H.root q) (view ((scripts t).seq [] [] w).2 H.root q) := by
  have := hh.sub
  have hg : Good False (homeFrame w h) ⟨w, placeOf w⟩ := good_start hw.inv (fun _ => hl) (fun _ => hf.frame) fun _ => hh.keep
  have hc : ∀ c, (scripts t).Makes c → AtHome w H c := fun c hm => by
    obtain ⟨H', ht', hc⟩ := hh.calls t c hm
    rw [ht, Option.some.injEq] at ht'
    exact ht' ▸ hc
  obtain ⟨n, hn⟩ := alone (L := False) (F := homeFrame w h) (T := homeLocs h t) hg (scripts := scripts) (t := t)
    fun c hm => ⟨(hc c hm).sited, fun hx => hx.elim, fun _ => hh.within t c hm⟩
  refine ⟨n, fun sched hs => ?_⟩
  have hi := isolated (F := homeFrame w h) (T := homeLocs h) (t := t) hw.inv hl hf.frame hh.keep (hh.base t H ht).1 hh.within
    (fun c hm => (hc c hm).private hh ht) (fun i hi l hx hr hcmp => by
      obtain ⟨H', ht', hr', hp, -⟩ := hx
      have e : H.root = H'.root := hr.symm.trans hr'
      rcases hcmp with hcmp | hcmp
      · exact hh.apart i t H' H hi ht' ht e.symm (hp.trans hcmp)
      · rcases List.prefix_or_prefix_of_prefix hp hcmp with h1 | h1
        · exact hh.apart i t H' H hi ht' ht e.symm h1
        · exact hh.apart t i H H' (Ne.symm hi) ht ht' e h1) sched
  have e : sched.filter (· = t) = List.replicate (sched.count t) t := by
    rw [← List.filter_beq]
    congr 1
  rw [e] at hi
  obtain ⟨h1, h2⟩ := hn _ hs
  rw [h1, h2] at hi
  exact hi

/-- Meanwhile nothing changes outside the home directories. -/
theorem C104_elsewhere (hw : Reachable w) (hl : NoLinks w) (hf : FineNames w) (hh : Homes w h scripts) (sched : List Nat) {r : Nat} (hr : IsRoot w r)
    {q : List Str} (hq : ∀ t ∈ sched, ∀ H, h t = some H → r = H.root → ¬ H.path <+: q) :
    view ((Pool.start w scripts).run sched).world r q = view w r q := by
  have := hh.sub
  obtain ⟨at', hg, hy⟩ := start_run (L := False) (F := homeFrame w h) (T := homeLocs h) hw.inv (fun _ => hl) (fun _ => hf.frame)
    (fun _ => hh.keep) (scripts := scripts) (fun _ => hh.within) sched
  refine Rely.view (F := homeFrame w h) (good_start hw.inv (fun _ => hl) (fun _ => hf.frame) fun _ => hh.keep) hy hr ?_ ?_
  · rintro ⟨t, ht, H, h1, h2, h3, -⟩
    exact hq t ht H h1 h2 h3
  · rintro p n hp ⟨t, ht, H, h1, h2, h3, -⟩
    exact hq t ht H h1 h2 (h3.trans hp)

/-! ## Examples -/

theorem fineNames_of {w : World} (hw : Inv w) (h : ∀ j, j < w.next → ∀ n ∈ (w.entries j).map Prod.fst, Fine n) : FineNames w := by
  intro r q n hr hv
  obtain ⟨o, ho⟩ := Option.ne_none_iff_exists'.1 hv
  obtain ⟨i, hi, -⟩ := phys_some ho
  rw [phys_append] at hi
  cases e : phys w r q with
  | none => rw [e] at hi; simp at hi
  | some j =>
    rw [e] at hi
    simp only [Option.bind_some, phys] at hi
    cases e2 : w.node j with
    | file f => rw [e2] at hi; simp at hi
    | link f => rw [e2] at hi; simp at hi
    | dir d =>
      rw [e2] at hi
      cases e3 : d.files.lookup n with
      | none => simp [e3] at hi
      | some c =>
        refine h j ?_ n ?_
        · by_contra hj
          rw [hw.fresh j (by omega)] at e2
          cases e2
          simp at e3
        · rw [entries_dir e2]
          exact List.mem_map.2 ⟨_, lookup_mem e3, rfl⟩

theorem plain_fine : FineNames plain := fineNames_of plain_reachable.inv (by rw [plain_next]; decide +kernel)

/-- thread 0 works in `/a`, thread 1 in `/b`, thread 2 in `/c`, which is not there yet -/
def threeHomes : Nat → Option Home
  | 0 => some ⟨0, [], cl!"a"⟩
  | 1 => some ⟨0, [], cl!"b"⟩
  | 2 => some ⟨0, [], cl!"c"⟩
  | _ => none

/-- thread 0 makes directories, copies its file into them and walks; thread 1 makes something, and removes all of its home
    directory; thread 2 makes its home directory, and moves things about in it -/
def threeScripts : Nat → Script
  | 0 => line [.tree (.makedirs 9 (mem [] [cl!"a", cl!"x", cl!"y"])),
      .tree (.copy 9 (mem [] [cl!"a", cl!"f"]) (mem [] [cl!"a", cl!"x", cl!"g"]) false [] false), .tree (.md5 (mem [] [cl!"a", cl!"x", cl!"g"])),
      .listdir (mem [] [cl!"a", cl!"x"])]
  | 1 => line [.mkdir (mem [] [cl!"b", cl!"d"]), .tree (.remove 9 (mem [] [cl!"b"]) true), .exists_ (mem [] [cl!"b"])]
  | 2 => line [.tree (.makedirs 9 (mem [] [cl!"c", cl!"d"])), .tree (.move 9 (mem [] [cl!"c", cl!"d"]) (mem [] [cl!"c", cl!"e"])),
      .listdir (mem [] [cl!"c"])]
  | _ => .done

theorem has_plain {n : Str} {cs : List Str} (h : Ok (n :: cs)) (h' : FineAll (n :: cs)) : Home.Has plain ⟨0, [], n⟩ (mem [] (n :: cs)) :=
  ⟨[], n :: cs, rfl, h, h', by simp [Home.path], (congrArg plain.connOf (mem_key [] _ [])).trans (show plain.connOf (connKey (mem [] [])) = some 0 by decide +kernel)⟩

theorem three_homes : Homes plain threeHomes threeScripts where
  calls t c hm := by
    match t, hm with
    | 0, hm =>
      have := makes_line hm
      simp only [List.mem_cons, List.not_mem_nil, or_false] at this
      refine ⟨_, rfl, ?_⟩
      rcases this with rfl | rfl | rfl | rfl
      all_goals refine ⟨by simp, by simp, by simp, ?_, ?_⟩
      all_goals simp only [Call.uris, TreeCall.uris, Call.tree.injEq, forall_eq, List.mem_cons, List.not_mem_nil, or_false, false_implies, implies_true,
        forall_eq_or_imp, reduceCtorEq, forall_eq']
      all_goals first | exact has_plain (by decide) (by decide) | exact ⟨has_plain (by decide) (by decide), has_plain (by decide) (by decide)⟩
    | 1, hm =>
      have := makes_line hm
      simp only [List.mem_cons, List.not_mem_nil, or_false] at this
      refine ⟨_, rfl, ?_⟩
      rcases this with rfl | rfl | rfl
      all_goals refine ⟨by simp, by simp, by simp, ?_, ?_⟩
      all_goals simp only [Call.uris, TreeCall.uris, Call.tree.injEq, forall_eq, List.mem_cons, List.not_mem_nil, or_false, false_implies, implies_true,
        reduceCtorEq, forall_eq']
      all_goals exact has_plain (by decide) (by decide)
    | 2, hm =>
      have := makes_line hm
      simp only [List.mem_cons, List.not_mem_nil, or_false] at this
      refine ⟨_, rfl, ?_⟩
      rcases this with rfl | rfl | rfl
      all_goals refine ⟨by simp, by simp, by simp, ?_, ?_⟩
      all_goals simp only [Call.uris, TreeCall.uris, Call.tree.injEq, forall_eq, List.mem_cons, List.not_mem_nil, or_false, false_implies, implies_true,
        forall_eq_or_imp, reduceCtorEq, forall_eq']
      all_goals first | exact has_plain (by decide) (by decide) | exact ⟨has_plain (by decide) (by decide), has_plain (by decide) (by decide)⟩
    | _ + 3, hm => cases hm
  base t H ht := by
    have e : H.root = 0 ∧ H.base = [] := by
      match t, ht with
      | 0, ht | 1, ht | 2, ht => cases ht; exact ⟨rfl, rfl⟩
    rw [e.1, e.2]
    exact ⟨plain_root, _, _, rfl⟩
  apart t t' H H' hne ht ht' _ := by
    match t, ht, t', ht' with
    | 0, _, 0, _ | 1, _, 1, _ | 2, _, 2, _ => exact absurd rfl hne
    | 0, ht, 1, ht' | 0, ht, 2, ht' | 1, ht, 0, ht' | 1, ht, 2, ht' | 2, ht, 0, ht' | 2, ht, 1, ht' => cases ht; cases ht'; decide

/-- whatever the others do, thread 0 finds its copy -/
example : ∃ n, ∀ sched : List Nat, n ≤ sched.count 0 → ((Pool.start plain threeScripts).run sched).log 0 =
    some [.ok .unit, .ok .unit, .ok (.blocks [[104, 105]]), .ok (.names [cl!"g", cl!"y"])] := by
  obtain ⟨n, hn⟩ := C104_home plain_reachable plain_noLinks plain_fine three_homes (t := 0) rfl
  exact ⟨n, fun sched hs => (hn sched hs).1.trans (by decide +kernel)⟩

/-- thread 1 has removed everything, and thread 2 has moved its directory -/
example : (∃ n, ∀ sched : List Nat, n ≤ sched.count 1 → ((Pool.start plain threeScripts).run sched).log 1 = some [.ok .unit, .ok .unit, .ok (.bool false)]) ∧
    ∃ n, ∀ sched : List Nat, n ≤ sched.count 2 → ((Pool.start plain threeScripts).run sched).log 2 = some [.ok .unit, .ok .unit, .ok (.names [cl!"e"])] := by
  obtain ⟨n, hn⟩ := C104_home plain_reachable plain_noLinks plain_fine three_homes (t := 1) rfl
  obtain ⟨m, hm⟩ := C104_home plain_reachable plain_noLinks plain_fine three_homes (t := 2) rfl
  exact ⟨⟨n, fun sched hs => (hn sched hs).1.trans (by decide +kernel)⟩, ⟨m, fun sched hs => (hm sched hs).1.trans (by decide +kernel)⟩⟩

/-- as long as thread 0 has no turn, its file is as it was (`C104_elsewhere`) -/
example (n : Nat) : view ((Pool.start plain threeScripts).run ((List.range n).flatMap fun _ => [1, 2])).world 0 [cl!"a", cl!"f"] = some (.file [104, 105] 0 4) := by
  rw [C104_elsewhere plain_reachable plain_noLinks plain_fine three_homes _ plain_root]
  · decide +kernel
  · intro t ht H hH _
    have : t = 1 ∨ t = 2 := by simpa using (List.mem_flatMap.1 ht).choose_spec.2
    rcases this with rfl | rfl <;> cases hH <;> decide

/-! ## C105: operations on whole trees are not atomic either -/

/-- Two threads make the same directories: one gets EEXIST, which neither would get before or after the other. -/
theorem C105_makedirs_race : Race [.tree (.makedirs 5 (mu cl!"/x/y"))] [.tree (.makedirs 5 (mu cl!"/x/y"))] [.ok .unit] [.error (.os .EEXIST)] :=
  ⟨⟨List.replicate 5 1 ++ List.replicate 200 0 ++ List.replicate 200 1, by decide +kernel⟩, by decide +kernel⟩

/-- A file is made in a tree that is being removed: `remove(recursive=True)` fails with ENOTEMPTY. -/
theorem C105_remove_race : Race [.tree (.remove 5 (mu cl!"/a") true)] [.open_ (mu cl!"/a/g") (some cl!"w")] [.error (.os .ENOTEMPTY)] [.ok (.fd 0)] :=
  ⟨⟨List.replicate 21 0 ++ List.replicate 8 1 ++ List.replicate 300 0, by decide +kernel⟩, by decide +kernel⟩

/-- A directory is removed while a tree is being walked: the walk ends with KeyError. -/
theorem C105_walk_race : Race [.tree (.walk 5 (mu cl!"/") true false)] [.remove (mu cl!"/b")] [.error .keyError] [.ok .unit] :=
  ⟨⟨List.replicate 10 0 ++ List.replicate 25 1 ++ List.replicate 200 0, by decide +kernel⟩, by decide +kernel⟩

/-- Two threads hash the same file: one hashes nothing, the other its contents twice (a file has one position, which all that have opened it share). -/
theorem C105_md5_race : Race [.tree (.md5 (mu cl!"/a/f"))] [.tree (.md5 (mu cl!"/a/f"))] [.ok (.blocks [[104, 105], [104, 105]])] [.ok (.blocks [])] :=
  ⟨⟨List.replicate 15 0 ++ List.replicate 13 1 ++ List.replicate 200 0 ++ List.replicate 200 1, by decide +kernel⟩, by decide +kernel⟩

/-- Two threads copy the same file: both succeed, one copy has the contents twice, the other is empty. -/
theorem C105_copy_race : Race
    [.tree (.copy 5 (mu cl!"/a/f") (mu cl!"/b/x") false [] false), .tree (.md5 (mu cl!"/b/x"))]
    [.tree (.copy 5 (mu cl!"/a/f") (mu cl!"/b/y") false [] false), .tree (.md5 (mu cl!"/b/y"))]
    [.ok .unit, .ok (.blocks [[104, 105, 104, 105]])] [.ok .unit, .ok (.blocks [])] :=
  ⟨⟨List.replicate 62 0 ++ List.replicate 52 1 ++ List.replicate 400 0 ++ List.replicate 400 1, by decide +kernel⟩, by decide +kernel⟩

end Verif.Props
