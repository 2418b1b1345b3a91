import Verif.Conc.Agree
import Verif.Conc.Isolated
import Verif.Gen.MemUri
import Verif.Spec.Sample
import Verif.Spec.Paths
/-!
# Threads that use one memory file system at the same time (C90, C91, C92)
-/
namespace Verif.Props
open Verif.Mem Verif.Spec Verif.Conc

/-! ## What the statements speak of -/

/-- `u` stands for the location `ts`, which is not the root -/
def Names (u : Uri) (ts : List Str) : Prop :=
  ts ≠ [] ∧ [] ∉ ts ∧ stepsOf u = some ts ∧ ts.getLast? = some u.last

/-- the locations a call may change something at -/
def Spot (w : World) (c : Call) (r : Nat) (ts : List Str) : Prop :=
  ∃ u v, c.touch = some (u, v) ∧ w.connOf (connKey u) = some r ∧ Names v ts

/-- the call makes no link, is not one on a whole tree, and if it may change something, it is at a location other than the root -/
def Tidy (c : Call) : Prop := (∀ u v, c ≠ .symlink u v) ∧ (∀ t, c ≠ .tree t) ∧ ∀ u v, c.touch = some (u, v) → ∃ ts, Names v ts

/-- the call makes no link, does not ask for times, is not one on a whole tree, and all its URIs are in the file system `r`, at or below `q` -/
def Inside (w : World) (r : Nat) (q : List Str) (c : Call) : Prop :=
  (∀ u v, c ≠ .symlink u v) ∧ (∀ u f, c ≠ .info u f) ∧ (∀ u, c ≠ .mtime u) ∧ (∀ t, c ≠ .tree t) ∧
    ∀ u us, c.uris = u :: us → u.scheme = some cl!"memory" ∧ w.connOf (connKey u) = some r ∧
      ∀ v ∈ u :: us, q = [] ∨ ∃ ts, Names v ts ∧ q <+: ts

/-- no link has ever been made -/
def NoLinks (w : World) : Prop := ∀ i o, w.node i ≠ .link o

theorem names_mem {E : Dict} {cs : List Str} {n : Str} (h : Gen.Ok (cs ++ [n])) : Names (Gen.mem E (cs ++ [n])) (cs ++ [n]) :=
  ⟨by simp, fun hm => (h.clean _ hm).ne rfl, Gen.stepsOf_mem h E, by rw [Gen.mem_last (h.clean n (by simp)) E]; simp⟩

theorem Names.owns {u : Uri} {ts : List Str} (h : Names u ts) {T : Loc → Prop} {r : Nat} (ht : T (r, ts)) : Owns T r u :=
  owns_of h.1 h.2.1 h.2.2.1 h.2.2.2 ht

theorem Tidy.within {w : World} {c : Call} (h : Tidy c) {F : Frame} {T : Loc → Prop} (hT : ∀ r ts, Spot w c r ts → T (r, ts)) : c.Within w F T where
  noLink := h.1
  own uv hu r hr := by
    obtain ⟨u, v⟩ := uv
    obtain ⟨ts, hts⟩ := h.2.2 u v hu
    exact hts.owns (hT r ts ⟨u, v, hu, hr, hts⟩)
  tree t ht := absurd ht (h.2.1 t)

theorem Inside.private {w : World} {F : Frame} {r : Nat} {q : List Str} {c : Call} (h : Inside w r q c) : c.Private w F r q where
  noLink := h.1
  noInfo := h.2.1
  noMtime := h.2.2.1
  own u us hu r' hr' v hv := by
    obtain ⟨-, hk, hb⟩ := h.2.2.2.2 u us hu
    rw [hk, Option.some.injEq] at hr'
    subst hr'
    rcases hb v hv with rfl | ⟨ts, h1, h2⟩
    · exact fun p _ => ⟨⟨rfl, List.nil_prefix⟩, ⟨rfl, List.nil_prefix⟩, ⟨rfl, List.nil_prefix⟩, ⟨rfl, List.nil_prefix⟩⟩
    · exact h1.owns ⟨rfl, h2⟩
  tree t ht := absurd ht (h.2.2.2.1 t)

theorem Inside.sited {w : World} {r : Nat} {q : List Str} {c : Call} (h : Inside w r q c) : c.Sited w := by
  intro u hu
  have : ∃ us, c.uris = u :: us := by
    cases c <;> simp only [Call.site, Option.some.injEq, reduceCtorEq] at hu <;> subst hu <;> exact ⟨_, rfl⟩
  obtain ⟨us, hus⟩ := this
  obtain ⟨h1, h2, -⟩ := h.2.2.2.2 u us hus
  exact ⟨h1, by rw [h2]; simp⟩

/-- a script that makes the calls of a list, whatever their outcomes -/
def line : List Call → Script
  | [] => .done
  | c :: cs => .call c fun _ => line cs

theorem makes_line {c : Call} : ∀ {cs : List Call}, (line cs).Makes c → c ∈ cs
  | [], h => by cases h
  | _ :: _, h => by
    cases h with
    | here => simp
    | later r h => exact List.mem_cons_of_mem _ (makes_line h)

theorem noLinks_of {w : World} (hw : Inv w) (h : ∀ i, i < w.next → (objOf (w.node i)).isLink = false) : NoLinks w := by
  intro i o e
  by_cases hi : i < w.next
  · have := h i hi
    rw [e] at this
    simp [objOf, Obj.isLink] at this
  · rw [hw.fresh i (by omega)] at e
    simp at e

/-- two directories, `/a` with the file `f` ("hi"), and `/b`, empty -/
def plain : World := runAll [.mkdir (mu cl!"/a"), .mkdir (mu cl!"/b"), .open_ (mu cl!"/a/f") (some cl!"w"), .write ⟨3, false, false⟩ (.str cl!"hi")]
  (World.init fun n => n)

theorem plain_reachable : Reachable plain := ⟨_, _, rfl⟩

theorem plain_next : plain.next = 4 := by decide +kernel

theorem plain_noLinks : NoLinks plain :=
  noLinks_of plain_reachable.inv (by rw [plain_next]; decide +kernel)

/-- thread 0 reads `/a/f` and then writes it; thread 1 fills `/b` -/
def twoScripts : Nat → Script
  | 0 => line [.open_ (mu cl!"/a/f") (some cl!"r"), .read 0 (-1), .open_ (mu cl!"/a/f") (some cl!"w"), .write 1 (.str cl!"ho"), .listdir (mu cl!"/a")]
  | 1 => line [.mkdir (mu cl!"/b/c"), .open_ (mu cl!"/b/g") (some cl!"w"), .write 0 (.str cl!"x"), .remove (mu cl!"/b/c")]
  | _ => .done

/-! ## C90 -/

/-- The heap stays in order, whatever any number of threads do and however their accesses interleave: every file
    system stays a tree (an object has one location; no chain of entries goes on for ever; the root is a directory),
    no directory lists a name twice, and no object turns into one of another kind. -/
theorem C90_order {w : World} (hw : Reachable w) (scripts : Nat → Script) (sched : List Nat) :
    let w' := ((Pool.start w scripts).run sched).world
    Inv w' ∧ w'.conns = w.conns ∧
      (∀ r, IsRoot w' r → (∃ m t, view w' r [] = some (.dir m t)) ∧ ∀ q, view w' r q ≠ none → q.length < w'.next) ∧
      (∀ r r' q q' i, IsRoot w' r → IsRoot w' r' → phys w' r q = some i → phys w' r' q' = some i → r = r' ∧ q = q') ∧
      (∀ i, ((w'.entries i).map Prod.fst).Nodup) ∧
      ∀ i, i < w.next → (objOf (w'.node i)).isDir = (objOf (w.node i)).isDir ∧ (objOf (w'.node i)).isFile = (objOf (w.node i)).isFile ∧
        (objOf (w'.node i)).isLink = (objOf (w.node i)).isLink := by
  obtain ⟨at', hg, hr⟩ := start_run (L := True) (F := .any) (T := fun _ => Any_) hw.inv (fun h => absurd trivial h) (fun h => absurd trivial h) (fun h => absurd trivial h) (scripts := scripts)
    (fun h => absurd trivial h) sched
  refine ⟨hg.inv, hr.conns, fun r hroot => ⟨?_, fun q hq => view_length hg.inv hroot hq⟩,
    fun r r' q q' i h1 h2 h3 h4 => phys_inj hg.inv h1 h2 h3 h4, hg.inv.nodup, fun i hi => ?_⟩
  · obtain ⟨k, hk⟩ := hroot
    obtain ⟨d, hd⟩ := isDir_iff.1 (hg.inv.root k r hk).2.1
    simp only at hd
    exact ⟨d.mode, d.mtime, by simp [view, phys, hd, objOf]⟩
  · have := hr.ext.stays.type i hi
    simp only at this
    cases h1 : w.node i <;> cases h2 : ((Pool.start w scripts).run sched).world.node i <;> rw [h1, h2] at this <;>
      simp_all [SameType, objOf, Obj.isDir, Obj.isFile, Obj.isLink]

/-- Threads put no object that was there before anywhere else: an object found afterwards was found at the same
    location before, or is new. -/
theorem C90_no_move {w : World} (hw : Reachable w) (scripts : Nat → Script) (sched : List Nat) {r i : Nat} {q : List Str}
    (h : phys ((Pool.start w scripts).run sched).world r q = some i) : phys w r q = some i ∨ w.next ≤ i := by
  obtain ⟨at', hg, hy⟩ := start_run (L := True) (F := .any) (T := fun _ => Any_) hw.inv (fun h => absurd trivial h) (fun h => absurd trivial h) (fun h => absurd trivial h) (scripts := scripts)
    (fun h => absurd trivial h) sched
  by_cases hi : i < w.next
  · exact .inl (hy.ext.stays.phys hw.inv h hi)
  · exact .inr (by omega)

/-- No thread waits for another: in every endless schedule that gives a thread turn after turn, the thread comes to its end. -/
theorem C90_ends (w : World) (scripts : Nat → Script) (t : Nat) (σ : Nat → Nat) (hσ : ∀ n, ∃ m, n ≤ m ∧ σ m = t) :
    ∃ n, ∃ r, ((Pool.start w scripts).run (turnsOf σ n)).prog t = .ret r :=
  ends rfl hσ

/-- A thread that is alone does what the calls of the sequential model do, one after the other, in every state, links or not, unless
    these make a file system (`gen` counts them). -/
theorem C90_alone {w : World} {scripts : Nat → Script} {t : Nat} (hw : ((scripts t).seq [] [] w).2.gen = w.gen) :
    ∃ n, ∀ m, n ≤ m → ((Pool.start w scripts).run (List.replicate m t)).log t = some ((scripts t).seq [] [] w).1 ∧
      ((Pool.start w scripts).run (List.replicate m t)).world = ((scripts t).seq [] [] w).2 :=
  alone_agree hw

/-- calls on file systems that are there make none -/
theorem alone_sited {w : World} (hw : Reachable w) {scripts : Nat → Script} {t : Nat}
    (hc : ∀ c, (scripts t).Makes c → c.Sited w ∧ ∀ tc, c ≠ .tree tc) :
    ∃ n, ∀ m, n ≤ m → ((Pool.start w scripts).run (List.replicate m t)).log t = some ((scripts t).seq [] [] w).1 ∧
      ((Pool.start w scripts).run (List.replicate m t)).world = ((scripts t).seq [] [] w).2 :=
  alone (L := True) (F := .any) (T := Any_)
    (good_start hw.inv (fun h => absurd trivial h) (fun h => absurd trivial h) fun h => absurd trivial h)
    fun c hm => ⟨(hc c hm).1, fun _ => (hc c hm).2, fun h => absurd trivial h⟩

/-! ## C91 -/

/-- Where no thread works nothing changes: a location with no touched location on the way to it (itself included) keeps its object. -/
theorem C91_elsewhere {w : World} (hw : Reachable w) (hl : NoLinks w) {scripts : Nat → Script}
    (ht : ∀ t c, (scripts t).Makes c → Tidy c) (sched : List Nat) {r : Nat} (hr : IsRoot w r) {q : List Str}
    (hq : ∀ t ∈ sched, ∀ c, (scripts t).Makes c → ∀ ts, Spot w c r ts → ¬ ts <+: q) :
    view ((Pool.start w scripts).run sched).world r q = view w r q := by
  obtain ⟨at', hg, hy⟩ := start_run (L := False) (F := .any) (T := fun t l => ∃ c, (scripts t).Makes c ∧ Spot w c l.1 l.2) hw.inv (fun _ => hl)
    (fun _ _ _ _ _ _ _ => trivial) (fun _ _ _ _ h => h.elim) (scripts := scripts) (fun _ t c hm => (ht t c hm).within fun r ts hs => ⟨c, hm, hs⟩) sched
  refine Rely.view (F := .any) (good_start hw.inv (fun _ => hl) (fun _ _ _ _ _ _ _ => trivial) fun _ _ _ _ h => h.elim) hy hr ?_ ?_
  · rintro ⟨t, ht, c, hc, hs⟩
    exact hq t ht c hc q hs (List.prefix_refl _)
  · rintro p n hp ⟨t, ht, c, hc, hs⟩
    exact hq t ht c hc _ hs hp

/-- A thread that works at and below `q0`, while the others work neither there nor on the way there, gets the answers it
    would get alone, however the accesses interleave, and leaves the objects it would leave alone (up to times). -/
theorem C91_alone {w : World} (hw : Reachable w) (hl : NoLinks w) {r0 : Nat} (hr : IsRoot w r0) {q0 : List Str} {scripts : Nat → Script} {t : Nat}
    (ht : ∀ c, (scripts t).Makes c → Inside w r0 q0 c)
    (ho : ∀ i, i ≠ t → ∀ c, (scripts i).Makes c → Tidy c ∧ ∀ ts, Spot w c r0 ts → ¬ ts <+: q0 ∧ ¬ q0 <+: ts) :
    ∃ n, ∀ sched : List Nat, n ≤ sched.count t →
      ((Pool.start w scripts).run sched).log t = some ((scripts t).seq [] [] w).1 ∧
      ∀ q, q0 <+: q → SameObj (view ((Pool.start w scripts).run sched).world r0 q) (view ((scripts t).seq [] [] w).2 r0 q) := by
  obtain ⟨n, hn⟩ := alone_sited hw (scripts := scripts) (t := t) fun c hm => ⟨(ht c hm).sited, (ht c hm).2.2.2.1⟩
  refine ⟨n, fun sched hs => ?_⟩
  have h := isolated_any hw.inv hl hr (scripts := scripts) (t := t) (fun c hm => (ht c hm).private)
    (fun i hi c hm => (ho i hi c hm).1.within fun r ts hsp hr => by
      subst hr
      rintro (h | h)
      · exact ((ho i hi c hm).2 ts hsp).1 h
      · exact ((ho i hi c hm).2 ts hsp).2 h) sched
  have e : sched.filter (· = t) = List.replicate (sched.count t) t := by
    rw [← List.filter_beq]
    congr 1
  rw [e] at h
  obtain ⟨h1, h2⟩ := hn _ hs
  rw [h1, h2] at h
  exact h

/-- Threads that only ask do not disturb each other: each gets the answers it would get alone. -/
theorem C91_readers {w : World} (hw : Reachable w) (hl : NoLinks w) {r0 : Nat} (hr : IsRoot w r0) {scripts : Nat → Script}
    (ht : ∀ t c, (scripts t).Makes c → c.touch = none ∧ Inside w r0 [] c) (t : Nat) :
    ∃ n, ∀ sched : List Nat, n ≤ sched.count t → ((Pool.start w scripts).run sched).log t = some ((scripts t).seq [] [] w).1 := by
  obtain ⟨n, hn⟩ := C91_alone hw hl hr (q0 := []) (t := t) (fun c hm => (ht t c hm).2) fun i _ c hm =>
    ⟨⟨(ht i c hm).2.1, (ht i c hm).2.2.2.2.1, fun u v h => by rw [(ht i c hm).1] at h; simp at h⟩, fun ts ⟨u, v, h, _⟩ => by rw [(ht i c hm).1] at h; simp at h⟩
  exact ⟨n, fun sched hs => (hn sched hs).1⟩

/-! ## Examples -/

theorem plain_root : IsRoot plain 0 := connOf_mem (k := connKey (mu cl!"/a")) (by decide +kernel)

instance (u : Uri) (ts : List Str) : Decidable (Names u ts) := by unfold Names; infer_instance

theorem two0 : ∀ c, (twoScripts 0).Makes c → Inside plain 0 [cl!"a"] c := by
  intro c hm
  have h := makes_line hm
  have ha : Names (mu cl!"/a") [cl!"a"] ∧ Names (mu cl!"/a/f") [cl!"a", cl!"f"] := by decide +kernel
  have hk : ∀ u, u = mu cl!"/a" ∨ u = mu cl!"/a/f" → u.scheme = some cl!"memory" ∧ plain.connOf (connKey u) = some 0 := by
    rintro u (rfl | rfl) <;> decide +kernel
  simp only [List.mem_cons, List.not_mem_nil, or_false] at h
  rcases h with rfl | rfl | rfl | rfl | rfl
  all_goals refine ⟨by simp, by simp, by simp, by simp, fun u us hu => ?_⟩
  all_goals simp only [Call.uris, List.cons.injEq, reduceCtorEq] at hu
  all_goals obtain ⟨rfl, rfl⟩ := hu
  · exact ⟨(hk _ (.inr rfl)).1, (hk _ (.inr rfl)).2, fun v hv => .inr ⟨_, (List.mem_singleton.1 hv) ▸ ha.2, by decide⟩⟩
  · exact ⟨(hk _ (.inr rfl)).1, (hk _ (.inr rfl)).2, fun v hv => .inr ⟨_, (List.mem_singleton.1 hv) ▸ ha.2, by decide⟩⟩
  · exact ⟨(hk _ (.inl rfl)).1, (hk _ (.inl rfl)).2, fun v hv => .inr ⟨_, (List.mem_singleton.1 hv) ▸ ha.1, by decide⟩⟩

theorem names_det {u : Uri} {ts ts' : List Str} (h : Names u ts) (h' : Names u ts') : ts' = ts :=
  Option.some.inj (h'.2.2.1.symm.trans h.2.2.1)

theorem two1 : ∀ c, (twoScripts 1).Makes c → Tidy c ∧ ∀ r ts, Spot plain c r ts → ts = [cl!"b", cl!"c"] ∨ ts = [cl!"b", cl!"g"] := by
  intro c hm
  have h := makes_line hm
  have hc : Names (mu cl!"/b/c") [cl!"b", cl!"c"] := by decide +kernel
  have hg : Names (mu cl!"/b/g") [cl!"b", cl!"g"] := by decide +kernel
  simp only [List.mem_cons, List.not_mem_nil, or_false] at h
  rcases h with rfl | rfl | rfl | rfl
  all_goals refine ⟨⟨by simp, by simp, fun u v h => ?_⟩, fun r ts ⟨u, v, h, _, hn⟩ => ?_⟩
  all_goals simp only [Call.touch, Option.some.injEq, Prod.mk.injEq, reduceCtorEq] at h
  all_goals obtain ⟨rfl, rfl⟩ := h
  · exact ⟨_, hc⟩
  · exact .inl (names_det hc hn)
  · exact ⟨_, hg⟩
  · exact .inr (names_det hg hn)
  · exact ⟨_, hc⟩
  · exact .inl (names_det hc hn)

/-- the two threads meet the hypotheses of `C91_alone`: whatever the schedule, the first reads "hi", writes "ho" and sees only its file -/
example : ∃ n, ∀ sched : List Nat, n ≤ sched.count 0 →
    ((Pool.start plain twoScripts).run sched).log 0 =
      some [.ok (.fd 0), .ok (.data (.str cl!"hi")), .ok (.fd 1), .ok .unit, .ok (.names [cl!"f"])] ∧
    ∃ t, view ((Pool.start plain twoScripts).run sched).world 0 [cl!"a", cl!"f"] = some (.file [104, 111] 0 t) := by
  obtain ⟨n, hn⟩ := C91_alone plain_reachable plain_noLinks plain_root (scripts := twoScripts) (t := 0) two0 fun i hi c hm => by
    match i, hm with
    | 0, _ => exact absurd rfl hi
    | 1, hm =>
      refine ⟨(two1 c hm).1, fun ts hs => ?_⟩
      rcases (two1 c hm).2 0 ts hs with rfl | rfl <;> decide
    | _ + 2, hm => cases hm
  refine ⟨n, fun sched hs => ?_⟩
  obtain ⟨h1, h2⟩ := hn sched hs
  refine ⟨h1.trans (by decide +kernel), ?_⟩
  have h3 := h2 [cl!"a", cl!"f"] (by decide)
  rw [show view ((twoScripts 0).seq [] [] plain).2 0 [cl!"a", cl!"f"] = some (.file [104, 111] 0 6) from by decide +kernel] at h3
  revert h3
  cases view ((Pool.start plain twoScripts).run sched).world 0 [cl!"a", cl!"f"] with
  | none => exact fun h => h.elim
  | some o =>
    cases o with
    | file b m t => rintro ⟨rfl, rfl⟩; exact ⟨t, rfl⟩
    | dir m t => exact fun h => h.elim
    | link u m t => exact fun h => h.elim

/-- meanwhile `/a/f` is as it was as long as thread 0 has no turn (`C91_elsewhere`) -/
example (n : Nat) : view ((Pool.start plain twoScripts).run (List.replicate n 1)).world 0 [cl!"a", cl!"f"] = some (.file [104, 105] 0 4) := by
  rw [C91_elsewhere plain_reachable plain_noLinks ?_ _ plain_root ?_]
  · decide +kernel
  · intro t c hm
    match t, hm with
    | 0, hm =>
      refine ⟨(two0 c hm).1, (two0 c hm).2.2.2.1, fun u v h => ?_⟩
      have := makes_line hm
      simp only [List.mem_cons, List.not_mem_nil, or_false] at this
      rcases this with rfl | rfl | rfl | rfl | rfl
      all_goals simp only [Call.touch, Option.some.injEq, Prod.mk.injEq, reduceCtorEq] at h
      all_goals obtain ⟨rfl, rfl⟩ := h
      all_goals exact ⟨[cl!"a", cl!"f"], by decide +kernel⟩
    | 1, hm => exact (two1 c hm).1
    | _ + 2, hm => cases hm
  · intro t ht c hm ts hs
    rw [List.eq_of_mem_replicate ht] at hm
    rcases (two1 c hm).2 0 ts hs with rfl | rfl <;> decide

/-- `C90_order` on a file system with links, the threads making links among other things -/
example : let w' := ((Pool.start sample fun _ => line [.symlink (mu cl!"/loop") (mu cl!"/x"), .mkdir (mu cl!"/x"), .remove (mu cl!"/l")]).run
    ((List.range 40).flatMap fun _ => [0, 1])).world
    Inv w' ∧ w'.conns = sample.conns :=
  ⟨(C90_order sample_reachable _ _).1, (C90_order sample_reachable _ _).2.1⟩

/-- `C90_ends` for threads that take turns -/
example : ∃ n, ∃ r, ((Pool.start plain twoScripts).run (turnsOf (· % 2) n)).prog 1 = .ret r :=
  C90_ends plain twoScripts 1 _ fun n => ⟨2 * n + 1, by omega, by omega⟩

/-- `C90_alone` for thread 0 -/
example : ∃ n, ∀ m, n ≤ m → ((Pool.start plain twoScripts).run (List.replicate m 0)).log 0 =
    some [.ok (.fd 0), .ok (.data (.str cl!"hi")), .ok (.fd 1), .ok .unit, .ok (.names [cl!"f"])] := by
  obtain ⟨n, hn⟩ := C90_alone (w := plain) (scripts := twoScripts) (t := 0) (by decide +kernel)
  exact ⟨n, fun m hm => (hn m hm).1.trans (by decide +kernel)⟩

/-- `C90_alone` on a file system with links: a tree is copied through one, and the copy walked and removed -/
example : ∃ n, ∀ m, n ≤ m → ((Pool.start sample fun _ => line [.tree (.copy 100 (mu cl!"/l") (mu cl!"/c") true [] true),
      .tree (.walk 100 (mu cl!"/c") true true), .tree (.remove 100 (mu cl!"/c") true), .listdir (mu cl!"/")]).run (List.replicate m 0)).log 0 =
    some [.ok .unit, .ok (.rows [(mu cl!"/c", [cl!"b"], [cl!"f"]), (mu cl!"/c/b", [], [])]), .ok .unit,
      .ok (.names [cl!"a", cl!"gone", cl!"l", cl!"loop", cl!"m"])] := by
  obtain ⟨n, hn⟩ := C90_alone (w := sample) (scripts := fun _ => line [.tree (.copy 100 (mu cl!"/l") (mu cl!"/c") true [] true),
      .tree (.walk 100 (mu cl!"/c") true true), .tree (.remove 100 (mu cl!"/c") true), .listdir (mu cl!"/")]) (t := 0) (by decide +kernel)
  exact ⟨n, fun m hm => (hn m hm).1.trans (by decide +kernel)⟩

/-- `C91_readers`: everybody lists the root and asks for `/a/f` -/
example (t : Nat) : ∃ n, ∀ sched : List Nat, n ≤ sched.count t →
    ((Pool.start plain fun _ => line [.listdir (mu cl!"/"), .exists_ (mu cl!"/a/f")]).run sched).log t =
      some [.ok (.names [cl!"a", cl!"b"]), .ok (.bool true)] := by
  obtain ⟨n, hn⟩ := C91_readers plain_reachable plain_noLinks plain_root (scripts := fun _ => line [.listdir (mu cl!"/"), .exists_ (mu cl!"/a/f")])
    (fun t c hm => by
      have h := makes_line hm
      simp only [List.mem_cons, List.not_mem_nil, or_false] at h
      rcases h with rfl | rfl
      all_goals refine ⟨rfl, by simp, by simp, by simp, by simp, fun u us hu => ?_⟩
      all_goals simp only [Call.uris, List.cons.injEq] at hu
      all_goals obtain ⟨rfl, rfl⟩ := hu
      all_goals exact ⟨by decide +kernel, by decide +kernel, fun _ _ => .inl rfl⟩) t
  exact ⟨n, fun sched hs => (hn sched hs).trans (by decide +kernel)⟩

/-- a schedule in which both threads come to their end, in turns -/
example : ((Pool.start plain twoScripts).run ((List.range 60).flatMap fun _ => [0, 1])).log 1 =
    some [.ok .unit, .ok (.fd 0), .ok .unit, .ok .unit] := by decide +kernel

/-! ## C92: calls are not atomic -/

/-- `c` before some of the calls of the other thread -/
def weave (c : Call) (f : List Call → List (List (Bool × Call))) : List Call → List (List (Bool × Call))
  | [] => (f []).map ((false, c) :: ·)
  | d :: ds => (f (d :: ds)).map ((false, c) :: ·) ++ (weave c f ds).map ((true, d) :: ·)

/-- all ways to interleave whole calls of two threads -/
def merges : List Call → List Call → List (List (Bool × Call))
  | [], ds => [ds.map (true, ·)]
  | c :: cs, ds => weave c (merges cs) ds

/-- whole calls, one after the other: the two threads' outcomes and the state at the end -/
def inTurn : List (Bool × Call) → List Handle → List Handle → Log → Log → World → Log × Log × World
  | [], _, _, l, l', w => (l, l', w)
  | (false, c) :: o, hs, hs', l, l', w => match c.seq hs w with
    | (.ok x, w') => inTurn o x.2 hs' (l ++ [.ok x.1]) l' w'
    | (.error e, w') => inTurn o hs hs' (l ++ [.error e]) l' w'
  | (true, c) :: o, hs, hs', l, l', w => match c.seq hs' w with
    | (.ok x, w') => inTurn o hs x.2 l (l' ++ [.ok x.1]) w'
    | (.error e, w') => inTurn o hs hs' l (l' ++ [.error e]) w'

/-- the outcomes `l`, `l'` of the calls `cs`, `ds` of two threads on `plain` come about in some schedule, but in no
    order of the calls -/
def Race (cs ds : List Call) (l l' : Log) : Prop :=
  (∃ sched, ((Pool.start plain fun | 0 => line cs | 1 => line ds | _ => .done).run sched).log 0 = some l ∧
    ((Pool.start plain fun | 0 => line cs | 1 => line ds | _ => .done).run sched).log 1 = some l') ∧
  ∀ o ∈ merges cs ds, ¬ ((inTurn o [] [] [] [] plain).1 = l ∧ (inTurn o [] [] [] [] plain).2.1 = l')

/-- Two threads make the same directory: both succeed, and the file the first has put into it is gone. -/
theorem C92_mkdir_race : Race [.mkdir (mu cl!"/x"), .open_ (mu cl!"/x/f") (some cl!"w"), .exists_ (mu cl!"/x/f")] [.mkdir (mu cl!"/x")]
    [.ok .unit, .ok (.fd 0), .ok (.bool false)] [.ok .unit] :=
  ⟨⟨List.replicate 3 1 ++ List.replicate 12 0 ++ [1] ++ List.replicate 20 0, by decide +kernel⟩, by decide +kernel⟩

/-- A file is written into a directory that is being removed: all calls succeed, and the file is gone. -/
theorem C92_remove_race : Race [.remove (mu cl!"/b")] [.open_ (mu cl!"/b/g") (some cl!"w"), .write 0 (.str cl!"x"), .exists_ (mu cl!"/b/g")]
    [.ok .unit] [.ok (.fd 0), .ok .unit, .ok (.bool false)] :=
  ⟨⟨List.replicate 24 0 ++ List.replicate 12 1 ++ [0] ++ List.replicate 20 1, by decide +kernel⟩, by decide +kernel⟩

/-- Two threads remove the same file: one gets KeyError. -/
theorem C92_keyError_race : Race [.remove (mu cl!"/a/f")] [.remove (mu cl!"/a/f")] [.error .keyError] [.ok .unit] :=
  ⟨⟨List.replicate 45 0 ++ List.replicate 46 1 ++ [0], by decide +kernel⟩, by decide +kernel⟩

/-- `exists` while the file is being removed: neither True nor False but KeyError. -/
theorem C92_exists_race : Race [.exists_ (mu cl!"/a/f")] [.remove (mu cl!"/a/f")] [.error .keyError] [.ok .unit] :=
  ⟨⟨List.replicate 8 0 ++ List.replicate 46 1 ++ List.replicate 10 0, by decide +kernel⟩, by decide +kernel⟩

end Verif.Props
