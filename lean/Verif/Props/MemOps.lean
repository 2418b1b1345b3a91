import Verif.Mem.ApiLemmas
import Verif.Spec.Sample
/-!
# Properties of the memory file system: creating, removing, attributes (C25, C28, C31, C32, C35-C37)

`Becomes w w' r ns` (Verif/Mem/ApiLemmas.lean) says that the file system with root `r` has become `ns`
while every other file system, the connections, the injected faults and the locks stayed the same.
-/
namespace Verif.Props
open Mem Spec

/-! ## C25 mkdir -/

/-- In an existing directory `q` a free name becomes an empty directory, and nothing else changes. -/
theorem C25_creates {w : World} (h : Reachable w) {u : Uri} {r : Nat} {init q : List Str} {n : Str} (hu : Serves w u r)
    (hs : stepsOf u = some (init ++ [n])) (hg : Goes (view w r) maxDepth [] init (.found q))
    (hd : (view w r).isDir q) (hn : view w r (q ++ [n]) = none) :
    ∃ w', uMkdir u w = (.ok (), w') ∧ Becomes w w' r ((view w r).set (q ++ [n]) (.dir 0 (w.clock w.tick))) ∧
      ∀ m, view w' r (q ++ [n] ++ [m]) = none := by
  obtain ⟨w', h1, h2⟩ := uMkdir_new h.inv hu hs hg hd hn
  refine ⟨w', h1, h2, ?_⟩
  intro m
  rw [h2.view, NS.set_ne _ _ (by simp)]
  cases hv : view w r (q ++ [n] ++ [m]) with
  | none => rfl
  | some o => obtain ⟨o', ho'⟩ := view_prefix hv; rw [hn] at ho'; simp at ho'

/-- A mkdir that returns did that (or was asked for the root, which it leaves alone). -/
theorem C25_only {w w' : World} (h : Reachable w) {u : Uri} {r : Nat} (hu : Serves w u r)
    (hm : uMkdir u w = (.ok (), w')) :
    (stepsOf u = some [] ∧ w' = w) ∨
    ∃ init n q, stepsOf u = some (init ++ [n]) ∧ Goes (view w r) maxDepth [] init (.found q) ∧
      (view w r).isDir q ∧ view w r (q ++ [n]) = none ∧
      Becomes w w' r ((view w r).set (q ++ [n]) (.dir 0 (w.clock w.tick))) := by
  cases hs : stepsOf u with
  | none => unfold uMkdir at hm; rw [withConn_bad hu hs] at hm; simp at hm
  | some ts =>
    have hm' := hm
    unfold uMkdir at hm
    rw [withConn_serves hu hs] at hm
    rcases mkdir_cases h.inv hu.isRoot u with ⟨e, h1⟩ | ⟨h1, h2⟩ | ⟨init, n, q, nd, d, h1, h2, h3, h4, h5, h6⟩
    · rw [h1] at hm; simp at hm
    · rw [h2] at hm
      rw [hs] at h1
      exact .inl ⟨h1, (Prod.mk.inj hm).2.symm⟩
    · rw [hs] at h1
      have hd : (view w r).isDir q := (isDir_of_phys h3).2 ⟨d, h4⟩
      have hn : view w r (q ++ [n]) = none := by rw [view_snoc_none h3, entries_dir h4]; exact h5
      refine .inr ⟨init, n, q, h1, h2, hd, hn, ?_⟩
      obtain ⟨w'', h7, h8⟩ := uMkdir_new h.inv hu (hs.trans h1) h2 hd hn
      rw [hm'] at h7
      obtain rfl := (Prod.mk.inj h7).2
      exact h8

/-- The listing of the parent, under any of its names, has gained exactly the new name. -/
theorem C25_listing {w w' : World} (h : Reachable w) {u v : Uri} {r : Nat} {init q vs : List Str} {n : Str}
    (hu : Serves w u r) (hs : stepsOf u = some (init ++ [n])) (hg : Goes (view w r) maxDepth [] init (.found q))
    (hm : uMkdir u w = (.ok (), w'))
    (hv : Serves w v r) (hvs : stepsOf v = some vs) (hne : [] ∉ vs) (hvg : Goes (view w r) maxDepth [] vs (.found q)) :
    ∃ l l', uListdir v w = (.ok l, w) ∧ uListdir v w' = (.ok l', w') ∧ n ∉ l ∧ ∀ x, x ∈ l' ↔ x = n ∨ x ∈ l := by
  rcases C25_only h hu hm with ⟨h1, -⟩ | ⟨init', n', q', h1, h2, h3, h4, h5⟩
  · rw [hs] at h1; simp at h1
  · rw [hs] at h1
    simp only [Option.some.injEq] at h1
    obtain ⟨rfl, h6⟩ := List.append_inj' h1 rfl
    simp only [List.cons.injEq, and_true] at h6
    subst h6
    have := hg.det' h2
    simp only [Out.found.injEq] at this
    subst this
    obtain ⟨l, a1, -, -, a4⟩ := uListdir_at h.inv hv hvs hne hvg h3
    have hk : (view w r).Keeps (view w' r) := by rw [h5.view]; exact NS.set_keeps_new h4
    obtain ⟨l', b1, -, -, b4⟩ := uListdir_at h5.inv (h5.serves hv) hvs hne (hvg.keeps hk) (hk.isDir h3)
    refine ⟨l, l', a1, b1, ?_, ?_⟩
    · rw [a4]; simp [h4]
    · intro x
      rw [a4, b4, h5.view]
      by_cases hx : x = n
      · subst hx; simp [NS.set]
      · rw [NS.set_ne _ _ (by simp [hx])]; simp [hx]

/-- an existing name: EEXIST -/
theorem C25_exists {w : World} (h : Reachable w) {u : Uri} {r : Nat} {init q : List Str} {n : Str} {o : Obj}
    (hu : Serves w u r) (hs : stepsOf u = some (init ++ [n])) (hg : Goes (view w r) maxDepth [] init (.found q))
    (hn : view w r (q ++ [n]) = some o) : uMkdir u w = (.error (.os .EEXIST), w) := by
  unfold uMkdir
  rw [withConn_serves hu hs]
  exact (create_taken h.inv hu.isRoot (t := u) hs hg hn).1

/-- a missing parent: ENOENT -/
theorem C25_no_parent {w : World} (h : Reachable w) {u : Uri} {r : Nat} {init : List Str} {n : Str} {out : Out}
    (hu : Serves w u r) (hs : stepsOf u = some (init ++ [n])) (hg : Goes (view w r) maxDepth [] init out)
    (ho : out = .missing ∨ out = .dangling) : uMkdir u w = (.error (.os .ENOENT), w) := by
  unfold uMkdir
  rw [withConn_serves hu hs]
  rcases ho with rfl | rfl <;>
  exact (create_fail h.inv hu.isRoot (t := u) hs hg (by simp)).1

/-- a parent that is a file: AttributeError rather than ENOTDIR -/
theorem C25_parent_file {w : World} (h : Reachable w) {u : Uri} {r : Nat} {init q : List Str} {n : Str}
    (hu : Serves w u r) (hs : stepsOf u = some (init ++ [n])) (hg : Goes (view w r) maxDepth [] init (.found q))
    (hd : ¬ (view w r).isDir q) : uMkdir u w = (.error .attributeError, w) := by
  unfold uMkdir
  rw [withConn_serves hu hs]
  exact (create_fail h.inv hu.isRoot (t := u) hs hg (by intro q' hq'; simp at hq'; subst hq'; exact hd)).1

theorem sample_serves (s : Str) (h1 : (mu s).scheme = some cl!"memory" := by decide +kernel)
    (h2 : (mu s).allExtras.any (fun kv => kv.1 ∈ reservedNames) = false := by decide +kernel)
    (h3 : sample.connOf (connKey (mu s)) = some 0 := by decide +kernel) : Serves sample (mu s) 0 :=
  serves_of_noHooks h1 h2 h3 (by decide +kernel)

instance {ns : NS} {q : List Str} : Decidable (ns.isDir q) := decidable_of_iff _ any_isDir
instance {ns : NS} {q : List Str} : Decidable (ns.isFile q) := decidable_of_iff _ any_isFile
instance {ns : NS} {q : List Str} : Decidable (ns.isLink q) := decidable_of_iff _ any_isLink

example : Serves sample (mu cl!"/l/new") 0 ∧ stepsOf (mu cl!"/l/new") = some ([cl!"l"] ++ [cl!"new"]) ∧
    Goes (view sample 0) maxDepth [] [cl!"l"] (.found [cl!"a"]) ∧ (view sample 0).isDir [cl!"a"] ∧
    view sample 0 ([cl!"a"] ++ [cl!"new"]) = none :=
  ⟨sample_serves _, by decide +kernel, by decide +kernel, by decide +kernel, by decide +kernel⟩
example : view (uMkdir (mu cl!"/l/new") sample).2 0 [cl!"a", cl!"new"] = some (.dir 0 9) ∧
    (uMkdir (mu cl!"/a/f") sample).1 = .error (.os .EEXIST) ∧
    (uMkdir (mu cl!"/nope/x") sample).1 = .error (.os .ENOENT) ∧
    (uMkdir (mu cl!"/a/f/x") sample).1 = .error .attributeError := by decide +kernel

/-! ## C28 Opening for writing -/

/-- a missing file in an existing directory is created empty, and nothing else changes -/
theorem C28_creates {w : World} (h : Reachable w) {u : Uri} {r : Nat} {init q : List Str} {n o : Str} (hu : Serves w u r)
    (hs : stepsOf u = some (init ++ [n])) (ho : o.contains 'r' = false) (ho' : o.contains 'w' = true)
    (hg : Goes (view w r) maxDepth [] init (.found q))
    (hd : (view w r).isDir q) (hn : view w r (q ++ [n]) = none) :
    ∃ w' hd t, uOpen u (some o) w = (.ok hd, w') ∧ Becomes w w' r ((view w r).set (q ++ [n]) (.file [] 0 t)) := by
  rw [uOpen_w hu hs ho ho']
  obtain ⟨w', f, h1, h2⟩ := openWrite_new' h.inv hu (o.contains 'b') hs hg hd hn
  exact ⟨w', _, f.mtime, h1, h2.becomes⟩

/-- an existing file, possibly found through links, is emptied (its mode reset), and nothing else changes -/
theorem C28_truncates {w : World} (h : Reachable w) {u : Uri} {r : Nat} {init q q' : List Str} {n o : Str} {ob : Obj}
    (hu : Serves w u r)
    (hs : stepsOf u = some (init ++ [n])) (ho : o.contains 'r' = false) (ho' : o.contains 'w' = true)
    (hg : Goes (view w r) maxDepth [] init (.found q)) (hn : view w r (q ++ [n]) = some ob)
    (hg' : Goes (view w r) maxDepth [] (init ++ [n]) (.found q')) (hf : (view w r).isFile q') :
    ∃ w' hd t, uOpen u (some o) w = (.ok hd, w') ∧ Becomes w w' r ((view w r).set q' (.file [] 0 t)) := by
  rw [uOpen_w hu hs ho ho']
  obtain ⟨w', i, f, h1, h2, -⟩ := openWrite_found' h.inv hu (o.contains 'b') hs hg hn hg' hf
  exact ⟨w', _, f.mtime, h1, h2.becomes⟩

/-- a directory, possibly found through links: EISDIR -/
theorem C28_directory {w : World} (h : Reachable w) {u : Uri} {r : Nat} {init q q' : List Str} {n o : Str} {ob : Obj}
    (hu : Serves w u r)
    (hs : stepsOf u = some (init ++ [n])) (ho : o.contains 'r' = false) (ho' : o.contains 'w' = true)
    (hg : Goes (view w r) maxDepth [] init (.found q)) (hn : view w r (q ++ [n]) = some ob)
    (hg' : Goes (view w r) maxDepth [] (init ++ [n]) (.found q')) (hf : (view w r).isDir q') :
    uOpen u (some o) w = (.error (.os .EISDIR), w) := by
  rw [uOpen_w hu hs ho ho']
  obtain ⟨p, h1, -, h3⟩ := stepsOf_snoc hs
  obtain ⟨i, a, e⟩ := openWrite_found h.inv hu.isRoot (b := o.contains 'b') h1 h3 hg hn hg'
  obtain ⟨i', f, a', hi⟩ := isDir_view hf
  have : i' = i := by rw [a] at a'; simpa using a'.symm
  subst this
  rw [e, hi]

/-- a missing parent: ENOENT -/
theorem C28_no_parent {w : World} (h : Reachable w) {u : Uri} {r : Nat} {init : List Str} {n o : Str} {out : Out}
    (hu : Serves w u r)
    (hs : stepsOf u = some (init ++ [n])) (ho : o.contains 'r' = false) (ho' : o.contains 'w' = true)
    (hg : Goes (view w r) maxDepth [] init out) (hout : out = .missing ∨ out = .dangling) :
    uOpen u (some o) w = (.error (.os .ENOENT), w) := by
  rw [uOpen_w hu hs ho ho']
  obtain ⟨p, h1, -, h3⟩ := stepsOf_snoc hs
  rcases hout with rfl | rfl <;> exact openWrite_fail h.inv hu.isRoot h1 h3 hg (by simp)

/-- The root is not refused: opening it for writing creates a file with the empty name. -/
theorem C28_root_refuted : ∃ w u, Reachable w ∧ stepsOf u = some [] ∧ (view w 0).isDir [] ∧
    (uOpen u (some cl!"w") w).1 = .ok ⟨8, false, false⟩ ∧ (view (uOpen u (some cl!"w") w).2 0).isFile [[]] :=
  ⟨sample, mu cl!"/", sample_reachable, by decide +kernel, by decide +kernel, by decide +kernel, by decide +kernel⟩

example : view (uOpen (mu cl!"/m") (some cl!"wb") sample).2 0 [cl!"a", cl!"f"] = some (.file [] 0 9) ∧
    view (uOpen (mu cl!"/l/g") (some cl!"wb") sample).2 0 [cl!"a", cl!"g"] = some (.file [] 0 9) ∧
    (uOpen (mu cl!"/l") (some cl!"w") sample).1 = .error (.os .EISDIR) ∧
    (uOpen (mu cl!"/nope/x") (some cl!"w") sample).1 = .error (.os .ENOENT) := by decide +kernel
example : Goes (view sample 0) maxDepth [] [] (.found []) ∧ view sample 0 ([] ++ [cl!"m"]) = some (.link (mu cl!"/l/f") 0 6) ∧
    Goes (view sample 0) maxDepth [] [cl!"m"] (.found [cl!"a", cl!"f"]) ∧ (view sample 0).isFile [cl!"a", cl!"f"] := by
  decide +kernel

/-! ## C31 Removing one object -/

/-- A file or a link disappears and everything else stays, in particular the target of the link. -/
theorem C31_file_or_link {w : World} (h : Reachable w) {u : Uri} {r : Nat} {init q : List Str} {n : Str} {o : Obj}
    (hu : Serves w u r) (depth : Nat) (hs : stepsOf u = some (init ++ [n])) (hne : [] ∉ init ++ [n]) (hl : u.last = n)
    (hg : Goes (view w r) maxDepth [] init (.found q)) (hn : n ∉ init ∨ Plain (view w r) (init ++ [n]))
    (ho : view w r (q ++ [n]) = some o) (hd : o.isDir = false) :
    ∃ w', Gen.uRemove depth u false w = (.ok (), w') ∧ Becomes w w' r ((view w r).erase (q ++ [n])) :=
  uRemove_leaf h.inv hu depth false hs hne hl hg hn ho hd

/-- So does an empty directory. -/
theorem C31_empty_directory {w : World} (h : Reachable w) {u : Uri} {r : Nat} {init q : List Str} {n : Str}
    (hu : Serves w u r) (depth : Nat) (hs : stepsOf u = some (init ++ [n])) (hne : [] ∉ init ++ [n]) (hl : u.last = n)
    (hg : Goes (view w r) maxDepth [] init (.found q)) (hn : n ∉ init ∨ Plain (view w r) (init ++ [n]))
    (ho : (view w r).isDir (q ++ [n])) (hm : ∀ m, view w r (q ++ [n] ++ [m]) = none) :
    ∃ w', Gen.uRemove depth u false w = (.ok (), w') ∧ Becomes w w' r ((view w r).erase (q ++ [n])) := by
  rw [uRemove_dir h.inv hu depth false hs hg hn ho]
  exact (removedir_at h.inv hu.isRoot hs (filter_clean hne) hl hg ho).1 hm

/-- A directory with content is refused. -/
theorem C31_not_empty {w : World} (h : Reachable w) {u : Uri} {r : Nat} {init q : List Str} {n m : Str}
    (hu : Serves w u r) (depth : Nat) (hs : stepsOf u = some (init ++ [n])) (hne : [] ∉ init ++ [n]) (hl : u.last = n)
    (hg : Goes (view w r) maxDepth [] init (.found q)) (hn : n ∉ init ∨ Plain (view w r) (init ++ [n]))
    (ho : (view w r).isDir (q ++ [n])) (hm : view w r (q ++ [n] ++ [m]) ≠ none) :
    Gen.uRemove depth u false w = (.error (.os .ENOTEMPTY), w) := by
  rw [uRemove_dir h.inv hu depth false hs hg hn ho]
  exact (removedir_at h.inv hu.isRoot hs (filter_clean hne) hl hg ho).2 ⟨m, hm⟩

/-- So is a missing name, recursive or not. -/
theorem C31_missing {w : World} (h : Reachable w) {u : Uri} {r : Nat} {init q : List Str} {n : Str}
    (hu : Serves w u r) (depth : Nat) (rec : Bool) (hs : stepsOf u = some (init ++ [n]))
    (hg : Goes (view w r) maxDepth [] init (.found q)) (hd : (view w r).isDir q)
    (hn : n ∉ init ∨ Plain (view w r) (init ++ [n])) (ho : view w r (q ++ [n]) = none) :
    Gen.uRemove depth u rec w = (.error .fileDoesNotExist, w) :=
  uRemove_missing h.inv hu depth rec hs hg hd hn ho

/-- The path may not repeat its last name after a link: there `remove` raises although the object exists. -/
theorem C31_repeated_name_refuted : ∃ w u q, Reachable w ∧ stepsOf u = some [cl!"a", cl!"b", cl!"a"] ∧
    Goes (view w 0) maxDepth [] [cl!"a", cl!"b", cl!"a"] (.found q) ∧ (view w 0).isFile q ∧
    (Gen.uRemove 9 u false w).1 = .error .attributeError := by
  refine ⟨runAll [.mkdir (mu cl!"/d"), .mkdir (mu cl!"/d/b"), .open_ (mu cl!"/d/b/a") (some cl!"w"),
    .symlink (mu cl!"/d") (mu cl!"/a")] (World.init fun _ => 0), mu cl!"/a/b/a", [cl!"d", cl!"b", cl!"a"],
    ⟨_, _, rfl⟩, ?_, ?_, ?_, ?_⟩ <;> decide +kernel

example : Serves sample (mu cl!"/m") 0 ∧ (mu cl!"/m").last = cl!"m" ∧
    stepsOf (mu cl!"/m") = some ([] ++ [cl!"m"]) := ⟨sample_serves _, by decide +kernel, by decide +kernel⟩
example : (Gen.uRemove 9 (mu cl!"/m") false sample).1 = .ok () ∧
    view (Gen.uRemove 9 (mu cl!"/m") false sample).2 0 [cl!"m"] = none ∧
    view (Gen.uRemove 9 (mu cl!"/m") false sample).2 0 [cl!"a", cl!"f"] = some (.file [104, 105] 0 4) ∧
    (Gen.uRemove 9 (mu cl!"/a/b") false sample).1 = .ok () ∧
    (Gen.uRemove 9 (mu cl!"/a") false sample).1 = .error (.os .ENOTEMPTY) ∧
    (Gen.uRemove 9 (mu cl!"/zz") false sample).1 = .error .fileDoesNotExist := by decide +kernel

/-! ## C32 Symbolic links -/

/-- `t.symlink(l)` creates the link, in the file system of `t`, and changes nothing else -/
theorem C32_creates {w : World} (h : Reachable w) {t l : Uri} {r : Nat} {ts init q : List Str} {n : Str}
    (ht : Serves w t r) (hts : stepsOf t = some ts) (hs : stepsOf l = some (init ++ [n]))
    (hg : Goes (view w r) maxDepth [] init (.found q)) (hd : (view w r).isDir q) (hn : view w r (q ++ [n]) = none) :
    ∃ w', uSymlink t l w = (.ok (), w') ∧
      Becomes w w' r ((view w r).set (q ++ [n]) (.link t 0 (w.clock w.tick))) :=
  uSymlink_new h.inv ht hts hs hg hd hn

/-- afterwards it is a link, and reads back as the target -/
theorem C32_readlink {w : World} (h : Reachable w) {t l : Uri} {r : Nat} {ts init q : List Str} {n : Str}
    (ht : Serves w t r) (hts : stepsOf t = some ts) (hl : Serves w l r) (hs : stepsOf l = some (init ++ [n]))
    (hg : Goes (view w r) maxDepth [] init (.found q)) (hd : (view w r).isDir q) (hn : view w r (q ++ [n]) = none)
    (hni : n ∉ init ∨ Plain (view w r) (init ++ [n])) :
    ∃ w', uSymlink t l w = (.ok (), w') ∧ uIslink l w' = (.ok true, w') ∧ uReadlink l w' = (.ok t, w') := by
  obtain ⟨w', h1, h2⟩ := uSymlink_new h.inv ht hts hs hg hd hn
  have hk : (view w r).Keeps (view w' r) := by rw [h2.view]; exact NS.set_keeps_new hn
  have hni' : n ∉ init ∨ Plain (view w' r) (init ++ [n]) := by
    rcases hni with h | h
    · exact .inl h
    · exact .inr fun a b c e => hk.isDir (h a b c e)
  have ho : view w' r (q ++ [n]) = some (.link t 0 (w.clock w.tick)) := by rw [h2.view, NS.set_get]
  refine ⟨w', h1, ?_, ?_⟩
  · rw [uIslink_nofollow h2.inv (h2.serves hl) hs (hg.keeps hk) (hk.isDir hd) hni', ho]; rfl
  · exact uReadlink_nofollow h2.inv (h2.serves hl) hs (hg.keeps hk) hni' ho

/-- readlink of what is no link raises EINVAL, of what is not there ENOENT -/
theorem C32_not_a_link {w : World} (h : Reachable w) {l : Uri} {r : Nat} {init q : List Str} {n : Str} (hl : Serves w l r)
    (hs : stepsOf l = some (init ++ [n])) (hg : Goes (view w r) maxDepth [] init (.found q)) (hd : (view w r).isDir q)
    (hni : n ∉ init ∨ Plain (view w r) (init ++ [n])) :
    (view w r (q ++ [n]) = none → uReadlink l w = (.error (.os .ENOENT), w)) ∧
    ∀ o, view w r (q ++ [n]) = some o → (∀ t m s, o ≠ .link t m s) → uReadlink l w = (.error (.os .EINVAL), w) := by
  have e : uReadlink l w = (readlink w r l, w) := by unfold uReadlink; rw [withConn_serves hl hs]; rfl
  rw [e, readlink_nofollow h.inv hl.isRoot hs hg hd hni]
  refine ⟨fun ho => by rw [ho], fun o ho hno => ?_⟩
  rw [ho]
  cases o with
  | link t m s => exact absurd rfl (hno t m s)
  | file _ _ _ => rfl
  | dir _ _ => rfl

/-- the root is no link -/
theorem C32_root_not_a_link {w : World} {l : Uri} {r : Nat} (hl : Serves w l r) (hp : l.path = cl!"/") :
    uReadlink l w = (.error (.os .EINVAL), w) := by
  have hs : stripPath l = .ok [] := by unfold stripPath; rw [hp]; rfl
  have hs' : stepsOf l = some [] := by unfold stepsOf; rw [hp]; rfl
  have e : uReadlink l w = (readlink w r l, w) := by unfold uReadlink; rw [withConn_serves hl hs']; rfl
  rw [e]
  unfold readlink
  rw [hs]
  rfl

/-- /a/f is a file, /a a directory, and there is no /a/x -/
example : uReadlink (mu cl!"/a/f") sample = (.error (.os .EINVAL), sample) :=
  (C32_not_a_link (init := [cl!"a"]) (q := [cl!"a"]) (n := cl!"f") (r := 0) sample_reachable (sample_serves _) (by decide +kernel)
    (by decide +kernel) (by decide +kernel) (.inl (by decide))).2 (.file [104, 105] 0 4) (by decide +kernel) (by simp)
example : uReadlink (mu cl!"/a/x") sample = (.error (.os .ENOENT), sample) :=
  (C32_not_a_link (init := [cl!"a"]) (q := [cl!"a"]) (n := cl!"x") (r := 0) sample_reachable (sample_serves _) (by decide +kernel)
    (by decide +kernel) (by decide +kernel) (.inl (by decide))).1 (by decide +kernel)
example : uReadlink (mu cl!"/") sample = (.error (.os .EINVAL), sample) := C32_root_not_a_link (r := 0) (sample_serves _) (by decide +kernel)

/-- A link stands for its target: whatever the target's path comes to, the link comes to. -/
theorem C32_denotes {ns : NS} {init q ts : List Str} {n : Str} {t : Uri} {m s : Int} {out : Out}
    (hg : Goes ns maxDepth [] init (.found q)) (hd : ns.isDir q) (ho : ns (q ++ [n]) = some (.link t m s))
    (ht : stepsOf t = some ts) (hgt : Goes ns 31 [] ts out) : Goes ns maxDepth [] (init ++ [n]) out :=
  hg.snoc_link hd ho ht hgt

/-- hence the queries answer as for the target (unless the target already uses all 32 levels of links) -/
theorem C32_queries {w : World} (h : Reachable w) {t l : Uri} {r : Nat} {init q ts : List Str} {n : Str} {m s : Int}
    {out : Out} (ht : Serves w t r) (hl : Serves w l r) (hs : stepsOf l = some (init ++ [n]))
    (hg : Goes (view w r) maxDepth [] init (.found q)) (ho : view w r (q ++ [n]) = some (.link t m s))
    (hts : stepsOf t = some ts) (hgt : Goes (view w r) 31 [] ts out) (k : Int) :
    uExists l w = uExists t w ∧ uIsfile l w = uIsfile t w ∧ uIsdir l w = uIsdir t w ∧
    uInfo l true w = uInfo t true w ∧ uMtime l w = uMtime t w ∧ uIsexec l k w = uIsexec t k w ∧
    uOpen l none w = uOpen t none w ∧ ([] ∉ init ++ [n] → [] ∉ ts → uListdir l w = uListdir t w) := by
  have g1 := C32_denotes hg (view_parent ho) ho hts hgt
  have g2 := hgt.mono (show 31 ≤ maxDepth by unfold maxDepth; omega)
  have hn : nodeForPath w r true true l = nodeForPath w r true true t := by
    rw [nodeForPath_goes h.inv hl.isRoot hs g1, nodeForPath_goes h.inv ht.isRoot hts g2]
  refine ⟨?_, ?_, ?_, ?_, ?_, ?_, ?_, ?_⟩
  · rw [uExists_goes h.inv hl hs g1, uExists_goes h.inv ht hts g2]
  · rw [uIsfile_goes h.inv hl hs g1, uIsfile_goes h.inv ht hts g2]
  · rw [uIsdir_goes h.inv hl hs g1, uIsdir_goes h.inv ht hts g2]
  · unfold uInfo; rw [withConn_serves hl hs, withConn_serves ht hts]; simp only [query_apply, info, hn]
  · unfold uMtime; rw [withConn_serves hl hs, withConn_serves ht hts]; simp only [query_apply, mtime, hn]
  · unfold uIsexec; rw [withConn_serves hl hs, withConn_serves ht hts]; simp only [query_apply, isexec, info, hn]
  · unfold uOpen; rw [withConn_serves hl hs, withConn_serves ht hts]; simp only [open_, openRead, hn]
  · intro h1 h2
    unfold uListdir
    rw [withConn_serves hl hs, withConn_serves ht hts]
    simp only [query_apply]
    obtain ⟨p1, a1, a2⟩ := filter_steps hs
    obtain ⟨p2, b1, b2⟩ := filter_steps hts
    unfold listdir
    rw [a1, b1]
    simp only [a2, b2, filter_clean h1, filter_clean h2, getNode_goes h.inv hl.isRoot g1, getNode_goes h.inv hl.isRoot g2]

/-- an existing name: EEXIST -/
theorem C32_exists {w : World} (h : Reachable w) {t l : Uri} {r : Nat} {ts init q : List Str} {n : Str} {o : Obj}
    (ht : Serves w t r) (hts : stepsOf t = some ts) (hs : stepsOf l = some (init ++ [n]))
    (hg : Goes (view w r) maxDepth [] init (.found q)) (hn : view w r (q ++ [n]) = some o) :
    uSymlink t l w = (.error (.os .EEXIST), w) := by
  unfold uSymlink
  rw [withConn_serves ht hts]
  exact (create_taken h.inv ht.isRoot hs hg hn).2

/-- The link is made in the file system of its target: with a link name in another memory file system
    `symlink` returns normally, but the link name does not exist afterwards. -/
theorem C32_other_file_system_refuted : ∃ w t l, Reachable w ∧ (uSymlink t l w).1 = .ok () ∧
    (uIslink l (uSymlink t l w).2).1 = .ok false :=
  ⟨sample, mu cl!"/a", mu cl!"/new?x=1", sample_reachable, by decide +kernel, by decide +kernel⟩

example : (uSymlink (mu cl!"/l/f") (mu cl!"/a/n") sample).1 = .ok () ∧
    (uReadlink (mu cl!"/a/n") (uSymlink (mu cl!"/l/f") (mu cl!"/a/n") sample).2).1 = .ok (mu cl!"/l/f") ∧
    (uSymlink (mu cl!"/l/f") (mu cl!"/a/f") sample).1 = .error (.os .EEXIST) ∧
    Goes (view sample 0) 31 [] [cl!"l", cl!"f"] (.found [cl!"a", cl!"f"]) ∧
    view sample 0 ([] ++ [cl!"m"]) = some (.link (mu cl!"/l/f") 0 6) := by decide +kernel

/-! ## C35 info: set, then get -/

theorem C35_set_get {w : World} (h : Reachable w) {u : Uri} {r : Nat} {ts q : List Str} {o : Obj} (m t : Int)
    (hu : Serves w u r) (hs : stepsOf u = some ts) (hg : Goes (view w r) maxDepth [] ts (.found q))
    (ho : view w r q = some o) :
    ∃ w', uSetInfo u ⟨some m, some t⟩ true w = (.ok (), w') ∧
      Becomes w w' r ((view w r).set q (Obj.apply ⟨some m, some t⟩ o)) ∧
      ∃ s, uInfo u true w = (.ok s, w) ∧ uInfo u true w' = (.ok ⟨t, m, s.size⟩, w') := by
  obtain ⟨w', h1, h2⟩ := uSetInfo_at h.inv hu ⟨some m, some t⟩ hs hg ho
  refine ⟨w', h1, h2, infoOf o, uInfo_found h.inv hu hs hg ho, ?_⟩
  have hk : (view w r).SameKinds (view w' r) := by rw [h2.view]; exact NS.set_sameKinds ho (apply_kind _ _)
  rw [uInfo_found h2.inv (h2.serves hu) hs (hg.sameKinds hk) (by rw [h2.view, NS.set_get])]
  cases o <;> rfl

/-- setting one of the two leaves the other -/
theorem C35_set_one {w : World} (h : Reachable w) {u : Uri} {r : Nat} {ts q : List Str} {o : Obj} (x : Int)
    (hu : Serves w u r) (hs : stepsOf u = some ts) (hg : Goes (view w r) maxDepth [] ts (.found q))
    (ho : view w r q = some o) :
    ∃ s w1 w2, uInfo u true w = (.ok s, w) ∧ uSetInfo u { mode := some x } true w = (.ok (), w1) ∧
      uInfo u true w1 = (.ok { s with mode := x }, w1) ∧ uSetInfo u { mtime := some x } true w = (.ok (), w2) ∧
      uInfo u true w2 = (.ok { s with mtime := x }, w2) := by
  obtain ⟨w1, h1, h2⟩ := uSetInfo_at h.inv hu { mode := some x } hs hg ho
  obtain ⟨w2, h3, h4⟩ := uSetInfo_at h.inv hu { mtime := some x } hs hg ho
  refine ⟨infoOf o, w1, w2, uInfo_found h.inv hu hs hg ho, h1, ?_, h3, ?_⟩
  · have hk : (view w r).SameKinds (view w1 r) := by rw [h2.view]; exact NS.set_sameKinds ho (apply_kind _ _)
    rw [uInfo_found h2.inv (h2.serves hu) hs (hg.sameKinds hk) (by rw [h2.view, NS.set_get])]
    cases o <;> rfl
  · have hk : (view w r).SameKinds (view w2 r) := by rw [h4.view]; exact NS.set_sameKinds ho (apply_kind _ _)
    rw [uInfo_found h4.inv (h4.serves hu) hs (hg.sameKinds hk) (by rw [h4.view, NS.set_get])]
    cases o <;> rfl

/-- with followlinks=False the name itself is meant, even if it is a link -/
theorem C35_nofollow {w : World} (h : Reachable w) {u : Uri} {r : Nat} {init q : List Str} {n : Str} {o : Obj} (m t : Int)
    (hu : Serves w u r) (hs : stepsOf u = some (init ++ [n])) (hg : Goes (view w r) maxDepth [] init (.found q))
    (hn : n ∉ init ∨ Plain (view w r) (init ++ [n])) (ho : view w r (q ++ [n]) = some o) :
    ∃ w', uSetInfo u ⟨some m, some t⟩ false w = (.ok (), w') ∧
      Becomes w w' r ((view w r).set (q ++ [n]) (Obj.apply ⟨some m, some t⟩ o)) ∧
      ∃ s, uInfo u false w = (.ok s, w) ∧ uInfo u false w' = (.ok ⟨t, m, s.size⟩, w') := by
  obtain ⟨w', h1, h2⟩ := uSetInfo_nofollow h.inv hu ⟨some m, some t⟩ hs hg hn ho
  have hk : (view w r).SameKinds (view w' r) := by rw [h2.view]; exact NS.set_sameKinds ho (apply_kind _ _)
  have hn' : n ∉ init ∨ Plain (view w' r) (init ++ [n]) := by
    rcases hn with h | h
    · exact .inl h
    · exact .inr fun a b c e => hk.keeps.isDir (h a b c e)
  refine ⟨w', h1, h2, infoOf o, ?_, ?_⟩
  · unfold uInfo; rw [withConn_serves hu hs, M.query, info_nofollow h.inv hu.isRoot hs hg hn ho]
  · unfold uInfo
    rw [withConn_serves (h2.serves hu) hs, query_apply,
      info_nofollow h2.inv (h2.serves hu).isRoot hs (hg.sameKinds hk) hn' (by rw [h2.view, NS.set_get])]
    cases o <;> rfl

/-- what `Obj.apply` does: the two attributes and nothing else -/
theorem C35_apply (s : SetInfo) (o : Obj) : (Obj.apply s o).kind = o.kind ∧
    (infoOf (Obj.apply s o)).size = (infoOf o).size ∧
    (∀ b m t, o = .file b m t → ∃ m' t', Obj.apply s o = .file b m' t') ∧
    (infoOf (Obj.apply s o)).mode = s.mode.getD (infoOf o).mode ∧
    (infoOf (Obj.apply s o)).mtime = s.mtime.getD (infoOf o).mtime := by
  cases o <;> simp [Obj.apply, Obj.kind, infoOf]

example : (uInfo (mu cl!"/m") true (uSetInfo (mu cl!"/m") ⟨some 7, some (-3)⟩ true sample).2).1 = .ok ⟨-3, 7, 2⟩ ∧
    (uInfo (mu cl!"/a/f") true (uSetInfo (mu cl!"/m") ⟨some 7, some (-3)⟩ true sample).2).1 = .ok ⟨-3, 7, 2⟩ ∧
    (uInfo (mu cl!"/m") false (uSetInfo (mu cl!"/m") ⟨some 7, some (-3)⟩ false sample).2).1 = .ok ⟨-3, 7, 8⟩ ∧
    (uInfo (mu cl!"/a/f") true (uSetInfo (mu cl!"/m") ⟨some 7, some (-3)⟩ false sample).2).1 = .ok ⟨4, 0, 2⟩ := by
  decide +kernel

/-! ## C36 set_exec -/

/-- only bits of `m` and only x bits -/
def WithinX (m : Int) : Prop := ∀ k, Int.testBit m k = true → Int.testBit xMask k = true

/-- the arithmetic of both backends (memory.py:416-419, localfs.py:123-126) -/
theorem C36_arithmetic {old m : Int} (hm : WithinX m) :
    (∀ k, Int.testBit xMask k = false → Int.testBit (newMode old m) k = Int.testBit old k) ∧
    (∀ k, Int.testBit xMask k = true → Int.testBit (newMode old m) k = Int.testBit m k) ∧
    (∀ k, WithinX k → Int.land (newMode old m) k = Int.land m k) := by
  refine ⟨?_, ?_, ?_⟩
  · intro k hk
    have : Int.testBit m k = false := by
      cases h : Int.testBit m k with
      | false => rfl
      | true => rw [hm k h] at hk; simp at hk
    rw [newMode_bit, hk, this]; simp
  · intro k hk
    rw [newMode_bit, hk]; simp
  · intro k hk
    apply int_testBit_ext
    intro i
    rw [Int.testBit_land, Int.testBit_land, newMode_bit]
    cases hki : Int.testBit k i with
    | false => simp
    | true => rw [hk i hki]; simp

/-- which bits the x bits are -/
theorem C36_xMask (k : Nat) : Int.testBit xMask k = decide (k = 0 ∨ k = 3 ∨ k = 6) := by
  show Nat.testBit 73 k = _
  by_cases h : k < 7
  · have : k = 0 ∨ k = 1 ∨ k = 2 ∨ k = 3 ∨ k = 4 ∨ k = 5 ∨ k = 6 := by omega
    rcases this with rfl | rfl | rfl | rfl | rfl | rfl | rfl <;> rfl
  · have h1 : Nat.testBit 73 k = false :=
      Nat.testBit_lt_two_pow (Nat.lt_of_lt_of_le (by decide : 73 < 2 ^ 7) (Nat.pow_le_pow_right (by omega) (by omega)))
    rw [h1]
    symm
    simp only [decide_eq_false_iff_not]
    omega

/-- On the memory backend: only the mode of that object changes, and `isexec` reports the bits set. -/
theorem C36_set_exec {w : World} (h : Reachable w) {u : Uri} {r : Nat} {ts q : List Str} {o : Obj} {m : Int}
    (hu : Serves w u r) (hs : stepsOf u = some ts) (hg : Goes (view w r) maxDepth [] ts (.found q))
    (ho : view w r q = some o) (hm : WithinX m) :
    ∃ w', uSetExec u m w = (.ok (), w') ∧
      Becomes w w' r ((view w r).set q (Obj.apply { mode := some (newMode (infoOf o).mode m) } o)) ∧
      ∀ k, WithinX k → uIsexec u k w' = (.ok (decide (Int.land m k ≠ 0)), w') := by
  obtain ⟨w', h1, h2⟩ := uSetExec_at h.inv hu m hs hg ho
  refine ⟨w', h1, h2, ?_⟩
  intro k hk
  have hsk : (view w r).SameKinds (view w' r) := by rw [h2.view]; exact NS.set_sameKinds ho (apply_kind _ _)
  unfold uIsexec
  rw [withConn_serves (h2.serves hu) hs, query_apply]
  unfold isexec
  rw [(info_found h2.inv (h2.serves hu).isRoot hs (hg.sameKinds hsk) (by rw [h2.view, NS.set_get])).1]
  have : (infoOf (Obj.apply { mode := some (newMode (infoOf o).mode m) } o)).mode = newMode (infoOf o).mode m := by
    cases o <;> rfl
  simp only [this, (C36_arithmetic (old := (infoOf o).mode) hm).2.2 k hk]

/-- `set_exec` with other bits is not refused: they are or-ed into the mode -/
theorem C36_other_bits (old m : Int) (k : Nat) (hk : Int.testBit m k = true) : Int.testBit (newMode old m) k = true := by
  rw [newMode_bit, hk]; simp

example : WithinX 0o100 ∧ WithinX 0o111 ∧ newMode 0o666 0o100 = 0o766 ∧ newMode 0o777 0o010 = 0o676 := by
  have h : WithinX 0o111 := fun k hk => hk
  refine ⟨?_, h, by decide +kernel, by decide +kernel⟩
  intro k hk
  rw [C36_xMask]
  by_contra hc
  simp only [decide_eq_true_eq] at hc
  have : Nat.testBit 64 k = true := hk
  by_cases h7 : k < 7
  · have : k = 1 ∨ k = 2 ∨ k = 4 ∨ k = 5 := by omega
    rcases this with rfl | rfl | rfl | rfl <;> exact absurd hk (by decide +kernel)
  · rw [Nat.testBit_lt_two_pow (Nat.lt_of_lt_of_le (by decide : 64 < 2 ^ 7) (Nat.pow_le_pow_right (by omega) (by omega)))] at this
    simp at this
example : (uIsexec (mu cl!"/m") 0o100 (uSetExec (mu cl!"/m") 0o100 sample).2).1 = .ok true ∧
    (uIsexec (mu cl!"/a/f") 0o010 (uSetExec (mu cl!"/m") 0o100 sample).2).1 = .ok false := by decide +kernel

/-! ## C37 copystat -/

theorem C37_copystat {w : World} (h : Reachable w) {u v : Uri} {r : Nat} {ts ts' q q' : List Str} {o o' : Obj}
    (hu : Serves w u r) (hv : Serves w v r) (hs : stepsOf u = some ts) (hs' : stepsOf v = some ts')
    (hg : Goes (view w r) maxDepth [] ts (.found q)) (hg' : Goes (view w r) maxDepth [] ts' (.found q'))
    (ho : view w r q = some o) (ho' : view w r q' = some o') :
    ∃ w', uCopystat u v w = (.ok (), w') ∧
      Becomes w w' r ((view w r).set q' (Obj.apply ⟨some (infoOf o).mode, some (infoOf o).mtime⟩ o')) ∧
      ∃ a b, uInfo u true w = (.ok a, w) ∧ uInfo v true w = (.ok b, w) ∧
        uInfo v true w' = (.ok ⟨a.mtime, a.mode, b.size⟩, w') ∧ uInfo u true w' = (.ok a, w') := by
  obtain ⟨w', h1, h2⟩ := copystat_at h.inv hu hs hs' hg hg' ho ho'
  refine ⟨w', by unfold uCopystat; rw [withConn_serves hu hs, h1], h2, infoOf o, infoOf o', ?_, ?_, ?_, ?_⟩
  · exact uInfo_found h.inv hu hs hg ho
  · exact uInfo_found h.inv hv hs' hg' ho'
  · have hsk : (view w r).SameKinds (view w' r) := by rw [h2.view]; exact NS.set_sameKinds ho' (apply_kind _ _)
    rw [uInfo_found h2.inv (h2.serves hv) hs' (hg'.sameKinds hsk) (by rw [h2.view, NS.set_get])]
    cases o' <;> rfl
  · have hsk : (view w r).SameKinds (view w' r) := by rw [h2.view]; exact NS.set_sameKinds ho' (apply_kind _ _)
    by_cases hq : q = q'
    · subst hq
      rw [ho] at ho'
      simp only [Option.some.injEq] at ho'
      subst ho'
      rw [uInfo_found h2.inv (h2.serves hu) hs (hg.sameKinds hsk) (by rw [h2.view, NS.set_get])]
      cases o <;> rfl
    · rw [uInfo_found h2.inv (h2.serves hu) hs (hg.sameKinds hsk) (by rw [h2.view, NS.set_ne _ _ hq]; exact ho)]

/-- the destination is looked up in the source's file system, where it may not exist although it does in
    its own -/
theorem C37_other_file_system_refuted : ∃ w u v, Reachable w ∧ (uExists u w).1 = .ok true ∧ (uExists v w).1 = .ok true ∧
    (uCopystat u v w).1 = .error (.os .ENOENT) :=
  ⟨(Op.mkdir (mu cl!"/other?x=1")).run sample, mu cl!"/a", mu cl!"/other?x=1", sample_reachable.step _,
    by decide +kernel, by decide +kernel, by decide +kernel⟩

example : (uCopystat (mu cl!"/m") (mu cl!"/a/b") (uSetInfo (mu cl!"/a/f") ⟨some 5, some 77⟩ true sample).2).1 = .ok () ∧
    (uInfo (mu cl!"/a/b") true (uCopystat (mu cl!"/m") (mu cl!"/a/b")
      (uSetInfo (mu cl!"/a/f") ⟨some 5, some 77⟩ true sample).2).2).1 = .ok ⟨77, 5, 0⟩ := by decide +kernel

end Verif.Props
