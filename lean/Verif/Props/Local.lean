import Verif.Local.Lemmas
import Verif.Props.UriJoin
/-! # C65, C66, C68, C69: the local backend, working directories and temporary files -/
namespace Verif.Local
open Spec Props

/-! ## a sample -/

/-- the tree with the given objects -/
def treeOf (l : List (List Str × Obj)) : List Str → Option Obj := fun q => l.lookup q

theorem lookup_isSome {l : List (List Str × Obj)} {q : List Str} (h : (treeOf l q).isSome) :
    ∃ o, (q, o) ∈ l := by
  unfold treeOf at h
  induction l with
  | nil => simp at h
  | cons x l ih =>
    rw [List.lookup_cons] at h
    by_cases hx : q == x.1
    · obtain rfl : q = x.1 := by simpa using hx
      exact ⟨x.2, by simp⟩
    · rw [show (q == x.1) = false by simpa using hx] at h
      obtain ⟨o, ho⟩ := ih h
      exact ⟨o, by simp [ho]⟩

theorem ok_of_list {l : List (List Str × Obj)} {cwd : List Str} (hr : isDirO (treeOf l []) = true)
    (hp : ∀ x ∈ l, isDirO (treeOf l x.1.dropLast) = true) : Ok ⟨treeOf l, cwd⟩ := by
  refine ⟨hr, fun q c h => ?_⟩
  obtain ⟨o, ho⟩ := lookup_isSome h
  simpa using hp _ ho

/-- /a/b/f (a file), /c/b (a directory), /g (a file); the current directory is /a -/
def sampleObjs : List (List Str × Obj) :=
  [([], .dir 0o755), ([cl!"a"], .dir 0o755), ([cl!"a", cl!"b"], .dir 0o700), ([cl!"a", cl!"b", cl!"f"], .file 0o640 [1, 2]),
   ([cl!"c"], .dir 0o755), ([cl!"c", cl!"b"], .dir 0o755), ([cl!"g"], .file 0o755 [3])]

/-- the sample -/
def sampleOs : Os := ⟨treeOf sampleObjs, [cl!"a"]⟩

theorem sampleOs_ok : Ok sampleOs := ok_of_list (by decide +kernel) (by decide +kernel)

instance (cs : List Str) : Decidable (∀ r, cs.head? ≠ some ('.' :: r)) :=
  decidable_of_iff ((cs.head?.getD []).head? ≠ some '.') (by
    cases cs with
    | nil => simp
    | cons c cs => cases c <;> simp)

instance (cs : List Str) : Decidable (∀ r, cs.head? ≠ some (':' :: r)) :=
  decidable_of_iff ((cs.head?.getD []).head? ≠ some ':') (by
    cases cs with
    | nil => simp
    | cons c cs => cases c <;> simp)

instance (cs : List Str) : Decidable (Path cs) :=
  decidable_of_iff ((∀ c ∈ cs, Name c) ∧ (∀ r, cs.head? ≠ some ('.' :: r)) ∧ ∀ r, cs.head? ≠ some (':' :: r))
    ⟨fun ⟨a, b, d⟩ => ⟨a, b, d⟩, fun ⟨a, b, d⟩ => ⟨a, b, d⟩⟩

/-! ## C65 -/

/-- the names on the way to the current directory are those the system gave -/
def CwdOk (w : Os) : Prop := ∀ c ∈ w.cwd, '/' ∉ c ∧ c ≠ [] ∧ c ≠ cl!"."

instance (w : Os) : Decidable (CwdOk w) := inferInstanceAs (Decidable (∀ c ∈ w.cwd, '/' ∉ c ∧ c ≠ [] ∧ c ≠ cl!"."))

theorem resolve_getcwd {w w' : Os} (h : CwdOk w) : resolve w' ('/' :: joinS cl!"/" w.cwd) = w.cwd := by
  have : ('/' :: joinS cl!"/" w.cwd : Str) = pathOf w.cwd := by
    cases hc : w.cwd with
    | nil => decide +kernel
    | cons a l => rw [joinS_snoc_map, pathOf_ne (by simp), slash_cons]
  rw [this]
  exact resolve_pathOf w' h

theorem chdir_dir {w : Os} {p : Str} (h : isDirO (w.tree (resolve w p)) = true) :
    chdir p w = (.ok (), { w with cwd := resolve w p }) := by
  unfold chdir
  cases e : w.tree (resolve w p) with
  | none => rw [e] at h; cases h
  | some o => cases o <;> simp_all [isDirO]

theorem chdir_not_dir {w : Os} {p : Str} (h : isDirO (w.tree (resolve w p)) = false) :
    ∃ e, chdir p w = (.error e, w) := by
  unfold chdir
  cases e : w.tree (resolve w p) with
  | none => exact ⟨_, rfl⟩
  | some o =>
    cases o with
    | dir _ => rw [e] at h; cases h
    | file _ _ => exact ⟨_, rfl⟩

/-- `os.chdir` keeps the names on the way to the current directory proper -/
theorem chdir_cwdOk {w : Os} (h : CwdOk w) (p : Str) : CwdOk (chdir p w).2 := by
  unfold chdir
  split
  · intro c hc
    simp only [resolve] at hc
    rcases List.mem_append.mp hc with hc | hc
    · split at hc
      · simp at hc
      · exact h c hc
    · rw [List.mem_filter] at hc
      have := hc.2
      simp at this
      exact ⟨splitC_mem_not_mem hc.1, this.1, this.2⟩
  all_goals exact h

theorem create_ok {w : Os} (hd : isDirO (w.tree w.cwd) = true) (u : Uri) :
    WorkingDirectory.create u w = (.ok ⟨'/' :: joinS cl!"/" w.cwd, u.path⟩, w) := by
  simp [WorkingDirectory.create, getcwd, hd]

/-- C65: for any body and however it ends, if the directory that was current when the object was made is still there,
    it is the current one after the block; the result (or exception) is that of the body, and so is the tree.
    Between making the object (in `w0`) and using it (in `w`), the current directory may have changed. -/
theorem C65_restores {α : Type} {w0 w : Os} {u : Uri} {wd : WorkingDirectory} {body : LM α} (hc : CwdOk w0)
    (hm : (WorkingDirectory.create u w0).1 = .ok wd) (he : isDirO (w.tree (resolve w u.path)) = true)
    (hb : isDirO ((body { w with cwd := resolve w u.path }).2.tree w0.cwd) = true) :
    wd.using body w =
      ((body { w with cwd := resolve w u.path }).1,
       { (body { w with cwd := resolve w u.path }).2 with cwd := w0.cwd }) := by
  have hwd : wd = ⟨'/' :: joinS cl!"/" w0.cwd, u.path⟩ := by
    unfold WorkingDirectory.create getcwd at hm
    by_cases hd : isDirO (w0.tree w0.cwd) = true
    · simpa [hd] using hm.symm
    · simp [hd] at hm
  subst hwd
  unfold WorkingDirectory.using
  rw [chdir_dir he]
  dsimp only
  generalize body { w with cwd := resolve w u.path } = x at hb
  obtain ⟨r, w'⟩ := x
  dsimp only at hb ⊢
  rw [chdir_dir (by rw [resolve_getcwd hc]; exact hb), resolve_getcwd hc]

/-- C65: if the directory to work in is not there, nothing happens, and the body does not run -/
theorem C65_no_dir {α : Type} {w : Os} {wd : WorkingDirectory} {body : LM α}
    (he : isDirO (w.tree (resolve w wd.path)) = false) : ∃ e, wd.using body w = (.error e, w) := by
  obtain ⟨e, h⟩ := chdir_not_dir he
  exact ⟨e, by simp [WorkingDirectory.using, h]⟩

/-- C65: which error it is: ENOTDIR if it is a file or the path goes through one, ENOENT otherwise -/
theorem C65_no_dir_error {α : Type} {w : Os} {wd : WorkingDirectory} {body : LM α} :
    (isFileO (w.tree (resolve w wd.path)) = true → wd.using body w = (.error (.os .ENOTDIR), w)) ∧
    (∀ p, w.tree (resolve w wd.path) = none → p <+: resolve w wd.path → p ≠ resolve w wd.path → isFileO (w.tree p) = true →
      wd.using body w = (.error (.os .ENOTDIR), w)) ∧
    (w.tree (resolve w wd.path) = none → (∀ p, p <+: resolve w wd.path → p ≠ resolve w wd.path → isFileO (w.tree p) = false) →
      wd.using body w = (.error (.os .ENOENT), w)) := by
  refine ⟨fun h => ?_, fun p h h1 h2 h3 => ?_, fun h h1 => ?_⟩
  · unfold WorkingDirectory.using chdir
    cases e : w.tree (resolve w wd.path) with
    | none => rw [e] at h; cases h
    | some o =>
      cases o with
      | dir _ => rw [e] at h; cases h
      | file _ _ => rfl
  · simp only [WorkingDirectory.using, chdir, h, missErr_notdir h1 h2 h3]
  · simp only [WorkingDirectory.using, chdir, h, missErr_noent h1]

/-- C65: if the current directory is gone, there is nothing to come back to, and the object is not made -/
theorem C65_no_cwd {w : Os} (u : Uri) (h : isDirO (w.tree w.cwd) = false) :
    WorkingDirectory.create u w = (.error (.os .ENOENT), w) := by
  simp [WorkingDirectory.create, getcwd, h]

/-- C65, the condition is needed: if the directory is gone after the body, the block raises, whatever the body did, and
    the process stays where the body left it -/
theorem C65_gone_refuted {α : Type} {w0 w : Os} {u : Uri} {wd : WorkingDirectory} {body : LM α} (hc : CwdOk w0)
    (hm : (WorkingDirectory.create u w0).1 = .ok wd) (he : isDirO (w.tree (resolve w u.path)) = true)
    (hb : isDirO ((body { w with cwd := resolve w u.path }).2.tree w0.cwd) = false) :
    ∃ e, wd.using body w = (.error e, (body { w with cwd := resolve w u.path }).2) := by
  have hwd : wd = ⟨'/' :: joinS cl!"/" w0.cwd, u.path⟩ := by
    unfold WorkingDirectory.create getcwd at hm
    by_cases hd : isDirO (w0.tree w0.cwd) = true
    · simpa [hd] using hm.symm
    · simp [hd] at hm
  subst hwd
  unfold WorkingDirectory.using
  rw [chdir_dir he]
  dsimp only
  generalize body { w with cwd := resolve w u.path } = x at hb
  obtain ⟨r, w'⟩ := x
  dsimp only at hb ⊢
  obtain ⟨e, h⟩ := chdir_not_dir (w := w') (p := '/' :: joinS cl!"/" w0.cwd) (by rw [resolve_getcwd hc]; exact hb)
  exact ⟨e, by rw [h]⟩

/-- a body that changes to /c and raises -/
def wild : LM Unit := fun w => (.error .valueError, (chdir cl!"/c" w).2)

example : ∃ u wd, URI cl!"/a/b" = .ok u ∧ (WorkingDirectory.create u sampleOs).1 = .ok wd ∧
    (wd.using wild sampleOs).1 = .error .valueError ∧ (wd.using wild sampleOs).2.cwd = [cl!"a"] := by
  obtain ⟨u, h1, h2, -⟩ := C01_local_path_roundtrip (cs := [cl!"a", cl!"b"]) (by decide) (by simp) (by simp)
  have h3 : resolve sampleOs u.path = [cl!"a", cl!"b"] := by rw [h2]; decide +kernel
  refine ⟨u, _, h1, congrArg Prod.fst (create_ok (by decide +kernel) u), ?_⟩
  rw [C65_restores (w0 := sampleOs) (u := u) (by decide +kernel)
    (congrArg Prod.fst (create_ok (by decide +kernel) u)) (by rw [h3]; decide +kernel)
    (by rw [h3]; decide +kernel)]
  exact ⟨rfl, rfl⟩

/-! ## C66 -/

/-- a local URI made from an absolute path -/
theorem local_uri {cs : List Str} {u : Uri} (hc : Path cs) (h : URI (pathOf cs) = .ok u) :
    u.path = pathOf cs ∧ u.scheme = some cl!"file" ∧ At u fileB (pathOf cs) [] ∧ u.uri = fileB.str ++ pathOf cs ∧
      u.sep = '/' := by
  obtain ⟨u1, h1, h2, h3, _, _, u2, h4, _, h5⟩ := C01_local_path_roundtrip hc.clean hc.nodot hc.nocolon
  obtain rfl : u1 = u := by rw [h] at h1; exact (Except.ok.inj h1).symm
  subst h5
  have hf : FileOk fileB cs := by rintro - c r hcr rfl; exact hc.nocolon r hcr
  obtain ⟨v, g1, g2, g3, g4⟩ := URI_at (q := none) (Q := []) fileB_ok hc.clean hf (by simp) rfl []
  simp only [qs, List.append_nil] at g1 g3
  have : URI (cl!"file://" ++ pathOf cs) = .ok v := g1
  obtain rfl : u2 = v := by rw [h4] at this; exact Except.ok.inj this
  exact ⟨h2, h3, g2, g3, g4⟩

theorem local_basename {cs : List Str} {n : Str} {u : Uri} (hc : Path (cs ++ [n]))
    (h : URI (pathOf (cs ++ [n])) = .ok u) : u.basename = .ok n := by
  obtain ⟨_, _, _, h4, _⟩ := local_uri hc h
  have hf : FileOk fileB (cs ++ [n]) := by rintro - c r hcr rfl; exact hc.nocolon r hcr
  obtain ⟨w, g, _⟩ := split_at (q := none) (v := u) fileB_ok (fun c h => hc.clean c (by simp [h]))
    (hc.clean n (by simp)) hf (.inr rfl) (by simpa [qs] using h4) (by simp [qs])
  exact basename_of_split g

theorem local_div {ds : List Str} {n : Str} {u : Uri} (hd : Path (ds ++ [n])) (h : URI (pathOf ds) = .ok u) :
    ∃ v, u.div n = .ok v ∧ v.path = pathOf (ds ++ [n]) := by
  obtain ⟨h1, _, h3, _, h5⟩ := local_uri hd.init h
  have hf : FileOk fileB (ds ++ [n]) := by rintro - c r hcr rfl; exact hd.nocolon r hcr
  have hcd := hd.init.clean
  obtain ⟨v, g1, _, g3⟩ := C02_join_appends (n := n) fileB_ok h3 h5 hcd (hd.clean n (by simp)) hf
  refine ⟨v, g1, ?_⟩
  rw [g3 ?_, h1, rstrip_pathOf hcd, pathOf_snoc]
  · simp
  · by_cases he : ds = []
    · subst he
      exact .inr fun r hr => hd.nodot r (by simp [hr])
    · exact .inl he

/-- the part common to all moves of a directory onto a directory -/
theorem move_dir_dir {w : Os} {ss ds : List Str} {n : Str} {us ud : Uri} (hs : Path (ss ++ [n]))
    (hd : Path (ds ++ [n])) (hus : URI (pathOf (ss ++ [n])) = .ok us) (hud : URI (pathOf ds) = .ok ud)
    (h1 : isDirO (w.tree (ss ++ [n])) = true) (h2 : isDirO (w.tree ds) = true) :
    move us ud w = shutilMove (pathOf (ss ++ [n])) (pathOf (ds ++ [n])) w := by
  obtain ⟨p1, _⟩ := local_uri hs hus
  obtain ⟨p2, p3, _⟩ := local_uri hd.init hud
  obtain ⟨v, g1, g2⟩ := local_div hd hud
  unfold move
  rw [if_pos p3, if_pos ⟨by rw [osIsdir, p1, hs.resolve]; exact h1, by rw [osIsdir, p2, hd.init.resolve]; exact h2⟩,
    local_basename hs hus]
  dsimp only
  rw [g1]
  dsimp only
  rw [g2, p1]

/-- the part common to all other moves -/
theorem move_else {w : Os} {s d : List Str} {us ud : Uri} (hs : Path s) (hd : Path d) (hus : URI (pathOf s) = .ok us)
    (hud : URI (pathOf d) = .ok ud) (h : ¬ (isDirO (w.tree s) = true ∧ isDirO (w.tree d) = true)) :
    move us ud w = shutilMove (pathOf s) (pathOf d) w := by
  obtain ⟨p1, _⟩ := local_uri hs hus
  obtain ⟨p2, p3, _⟩ := local_uri hd hud
  unfold move
  rw [if_pos p3, if_neg, p1, p2]
  rw [osIsdir, osIsdir, p1, p2, hs.resolve, hd.resolve]
  exact h

theorem shutilMove_free {w : Os} {s t : List Str} (hw : Ok w) (hs : Path s) (ht : Path t) (h1 : (w.tree s).isSome)
    (h2 : isDirO (w.tree t.dropLast) = true) (h3 : ¬ s <+: t)
    (h4 : w.tree t = none ∨ (isFileO (w.tree s) = true ∧ isFileO (w.tree t) = true)) :
    shutilMove (pathOf s) (pathOf t) w = (.ok (), { w with tree := moved w.tree s t }) := by
  have hd : isDirO (w.tree t) = false := by
    rcases h4 with h | ⟨_, h⟩
    · rw [h]; rfl
    · cases e : w.tree t with
      | none => rfl
      | some o => cases o <;> simp_all [isFileO, isDirO]
  unfold shutilMove osIsdir
  rw [hs.resolve, ht.resolve, hd]
  simp only [Bool.false_eq_true, if_false, renameOrCopy, osRename_ok hw h1 h2 h3 h4]

theorem shutilMove_into {w : Os} {ss d : List Str} {n : Str} (hw : Ok w) (hs : Path (ss ++ [n])) (hd : Path (d ++ [n]))
    (h1 : (w.tree (ss ++ [n])).isSome) (h2 : isDirO (w.tree d) = true) (h3 : ¬ ss ++ [n] <+: d)
    (h4 : w.tree (d ++ [n]) = none) :
    shutilMove (pathOf (ss ++ [n])) (pathOf d) w =
      (.ok (), { w with tree := moved w.tree (ss ++ [n]) (d ++ [n]) }) := by
  have h5 : ss ++ [n] ≠ d := fun h => h3 (h ▸ List.prefix_refl _)
  have h6 : ¬ ss ++ [n] <+: d ++ [n] := by
    intro h
    rcases prefix_snoc h with h | h
    · exact h3 h
    · rw [h, h4] at h1; cases h1
  unfold shutilMove osIsdir osExists
  rw [shBasename_pathOf hs.clean, osJoin_pathOf hd.init.clean, hs.resolve, hd.init.resolve, h2, if_pos rfl, if_neg h5]
  simp only [hd.resolve, h4, Option.isSome_none, Bool.false_eq_true, if_false, renameOrCopy,
    osRename_ok hw h1 (t := d ++ [n]) (by simpa using h2) h6 (.inl h4)]

/-- C66: a directory moved onto an existing directory is put into it under its own name, with all that is in it, and
    nothing else changes -/
theorem C66_dir_into {w : Os} {ss ds : List Str} {n : Str} {us ud : Uri} (hw : Ok w) (hs : Path (ss ++ [n]))
    (hd : Path (ds ++ [n])) (hus : URI (pathOf (ss ++ [n])) = .ok us) (hud : URI (pathOf ds) = .ok ud)
    (h1 : isDirO (w.tree (ss ++ [n])) = true) (h2 : isDirO (w.tree ds) = true) (h3 : ¬ ss ++ [n] <+: ds)
    (h4 : w.tree (ds ++ [n]) = none) :
    ∃ w', move us ud w = (.ok (), w') ∧ Moved w.tree w'.tree (ss ++ [n]) (ds ++ [n]) ∧ w'.cwd = w.cwd := by
  have h5 : (w.tree (ss ++ [n])).isSome := by
    cases e : w.tree (ss ++ [n]) with
    | none => rw [e] at h1; cases h1
    | some o => rfl
  have h6 : ¬ ss ++ [n] <+: ds ++ [n] := by
    intro h
    rcases prefix_snoc h with h | h
    · exact h3 h
    · rw [h, h4] at h5; cases h5
  refine ⟨_, (move_dir_dir hs hd hus hud h1 h2).trans (shutilMove_free hw hs hd h5 (by simpa using h2) h6 (.inl h4)), ?_,
    rfl⟩
  exact moved_spec _ _ _

/-- C66: a directory or file moved to a name that is free is renamed -/
theorem C66_rename {w : Os} {s t : List Str} {us ut : Uri} (hw : Ok w) (hs : Path s) (ht : Path t)
    (hus : URI (pathOf s) = .ok us) (hut : URI (pathOf t) = .ok ut) (h1 : (w.tree s).isSome) (h2 : w.tree t = none)
    (h3 : isDirO (w.tree t.dropLast) = true) (h4 : ¬ s <+: t) :
    ∃ w', move us ut w = (.ok (), w') ∧ Moved w.tree w'.tree s t ∧ w'.cwd = w.cwd :=
  ⟨_, (move_else hs ht hus hut (by rw [h2]; exact fun h => nomatch h.2)).trans
    (shutilMove_free hw hs ht h1 h3 h4 (.inl h2)), moved_spec _ _ _, rfl⟩

/-- C66: after such a move the tree is still a tree -/
theorem C66_tree {w w' : Os} {s t : List Str} (hw : Ok w) (hm : Moved w.tree w'.tree s t) (h1 : ¬ s <+: t) (h2 : t ≠ [])
    (h3 : isDirO (w.tree t.dropLast) = true) : Ok w' := by
  have hs : s ≠ [] := by rintro rfl; exact h1 List.nil_prefix
  refine ⟨?_, fun q c h => ?_⟩
  · rw [hm.rest [] (by simpa using hs) (by simpa using h2)]; exact hw.root
  · by_cases ht : t <+: q ++ [c]
    · rcases prefix_snoc ht with ⟨r, rfl⟩ | rfl
      · rw [List.append_assoc, hm.there, ← List.append_assoc] at h
        rw [hm.there]; exact hw.parent _ _ h
      · rw [List.dropLast_concat] at h3
        rw [hm.rest q (fun h => h1 (h.trans (List.prefix_append _ _))) (fun h => by
          have := h.length_le; simp at this; omega)]
        exact h3
    · have hq : ¬ t <+: q := fun h => ht (h.trans (List.prefix_append _ _))
      by_cases hs' : s <+: q ++ [c]
      · rw [hm.gone _ hs' ht] at h; cases h
      · rw [hm.rest _ hs' ht] at h
        rw [hm.rest q (fun h => hs' (h.trans (List.prefix_append _ _))) hq]
        exact hw.parent _ _ h

/-- C66: a file moved onto an existing directory is put into it -/
theorem C66_file_into {w : Os} {ss d : List Str} {n : Str} {us ud : Uri} (hw : Ok w) (hs : Path (ss ++ [n]))
    (hd : Path (d ++ [n])) (hus : URI (pathOf (ss ++ [n])) = .ok us) (hud : URI (pathOf d) = .ok ud)
    (h1 : isFileO (w.tree (ss ++ [n])) = true) (h2 : isDirO (w.tree d) = true) (h4 : w.tree (d ++ [n]) = none) :
    ∃ w', move us ud w = (.ok (), w') ∧ Moved w.tree w'.tree (ss ++ [n]) (d ++ [n]) ∧ w'.cwd = w.cwd := by
  have h5 : (w.tree (ss ++ [n])).isSome ∧ isDirO (w.tree (ss ++ [n])) = false := by
    cases e : w.tree (ss ++ [n]) with
    | none => rw [e] at h1; cases h1
    | some o => cases o <;> simp_all [isFileO, isDirO]
  have h3 : ¬ ss ++ [n] <+: d := by
    rintro ⟨r, rfl⟩
    by_cases hr : r = []
    · rw [hr, List.append_nil, h5.2] at h2; cases h2
    · have := hw.above hr (q := ss ++ [n]) (by
        cases e : w.tree (ss ++ [n] ++ r) with
        | none => rw [e] at h2; cases h2
        | some o => rfl)
      rw [h5.2] at this; cases this
  exact ⟨_, (move_else hs hd.init hus hud (by rw [h5.2]; exact fun h => nomatch h.1)).trans
    (shutilMove_into hw hs hd h5.1 h2 h3 h4), moved_spec _ _ _, rfl⟩

/-- C66: a file moved onto another file replaces it -/
theorem C66_file_onto_file {w : Os} {s t : List Str} {us ut : Uri} (hw : Ok w) (hs : Path s) (ht : Path t)
    (hus : URI (pathOf s) = .ok us) (hut : URI (pathOf t) = .ok ut) (h1 : isFileO (w.tree s) = true)
    (h2 : isFileO (w.tree t) = true) (h3 : s ≠ t) :
    ∃ w', move us ut w = (.ok (), w') ∧ Moved w.tree w'.tree s t ∧ w'.cwd = w.cwd := by
  have h5 : (w.tree s).isSome ∧ isDirO (w.tree s) = false := by
    cases e : w.tree s with
    | none => rw [e] at h1; cases h1
    | some o => cases o <;> simp_all [isFileO, isDirO]
  have h6 : (w.tree t).isSome := by
    cases e : w.tree t with
    | none => rw [e] at h2; cases h2
    | some o => rfl
  have h7 : isDirO (w.tree t.dropLast) = true := by
    rcases List.eq_nil_or_concat t with rfl | ⟨q, c, rfl⟩
    · exact hw.root
    · rw [List.concat_eq_append] at h6 ⊢
      simpa using hw.parent q c h6
  have h8 : ¬ s <+: t := by
    rintro ⟨r, rfl⟩
    have hr : r ≠ [] := by rintro rfl; simp at h3
    rw [hw.above hr h6] at h5; cases h5.2
  exact ⟨_, (move_else hs ht hus hut (by rw [h5.2]; exact fun h => nomatch h.1)).trans
    (shutilMove_free hw hs ht h5.1 h7 h8 (.inr ⟨h1, h2⟩)), moved_spec _ _ _, rfl⟩

/-- C66: a directory is not moved into itself -/
theorem C66_into_itself {w : Os} {ss ds : List Str} {n : Str} {us ud : Uri} (hs : Path (ss ++ [n]))
    (hd : Path (ds ++ [n])) (hus : URI (pathOf (ss ++ [n])) = .ok us) (hud : URI (pathOf ds) = .ok ud)
    (h1 : isDirO (w.tree (ss ++ [n])) = true) (h2 : isDirO (w.tree ds) = true) (h3 : ss ++ [n] <+: ds)
    (h4 : w.tree (ds ++ [n]) = none) : move us ud w = (.error .shutilError, w) := by
  rw [move_dir_dir hs hd hus hud h1 h2]
  have h5 : w.tree (ss ++ [n]) ≠ none := by intro h; rw [h] at h1; cases h1
  have h6 : ss ++ [n] <+: ds ++ [n] := h3.trans (List.prefix_append _ _)
  have h7 : ss ++ [n] ≠ ds ++ [n] := by intro h; rw [h] at h5; exact h5 h4
  have h8 : w.tree ds ≠ none := by intro h; rw [h] at h2; cases h2
  have hr : osRename (ss ++ [n]) (ds ++ [n]) w = (.error (.os .EINVAL), w) := by
    unfold osRename
    rw [if_neg h5, List.dropLast_concat, if_neg h8, if_neg (by simp [h2]), if_neg h7, if_pos h6]
  unfold shutilMove osIsdir
  rw [hs.resolve, hd.resolve, h4, if_neg (by simp [isDirO])]
  unfold renameOrCopy
  rw [hr]
  dsimp only
  rw [if_neg h5, if_pos h1, if_pos h6]

/-- C66: moving a file onto a directory that has something of that name changes nothing -/
theorem C66_file_exists {w : Os} {ss d : List Str} {n : Str} {us ud : Uri} (hs : Path (ss ++ [n]))
    (hd : Path (d ++ [n])) (hus : URI (pathOf (ss ++ [n])) = .ok us) (hud : URI (pathOf d) = .ok ud)
    (h1 : isFileO (w.tree (ss ++ [n])) = true) (h2 : isDirO (w.tree d) = true) (h4 : (w.tree (d ++ [n])).isSome) :
    move us ud w = (.error .shutilError, w) := by
  have h5 : isDirO (w.tree (ss ++ [n])) = false := by
    cases e : w.tree (ss ++ [n]) with
    | none => rfl
    | some o => cases o <;> simp_all [isFileO, isDirO]
  rw [move_else hs hd.init hus hud (by rw [h5]; exact fun h => nomatch h.1)]
  have h6 : ss ++ [n] ≠ d := by intro h; rw [h, h2] at h5; cases h5
  unfold shutilMove osIsdir osExists
  rw [shBasename_pathOf hs.clean, osJoin_pathOf hd.init.clean, hs.resolve, hd.init.resolve, h2, if_pos rfl, if_neg h6]
  simp only [hd.resolve, h4, if_true]

/-- C66: moving a directory onto a file changes nothing -/
theorem C66_dir_onto_file {w : Os} {s t : List Str} {us ut : Uri} (hw : Ok w) (hs : Path s) (ht : Path t)
    (hus : URI (pathOf s) = .ok us) (hut : URI (pathOf t) = .ok ut) (h1 : isDirO (w.tree s) = true)
    (h2 : isFileO (w.tree t) = true) : ∃ e, move us ut w = (.error e, w) := by
  have h5 : isDirO (w.tree t) = false ∧ (w.tree t).isSome := by
    cases e : w.tree t with
    | none => rw [e] at h2; cases h2
    | some o => cases o <;> simp_all [isFileO, isDirO]
  have h6 : w.tree s ≠ none := by intro h; rw [h] at h1; cases h1
  have h7 : isDirO (w.tree t.dropLast) = true := by
    rcases List.eq_nil_or_concat t with rfl | ⟨q, c, rfl⟩
    · exact hw.root
    · have := h5.2
      rw [List.concat_eq_append] at this ⊢
      simpa using hw.parent q c this
  have h8 : w.tree t.dropLast ≠ none := by intro h; rw [h] at h7; cases h7
  have h9 : s ≠ t := by rintro rfl; rw [h1] at h5; cases h5.1
  rw [move_else hs ht hus hut (by rw [h5.1]; exact fun h => nomatch h.2)]
  have hr : ∃ e, osRename s t w = (.error e, w) := by
    unfold osRename
    rw [if_neg h6, if_neg h8, if_neg (by simp [h7]), if_neg h9]
    split
    · exact ⟨_, rfl⟩
    · rw [if_pos ⟨h1, h2⟩]; exact ⟨_, rfl⟩
  obtain ⟨e, hr⟩ := hr
  unfold shutilMove osIsdir
  rw [hs.resolve, ht.resolve, h5.1, if_neg (by simp)]
  unfold renameOrCopy
  rw [hr]
  dsimp only
  rw [if_neg h6, if_pos h1]
  split
  · exact ⟨_, rfl⟩
  · exact ⟨_, rfl⟩

/-- C66 refuted for a directory that has a subdirectory of that name: unlike `mv`, which refuses or replaces, the
    source is put into that subdirectory, once more under its own name -/
theorem C66_existing_refuted {w : Os} {ss ds : List Str} {n : Str} {us ud : Uri} (hw : Ok w) (hs : Path (ss ++ [n]))
    (hd : Path (ds ++ [n, n])) (hus : URI (pathOf (ss ++ [n])) = .ok us) (hud : URI (pathOf ds) = .ok ud)
    (h1 : isDirO (w.tree (ss ++ [n])) = true) (h2 : isDirO (w.tree ds) = true)
    (h3 : ¬ ss ++ [n] <+: ds ++ [n]) (h4 : isDirO (w.tree (ds ++ [n])) = true) (h5 : w.tree (ds ++ [n, n]) = none) :
    ∃ w', move us ud w = (.ok (), w') ∧ Moved w.tree w'.tree (ss ++ [n]) (ds ++ [n, n]) := by
  have e : ds ++ [n, n] = (ds ++ [n]) ++ [n] := by simp
  rw [e] at hd h5 ⊢
  have h6 : (w.tree (ss ++ [n])).isSome := by
    cases e : w.tree (ss ++ [n]) with
    | none => rw [e] at h1; cases h1
    | some o => rfl
  exact ⟨_, (move_dir_dir hs hd.init hus hud h1 h2).trans (shutilMove_into hw hs hd h6 h4 h3 h5), moved_spec _ _ _⟩

/-- /a/b moved onto /c, where /c/b exists, goes to /c/b/b -/
example : ∃ us ud w', URI cl!"/a/b" = .ok us ∧ URI cl!"/c" = .ok ud ∧ move us ud sampleOs = (.ok (), w') ∧
    w'.tree [cl!"c", cl!"b", cl!"b", cl!"f"] = some (.file 0o640 [1, 2]) ∧ w'.tree [cl!"a", cl!"b"] = none := by
  obtain ⟨us, h1, -⟩ := C01_local_path_roundtrip (cs := [cl!"a", cl!"b"]) (by decide) (by simp) (by simp)
  obtain ⟨ud, h2, -⟩ := C01_local_path_roundtrip (cs := [cl!"c"]) (by decide) (by simp) (by simp)
  obtain ⟨w', h3, h4⟩ := C66_existing_refuted (ss := [cl!"a"]) (ds := [cl!"c"]) (n := cl!"b") sampleOs_ok
    (by decide +kernel) (by decide +kernel) h1 h2 (by decide +kernel) (by decide +kernel) (by decide +kernel)
    (by decide +kernel) (by decide +kernel)
  exact ⟨us, ud, w', h1, h2, h3, (h4.there [cl!"f"]).trans (by decide +kernel),
    h4.gone _ (by decide +kernel) (by decide +kernel)⟩

/-- /c moved onto /a goes to /a/c, with what is in it -/
example : ∃ us ud w', URI cl!"/c" = .ok us ∧ URI cl!"/a" = .ok ud ∧ move us ud sampleOs = (.ok (), w') ∧
    w'.tree [cl!"a", cl!"c", cl!"b"] = some (.dir 0o755) ∧ w'.tree [cl!"c"] = none ∧
    w'.tree [cl!"a", cl!"b", cl!"f"] = some (.file 0o640 [1, 2]) ∧ Ok w' := by
  obtain ⟨us, h1, -⟩ := C01_local_path_roundtrip (cs := [cl!"c"]) (by decide) (by simp) (by simp)
  obtain ⟨ud, h2, -⟩ := C01_local_path_roundtrip (cs := [cl!"a"]) (by decide) (by simp) (by simp)
  obtain ⟨w', h3, h4, -⟩ := C66_dir_into (ss := []) (ds := [cl!"a"]) (n := cl!"c") sampleOs_ok
    (by decide +kernel) (by decide +kernel) h1 h2 (by decide +kernel) (by decide +kernel) (by decide +kernel)
    (by decide +kernel)
  exact ⟨us, ud, w', h1, h2, h3, (h4.there [cl!"b"]).trans (by decide +kernel),
    h4.gone _ (by decide +kernel) (by decide +kernel), (h4.rest _ (by decide +kernel) (by decide +kernel)).trans
      (by decide +kernel), C66_tree sampleOs_ok h4 (by decide +kernel) (by simp) (by decide +kernel)⟩

/-- /a renamed to /n; /g moved into /a; /g moved onto /a/b/f; /a not moved into /a/b; /a not moved onto /g -/
example : ∃ ua un ug uf ub, URI cl!"/a" = .ok ua ∧ URI cl!"/n" = .ok un ∧ URI cl!"/g" = .ok ug ∧ URI cl!"/a/b/f" = .ok uf ∧
    URI cl!"/a/b" = .ok ub ∧
    (∃ w', move ua un sampleOs = (.ok (), w') ∧ Moved sampleOs.tree w'.tree [cl!"a"] [cl!"n"] ∧ w'.cwd = sampleOs.cwd) ∧
    (∃ w', move ug ua sampleOs = (.ok (), w') ∧ Moved sampleOs.tree w'.tree [cl!"g"] [cl!"a", cl!"g"] ∧
      w'.cwd = sampleOs.cwd) ∧
    (∃ w', move ug uf sampleOs = (.ok (), w') ∧ Moved sampleOs.tree w'.tree [cl!"g"] [cl!"a", cl!"b", cl!"f"] ∧
      w'.cwd = sampleOs.cwd) ∧
    move ua ub sampleOs = (.error .shutilError, sampleOs) ∧ (∃ e, move ua ug sampleOs = (.error e, sampleOs)) := by
  obtain ⟨ua, h1, -⟩ := C01_local_path_roundtrip (cs := [cl!"a"]) (by decide) (by simp) (by simp)
  obtain ⟨un, h2, -⟩ := C01_local_path_roundtrip (cs := [cl!"n"]) (by decide) (by simp) (by simp)
  obtain ⟨ug, h3, -⟩ := C01_local_path_roundtrip (cs := [cl!"g"]) (by decide) (by simp) (by simp)
  obtain ⟨uf, h4, -⟩ := C01_local_path_roundtrip (cs := [cl!"a", cl!"b", cl!"f"]) (by decide) (by simp) (by simp)
  obtain ⟨ub, h5, -⟩ := C01_local_path_roundtrip (cs := [cl!"a", cl!"b"]) (by decide) (by simp) (by simp)
  refine ⟨ua, un, ug, uf, ub, h1, h2, h3, h4, h5, ?_, ?_, ?_, ?_, ?_⟩
  · exact C66_rename sampleOs_ok (by decide +kernel) (by decide +kernel) h1 h2 (by decide +kernel) (by decide +kernel)
      (by decide +kernel) (by decide +kernel)
  · exact C66_file_into (ss := []) (d := [cl!"a"]) sampleOs_ok (by decide +kernel) (by decide +kernel) h3 h1
      (by decide +kernel) (by decide +kernel) (by decide +kernel)
  · exact C66_file_onto_file sampleOs_ok (by decide +kernel) (by decide +kernel) h3 h4 (by decide +kernel)
      (by decide +kernel) (by decide +kernel)
  · exact C66_into_itself (ss := []) (ds := [cl!"a", cl!"b"]) (by decide +kernel) (by decide +kernel) h1 h5
      (by decide +kernel) (by decide +kernel) (by decide +kernel) (by decide +kernel)
  · exact C66_dir_onto_file sampleOs_ok (by decide +kernel) (by decide +kernel) h1 h3 (by decide +kernel)
      (by decide +kernel)

/-! ## C68: temporary files -/

/-- C68: after the block, however the body ends, the file is gone, and nothing else is changed by leaving the block;
    the data read is what the file had when it was opened.  The body may do anything that leaves a file under that name
    (seen from where it leaves the process). -/
theorem C68_removed {α : Type} {w0 w : Os} {name : Str} {f : TempFile} {body : LM α}
    (hm : TempFile.create name w0 = (.ok f, w)) (hb : isFileO ((body w).2.tree (resolve (body w).2 name)) = true) :
    (f.using body w).1 = (body w).1 ∧ (f.using body w).2.cwd = (body w).2.cwd ∧
    (f.using body w).2.tree (resolve (body w).2 name) = none ∧
    (∀ q, q ≠ resolve (body w).2 name → (f.using body w).2.tree q = (body w).2.tree q) ∧
    (∃ perm, w0.tree (resolve w0 name) = some (.file perm f.data)) ∧ w = w0 := by
  unfold TempFile.create at hm
  split at hm
  · rename_i perm d hd
    obtain ⟨h1, h2⟩ := Prod.mk.inj hm
    subst h2
    obtain rfl : TempFile.mk name d = f := by simpa using h1
    generalize hx : body w0 = x at hb ⊢
    obtain ⟨r, w'⟩ := x
    dsimp only at hb ⊢
    cases e : w'.tree (resolve w' name) with
    | none => rw [e] at hb; cases hb
    | some o =>
      cases o with
      | dir _ => rw [e] at hb; cases hb
      | file p d' =>
        simp only [TempFile.using, hx, TempFile.close, osUnlink, e]
        exact ⟨trivial, trivial, by simp, fun q hq => by simp [hq], ⟨perm, hd⟩, trivial⟩
  · simp at hm
  · simp at hm

/-- C68, the condition is needed: if the file is gone when the block is left, e.g. because it was closed within, leaving
    it raises -/
theorem C68_closed_twice_refuted {w : Os} {name : Str} {f : TempFile} (hm : (TempFile.create name w).1 = .ok f)
    (hw : ∀ p, p <+: resolve w name → p ≠ resolve w name → isDirO (w.tree p) = true) :
    (f.using f.close w).1 = .error (.os .ENOENT) ∧ (f.using f.close w).2.tree (resolve w name) = none := by
  unfold TempFile.create at hm
  split at hm
  · rename_i perm d hd
    obtain rfl : TempFile.mk name d = f := by simpa using hm
    have h1 : TempFile.close ⟨name, d⟩ w =
        (.ok (), { w with tree := fun q => if q = resolve w name then none else w.tree q }) := by
      simp [TempFile.close, osUnlink, hd]
    have h2 : TempFile.close ⟨name, d⟩ { w with tree := fun q => if q = resolve w name then none else w.tree q } =
        (.error (.os .ENOENT), { w with tree := fun q => if q = resolve w name then none else w.tree q }) := by
      simp only [TempFile.close, osUnlink]
      have : resolve { w with tree := fun q => if q = resolve w name then none else w.tree q } name = resolve w name := rfl
      rw [this]
      simp only [if_true]
      rw [missErr_noent]
      intro p hp hne
      rw [if_neg hne]
      have := hw p hp hne
      cases e : w.tree p with
      | none => rfl
      | some o => cases o with
        | dir _ => rfl
        | file _ _ => rw [e] at this; cases this
    simp only [TempFile.using, h1, h2]
    simp
  · simp at hm
  · simp at hm

/-- opening the file b/f, from /a, and raising within the block -/
example : ∃ f, TempFile.create cl!"b/f" sampleOs = (.ok f, sampleOs) ∧ f.data = [1, 2] ∧
    (f.using (fun w => (.error .valueError, w) : LM Unit) sampleOs).1 = .error .valueError ∧
    (f.using (fun w => (.error .valueError, w) : LM Unit) sampleOs).2.tree [cl!"a", cl!"b", cl!"f"] = none := by
  refine ⟨⟨cl!"b/f", [1, 2]⟩, rfl, rfl, ?_⟩
  obtain ⟨h1, -, h2, -⟩ := C68_removed (w0 := sampleOs) (w := sampleOs) (name := cl!"b/f") (f := ⟨cl!"b/f", [1, 2]⟩)
    (body := (fun w => (.error .valueError, w) : LM Unit)) rfl (by decide +kernel)
  exact ⟨h1, h2⟩

/-! ## C69: executable bits -/

theorem testBit_perm {o : Obj} {m : Nat} {i : Nat} (hi : i < 12) : (stMode (o.chmod m)).testBit i = m.testBit i := by
  have h1 : (0o7777 : Nat).testBit i = true := by
    have : ∀ i < 12, (0o7777 : Nat).testBit i = true := by decide
    exact this i hi
  cases o with
  | dir p =>
    have h2 : (0o040000 : Nat).testBit i = false := by
      have : ∀ i < 12, (0o040000 : Nat).testBit i = false := by decide
      exact this i hi
    simp [Obj.chmod, stMode, h1, h2]
  | file p d =>
    have h2 : (0o100000 : Nat).testBit i = false := by
      have : ∀ i < 12, (0o100000 : Nat).testBit i = false := by decide
      exact this i hi
    simp [Obj.chmod, stMode, h1, h2]

theorem testBit_clear {a b i : Nat} : (clearBits a b).testBit i = (a.testBit i && !b.testBit i) := by
  simp only [clearBits, Nat.testBit_xor, Nat.testBit_and]
  cases a.testBit i <;> cases b.testBit i <;> rfl

/-- the same kind of object with the same data -/
def SameData : Obj → Obj → Prop
  | .dir _, .dir _ => True
  | .file _ d, .file _ d' => d = d'
  | _, _ => False

/-- C69: `set_exec(m)` on a local path: of the permissions of the object, the three executable bits become those of
    `m`, and the other nine only gain those of `m`; kind, data and every other object stay -/
theorem C69_set_exec {w : Os} {u : Uri} {o : Obj} (m : Nat) (ho : w.tree (resolve w u.path) = some o) :
    ∃ w' o', setExec u m w = (.ok (), w') ∧ w'.cwd = w.cwd ∧ w'.tree (resolve w u.path) = some o' ∧ SameData o o' ∧
      (∀ q, q ≠ resolve w u.path → w'.tree q = w.tree q) ∧
      ∀ i, i < 12 → (stMode o').testBit i =
        (m.testBit i || (!(i == 0 || i == 3 || i == 6) && (stMode o).testBit i)) := by
  refine ⟨⟨(fun q => if q = resolve w u.path then some (o.chmod (clearBits (stMode o) 0o111 ||| m)) else w.tree q),
      w.cwd⟩, o.chmod (clearBits (stMode o) 0o111 ||| m), by simp only [setExec, infoMode, ho, setMode], rfl,
    by simp, ?_, fun q hq => by simp [hq], fun i hi => ?_⟩
  · cases o <;> simp [Obj.chmod, SameData]
  · rw [testBit_perm hi, Nat.testBit_or, testBit_clear]
    have : (0o111 : Nat).testBit i = (i == 0 || i == 3 || i == 6) := by
      have : ∀ i < 12, (0o111 : Nat).testBit i = (i == 0 || i == 3 || i == 6) := by decide
      exact this i hi
    rw [this, Bool.or_comm, Bool.and_comm]

/-- C69: after `set_exec(m)`, `isexec(k)` tells whether `m` and `k` have a bit in common, for masks `k` of executable
    bits -/
theorem C69_isexec {w : Os} {u : Uri} {o : Obj} (m k : Nat) (ho : w.tree (resolve w u.path) = some o)
    (hk : k &&& 0o111 = k) :
    ∃ w', setExec u m w = (.ok (), w') ∧ isexec u k w' = (.ok (decide (m &&& k ≠ 0)), w') := by
  obtain ⟨w', o', h1, h2, h3, _, _, h4⟩ := C69_set_exec m ho
  refine ⟨w', h1, ?_⟩
  have hr : resolve w' u.path = resolve w u.path := by unfold resolve; rw [h2]
  have hb : stMode o' &&& k = m &&& k := by
    apply Nat.eq_of_testBit_eq
    intro i
    rw [Nat.testBit_and, Nat.testBit_and]
    cases hki : k.testBit i with
    | false => simp
    | true =>
      have hi : (0o111 : Nat).testBit i = true := by
        have := congrArg (fun n => n.testBit i) hk
        simp only [Nat.testBit_and, hki, Bool.true_and] at this
        exact this
      have hi12 : i < 12 := by
        refine Decidable.byContradiction fun hlt => ?_
        have : (0o111 : Nat) < 2 ^ i :=
          Nat.lt_of_lt_of_le (show (0o111 : Nat) < 2 ^ 12 by decide) (Nat.pow_le_pow_right (by decide) (Nat.not_lt.mp hlt))
        rw [Nat.testBit_lt_two_pow this] at hi; cases hi
      have hi' : (i == 0 || i == 3 || i == 6) = true := by
        have : ∀ i < 12, (0o111 : Nat).testBit i = (i == 0 || i == 3 || i == 6) := by decide
        rw [← this i hi12]; exact hi
      rw [h4 i hi12, hi']; simp
  simp only [isexec, infoMode, hr, h3, hb]

example : ∃ u w', URI cl!"/a/b/f" = .ok u ∧ setExec u 0o110 sampleOs = (.ok (), w') ∧
    isexec u 0o011 w' = (.ok true, w') := by
  obtain ⟨u, h1, h2, -⟩ := C01_local_path_roundtrip (cs := [cl!"a", cl!"b", cl!"f"]) (by decide) (by simp) (by simp)
  obtain ⟨w', h3, h4⟩ := C69_isexec (w := sampleOs) (u := u) (o := .file 0o640 [1, 2]) 0o110 0o011
    (by rw [h2]; decide +kernel) (by decide)
  exact ⟨u, w', h1, h3, h4⟩

end Verif.Local
