import Verif.Mem.HandleLemmas
/-!
# What the API calls do to the abstract file system

`Becomes w w' r ns`: the file system `r` has become `ns`; all other file systems, the connections, the
injected faults and the locks are as before.
-/
namespace Verif.Mem
open M Spec

/-- the state `w'` after a call on the file system of `r`, which then has the objects `ns`; the rest as said above -/
structure Becomes (w w' : World) (r : Nat) (ns : NS) : Prop where
  inv : Inv w'
  next : w.next ≤ w'.next
  clock : w'.clock = w.clock
  conns : w'.conns = w.conns
  hooks : w'.hooks = w.hooks
  held : w'.held = w.held
  gen : w'.gen = w.gen
  view : view w' r = ns
  other : ∀ r', IsRoot w r' → r' ≠ r → Spec.view w' r' = Spec.view w r'

theorem Becomes.refl {w : World} (hw : Inv w) (r : Nat) : Becomes w w r (Spec.view w r) :=
  ⟨hw, Nat.le_refl _, rfl, rfl, rfl, rfl, rfl, rfl, fun _ _ _ => rfl⟩

theorem Becomes.isRoot {w w' : World} {r r' : Nat} {ns : NS} (h : Becomes w w' r ns) (hr : IsRoot w r') :
    IsRoot w' r' := by
  obtain ⟨k, hk⟩ := hr; exact ⟨k, by rw [h.conns]; exact hk⟩

theorem Becomes.serves {w w' : World} {r r' : Nat} {ns : NS} {u : Uri} (h : Becomes w w' r ns) (hu : Serves w u r') :
    Serves w' u r' := hu.congr (by rw [h.conns]; exact List.prefix_refl _) (by rw [h.hooks])

theorem Becomes.trans {a b c : World} {r : Nat} {ns ns' : NS} (h : Becomes a b r ns) (h' : Becomes b c r ns') :
    Becomes a c r ns' :=
  ⟨h'.inv, Nat.le_trans h.next h'.next, h'.clock.trans h.clock, h'.conns.trans h.conns, h'.hooks.trans h.hooks,
   h'.held.trans h.held, h'.gen.trans h.gen, h'.view,
   fun r' hr' hne => (h'.other r' (h.isRoot hr') hne).trans (h.other r' hr' hne)⟩

theorem Becomes.congr {w w' : World} {r : Nat} {ns ns' : NS} (h : Becomes w w' r ns) (e : ns = ns') :
    Becomes w w' r ns' := e ▸ h

section
variable {w : World} (hw : Inv w) {r : Nat} (hr : IsRoot w r)
include hw hr

theorem becomes_addChild {nd : Nat} {d : DirObj} {name : Str} {n : Node} {q : List Str}
    (hq : phys w r q = some nd) (hd : w.node nd = .dir d) (hn : d.files.lookup name = none) (hl : Leaf n) :
    Becomes w (w.addChild nd d name n) r ((view w r).set (q ++ [name]) (objOf n)) :=
  ⟨hw.addChild hd hn hl (phys_lt hw hr hq), Nat.le_succ _, rfl, rfl, rfl, rfl, rfl,
   (view_addChild hw hr hq hd hn hl).1, (view_addChild hw hr hq hd hn hl).2⟩

theorem becomes_delEntry {nd : Nat} {d : DirObj} {name : Str} {q : List Str}
    (hq : phys w r q = some nd) (hd : w.node nd = .dir d) :
    Becomes w (w.delEntry nd d name) r ((view w r).del (q ++ [name])) :=
  ⟨hw.delEntry hd (phys_lt hw hr hq), Nat.le_refl _, rfl, rfl, rfl, rfl, rfl,
   (view_delEntry hw hr hq hd).1, (view_delEntry hw hr hq hd).2⟩

theorem becomes_setNode {i : Nat} {n : Node} {q : List Str} (hq : phys w r q = some i)
    (h : SameShape (w.node i) n) : Becomes w (w.setNode i n) r ((view w r).set q (objOf n)) :=
  ⟨hw.setNode h (phys_lt hw hr hq), Nat.le_refl _, rfl, rfl, rfl, rfl, rfl,
   (view_setNode_at hw hr hq h).1, (view_setNode_at hw hr hq h).2⟩

theorem becomes_put {i k : Nat} {f f' : FileObj} {q : List Str} (hq : phys w r q = some i)
    (h : w.node i = .file f) :
    Becomes w (w.put i f' k) r ((view w r).set q (.file f'.data f'.mode f'.mtime)) :=
  ⟨hw.put h, Nat.le_refl _, rfl, rfl, rfl, rfl, rfl, (view_put_at hw hr h hq).1, (view_put_at hw hr h hq).2⟩

end

/-! ## Queries -/

section
variable {w : World} (hw : Inv w) {r : Nat} {u : Uri} (hu : Serves w u r)
include hw hu

theorem uIsdir_goes {ts : List Str} {out : Out} (hs : stepsOf u = some ts) (h : Goes (view w r) maxDepth [] ts out) :
    uIsdir u w = (answer (view w r) Obj.isDir out, w) := by
  unfold uIsdir; rw [withConn_serves hu hs, query_apply, isdir_goes hw hu.isRoot hs h]

theorem uIsfile_goes {ts : List Str} {out : Out} (hs : stepsOf u = some ts) (h : Goes (view w r) maxDepth [] ts out) :
    uIsfile u w = (answer (view w r) Obj.isFile out, w) := by
  unfold uIsfile; rw [withConn_serves hu hs, query_apply, isfile_goes hw hu.isRoot hs h]

theorem uExists_goes {ts : List Str} {out : Out} (hs : stepsOf u = some ts) (h : Goes (view w r) maxDepth [] ts out) :
    uExists u w = (answer (view w r) (fun _ => true) out, w) := by
  unfold uExists; rw [withConn_serves hu hs, query_apply, exists_goes hw hu.isRoot hs h]

theorem uIslink_nofollow {init q : List Str} {n : Str} (hs : stepsOf u = some (init ++ [n]))
    (h : Goes (view w r) maxDepth [] init (.found q)) (hd : (view w r).isDir q)
    (hn : n ∉ init ∨ Plain (view w r) (init ++ [n])) :
    uIslink u w = (.ok ((view w r (q ++ [n])).any Obj.isLink), w) := by
  unfold uIslink; rw [withConn_serves hu hs, query_apply, islink_nofollow hw hu.isRoot hs h hd hn]

omit hw in
theorem uIslink_root (hs : stepsOf u = some []) : uIslink u w = (.ok false, w) := by
  unfold uIslink; rw [withConn_serves hu hs, query_apply, islink_root hs]

theorem uInfo_found {ts q : List Str} {o : Obj} (hs : stepsOf u = some ts)
    (h : Goes (view w r) maxDepth [] ts (.found q)) (ho : view w r q = some o) :
    uInfo u true w = (.ok (infoOf o), w) := by
  unfold uInfo; rw [withConn_serves hu hs, query_apply, (info_found hw hu.isRoot hs h ho).1]

/-! ## Creating -/

theorem uMkdir_new {init q : List Str} {n : Str} (hs : stepsOf u = some (init ++ [n]))
    (h : Goes (view w r) maxDepth [] init (.found q)) (hd : (view w r).isDir q) (hn : view w r (q ++ [n]) = none) :
    ∃ w', uMkdir u w = (.ok (), w') ∧
      Becomes w w' r ((view w r).set (q ++ [n]) (.dir 0 (w.clock w.tick))) := by
  obtain ⟨nd, d, h1, h2, h3, h4⟩ := mkdir_new hw hu.isRoot hs h hd hn
  refine ⟨_, by unfold uMkdir; rw [withConn_serves hu hs, h4], ?_⟩
  exact becomes_addChild hw hu.isRoot h1 h2 h3 (n := w.freshDir) rfl

theorem uSymlink_new {l : Uri} {ts init q : List Str} {n : Str} (ht : stepsOf u = some ts)
    (hs : stepsOf l = some (init ++ [n]))
    (h : Goes (view w r) maxDepth [] init (.found q)) (hd : (view w r).isDir q) (hn : view w r (q ++ [n]) = none) :
    ∃ w', uSymlink u l w = (.ok (), w') ∧
      Becomes w w' r ((view w r).set (q ++ [n]) (.link u 0 (w.clock w.tick))) := by
  obtain ⟨nd, d, h1, h2, h3, h4⟩ := symlink_new hw hu.isRoot (t := u) hs h hd hn
  refine ⟨_, by unfold uSymlink; rw [withConn_serves hu ht, h4], ?_⟩
  exact becomes_addChild hw hu.isRoot h1 h2 h3 (n := w.freshLink u) trivial

/-! ## Opening -/

omit hw in
theorem uOpen_w {ts : List Str} {o : Str} (hs : stepsOf u = some ts) (h1 : o.contains 'r' = false)
    (h2 : o.contains 'w' = true) : uOpen u (some o) w = openWrite r u (o.contains 'b') w := by
  unfold uOpen; rw [withConn_serves hu hs]; simp only [open_, h1, h2, if_true, Bool.false_eq_true, if_false]

omit hw in
theorem uOpen_r {ts : List Str} {o : Str} (hs : stepsOf u = some ts) (h1 : o.contains 'r' = true) :
    uOpen u (some o) w = openRead r u (o.contains 'b') w := by
  unfold uOpen; rw [withConn_serves hu hs]; simp only [open_, h1, if_true]

omit hw in
theorem uOpen_a {ts : List Str} {o : Str} (hs : stepsOf u = some ts) (h1 : o.contains 'r' = false)
    (h2 : o.contains 'w' = false) (h3 : o.contains 'a' = true) :
    uOpen u (some o) w = openAppend r u (o.contains 'b') w := by
  unfold uOpen; rw [withConn_serves hu hs]
  simp only [open_, h1, h2, h3, if_true, Bool.false_eq_true, if_false]

/-- what a file opened for writing at `q` looks like -/
structure Opened (w w' : World) (r i : Nat) (q : List Str) (f : FileObj) : Prop where
  phys : phys w' r q = some i
  node : w'.node i = .file f
  data : f.data = []
  pos : f.pos = 0
  becomes : Becomes w w' r ((view w r).set q (.file [] 0 f.mtime))

theorem openWrite_new' {init q : List Str} {n : Str} (b : Bool) (hs : stepsOf u = some (init ++ [n]))
    (h : Goes (view w r) maxDepth [] init (.found q)) (hd : (view w r).isDir q) (hn : view w r (q ++ [n]) = none) :
    ∃ w' f, openWrite r u b w = (.ok ⟨w.next, false, b⟩, w') ∧ Opened w w' r w.next (q ++ [n]) f := by
  obtain ⟨p, h1, -, h3⟩ := stepsOf_snoc hs
  obtain ⟨nd, d, a, b', c, e⟩ := openWrite_new hw hu.isRoot (b := b) h1 h3 h hd hn
  refine ⟨_, ⟨[], 0, w.clock w.tick, w.clock w.tick, 0, p, (w.gen, p)⟩, e, ?_, ?_, rfl, rfl, ?_⟩
  · rw [phys_addChild hw hu.isRoot a b' c (n := w.freshFile p) trivial r hu.isRoot]; simp
  · have := phys_lt hw hu.isRoot a
    simp only [World.addChild, World.freshFile]
    rw [if_neg (by omega), if_true]
  · exact becomes_addChild hw hu.isRoot a b' c (n := w.freshFile p) trivial

theorem openWrite_found' {init q q' : List Str} {n : Str} (b : Bool) {o : Obj} (hs : stepsOf u = some (init ++ [n]))
    (h : Goes (view w r) maxDepth [] init (.found q)) (hn : view w r (q ++ [n]) = some o)
    (h' : Goes (view w r) maxDepth [] (init ++ [n]) (.found q')) (hf : (view w r).isFile q') :
    ∃ w' i f, openWrite r u b w = (.ok ⟨i, false, b⟩, w') ∧ Opened w w' r i q' f ∧ phys w r q' = some i := by
  obtain ⟨p, h1, -, h3⟩ := stepsOf_snoc hs
  obtain ⟨i, a, e⟩ := openWrite_found hw hu.isRoot (b := b) h1 h3 h hn h'
  obtain ⟨i', f, a', hi⟩ := isFile_view hf
  have : i' = i := by rw [a] at a'; simpa using a'.symm
  subst this
  rw [hi] at e
  refine ⟨_, i', { f with data := [], pos := 0, mtime := w.clock w.tick, ctime := w.clock w.tick, mode := 0, lock := (w.gen, f.path) }, e, ⟨?_, ?_, rfl, rfl, ?_⟩, a⟩
  · exact (phys_put hi (k := w.tick + 1) r q').trans a
  · exact put_node _ _ _ (w.tick + 1)
  · exact becomes_put hw hu.isRoot (k := w.tick + 1) a hi

/-- the handle can be written to; afterwards the file has the new content -/
theorem writes_at {h : Handle} {l : List PyData} {bs : List Bytes} {f : FileObj} {q : List Str}
    (hl : l.map h.encode = bs.map Except.ok) (hf : w.node h.id = .file f) (hp : f.pos = f.data.length)
    (hq : phys w r q = some h.id) :
    ∃ w' f', l.forM h.write w = (.ok (), w') ∧ w'.node h.id = .file f' ∧ f'.data = f.data ++ bs.flatten ∧
      f'.mode = f.mode ∧ (∀ j, j ≠ h.id → w'.node j = w.node j) ∧
      (∀ r p, phys w' r p = phys w r p) ∧
      Becomes w w' r ((view w r).set q (.file (f.data ++ bs.flatten) f.mode f'.mtime)) := by
  obtain ⟨t, k, h1, -⟩ := writes_eq l bs w f hl hf hp
  refine ⟨_, _, h1, put_node _ _ _ _, rfl, rfl, fun j hj => put_node_ne _ _ _ hj, fun r p => phys_put hf r p, ?_⟩
  exact becomes_put hw hu.isRoot hq hf

end

theorem NS.set_set (ns : NS) (q : List Str) (a b : Obj) : (ns.set q a).set q b = ns.set q b := by
  funext p; simp only [NS.set]; split <;> rfl

theorem NS.set_get (ns : NS) (q : List Str) (a : Obj) : (ns.set q a) q = some a := by simp [NS.set]

theorem NS.set_ne (ns : NS) {q p : List Str} (a : Obj) (h : p ≠ q) : (ns.set q a) p = ns p := by simp [NS.set, h]

/-- `view` after a `put` of an unreachable file object -/
theorem view_put_lost {w : World} {i k : Nat} {f f' : FileObj} (h : w.node i = .file f) {r : Nat}
    (hl : ∀ q, phys w r q ≠ some i) : view (w.put i f' k) r = view w r := by
  funext q; rw [view_put h, if_neg (hl q)]

/-! ## Removing -/

/-- one location disappears -/
def _root_.Verif.Spec.NS.erase (ns : NS) (q : List Str) : NS := fun p => if p = q then none else ns p

/-- what lies below an object lies in a directory -/
theorem view_prefix {w : World} {r : Nat} {q t : List Str} {o : Obj} (h : view w r (q ++ t) = some o) :
    ∃ o', view w r q = some o' := by
  obtain ⟨i, h1, -⟩ := view_some h
  rw [phys_append] at h1
  cases hp : phys w r q with
  | none => rw [hp] at h1; simp at h1
  | some c => exact ⟨_, view_of_phys hp⟩

theorem view_below {w : World} {r : Nat} {q t : List Str} {m : Str} {o : Obj} (h : view w r (q ++ m :: t) = some o) :
    (view w r).isDir q ∧ ∃ o', view w r (q ++ [m]) = some o' := by
  have : q ++ m :: t = (q ++ [m]) ++ t := by simp
  rw [this] at h
  obtain ⟨o', h'⟩ := view_prefix h
  exact ⟨view_parent h', o', h'⟩

theorem del_leaf {w : World} {r : Nat} {q : List Str} (h : ∀ m, view w r (q ++ [m]) = none) :
    (view w r).del q = (view w r).erase q := by
  funext p
  unfold NS.del NS.erase
  by_cases h1 : p = q
  · subst h1; simp
  · rw [if_neg h1]
    split
    · rename_i hp
      obtain ⟨t, rfl⟩ := hp
      cases t with
      | nil => simp at h1
      | cons m t =>
        cases hv : view w r (q ++ m :: t) with
        | none => rfl
        | some o => obtain ⟨-, o', ho'⟩ := view_below hv; rw [h m] at ho'; simp at ho'
    · rfl

theorem notDir_leaf {w : World} {r : Nat} {q : List Str} {o : Obj} (ho : view w r q = some o) (hd : o.isDir = false)
    (m : Str) : view w r (q ++ [m]) = none := by
  cases hv : view w r (q ++ [m]) with
  | none => rfl
  | some o' =>
    have := view_parent hv
    rw [NS.isDir_iff] at this
    obtain ⟨o'', h1, h2⟩ := this
    rw [ho] at h1
    simp only [Option.some.injEq] at h1
    subst h1
    rw [hd] at h2
    simp at h2

section
variable {w : World} (hw : Inv w) {r : Nat} {u : Uri}
include hw

theorem removefile_at (hr : IsRoot w r) {ts init q : List Str} {n : Str} {o : Obj} (hs : stepsOf u = some ts)
    (hf : ts.filter (fun x => x ≠ []) = init ++ [n]) (hl : u.last = n)
    (h : Goes (view w r) maxDepth [] init (.found q))
    (hn : n ∉ init ∨ Plain (view w r) (init ++ [n])) (ho : view w r (q ++ [n]) = some o) :
    ∃ w', removefile r u w = (.ok (), w') ∧ Becomes w w' r ((view w r).del (q ++ [n])) := by
  obtain ⟨i, d, c, h1, h2, h3, h4⟩ := removefile_found hw hr hs hf hl h hn ho
  exact ⟨_, h4, becomes_delEntry hw hr h1 h2⟩

/-- `removedir` of a directory (not a link to one) -/
theorem removedir_at (hr : IsRoot w r) {ts init q : List Str} {n : Str} (hs : stepsOf u = some ts)
    (hf : ts.filter (fun x => x ≠ []) = init ++ [n]) (hl : u.last = n)
    (h : Goes (view w r) maxDepth [] init (.found q)) (ho : (view w r).isDir (q ++ [n])) :
    ((∀ m, view w r (q ++ [n] ++ [m]) = none) →
      ∃ w', removedir r u w = (.ok (), w') ∧ Becomes w w' r ((view w r).erase (q ++ [n]))) ∧
    ((∃ m, view w r (q ++ [n] ++ [m]) ≠ none) → removedir r u w = (.error (.os .ENOTEMPTY), w)) := by
  obtain ⟨o, h1, h2⟩ := NS.isDir_iff.1 ho
  have hd := view_parent h1
  have hl' : o.isLink = false := by cases o <;> simp_all [Obj.isDir, Obj.isLink]
  obtain ⟨i, d, c, k, a, b, c', e, f⟩ := removedir_found hw hr hs hf hl h hd (h.snoc hd h1 hl')
  obtain ⟨k', dd, e', hk⟩ := isDir_view ho
  rw [e] at e'
  simp only [Option.some.injEq] at e'
  subst e'
  rw [hk] at f
  simp only at f
  constructor
  · intro hm
    have : dd.files = [] := by
      cases hfs : dd.files with
      | nil => rfl
      | cons x l =>
        have := hm x.1
        rw [view_snoc_none e, entries_dir hk, hfs] at this
        simp [List.lookup] at this
    rw [if_pos this] at f
    exact ⟨_, f, (becomes_delEntry hw hr a b).congr (del_leaf hm)⟩
  · rintro ⟨m, hm⟩
    have : dd.files ≠ [] := by
      intro hfs
      apply hm
      rw [view_snoc_none e, entries_dir hk, hfs]
      rfl
    rw [if_neg this] at f
    exact f

/-- `remove()` of a file or link -/
theorem uRemove_leaf' (hu : Serves w u r) {init q : List Str} {n : Str} {o : Obj} (depth : Nat) (rec : Bool)
    (hs : stepsOf u = some (init ++ [n])) (hne : [] ∉ init ++ [n]) (hl : u.last = n)
    (h : Goes (view w r) maxDepth [] init (.found q))
    (hn : n ∉ init ∨ Plain (view w r) (init ++ [n])) (ho : view w r (q ++ [n]) = some o) (hd : o.isDir = false) :
    ∃ i d c, phys w r q = some i ∧ w.node i = .dir d ∧ d.files.lookup n = some c ∧
      Gen.uRemove depth u rec w = (.ok (), w.delEntry i d n) := by
  have hpar := view_parent ho
  obtain ⟨i, d, c, g1, g2, g3, h1⟩ := removefile_found hw hu.isRoot hs (filter_clean hne) hl h hn ho
  refine ⟨i, d, c, g1, g2, g3, ?_⟩
  unfold Gen.uRemove
  rw [withConn_serves hu hs]
  have e1 := islink_nofollow hw hu.isRoot hs h hpar hn
  rw [ho] at e1
  rw [bind_query e1]
  cases hlk : o.isLink with
  | true => simp only [Option.any_some, hlk, if_true]; exact h1
  | false =>
    have hg := h.snoc hpar ho hlk
    have e2 := exists_goes hw hu.isRoot hs hg
    have e3 := isdir_goes hw hu.isRoot hs hg
    have e4 := isfile_goes hw hu.isRoot hs hg
    have : o.isFile = true := by cases o <;> simp_all [Obj.isDir, Obj.isLink, Obj.isFile]
    simp only [answer, ho, Option.any_some, hd, this] at e2 e3 e4
    simp only [Option.any_some, hlk, Bool.false_eq_true, if_false]
    rw [bind_query e2]
    simp only [Bool.not_true, Bool.false_eq_true, if_false]
    rw [bind_query e3]
    simp only [Bool.false_eq_true, if_false]
    rw [bind_query e4]
    simp only [if_true]
    exact h1

theorem uRemove_leaf (hu : Serves w u r) {init q : List Str} {n : Str} {o : Obj} (depth : Nat) (rec : Bool)
    (hs : stepsOf u = some (init ++ [n])) (hne : [] ∉ init ++ [n]) (hl : u.last = n)
    (h : Goes (view w r) maxDepth [] init (.found q))
    (hn : n ∉ init ∨ Plain (view w r) (init ++ [n])) (ho : view w r (q ++ [n]) = some o) (hd : o.isDir = false) :
    ∃ w', Gen.uRemove depth u rec w = (.ok (), w') ∧ Becomes w w' r ((view w r).erase (q ++ [n])) := by
  obtain ⟨i, d, c, h1, h2, -, h4⟩ := uRemove_leaf' hw hu depth rec hs hne hl h hn ho hd
  exact ⟨_, h4, (becomes_delEntry hw hu.isRoot h1 h2).congr (del_leaf (notDir_leaf ho hd))⟩

/-- `remove()` of a directory goes to the backend's `removedir`, or the recursive algorithm -/
theorem uRemove_dir (hu : Serves w u r) {init q : List Str} {n : Str} (depth : Nat) (rec : Bool)
    (hs : stepsOf u = some (init ++ [n])) (h : Goes (view w r) maxDepth [] init (.found q))
    (hn : n ∉ init ∨ Plain (view w r) (init ++ [n])) (ho : (view w r).isDir (q ++ [n])) :
    Gen.uRemove depth u rec w = if rec then Gen.removeDirRec depth r u w else removedir r u w := by
  obtain ⟨o, h1, h2⟩ := NS.isDir_iff.1 ho
  have hpar := view_parent h1
  have hlk : o.isLink = false := by cases o <;> simp_all [Obj.isDir, Obj.isLink]
  have hg := h.snoc hpar h1 hlk
  unfold Gen.uRemove
  rw [withConn_serves hu hs]
  have e1 := islink_nofollow hw hu.isRoot hs h hpar hn
  have e2 := exists_goes hw hu.isRoot hs hg
  have e3 := isdir_goes hw hu.isRoot hs hg
  simp only [answer, h1, Option.any_some, hlk, h2] at e1 e2 e3
  rw [bind_query e1]
  simp only [Bool.false_eq_true, if_false]
  rw [bind_query e2]
  simp only [Bool.not_true, Bool.false_eq_true, if_false]
  rw [bind_query e3]
  cases rec <;> rfl

/-- `remove()` of nothing -/
theorem uRemove_missing (hu : Serves w u r) {init q : List Str} {n : Str} (depth : Nat) (rec : Bool)
    (hs : stepsOf u = some (init ++ [n])) (h : Goes (view w r) maxDepth [] init (.found q)) (hd : (view w r).isDir q)
    (hn : n ∉ init ∨ Plain (view w r) (init ++ [n])) (ho : view w r (q ++ [n]) = none) :
    Gen.uRemove depth u rec w = (.error .fileDoesNotExist, w) := by
  have hg := h.snoc_missing hd ho
  unfold Gen.uRemove
  rw [withConn_serves hu hs]
  have e1 := islink_nofollow hw hu.isRoot hs h hd hn
  have e2 := exists_goes hw hu.isRoot hs hg
  simp only [answer, ho, Option.any_none] at e1 e2
  rw [bind_query e1]
  simp only [Bool.false_eq_true, if_false]
  rw [bind_query e2]
  rfl

end

end Verif.Mem

namespace Verif.Mem
open M Spec

section
variable {w : World} (hw : Inv w) {r : Nat} {u : Uri} (hu : Serves w u r)
include hw hu

theorem uListdir_at {ts q : List Str} (hs : stepsOf u = some ts) (hne : [] ∉ ts)
    (h : Goes (view w r) maxDepth [] ts (.found q)) (hd : (view w r).isDir q) :
    ∃ l, uListdir u w = (.ok l, w) ∧ l.Pairwise strLt ∧ l.Nodup ∧ ∀ n, n ∈ l ↔ view w r (q ++ [n]) ≠ none := by
  obtain ⟨i, d, hi, hid⟩ := isDir_view hd
  refine ⟨sortStr d.keys, ?_, pairwise_sortStr (keys_nodup hw hid), nodup_sortStr (keys_nodup hw hid), ?_⟩
  · unfold uListdir
    rw [withConn_serves hu hs]
    simp only [query_apply]
    rw [listdir_found hw hu.isRoot hs (by rw [filter_clean hne]; exact h) hi hid]
  · intro n
    rw [mem_sortStr, mem_keys hi hid]

theorem uReadlink_nofollow {init q : List Str} {n : Str} {t : Uri} {m s : Int} (hs : stepsOf u = some (init ++ [n]))
    (h : Goes (view w r) maxDepth [] init (.found q))
    (hn : n ∉ init ∨ Plain (view w r) (init ++ [n])) (ho : view w r (q ++ [n]) = some (.link t m s)) :
    uReadlink u w = (.ok t, w) := by
  unfold uReadlink
  rw [withConn_serves hu hs, query_apply, readlink_nofollow hw hu.isRoot hs h (view_parent ho) hn, ho]

theorem uSetInfo_at {ts q : List Str} {o : Obj} (s : SetInfo) (hs : stepsOf u = some ts)
    (h : Goes (view w r) maxDepth [] ts (.found q)) (ho : view w r q = some o) :
    ∃ w', uSetInfo u s true w = (.ok (), w') ∧ Becomes w w' r ((view w r).set q (Obj.apply s o)) := by
  obtain ⟨i, h1, h2⟩ := setInfo_found hw hu.isRoot (s := s) hs h
  refine ⟨_, by unfold uSetInfo; rw [withConn_serves hu hs, h2], ?_⟩
  have := becomes_setNode hw hu.isRoot h1 (sameShape_apply s (w.node i))
  rw [objOf_apply] at this
  rw [view_of_phys h1] at ho
  simp only [Option.some.injEq] at ho
  rw [ho] at this
  exact this

theorem uSetInfo_nofollow {init q : List Str} {n : Str} {o : Obj} (s : SetInfo) (hs : stepsOf u = some (init ++ [n]))
    (h : Goes (view w r) maxDepth [] init (.found q)) (hn : n ∉ init ∨ Plain (view w r) (init ++ [n]))
    (ho : view w r (q ++ [n]) = some o) :
    ∃ w', uSetInfo u s false w = (.ok (), w') ∧ Becomes w w' r ((view w r).set (q ++ [n]) (Obj.apply s o)) := by
  obtain ⟨i, h1, h2⟩ := setInfo_nofollow hw hu.isRoot (s := s) hs h hn ho
  refine ⟨_, by unfold uSetInfo; rw [withConn_serves hu hs, h2], ?_⟩
  have := becomes_setNode hw hu.isRoot h1 (sameShape_apply s (w.node i))
  rw [objOf_apply] at this
  rw [view_of_phys h1] at ho
  simp only [Option.some.injEq] at ho
  rw [ho] at this
  exact this

theorem uSetExec_at {ts q : List Str} {o : Obj} (m : Int) (hs : stepsOf u = some ts)
    (h : Goes (view w r) maxDepth [] ts (.found q)) (ho : view w r q = some o) :
    ∃ w', uSetExec u m w = (.ok (), w') ∧
      Becomes w w' r ((view w r).set q (Obj.apply { mode := some (newMode (infoOf o).mode m) } o)) := by
  obtain ⟨w', h1, h2⟩ := uSetInfo_at hw hu { mode := some (newMode (infoOf o).mode m) } hs h ho
  refine ⟨w', ?_, h2⟩
  rw [← h1]
  unfold uSetExec uSetInfo
  rw [withConn_serves hu hs, withConn_serves hu hs]
  unfold setExec
  rw [bind_query (info_found hw hu.isRoot hs h ho).1]

theorem copystat_at {v : Uri} {ts ts' q q' : List Str} {o o' : Obj} (hs : stepsOf u = some ts)
    (hs' : stepsOf v = some ts') (h : Goes (view w r) maxDepth [] ts (.found q))
    (h' : Goes (view w r) maxDepth [] ts' (.found q')) (ho : view w r q = some o) (ho' : view w r q' = some o') :
    ∃ w', copystat r u v w = (.ok (), w') ∧
      Becomes w w' r ((view w r).set q' (Obj.apply ⟨some (infoOf o).mode, some (infoOf o).mtime⟩ o')) := by
  obtain ⟨s, d, h1, h2, h3⟩ := copystat_found hw hu.isRoot hs hs' h h'
  refine ⟨_, h3, ?_⟩
  rw [statFrom_eq]
  have := becomes_setNode hw hu.isRoot h2
    (sameShape_apply ⟨some (w.node s).info.mode, some (w.node s).info.mtime⟩ (w.node d))
  rw [objOf_apply, node_info] at this
  rw [node_info]
  rw [view_of_phys h1] at ho
  rw [view_of_phys h2] at ho'
  simp only [Option.some.injEq] at ho ho'
  rw [ho, ho'] at this
  rw [ho]
  exact this

end

theorem apply_kind (s : SetInfo) (o : Obj) : (Obj.apply s o).kind = o.kind := by cases o <;> rfl

theorem int_testBit_ext {a b : Int} (h : ∀ k, Int.testBit a k = Int.testBit b k) : a = b := by
  have big : ∀ n : Nat, Nat.testBit n n = false := fun n => Nat.testBit_lt_two_pow Nat.lt_two_pow_self
  have big2 : ∀ m n : Nat, Nat.testBit m (m + n) = false := fun m n =>
    Nat.testBit_lt_two_pow (Nat.lt_of_lt_of_le Nat.lt_two_pow_self (Nat.pow_le_pow_right (by omega) (by omega)))
  cases a with
  | ofNat m =>
    cases b with
    | ofNat n => exact congrArg Int.ofNat (Nat.eq_of_testBit_eq fun i => h i)
    | negSucc n =>
      have := h (m + n)
      have h2 := big2 n m
      rw [Nat.add_comm] at h2
      simp [Int.testBit, big2, h2] at this
  | negSucc m =>
    cases b with
    | ofNat n =>
      have := h (m + n)
      have h2 := big2 n m
      rw [Nat.add_comm] at h2
      simp [Int.testBit, big2, h2] at this
    | negSucc n =>
      refine congrArg Int.negSucc (Nat.eq_of_testBit_eq fun i => ?_)
      have := h i
      simpa [Int.testBit] using this

/-- the bits of the new mode -/
theorem newMode_bit (old m : Int) (k : Nat) :
    Int.testBit (newMode old m) k = ((Int.testBit old k && !Int.testBit xMask k) || Int.testBit m k) := by
  unfold newMode
  rw [Int.testBit_lor, Int.testBit_land, Int.testBit_lnot]

section
variable {w : World} (hw : Inv w) {r : Nat} {u : Uri} (hu : Serves w u r)
include hw hu

/-- an open for writing that returns: the file it leads to is empty now, everything else is unchanged -/
theorem openWrite_inv {init : List Str} {n : Str} {b : Bool} {h : Handle} {w1 : World}
    (hs : stepsOf u = some (init ++ [n])) (ho : openWrite r u b w = (.ok h, w1)) :
    ∃ q f, h = ⟨h.id, false, b⟩ ∧ Opened w w1 r h.id q f ∧ (view w r).Keeps (view w1 r) ∧
      Goes (view w1 r) maxDepth [] (init ++ [n]) (.found q) := by
  obtain ⟨p, h1, -, h3⟩ := stepsOf_snoc hs
  by_cases hg : ∃ out, Goes (view w r) maxDepth [] init out
  swap
  · rw [openWrite_loop hw hu.isRoot h1 h3 hg] at ho; simp at ho
  obtain ⟨out, hg⟩ := hg
  by_cases hd : ∀ q, out = .found q → ¬ (view w r).isDir q
  · rw [openWrite_fail hw hu.isRoot h1 h3 hg hd] at ho; simp at ho
  push Not at hd
  obtain ⟨q, rfl, hd⟩ := hd
  cases hn : view w r (q ++ [n]) with
  | none =>
    obtain ⟨w', f, h4, h5⟩ := openWrite_new' hw hu b hs hg hd hn
    rw [ho] at h4
    simp only [Prod.mk.injEq, Except.ok.injEq] at h4
    obtain ⟨rfl, rfl⟩ := h4
    have hk : (view w r).Keeps (view w1 r) := by rw [h5.becomes.view]; exact NS.set_keeps_new hn
    exact ⟨_, f, rfl, h5, hk, (hg.keeps hk).snoc (hk.isDir hd) (by rw [h5.becomes.view, NS.set_get]) rfl⟩
  | some ob =>
    by_cases hg' : ∃ out, Goes (view w r) maxDepth [] (init ++ [n]) out
    swap
    · rw [openWrite_lost_loop hw hu.isRoot h1 h3 hg hn hg'] at ho; simp at ho
    obtain ⟨out, hg'⟩ := hg'
    by_cases hf : ∃ q', out = .found q'
    swap
    · push Not at hf
      rw [openWrite_lost hw hu.isRoot h1 h3 hg hn hg' hf] at ho; simp at ho
    obtain ⟨q', rfl⟩ := hf
    obtain ⟨i, a, e⟩ := openWrite_found hw hu.isRoot (b := b) h1 h3 hg hn hg'
    cases hi : w.node i with
    | dir d => rw [hi] at e; rw [e] at ho; simp at ho
    | link d => rw [hi] at e; rw [e] at ho; simp at ho
    | file f =>
      have hif : (view w r).isFile q' := by unfold NS.isFile; rw [view_of_phys a, hi]; exact ⟨_, _, _, rfl⟩
      obtain ⟨w', i', f', h4, h5, h6⟩ := openWrite_found' hw hu b hs hg hn hg' hif
      rw [ho] at h4
      simp only [Prod.mk.injEq, Except.ok.injEq] at h4
      obtain ⟨rfl, rfl⟩ := h4
      have hk : (view w r).SameKinds (view w1 r) := by
        rw [h5.becomes.view]
        obtain ⟨b', m', t', hb⟩ := hif
        exact NS.set_sameKinds hb rfl
      exact ⟨_, f', rfl, h5, hk.keeps, hg'.sameKinds hk⟩

end

end Verif.Mem
