import Verif.Mem.LookupLemmas
import Verif.Py.StrLemmas
/-!
# Closed forms of the memory file system's methods
-/
namespace Verif.Mem
open M Spec

/-! ## Steps of a URI -/

theorem stepsOf_strip {u : Uri} {ts : List Str} (h : stepsOf u = some ts) :
    ∃ p, stripPath u = .ok p ∧ ((p = [] ∧ ts = []) ∨ (p ≠ [] ∧ splitC '/' p = ts)) := by
  unfold stepsOf at h
  unfold stripPath
  split at h
  · rename_i p hp
    refine ⟨p, by rw [hp]; rfl, ?_⟩
    simp only [Option.some.injEq] at h
    by_cases hp0 : p = []
    · left; rw [if_pos hp0] at h; exact ⟨hp0, h.symm⟩
    · right; rw [if_neg hp0] at h; exact ⟨hp0, h⟩
  · simp at h

theorem stepsOf_snoc {u : Uri} {init : List Str} {n : Str} (h : stepsOf u = some (init ++ [n])) :
    ∃ p, stripPath u = .ok p ∧ p ≠ [] ∧ splitC '/' p = init ++ [n] := by
  obtain ⟨p, h1, h2⟩ := stepsOf_strip h
  rcases h2 with ⟨-, h2⟩ | ⟨h2, h3⟩
  · simp at h2
  · exact ⟨p, h1, h2, h3⟩

theorem stepsOf_bad {u : Uri} (h : stepsOf u = none) : stripPath u = .error .assertionError := by
  unfold stepsOf at h
  unfold stripPath
  split at h
  · simp at h
  · split
    · rename_i p hp' ; simp_all
    · rfl

/-- a URI either has steps, possibly none, or is rejected -/
theorem steps_cases (u : Uri) :
    (stepsOf u = none ∧ stripPath u = .error .assertionError) ∨
    (stepsOf u = some [] ∧ stripPath u = .ok []) ∨
    ∃ init n p, stepsOf u = some (init ++ [n]) ∧ stripPath u = .ok p ∧ p ≠ [] ∧ splitC '/' p = init ++ [n] := by
  cases h : stepsOf u with
  | none => exact .inl ⟨rfl, stepsOf_bad h⟩
  | some ts =>
    obtain ⟨p, h1, h2⟩ := stepsOf_strip h
    rcases h2 with ⟨rfl, rfl⟩ | ⟨h2, h3⟩
    · exact .inr (.inl ⟨rfl, h1⟩)
    · rcases List.eq_nil_or_concat ts with rfl | ⟨init, n, rfl⟩
      · exact absurd h3 splitC_ne_nil
      · rw [List.concat_eq_append] at *
        exact .inr (.inr ⟨init, n, p, rfl, h1, h2, h3⟩)

/-! ## Queries -/

theorem any_isDir {ns : NS} {q : List Str} : (ns q).any Obj.isDir = true ↔ ns.isDir q := by
  unfold NS.isDir
  cases h : ns q with
  | none => simp
  | some o => cases o <;> simp [Obj.isDir]

theorem any_isFile {ns : NS} {q : List Str} : (ns q).any Obj.isFile = true ↔ ns.isFile q := by
  unfold NS.isFile
  cases h : ns q with
  | none => simp
  | some o => cases o <;> simp [Obj.isFile]

theorem any_isLink {ns : NS} {q : List Str} : (ns q).any Obj.isLink = true ↔ ns.isLink q := by
  unfold NS.isLink
  cases h : ns q with
  | none => simp
  | some o => cases o <;> simp [Obj.isLink]

theorem world_isDir (w : World) (i : Nat) : w.isDir i = (objOf (w.node i)).isDir := by
  unfold World.isDir; cases w.node i <;> rfl
theorem world_isFile (w : World) (i : Nat) : w.isFile i = (objOf (w.node i)).isFile := by
  unfold World.isFile; cases w.node i <;> rfl
theorem world_isLink (w : World) (i : Nat) : w.isLink i = (objOf (w.node i)).isLink := by
  unfold World.isLink; cases w.node i <;> rfl

/-- what `exists`, `isfile`, `isdir` answer: `k` is the answer for the object found -/
def answer (ns : NS) (k : Obj → Bool) : Out → Except PyErr Bool
  | .found q => .ok ((ns q).any k)
  | .missing => .ok false
  | .dangling => .error .attributeError
  | .notDir => .error .attributeError
  | .badLink => .error .assertionError

section
variable {w : World} (hw : Inv w) {r : Nat} (hr : IsRoot w r)
include hw hr

theorem Goes.phys {ts q : List Str} {d : Nat} (h : Goes (view w r) d [] ts (.found q)) :
    ∃ i, Spec.phys w r q = some i ∧ view w r q = some (objOf (w.node i)) ∧ ∀ l, w.node i ≠ .link l := by
  obtain ⟨o, ho, hl⟩ := Goes.notLink (isDir_root hw hr) h q rfl (NS.isDir.notLink (isDir_root hw hr))
  obtain ⟨i, hi, hio⟩ := view_some ho
  exact ⟨i, hi, view_of_phys hi, objOf_notLink (by rw [hio]; exact hl)⟩

theorem isdir_goes {u : Uri} {ts : List Str} (hs : stepsOf u = some ts) {out : Out}
    (h : Goes (view w r) maxDepth [] ts out) : isdir w r u = answer (view w r) Obj.isDir out := by
  obtain ⟨p, h1, h2⟩ := stepsOf_strip hs
  unfold isdir
  rw [h1]
  rcases h2 with ⟨rfl, rfl⟩ | ⟨h2, h3⟩
  · cases h
    simp only [ne_eq, not_true_eq_false, if_false, answer]
    rw [any_isDir.2 (isDir_root hw hr)]
  · simp only [if_pos h2, nodeForPath_goes hw hr hs h]
    cases out with
    | found q =>
      obtain ⟨i, hi, hv, -⟩ := Goes.phys hw hr h
      simp [outResult, answer, hi, hv, world_isDir]
    | missing => simp [outResult, answer]
    | dangling => simp [outResult, answer]
    | notDir => simp [outResult, answer]
    | badLink => simp [outResult, answer]

theorem isdir_loop {u : Uri} {ts : List Str} (hs : stepsOf u = some ts)
    (h : ¬ ∃ out, Goes (view w r) maxDepth [] ts out) : isdir w r u = .ok false := by
  obtain ⟨p, h1, h2⟩ := stepsOf_strip hs
  unfold isdir
  rw [h1]
  rcases h2 with ⟨rfl, rfl⟩ | ⟨h2, h3⟩
  · exact absurd ⟨_, .done⟩ h
  · simp only [if_pos h2, nodeForPath_loop hw hr hs h]

theorem isfile_goes {u : Uri} {ts : List Str} (hs : stepsOf u = some ts) {out : Out}
    (h : Goes (view w r) maxDepth [] ts out) : isfile w r u = answer (view w r) Obj.isFile out := by
  obtain ⟨p, h1, h2⟩ := stepsOf_strip hs
  unfold isfile
  rw [h1]
  rcases h2 with ⟨rfl, rfl⟩ | ⟨h2, h3⟩
  · cases h
    simp only [ne_eq, not_true_eq_false, if_false, answer]
    obtain ⟨m, t, hd⟩ := isDir_root hw hr
    rw [hd]; rfl
  · simp only [if_pos h2, nodeForPath_goes hw hr hs h]
    cases out with
    | found q =>
      obtain ⟨i, hi, hv, -⟩ := Goes.phys hw hr h
      simp [outResult, answer, hi, hv, world_isFile]
    | missing => simp [outResult, answer]
    | dangling => simp [outResult, answer]
    | notDir => simp [outResult, answer]
    | badLink => simp [outResult, answer]

theorem isfile_loop {u : Uri} {ts : List Str} (hs : stepsOf u = some ts)
    (h : ¬ ∃ out, Goes (view w r) maxDepth [] ts out) : isfile w r u = .ok false := by
  obtain ⟨p, h1, h2⟩ := stepsOf_strip hs
  unfold isfile
  rw [h1]
  rcases h2 with ⟨rfl, rfl⟩ | ⟨h2, h3⟩
  · exact absurd ⟨_, .done⟩ h
  · simp only [if_pos h2, nodeForPath_loop hw hr hs h]

theorem exists_goes {u : Uri} {ts : List Str} (hs : stepsOf u = some ts) {out : Out}
    (h : Goes (view w r) maxDepth [] ts out) : exists_ w r u = answer (view w r) (fun _ => true) out := by
  obtain ⟨p, h1, h2⟩ := stepsOf_strip hs
  unfold exists_
  rw [h1]
  rcases h2 with ⟨rfl, rfl⟩ | ⟨h2, h3⟩
  · cases h
    simp only [ne_eq, not_true_eq_false, if_false, answer]
    obtain ⟨m, t, hd⟩ := isDir_root hw hr
    rw [hd]; rfl
  · simp only [if_pos h2, nodeForPath_goes hw hr hs h]
    cases out with
    | found q =>
      obtain ⟨i, hi, hv, -⟩ := Goes.phys hw hr h
      simp [outResult, answer, hi, hv]
    | missing => simp [outResult, answer]
    | dangling => simp [outResult, answer]
    | notDir => simp [outResult, answer]
    | badLink => simp [outResult, answer]

theorem exists_loop {u : Uri} {ts : List Str} (hs : stepsOf u = some ts)
    (h : ¬ ∃ out, Goes (view w r) maxDepth [] ts out) : exists_ w r u = .ok false := by
  obtain ⟨p, h1, h2⟩ := stepsOf_strip hs
  unfold exists_
  rw [h1]
  rcases h2 with ⟨rfl, rfl⟩ | ⟨h2, h3⟩
  · exact absurd ⟨_, .done⟩ h
  · simp only [if_pos h2, nodeForPath_loop hw hr hs h]

omit hw hr in
theorem queries_bad {u : Uri} (hs : stepsOf u = none) :
    isdir w r u = .error .assertionError ∧ isfile w r u = .error .assertionError ∧
    exists_ w r u = .error .assertionError ∧ islink w r u = .error .assertionError := by
  have := stepsOf_bad hs
  simp [isdir, isfile, exists_, islink, this]

theorem islink_nofollow {u : Uri} {init q : List Str} {n : Str} (hs : stepsOf u = some (init ++ [n]))
    (h : Goes (view w r) maxDepth [] init (.found q)) (hd : (view w r).isDir q)
    (hn : n ∉ init ∨ Plain (view w r) (init ++ [n])) :
    islink w r u = .ok ((view w r (q ++ [n])).any Obj.isLink) := by
  obtain ⟨p, h1, h2, h3⟩ := stepsOf_snoc hs
  unfold islink
  simp only [h1, if_pos h2, nodeForPath_nofollow hw hr (throw := false) hs h hd hn]
  cases hp : phys w r (q ++ [n]) with
  | none => simp [view_none.2 hp]
  | some j => simp [view_of_phys hp, world_isLink]

omit hw hr in
theorem islink_root {u : Uri} (hs : stepsOf u = some []) : islink w r u = .ok false := by
  obtain ⟨p, h1, h2⟩ := stepsOf_strip hs
  rcases h2 with ⟨rfl, -⟩ | ⟨h2, h3⟩
  · simp [islink, h1]
  · exact absurd h3 splitC_ne_nil

theorem readlink_nofollow {u : Uri} {init q : List Str} {n : Str} (hs : stepsOf u = some (init ++ [n]))
    (h : Goes (view w r) maxDepth [] init (.found q)) (hd : (view w r).isDir q)
    (hn : n ∉ init ∨ Plain (view w r) (init ++ [n])) :
    readlink w r u = match view w r (q ++ [n]) with
      | some (.link t _ _) => .ok t
      | some _ => .error (.os .EINVAL)
      | none => .error (.os .ENOENT) := by
  obtain ⟨p, h1, h2, h3⟩ := stepsOf_snoc hs
  unfold readlink
  simp only [h1, if_pos h2, nodeForPath_nofollow hw hr (throw := true) hs h hd hn]
  cases hp : phys w r (q ++ [n]) with
  | none => simp [view_none.2 hp]
  | some j =>
    simp only [view_of_phys hp]
    cases w.node j <;> rfl

/-- `info` of an object -/
def infoOf : Obj → Info
  | .file b m t => ⟨t, m, b.length⟩
  | .dir m t => ⟨t, m, 0⟩
  | .link _ m t => ⟨t, m, 8⟩

omit hw hr in
theorem node_info (n : Node) : n.info = infoOf (objOf n) := by cases n <;> rfl

theorem info_found {u : Uri} {ts q : List Str} {o : Obj} (hs : stepsOf u = some ts)
    (h : Goes (view w r) maxDepth [] ts (.found q)) (ho : view w r q = some o) :
    info w r u true = .ok (infoOf o) ∧ mtime w r u = .ok (infoOf o).mtime := by
  obtain ⟨i, hi, hv, -⟩ := Goes.phys hw hr h
  rw [hv] at ho
  simp only [Option.some.injEq] at ho
  unfold info mtime
  rw [nodeForPath_goes hw hr hs h]
  simp [outResult, hi, node_info, ho]

theorem info_nofollow {u : Uri} {init q : List Str} {n : Str} {o : Obj} (hs : stepsOf u = some (init ++ [n]))
    (h : Goes (view w r) maxDepth [] init (.found q))
    (hn : n ∉ init ∨ Plain (view w r) (init ++ [n])) (ho : view w r (q ++ [n]) = some o) :
    info w r u false = .ok (infoOf o) := by
  have hd := view_parent ho
  obtain ⟨j, hj, hjo⟩ := view_some ho
  unfold info
  rw [nodeForPath_nofollow hw hr (throw := true) hs h hd hn]
  simp [hj, node_info, hjo]

end

/-! ## Changing one object -/

theorem view_setNode_at {w : World} (hw : Inv w) {r i : Nat} {q : List Str} {n : Node} (hr : IsRoot w r)
    (hq : phys w r q = some i) (h : SameShape (w.node i) n) :
    view (w.setNode i n) r = (view w r).set q (objOf n) ∧
    ∀ r', IsRoot w r' → r' ≠ r → view (w.setNode i n) r' = view w r' := by
  constructor
  · funext p
    rw [view_setNode h, NS.set]
    by_cases hp : p = q
    · subst hp; simp [hq]
    · rw [if_neg hp, if_neg]
      intro hp'; exact hp (phys_inj hw hr hr hp' hq).2
  · intro r' hr' hne
    funext p
    rw [view_setNode h, if_neg]
    intro hp'; exact hne (phys_inj hw hr' hr hp' hq).1

theorem NS.set_same {ns : NS} {q : List Str} {o : Obj} (h : ns q = some o) : ns.set q o = ns := by
  funext p; unfold NS.set; split
  · rename_i hp; rw [hp, h]
  · rfl

theorem sameShape_refl (n : Node) : SameShape n n := by cases n <;> simp [SameShape]

theorem sameShape_apply (s : SetInfo) (n : Node) : SameShape n (n.apply s) := by
  unfold Node.apply
  cases n <;> cases s.mode <;> cases s.mtime <;> simp [Node.setMode, Node.setMtime, SameShape]

theorem sameShape_trans {a b c : Node} (h : SameShape a b) (h' : SameShape b c) : SameShape a c := by
  cases a <;> cases b <;> cases c <;> simp_all [SameShape]

/-- `set_info` on an object -/
def Obj.apply (s : SetInfo) : Obj → Obj
  | .file b m t => .file b (s.mode.getD m) (s.mtime.getD t)
  | .dir m t => .dir (s.mode.getD m) (s.mtime.getD t)
  | .link u m t => .link u (s.mode.getD m) (s.mtime.getD t)

theorem objOf_apply (s : SetInfo) (n : Node) : objOf (n.apply s) = Obj.apply s (objOf n) := by
  obtain ⟨m, t⟩ := s
  unfold Node.apply
  cases n <;> cases m <;> cases t <;> rfl

/-! ## Creating -/

/-- a new object that is not yet entered anywhere -/
def World.alloc (w : World) (n : Node) : World :=
  { w with node := fun j => if j = w.next then n else w.node j, next := w.next + 1, tick := w.tick + 1 }

theorem newDir_eq (w : World) :
    newDir w = (.ok w.next, w.alloc (.dir ⟨[], w.clock w.tick, w.clock w.tick, 0⟩)) := rfl
theorem newLink_eq (w : World) (t : Uri) :
    newLink t w = (.ok w.next, w.alloc (.link ⟨t, w.clock w.tick, w.clock w.tick, 0⟩)) := rfl
theorem newFile_eq (w : World) (p : Str) :
    newFile p w = (.ok w.next, w.alloc (.file ⟨[], 0, w.clock w.tick, w.clock w.tick, 0, p, (w.gen, p)⟩)) := rfl

theorem createChild_alloc {w : World} {nd : Nat} {d : DirObj} {name : Str} {n : Node}
    (hd : w.node nd = .dir d) (hnd : nd < w.next) :
    createChild nd name w.next (w.alloc n) = (.ok (), w.addChild nd d name n) := by
  have h1 : (w.alloc n).node nd = .dir d := by
    simp only [World.alloc, if_neg (Nat.ne_of_lt hnd), hd]
  unfold createChild
  rw [h1]
  rfl

section
variable {w : World} (hw : Inv w) {r : Nat} (hr : IsRoot w r)
include hw hr

theorem parentOf_goes {p : Str} {init q : List Str} {n : Str} (hp : splitC '/' p = init ++ [n])
    (h : Goes (view w r) maxDepth [] init (.found q)) (hd : (view w r).isDir q) :
    ∃ nd d, phys w r q = some nd ∧ w.node nd = .dir d ∧ nd < w.next ∧
      parentOf w r p = .ok (nd, n, d.has n) := by
  obtain ⟨nd, d, h1, h2⟩ := isDir_view hd
  refine ⟨nd, d, h1, h2, phys_lt hw hr h1, ?_⟩
  unfold parentOf
  rw [hp]
  simp only [List.dropLast_concat, getNode_goes hw hr h, outResult, h1, h2]
  simp

theorem parentOf_cases {p : Str} {init : List Str} {n : Str} (hp : splitC '/' p = init ++ [n]) :
    (∃ e, parentOf w r p = .error e) ∨
    ∃ q nd d, Goes (view w r) maxDepth [] init (.found q) ∧ (view w r).isDir q ∧
      phys w r q = some nd ∧ w.node nd = .dir d ∧ nd < w.next ∧ parentOf w r p = .ok (nd, n, d.has n) := by
  cases hg : getNode w r init with
  | error e => left; exact ⟨e, by unfold parentOf; rw [hp]; simp [hg]⟩
  | ok x =>
    cases x with
    | none => exact absurd hg (getNode_none hw hr)
    | some i =>
      obtain ⟨q, h1, h2⟩ := getNode_some hw hr hg
      by_cases hd : (view w r).isDir q
      · right
        obtain ⟨nd, d, a, b, c, e⟩ := parentOf_goes hw hr hp h1 hd
        exact ⟨q, nd, d, h1, hd, a, b, c, e⟩
      · left
        refine ⟨.attributeError, ?_⟩
        unfold parentOf
        rw [hp]
        simp only [List.dropLast_concat, hg]
        cases hn : w.node i with
        | dir d => exact absurd ((isDir_of_phys h2).2 ⟨d, hn⟩) hd
        | file f => rfl
        | link f => rfl

omit hw hr in
theorem has_view {q : List Str} {nd : Nat} {d : DirObj} {n : Str} (h1 : phys w r q = some nd)
    (h2 : w.node nd = .dir d) : d.has n = (view w r (q ++ [n])).isSome := by
  unfold DirObj.has view
  rw [phys_snoc, h1]
  simp [entries_dir h2]

/-- the error a failing lookup raises -/
def lookupError : Out → PyErr
  | .missing => .os .ENOENT
  | .dangling => .os .ENOENT
  | .badLink => .assertionError
  | _ => .attributeError

theorem parentOf_fail {p : Str} {init : List Str} {n : Str} {out : Out} (hp : splitC '/' p = init ++ [n])
    (h : Goes (view w r) maxDepth [] init out) (hd : ∀ q, out = .found q → ¬ (view w r).isDir q) :
    parentOf w r p = .error (lookupError out) := by
  unfold parentOf
  rw [hp]
  simp only [List.dropLast_concat, getNode_goes hw hr h]
  cases out with
  | found q =>
    obtain ⟨i, hi, -, -⟩ := Goes.phys hw hr h
    simp only [outResult, hi]
    cases hn : w.node i with
    | dir d => exact absurd ((isDir_of_phys hi).2 ⟨d, hn⟩) (hd q rfl)
    | file f => rfl
    | link f => rfl
  | missing => rfl
  | dangling => rfl
  | notDir => rfl
  | badLink => rfl

theorem parentOf_loop {p : Str} {init : List Str} {n : Str} (hp : splitC '/' p = init ++ [n])
    (h : ¬ ∃ out, Goes (view w r) maxDepth [] init out) : parentOf w r p = .error (.os .ELOOP) := by
  unfold parentOf
  rw [hp]
  simp only [List.dropLast_concat, getNode_loop hw hr h]

/-! ### mkdir and symlink -/

omit hw hr in
theorem mkdir_eq {u : Uri} {p : Str} (h1 : stripPath u = .ok p) (h2 : p ≠ []) :
    mkdir r u w = match parentOf w r p with
      | .error e => (.error e, w)
      | .ok (nd, name, taken) =>
        if taken then (.error (.os .EEXIST), w) else (do let i ← newDir; createChild nd name i : M Unit) w := by
  unfold mkdir
  simp only [bind_apply, lift_apply, query_apply, h1, ite_apply', if_pos h2]
  cases parentOf w r p with
  | error e => rfl
  | ok x => obtain ⟨nd, name, taken⟩ := x; cases taken <;> rfl

omit hw hr in
theorem symlink_eq {t u : Uri} {p : Str} (h1 : stripPath u = .ok p) (h2 : p ≠ []) :
    symlink r t u w = match parentOf w r p with
      | .error e => (.error e, w)
      | .ok (nd, name, taken) =>
        if taken then (.error (.os .EEXIST), w) else (do let i ← newLink t; createChild nd name i : M Unit) w := by
  unfold symlink
  simp only [bind_apply, lift_apply, query_apply, h1, ite_apply', if_pos h2]
  cases parentOf w r p with
  | error e => rfl
  | ok x => obtain ⟨nd, name, taken⟩ := x; cases taken <;> rfl

omit hw hr in
theorem mkdir_root {u : Uri} (h : stepsOf u = some []) : mkdir r u w = (.ok (), w) := by
  obtain ⟨p, h1, h2⟩ := stepsOf_strip h
  rcases h2 with ⟨rfl, -⟩ | ⟨-, h3⟩
  · simp [mkdir, bind_apply, h1]
  · exact absurd h3 splitC_ne_nil

omit hw hr in
theorem symlink_root {t u : Uri} (h : stepsOf u = some []) : symlink r t u w = (.ok (), w) := by
  obtain ⟨p, h1, h2⟩ := stepsOf_strip h
  rcases h2 with ⟨rfl, -⟩ | ⟨-, h3⟩
  · simp [symlink, bind_apply, h1]
  · exact absurd h3 splitC_ne_nil

omit hw hr in
theorem mkdir_bad {u : Uri} (h : stepsOf u = none) : mkdir r u w = (.error .assertionError, w) := by
  simp [mkdir, bind_apply, stepsOf_bad h]

omit hw hr in
theorem symlink_bad {t u : Uri} (h : stepsOf u = none) : symlink r t u w = (.error .assertionError, w) := by
  simp [symlink, bind_apply, stepsOf_bad h]

/-- the new directory -/
def World.freshDir (w : World) : Node := .dir ⟨[], w.clock w.tick, w.clock w.tick, 0⟩
/-- the new link -/
def World.freshLink (w : World) (t : Uri) : Node := .link ⟨t, w.clock w.tick, w.clock w.tick, 0⟩
/-- the new file -/
def World.freshFile (w : World) (p : Str) : Node :=
  .file ⟨[], 0, w.clock w.tick, w.clock w.tick, 0, p, (w.gen, p)⟩

theorem mkdir_new {u : Uri} {init q : List Str} {n : Str} (hs : stepsOf u = some (init ++ [n]))
    (h : Goes (view w r) maxDepth [] init (.found q)) (hd : (view w r).isDir q)
    (hn : view w r (q ++ [n]) = none) :
    ∃ nd d, phys w r q = some nd ∧ w.node nd = .dir d ∧ d.files.lookup n = none ∧
      mkdir r u w = (.ok (), w.addChild nd d n w.freshDir) := by
  obtain ⟨p, h1, h2, h3⟩ := stepsOf_snoc hs
  obtain ⟨nd, d, a, b, c, e⟩ := parentOf_goes hw hr h3 h hd
  have hl := lookup_none_of_view a b hn
  refine ⟨nd, d, a, b, hl, ?_⟩
  rw [mkdir_eq h1 h2, e]
  simp only [DirObj.has, hl, Option.isSome_none, Bool.false_eq_true, if_false]
  rw [bind_ok (newDir_eq w)]
  exact createChild_alloc b c

theorem symlink_new {t u : Uri} {init q : List Str} {n : Str} (hs : stepsOf u = some (init ++ [n]))
    (h : Goes (view w r) maxDepth [] init (.found q)) (hd : (view w r).isDir q)
    (hn : view w r (q ++ [n]) = none) :
    ∃ nd d, phys w r q = some nd ∧ w.node nd = .dir d ∧ d.files.lookup n = none ∧
      symlink r t u w = (.ok (), w.addChild nd d n (w.freshLink t)) := by
  obtain ⟨p, h1, h2, h3⟩ := stepsOf_snoc hs
  obtain ⟨nd, d, a, b, c, e⟩ := parentOf_goes hw hr h3 h hd
  have hl := lookup_none_of_view a b hn
  refine ⟨nd, d, a, b, hl, ?_⟩
  rw [symlink_eq h1 h2, e]
  simp only [DirObj.has, hl, Option.isSome_none, Bool.false_eq_true, if_false]
  rw [bind_ok (newLink_eq w t)]
  exact createChild_alloc b c

theorem create_taken {t u : Uri} {init q : List Str} {n : Str} {o : Obj} (hs : stepsOf u = some (init ++ [n]))
    (h : Goes (view w r) maxDepth [] init (.found q)) (hn : view w r (q ++ [n]) = some o) :
    mkdir r u w = (.error (.os .EEXIST), w) ∧ symlink r t u w = (.error (.os .EEXIST), w) := by
  obtain ⟨p, h1, h2, h3⟩ := stepsOf_snoc hs
  obtain ⟨nd, d, a, b, c, e⟩ := parentOf_goes hw hr h3 h (view_parent hn)
  have : d.has n = true := by rw [has_view a b, hn]; rfl
  rw [mkdir_eq h1 h2, symlink_eq h1 h2, e, this]
  exact ⟨rfl, rfl⟩

theorem create_fail {t u : Uri} {init : List Str} {n : Str} {out : Out} (hs : stepsOf u = some (init ++ [n]))
    (h : Goes (view w r) maxDepth [] init out) (hd : ∀ q, out = .found q → ¬ (view w r).isDir q) :
    mkdir r u w = (.error (lookupError out), w) ∧ symlink r t u w = (.error (lookupError out), w) := by
  obtain ⟨p, h1, h2, h3⟩ := stepsOf_snoc hs
  rw [mkdir_eq h1 h2, symlink_eq h1 h2, parentOf_fail hw hr h3 h hd]
  exact ⟨rfl, rfl⟩

theorem create_loop {t u : Uri} {init : List Str} {n : Str} (hs : stepsOf u = some (init ++ [n]))
    (h : ¬ ∃ out, Goes (view w r) maxDepth [] init out) :
    mkdir r u w = (.error (.os .ELOOP), w) ∧ symlink r t u w = (.error (.os .ELOOP), w) := by
  obtain ⟨p, h1, h2, h3⟩ := stepsOf_snoc hs
  rw [mkdir_eq h1 h2, symlink_eq h1 h2, parentOf_loop hw hr h3 h]
  exact ⟨rfl, rfl⟩

/-- Everything `mkdir` can do. -/
theorem mkdir_cases (u : Uri) :
    (∃ e, mkdir r u w = (.error e, w)) ∨ (stepsOf u = some [] ∧ mkdir r u w = (.ok (), w)) ∨
    ∃ init n q nd d, stepsOf u = some (init ++ [n]) ∧ Goes (view w r) maxDepth [] init (.found q) ∧
      phys w r q = some nd ∧ w.node nd = .dir d ∧ d.files.lookup n = none ∧
      mkdir r u w = (.ok (), w.addChild nd d n w.freshDir) := by
  rcases steps_cases u with ⟨h, -⟩ | ⟨h, -⟩ | ⟨init, n, p, h, h1, h2, h3⟩
  · exact .inl ⟨_, mkdir_bad h⟩
  · exact .inr (.inl ⟨h, mkdir_root h⟩)
  · by_cases hg : ∃ out, Goes (view w r) maxDepth [] init out
    · obtain ⟨out, ho⟩ := hg
      by_cases hf : ∃ q, out = .found q ∧ (view w r).isDir q
      · obtain ⟨q, rfl, hd⟩ := hf
        cases hn : view w r (q ++ [n]) with
        | some o => exact .inl ⟨_, (create_taken hw hr (t := u) h ho hn).1⟩
        | none =>
          obtain ⟨nd, d, a, b, c, e⟩ := mkdir_new hw hr h ho hd hn
          exact .inr (.inr ⟨init, n, q, nd, d, h, ho, a, b, c, e⟩)
      · exact .inl ⟨_, (create_fail hw hr (t := u) h ho (by rintro q rfl hd; exact hf ⟨q, rfl, hd⟩)).1⟩
    · exact .inl ⟨_, (create_loop hw hr (t := u) h hg).1⟩

theorem symlink_cases (t u : Uri) :
    (∃ e, symlink r t u w = (.error e, w)) ∨ (stepsOf u = some [] ∧ symlink r t u w = (.ok (), w)) ∨
    ∃ init n q nd d, stepsOf u = some (init ++ [n]) ∧ Goes (view w r) maxDepth [] init (.found q) ∧
      phys w r q = some nd ∧ w.node nd = .dir d ∧ d.files.lookup n = none ∧
      symlink r t u w = (.ok (), w.addChild nd d n (w.freshLink t)) := by
  rcases steps_cases u with ⟨h, -⟩ | ⟨h, -⟩ | ⟨init, n, p, h, h1, h2, h3⟩
  · exact .inl ⟨_, symlink_bad h⟩
  · exact .inr (.inl ⟨h, symlink_root h⟩)
  · by_cases hg : ∃ out, Goes (view w r) maxDepth [] init out
    · obtain ⟨out, ho⟩ := hg
      by_cases hf : ∃ q, out = .found q ∧ (view w r).isDir q
      · obtain ⟨q, rfl, hd⟩ := hf
        cases hn : view w r (q ++ [n]) with
        | some o => exact .inl ⟨_, (create_taken hw hr (t := t) h ho hn).2⟩
        | none =>
          obtain ⟨nd, d, a, b, c, e⟩ := symlink_new hw hr (t := t) h ho hd hn
          exact .inr (.inr ⟨init, n, q, nd, d, h, ho, a, b, c, e⟩)
      · exact .inl ⟨_, (create_fail hw hr (t := t) h ho (by rintro q rfl hd; exact hf ⟨q, rfl, hd⟩)).2⟩
    · exact .inl ⟨_, (create_loop hw hr (t := t) h hg).2⟩

/-! ### The child found through a link -/

theorem child_goes {init q : List Str} {n : Str} {out : Out} {i j : Nat} {d : DirObj}
    (h : Goes (view w r) maxDepth [] init (.found q)) (hi : phys w r q = some i) (hd : w.node i = .dir d)
    (hj : d.files.lookup n = some j) (h' : Goes (view w r) maxDepth [] (init ++ [n]) out) :
    child w (resolveLink w r true 32) i n true = outResult w r true out := by
  have h1 := prevLoop_goes (throw := true) (isDir_root hw hr) h' r n none rfl
  obtain ⟨p, i', hi', hp⟩ := prevLoop_found hw hr (throw := true) (last := n) h
  rw [hi] at hi'
  simp only [Option.some.injEq] at hi'
  subst hi'
  rw [maxDepth, prevLoop_snoc _ _ _ (by intro _; simp), hp] at h1
  simp only at h1
  rw [prevLoop_cons_dir hd] at h1
  simp only [DirObj.has, hj, Option.isSome_some, if_true, ite_self] at h1
  rw [← h1]
  cases child w (resolveLink w r true 32) i n true <;> rfl

theorem child_loop {init q : List Str} {n : Str} {i j : Nat} {d : DirObj}
    (h : Goes (view w r) maxDepth [] init (.found q)) (hi : phys w r q = some i) (hd : w.node i = .dir d)
    (hj : d.files.lookup n = some j) (h' : ¬ ∃ out, Goes (view w r) maxDepth [] (init ++ [n]) out) :
    child w (resolveLink w r true 32) i n true = .error (.os .ELOOP) := by
  have h1 : prevLoop w (resolveLink w r true 32) true true n (init ++ [n]) none (some r) = .error (.os .ELOOP) := by
    rcases prevLoop_total (throw := true) (isDir_root hw hr) maxDepth (init ++ [n]) [] r n none rfl with h2 | h2
    · exact absurd h2 h'
    · exact h2
  obtain ⟨p, i', hi', hp⟩ := prevLoop_found hw hr (throw := true) (last := n) h
  rw [hi] at hi'
  simp only [Option.some.injEq] at hi'
  subst hi'
  rw [prevLoop_snoc _ _ _ (by intro _; simp), hp] at h1
  simp only at h1
  rw [prevLoop_cons_dir hd] at h1
  simp only [DirObj.has, hj, Option.isSome_some, if_true, ite_self] at h1
  cases hc : child w (resolveLink w r true 32) i n true with
  | error e => rw [hc] at h1; simpa using h1
  | ok x => rw [hc] at h1; simp [prevLoop] at h1

end

end Verif.Mem
