import Verif.Mem.MLemmas
import Verif.Spec.Namespace
import Mathlib.Data.List.Induction
/-!
# The heap invariant and how elementary heap changes act on the abstract file system
-/
namespace Verif.Mem
open M Spec

/-- the directory entries of an object -/
def World.entries (w : World) (i : Nat) : List (Str × Nat) :=
  match w.node i with
  | .dir d => d.files
  | _ => []

/-- The heap is a forest: directory entries have distinct names and point to younger objects, every object
    has at most one entry pointing to it, and the roots of the file systems have none. -/
structure Inv (w : World) : Prop where
  fresh : ∀ i, w.next ≤ i → w.node i = .dir ⟨[], 0, 0, 0⟩
  nodup : ∀ i, ((w.entries i).map Prod.fst).Nodup
  child : ∀ i n c, (n, c) ∈ w.entries i → i < c ∧ c < w.next
  uniq : ∀ i n j m c, (n, c) ∈ w.entries i → (m, c) ∈ w.entries j → i = j ∧ n = m
  root : ∀ k r, (k, r) ∈ w.conns → r < w.next ∧ w.isDir r = true ∧ ∀ i n, (n, r) ∉ w.entries i
  roots : (w.conns.map Prod.snd).Nodup

/-- `r` is the root of a file system -/
def IsRoot (w : World) (r : Nat) : Prop := ∃ k, (k, r) ∈ w.conns

theorem isDir_iff {w : World} {i : Nat} : w.isDir i = true ↔ ∃ d, w.node i = .dir d := by
  unfold World.isDir; split <;> simp_all

theorem entries_dir {w : World} {i : Nat} {d : DirObj} (h : w.node i = .dir d) : w.entries i = d.files := by
  simp [World.entries, h]

theorem lookup_mem {l : List (Str × Nat)} {n : Str} {c : Nat} (h : l.lookup n = some c) : (n, c) ∈ l := by
  induction l with
  | nil => simp at h
  | cons x l ih =>
    obtain ⟨m, d⟩ := x
    rw [List.lookup_cons] at h
    by_cases hn : n = m
    · subst hn; simp at h; subst h; simp
    · have : (n == m) = false := by simpa using hn
      rw [this] at h
      exact List.mem_cons_of_mem _ (ih h)

theorem mem_lookup {l : List (Str × Nat)} {n : Str} {c : Nat} (hd : (l.map Prod.fst).Nodup)
    (h : (n, c) ∈ l) : l.lookup n = some c := by
  induction l with
  | nil => simp at h
  | cons x l ih =>
    obtain ⟨m, d⟩ := x
    simp only [List.map_cons, List.nodup_cons] at hd
    rw [List.lookup_cons]
    rcases List.mem_cons.1 h with h | h
    · obtain ⟨rfl, rfl⟩ := Prod.mk.inj h; simp
    · have : n ≠ m := by
        intro e; exact hd.1 (e ▸ List.mem_map.2 ⟨(n, c), h, rfl⟩)
      have : (n == m) = false := by simpa using this
      rw [this]; exact ih hd.2 h

theorem lookup_none {l : List (Str × Nat)} {n : Str} : l.lookup n = none ↔ ∀ c, (n, c) ∉ l := by
  induction l with
  | nil => simp
  | cons x l ih =>
    obtain ⟨m, d⟩ := x
    rw [List.lookup_cons]
    by_cases hn : n = m
    · subst hn; simp only [beq_self_eq_true]; simp; exact ⟨d, by simp⟩
    · have : (n == m) = false := by simpa using hn
      rw [this]; simp only [ih]; simp [hn]

/-- following entries in one step -/
theorem phys_cons {w : World} {i : Nat} {n : Str} {q : List Str} :
    phys w i (n :: q) = ((w.entries i).lookup n).bind fun c => phys w c q := by
  simp only [phys, World.entries]
  cases h : w.node i with
  | dir d => simp only; cases d.files.lookup n <;> rfl
  | file f => rfl
  | link l => rfl

theorem phys_append {w : World} {i : Nat} {p q : List Str} :
    phys w i (p ++ q) = (phys w i p).bind fun c => phys w c q := by
  induction p generalizing i with
  | nil => rfl
  | cons n p ih =>
    rw [List.cons_append, phys_cons, phys_cons]
    cases (w.entries i).lookup n with
    | none => rfl
    | some c => simp [ih]

theorem phys_snoc {w : World} {i : Nat} {p : List Str} {n : Str} :
    phys w i (p ++ [n]) = (phys w i p).bind fun c => (w.entries c).lookup n := by
  rw [phys_append]
  congr 1
  funext c
  rw [phys_cons]
  cases (w.entries c).lookup n <;> rfl

theorem phys_ge {w : World} (hw : Inv w) {i c : Nat} {q : List Str} (h : phys w i q = some c) :
    i ≤ c ∧ (q ≠ [] → i < c ∧ c < w.next) := by
  induction q generalizing i with
  | nil => simp [phys] at h; simp [h]
  | cons n q ih =>
    rw [phys_cons] at h
    cases hl : (w.entries i).lookup n with
    | none => rw [hl] at h; simp at h
    | some d =>
      rw [hl] at h
      simp only [Option.bind_some] at h
      have h1 := hw.child i n d (lookup_mem hl)
      have h2 := ih h
      refine ⟨by omega, fun _ => ⟨by omega, ?_⟩⟩
      cases q with
      | nil => simp [phys] at h; omega
      | cons m q => exact (h2.2 (by simp)).2

theorem phys_lt {w : World} (hw : Inv w) {r c : Nat} {q : List Str} (hr : IsRoot w r)
    (h : phys w r q = some c) : c < w.next := by
  cases q with
  | nil => simp [phys] at h; obtain ⟨k, hk⟩ := hr; rw [← h]; exact (hw.root k r hk).1
  | cons n q => exact ((phys_ge hw h).2 (by simp)).2

/-- An object has at most one location. -/
theorem phys_inj {w : World} (hw : Inv w) {r r' c : Nat} {q q' : List Str} (hr : IsRoot w r)
    (hr' : IsRoot w r') (h : phys w r q = some c) (h' : phys w r' q' = some c) : r = r' ∧ q = q' := by
  obtain ⟨k, hk⟩ := hr
  obtain ⟨k', hk'⟩ := hr'
  induction q using List.reverseRecOn generalizing q' c with
  | nil =>
    simp [phys] at h
    subst h
    rcases List.eq_nil_or_concat q' with rfl | ⟨p', n', rfl⟩
    · simp [phys] at h'; exact ⟨h'.symm, rfl⟩
    · exfalso
      rw [List.concat_eq_append, phys_snoc] at h'
      cases hp : phys w r' p' with
      | none => rw [hp] at h'; simp at h'
      | some e =>
        rw [hp] at h'
        exact (hw.root k r hk).2.2 e n' (lookup_mem h')
  | append_singleton p n ih =>
    rw [phys_snoc] at h
    cases hp : phys w r p with
    | none => rw [hp] at h; simp at h
    | some e =>
      rw [hp] at h
      simp only [Option.bind_some] at h
      rcases List.eq_nil_or_concat q' with rfl | ⟨p', n', rfl⟩
      · exfalso
        simp [phys] at h'
        subst h'
        exact (hw.root k' _ hk').2.2 e n (lookup_mem h)
      · rw [List.concat_eq_append, phys_snoc] at h'
        cases hp' : phys w r' p' with
        | none => rw [hp'] at h'; simp at h'
        | some e' =>
          rw [hp'] at h'
          simp only [Option.bind_some] at h'
          obtain ⟨rfl, rfl⟩ := hw.uniq e n e' n' c (lookup_mem h) (lookup_mem h')
          obtain ⟨h1, rfl⟩ := ih hp hp'
          exact ⟨h1, by simp⟩

/-! ## View -/

theorem view_some {w : World} {r : Nat} {q : List Str} {o : Obj} (h : view w r q = some o) :
    ∃ i, phys w r q = some i ∧ objOf (w.node i) = o := by
  simpa [view] using h

theorem view_of_phys {w : World} {r i : Nat} {q : List Str} (h : phys w r q = some i) :
    view w r q = some (objOf (w.node i)) := by simp [view, h]

theorem view_none {w : World} {r : Nat} {q : List Str} : view w r q = none ↔ phys w r q = none := by
  simp [view]

theorem view_snoc_none {w : World} {r : Nat} {q : List Str} {n : Str} {c : Nat} (h : phys w r q = some c) :
    view w r (q ++ [n]) = none ↔ (w.entries c).lookup n = none := by
  rw [view_none, phys_snoc, h]; rfl

theorem isDir_of_phys {w : World} {r i : Nat} {q : List Str} (h : phys w r q = some i) :
    (view w r).isDir q ↔ ∃ d, w.node i = .dir d := by
  unfold NS.isDir
  rw [view_of_phys h]
  cases w.node i <;> simp [objOf]

theorem isDir_view {w : World} {r : Nat} {q : List Str} (h : (view w r).isDir q) :
    ∃ i d, phys w r q = some i ∧ w.node i = .dir d := by
  obtain ⟨m, t, h⟩ := h
  obtain ⟨i, h1, h2⟩ := view_some h
  cases hn : w.node i with
  | dir d => exact ⟨i, d, h1, hn⟩
  | file f => rw [hn] at h2; simp [objOf] at h2
  | link f => rw [hn] at h2; simp [objOf] at h2

theorem isFile_view {w : World} {r : Nat} {q : List Str} (h : (view w r).isFile q) :
    ∃ i f, phys w r q = some i ∧ w.node i = .file f := by
  obtain ⟨b, m, t, h⟩ := h
  obtain ⟨i, h1, h2⟩ := view_some h
  cases hn : w.node i with
  | file d => exact ⟨i, d, h1, hn⟩
  | dir f => rw [hn] at h2; simp [objOf] at h2
  | link f => rw [hn] at h2; simp [objOf] at h2

/-- the parent of an existing location is a directory -/
theorem view_parent {w : World} {r : Nat} {q : List Str} {n : Str} {o : Obj}
    (h : view w r (q ++ [n]) = some o) : (view w r).isDir q := by
  obtain ⟨i, h1, -⟩ := view_some h
  rw [phys_snoc] at h1
  cases hp : phys w r q with
  | none => rw [hp] at h1; simp at h1
  | some c =>
    rw [hp] at h1
    simp only [Option.bind_some] at h1
    rw [isDir_of_phys hp]
    unfold World.entries at h1
    cases hn : w.node c with
    | dir d => exact ⟨d, rfl⟩
    | file f => rw [hn] at h1; simp at h1
    | link f => rw [hn] at h1; simp at h1

/-! ## Elementary changes -/

/-- Changing an object without changing directory entries. -/
theorem phys_congr {w w' : World} (h : ∀ i, w'.entries i = w.entries i) (i : Nat) (q : List Str) :
    phys w' i q = phys w i q := by
  induction q generalizing i with
  | nil => rfl
  | cons n q ih =>
    rw [phys_cons, phys_cons, h]
    cases (w.entries i).lookup n with
    | none => rfl
    | some c => simp [ih]

/-- `n'` differs from `n` in attributes or file content only -/
def SameShape : Node → Node → Prop
  | .file _, .file _ => True
  | .dir d, .dir d' => d'.files = d.files
  | .link _, .link _ => True
  | _, _ => False

theorem entries_setNode {w : World} {i : Nat} {n : Node} (h : SameShape (w.node i) n) (j : Nat) :
    (w.setNode i n).entries j = w.entries j := by
  simp only [World.entries, World.setNode]
  split
  · rename_i d hd
    split at hd
    · rename_i hji
      subst hji
      subst hd
      cases hn : w.node j with
      | dir d' => rw [hn] at h; simpa [SameShape] using h
      | file f => rw [hn] at h; simp [SameShape] at h
      | link f => rw [hn] at h; simp [SameShape] at h
    · simp [hd]
  · rename_i hd
    split at hd
    · rename_i hji
      subst hji
      cases hn : w.node j with
      | dir d' =>
        rw [hn] at h
        cases n with
        | dir e => exact absurd rfl (hd e)
        | file f => simp [SameShape] at h
        | link f => simp [SameShape] at h
      | file f => rfl
      | link f => rfl
    · split
      · rename_i d hd'; exact absurd hd' (hd d)
      · rfl

theorem isDir_setNode {w : World} {i : Nat} {n : Node} (h : SameShape (w.node i) n) (j : Nat) :
    (w.setNode i n).isDir j = w.isDir j := by
  simp only [World.isDir, World.setNode]
  by_cases hji : j = i
  · subst hji
    simp only [if_true]
    revert h
    cases w.node j <;> cases n <;> simp [SameShape]
  · simp [hji]

theorem Inv.setNode {w : World} (hw : Inv w) {i : Nat} {n : Node} (h : SameShape (w.node i) n)
    (hi : i < w.next) : Inv (w.setNode i n) := by
  have he := entries_setNode h
  refine ⟨?_, ?_, ?_, ?_, ?_, hw.roots⟩
  · intro j hj
    have : j ≠ i := by have : w.next ≤ j := hj; omega
    simp only [World.setNode, if_neg this]
    exact hw.fresh j hj
  · intro j; rw [he]; exact hw.nodup j
  · intro j m c hc; rw [he] at hc; exact hw.child j m c hc
  · intro j m k l c hc hc'; rw [he] at hc hc'; exact hw.uniq j m k l c hc hc'
  · intro k r hk
    obtain ⟨h1, h2, h3⟩ := hw.root k r hk
    refine ⟨h1, by rw [isDir_setNode h]; exact h2, ?_⟩
    intro j m hm; rw [he] at hm; exact h3 j m hm

theorem view_setNode {w : World} {i : Nat} {n : Node} (h : SameShape (w.node i) n) (r : Nat)
    (q : List Str) : view (w.setNode i n) r q = if phys w r q = some i then some (objOf n) else view w r q := by
  have hp := phys_congr (entries_setNode h) r q
  unfold view
  rw [hp]
  cases hq : phys w r q with
  | none => simp
  | some j =>
    by_cases hj : j = i
    · subst hj; simp [World.setNode]
    · simp [World.setNode, hj]

/-- a file object may be changed at will, wherever it is -/
theorem Inv.setFile {w : World} (hw : Inv w) {i : Nat} {f f' : FileObj} (h : w.node i = .file f) :
    Inv (w.setNode i (.file f')) := by
  apply hw.setNode
  · rw [h]; trivial
  · by_contra hi
    have := hw.fresh i (by omega)
    rw [h] at this; simp at this

/-- Only the heap and the connection table matter to the invariant. -/
theorem Inv.congr {w w' : World} (hw : Inv w) (h1 : w'.node = w.node) (h2 : w'.next = w.next)
    (h3 : w'.conns = w.conns) : Inv w' := by
  obtain ⟨a, b, c, d, e, f⟩ := hw
  have he : w'.entries = w.entries := by funext i; simp [World.entries, h1]
  have hd : w'.isDir = w.isDir := by funext i; simp [World.isDir, h1]
  exact ⟨by rw [h2, h1]; exact a, by rw [he]; exact b, by rw [he, h2]; exact c, by rw [he]; exact d,
    by rw [he, h2, h3, hd]; exact e, by rw [h3]; exact f⟩

theorem view_congr {w w' : World} (h1 : w'.node = w.node) (r : Nat) : view w' r = view w r := by
  have he : ∀ i, w'.entries i = w.entries i := by intro i; simp [World.entries, h1]
  funext q
  simp [view, phys_congr he, h1]

/-! ## Adding a child -/

/-- an object without directory entries -/
def Leaf : Node → Prop
  | .dir d => d.files = []
  | _ => True

/-- A new object is created and entered into directory `nd` (object `d`). -/
def World.addChild (w : World) (nd : Nat) (d : DirObj) (name : Str) (n : Node) : World :=
  { w with
    node := fun j => if j = nd then .dir (d.create name w.next) else if j = w.next then n else w.node j,
    next := w.next + 1, tick := w.tick + 1 }

theorem setEntry_new {l : List (Str × Nat)} {n : Str} {i : Nat} (h : l.lookup n = none) :
    setEntry l n i = l ++ [(n, i)] := by
  induction l with
  | nil => rfl
  | cons x l ih =>
    obtain ⟨m, c⟩ := x
    rw [List.lookup_cons] at h
    by_cases hn : n = m
    · subst hn; simp at h
    · have : (n == m) = false := by simpa using hn
      rw [this] at h
      simp only [setEntry]
      rw [if_neg (fun e => hn e.symm), ih h]; rfl

theorem entries_addChild {w : World} (hw : Inv w) {nd : Nat} {d : DirObj} {name : Str} {n : Node}
    (hd : w.node nd = .dir d) (hn : d.files.lookup name = none) (hl : Leaf n) (hnd : nd < w.next) (j : Nat) :
    (w.addChild nd d name n).entries j = if j = nd then w.entries nd ++ [(name, w.next)] else w.entries j := by
  by_cases h1 : j = nd
  · subst h1
    simp [World.entries, World.addChild, hd, DirObj.create, setEntry_new hn]
  · by_cases h2 : j = w.next
    · subst h2
      have : w.entries w.next = [] := by simp [World.entries, hw.fresh w.next (Nat.le_refl _)]
      rw [if_neg h1, this]
      simp only [World.entries, World.addChild, if_neg h1, if_true]
      cases n with
      | dir e => simpa [Leaf] using hl
      | file f => rfl
      | link f => rfl
    · simp [World.entries, World.addChild, h1, h2]

theorem Inv.addChild {w : World} (hw : Inv w) {nd : Nat} {d : DirObj} {name : Str} {n : Node}
    (hd : w.node nd = .dir d) (hn : d.files.lookup name = none) (hl : Leaf n) (hnd : nd < w.next) :
    Inv (w.addChild nd d name n) := by
  have he := entries_addChild hw hd hn hl hnd
  have hmem : ∀ i m c, (m, c) ∈ (w.addChild nd d name n).entries i →
      (m, c) ∈ w.entries i ∨ (i = nd ∧ m = name ∧ c = w.next) := by
    intro i m c h
    rw [he] at h
    split at h
    · rename_i hi
      subst hi
      simp at h
      rcases h with h | h
      · exact .inl h
      · exact .inr ⟨rfl, h⟩
    · exact .inl h
  have hnew : ∀ i m, (m, w.next) ∉ w.entries i := by
    intro i m h; have := (hw.child i m _ h).2; omega
  refine ⟨?_, ?_, ?_, ?_, ?_, hw.roots⟩
  · intro i hi
    have hi' : w.next + 1 ≤ i := hi
    have h1 : i ≠ nd := by omega
    have h2 : i ≠ w.next := by omega
    simp only [World.addChild, if_neg h1, if_neg h2]
    exact hw.fresh i (by omega)
  · intro i
    rw [he]
    split
    · rw [List.map_append, List.nodup_append]
      refine ⟨hw.nodup nd, by simp, ?_⟩
      intro a ha b hb
      simp only [List.map_cons, List.map_nil, List.mem_singleton] at hb
      subst hb
      rintro rfl
      rw [List.mem_map] at ha
      obtain ⟨⟨m, c⟩, hm, rfl⟩ := ha
      rw [entries_dir hd] at hm
      exact lookup_none.1 hn c hm
    · exact hw.nodup i
  · intro i m c h
    show i < c ∧ c < w.next + 1
    rcases hmem i m c h with h | ⟨rfl, rfl, rfl⟩
    · have := hw.child i m c h; omega
    · omega
  · intro i m j k c h h'
    rcases hmem i m c h with h1 | ⟨e1, e2, e3⟩
    · rcases hmem j k c h' with h2 | ⟨f1, f2, f3⟩
      · exact hw.uniq i m j k c h1 h2
      · rw [f3] at h1; exact absurd h1 (hnew i m)
    · rcases hmem j k c h' with h2 | ⟨f1, f2, -⟩
      · rw [e3] at h2; exact absurd h2 (hnew j k)
      · exact ⟨e1.trans f1.symm, e2.trans f2.symm⟩
  · intro k r hk
    obtain ⟨h1, h2, h3⟩ := hw.root k r hk
    refine ⟨?_, ?_, ?_⟩
    · show r < w.next + 1; omega
    · obtain ⟨e, he'⟩ := isDir_iff.1 h2
      rw [isDir_iff]
      by_cases hr : r = nd
      · exact ⟨d.create name w.next, by simp [World.addChild, hr]⟩
      · exact ⟨e, by simp [World.addChild, hr, he', Nat.ne_of_lt h1]⟩
    · intro i m hm
      rcases hmem i m r hm with h | ⟨rfl, rfl, rfl⟩
      · exact h3 i m h
      · omega

theorem phys_new {w : World} (hw : Inv w) {q : List Str} : phys w w.next q = if q = [] then some w.next else none := by
  cases q with
  | nil => rfl
  | cons m q => rw [phys_cons]; simp [World.entries, hw.fresh w.next (Nat.le_refl _)]

theorem phys_addChild {w : World} (hw : Inv w) {r nd : Nat} {d : DirObj} {name : Str} {n : Node} {q : List Str}
    (hr : IsRoot w r) (hq : phys w r q = some nd)
    (hd : w.node nd = .dir d) (hn : d.files.lookup name = none) (hl : Leaf n) (r' : Nat) (hr' : IsRoot w r')
    (p : List Str) :
    phys (w.addChild nd d name n) r' p =
      if r' = r ∧ p = q ++ [name] then some w.next else phys w r' p := by
  have hnd := phys_lt hw hr hq
  have he := entries_addChild hw hd hn hl hnd
  have hw' := hw.addChild hd hn hl hnd
  have hnx : w.next ≠ nd := by omega
  induction p using List.reverseRecOn with
  | nil => simp [phys]
  | append_singleton p m ih =>
    rw [phys_snoc, phys_snoc, ih]
    by_cases hc : r' = r ∧ p = q ++ [name]
    · rw [if_pos hc]
      obtain ⟨rfl, rfl⟩ := hc
      have h1 : ¬ (r' = r' ∧ q ++ [name] ++ [m] = q ++ [name]) := by
        rintro ⟨-, h⟩; have := congrArg List.length h; simp at this
      rw [if_neg h1]
      have h2 : phys w r' (q ++ [name]) = none := by
        rw [phys_snoc, hq]; simp [entries_dir hd, hn]
      rw [h2]
      simp only [Option.bind_some, he, if_neg hnx]
      simp [World.entries, hw.fresh w.next (Nat.le_refl _)]
    · rw [if_neg hc]
      cases hp : phys w r' p with
      | none =>
        simp only [Option.bind_none]
        have : ¬ (r' = r ∧ p ++ [m] = q ++ [name]) := by
          rintro ⟨rfl, h⟩
          obtain ⟨rfl, -⟩ := List.append_inj' h rfl
          rw [hq] at hp; simp at hp
        rw [if_neg this]
      | some c =>
        simp only [Option.bind_some, he]
        by_cases hcn : c = nd
        · subst hcn
          obtain ⟨rfl, rfl⟩ := phys_inj hw hr' hr hp hq
          rw [if_pos rfl, entries_dir hd]
          by_cases hmn : m = name
          · subst hmn
            simp only [and_self, if_true]
            rw [← setEntry_new hn]
            clear he
            rw [setEntry_new hn]
            rw [List.lookup_append, hn]; simp
          · have : ¬ (r' = r' ∧ p ++ [m] = p ++ [name]) := by simp [hmn]
            rw [if_neg this, List.lookup_append]
            have : (m == name) = false := by simpa using hmn
            simp [List.lookup_cons, this]
        · rw [if_neg hcn]
          have : ¬ (r' = r ∧ p ++ [m] = q ++ [name]) := by
            rintro ⟨rfl, h⟩
            obtain ⟨rfl, -⟩ := List.append_inj' h rfl
            rw [hq] at hp; simp at hp; exact hcn hp.symm
          rw [if_neg this]

theorem IsRoot.addChild {w : World} {r nd : Nat} {d : DirObj} {name : Str} {n : Node} :
    IsRoot (w.addChild nd d name n) r ↔ IsRoot w r := Iff.rfl

theorem view_addChild {w : World} (hw : Inv w) {r nd : Nat} {d : DirObj} {name : Str} {n : Node} {q : List Str}
    (hr : IsRoot w r) (hq : phys w r q = some nd)
    (hd : w.node nd = .dir d) (hn : d.files.lookup name = none) (hl : Leaf n) :
    view (w.addChild nd d name n) r = (view w r).set (q ++ [name]) (objOf n) ∧
    ∀ r', IsRoot w r' → r' ≠ r → view (w.addChild nd d name n) r' = view w r' := by
  have hnd := phys_lt hw hr hq
  have hnx : w.next ≠ nd := by omega
  have key : ∀ c, c < w.next → objOf ((w.addChild nd d name n).node c) = objOf (w.node c) := by
    intro c hc
    simp only [World.addChild]
    by_cases h1 : c = nd
    · subst h1; simp [hd, objOf, DirObj.create]
    · simp [h1, Nat.ne_of_lt hc]
  constructor
  · funext p
    unfold view NS.set
    rw [phys_addChild hw hr hq hd hn hl r hr]
    by_cases hp : p = q ++ [name]
    · simp only [hp, and_self, if_true, Option.map_some]
      simp [World.addChild, hnx]
    · simp only [hp, and_false, if_false]
      cases hp' : phys w r p with
      | none => rfl
      | some c => simp [key c (phys_lt hw hr hp')]
  · intro r' hr' hne
    funext p
    unfold view
    rw [phys_addChild hw hr hq hd hn hl r' hr']
    simp only [hne, false_and, if_false]
    cases hp' : phys w r' p with
    | none => rfl
    | some c => simp [key c (phys_lt hw hr' hp')]

/-! ## Removing an entry -/

/-- The entry `name` of directory `nd` (object `d`) is deleted. -/
def World.delEntry (w : World) (nd : Nat) (d : DirObj) (name : Str) : World :=
  w.setNode nd (.dir (d.remove name))

theorem entries_delEntry {w : World} {nd : Nat} {d : DirObj} {name : Str} (hd : w.node nd = .dir d) (j : Nat) :
    (w.delEntry nd d name).entries j =
      if j = nd then (w.entries nd).filter (fun e => e.1 ≠ name) else w.entries j := by
  by_cases h1 : j = nd
  · subst h1; simp [World.entries, World.delEntry, World.setNode, hd, DirObj.remove]
  · simp [World.entries, World.delEntry, World.setNode, h1]

theorem Inv.delEntry {w : World} (hw : Inv w) {nd : Nat} {d : DirObj} {name : Str}
    (hd : w.node nd = .dir d) (hnd : nd < w.next) : Inv (w.delEntry nd d name) := by
  have he := entries_delEntry (name := name) hd
  have hmem : ∀ i m c, (m, c) ∈ (w.delEntry nd d name).entries i → (m, c) ∈ w.entries i := by
    intro i m c h
    rw [he] at h
    split at h
    · rename_i hi; subst hi; exact (List.mem_filter.1 h).1
    · exact h
  refine ⟨?_, ?_, ?_, ?_, ?_, hw.roots⟩
  · intro i hi
    have hi' : w.next ≤ i := hi
    have h1 : i ≠ nd := by omega
    simp only [World.delEntry, World.setNode, if_neg h1]
    exact hw.fresh i hi'
  · intro i
    rw [he]
    split
    · exact (hw.nodup nd).sublist (List.Sublist.map _ List.filter_sublist)
    · exact hw.nodup i
  · intro i m c h; exact hw.child i m c (hmem i m c h)
  · intro i m j k c h h'; exact hw.uniq i m j k c (hmem i m c h) (hmem j k c h')
  · intro k r hk
    obtain ⟨h1, h2, h3⟩ := hw.root k r hk
    refine ⟨h1, ?_, fun i m hm => h3 i m (hmem i m r hm)⟩
    obtain ⟨e, he'⟩ := isDir_iff.1 h2
    rw [isDir_iff]
    by_cases hr : r = nd
    · exact ⟨d.remove name, by simp [World.delEntry, World.setNode, hr]⟩
    · exact ⟨e, by simp [World.delEntry, World.setNode, hr, he']⟩

theorem lookup_filter {l : List (Str × Nat)} {n m : Str} :
    (l.filter fun e => e.1 ≠ n).lookup m = if m = n then none else l.lookup m := by
  induction l with
  | nil => simp
  | cons x l ih =>
    obtain ⟨k, c⟩ := x
    by_cases hk : k = n
    · subst hk
      simp only [ne_eq, not_true, decide_false, Bool.false_eq_true, not_false_eq_true, List.filter_cons_of_neg]
      rw [ih, List.lookup_cons]
      by_cases hm : m = k
      · simp [hm]
      · have : (m == k) = false := by simpa using hm
        simp [this]
    · rw [List.filter_cons_of_pos (by simpa using hk), List.lookup_cons, List.lookup_cons, ih]
      by_cases hm : m = k
      · subst hm; simp [hk]
      · have : (m == k) = false := by simpa using hm
        simp [this]

theorem phys_delEntry {w : World} (hw : Inv w) {r nd : Nat} {d : DirObj} {name : Str} {q : List Str}
    (hr : IsRoot w r) (hq : phys w r q = some nd) (hd : w.node nd = .dir d) (r' : Nat) (hr' : IsRoot w r')
    (p : List Str) :
    phys (w.delEntry nd d name) r' p = if r' = r ∧ q ++ [name] <+: p then none else phys w r' p := by
  have he := entries_delEntry (name := name) hd
  induction p using List.reverseRecOn with
  | nil => simp [phys]
  | append_singleton p m ih =>
    rw [phys_snoc, phys_snoc, ih]
    by_cases hc : r' = r ∧ q ++ [name] <+: p
    · have h1 : r' = r ∧ q ++ [name] <+: p ++ [m] := ⟨hc.1, hc.2.trans (List.prefix_append _ _)⟩
      rw [if_pos hc, if_pos h1]; rfl
    · rw [if_neg hc]
      have hcase : (r' = r ∧ q ++ [name] <+: p ++ [m]) ↔ (r' = r ∧ p = q ∧ m = name) := by
        constructor
        · rintro ⟨h1, h2⟩
          refine ⟨h1, ?_⟩
          rcases List.prefix_concat_iff.1 h2 with h | h
          · obtain ⟨rfl, h3⟩ := List.append_inj' h rfl
            exact ⟨rfl, by simpa using h3.symm⟩
          · exact absurd ⟨h1, h⟩ hc
        · rintro ⟨rfl, rfl, rfl⟩; exact ⟨rfl, List.prefix_refl _⟩
      cases hp : phys w r' p with
      | none => simp
      | some c =>
        simp only [Option.bind_some, he]
        by_cases hcn : c = nd
        · subst hcn
          obtain ⟨rfl, rfl⟩ := phys_inj hw hr' hr hp hq
          rw [if_pos rfl, lookup_filter]
          by_cases hm : m = name
          · rw [if_pos hm, if_pos (hcase.2 ⟨rfl, rfl, hm⟩)]
          · rw [if_neg hm, if_neg (fun h => hm (hcase.1 h).2.2)]
        · rw [if_neg hcn, if_neg]
          rw [hcase]
          rintro ⟨rfl, rfl, -⟩
          rw [hq] at hp; simp at hp; exact hcn hp.symm

theorem view_delEntry {w : World} (hw : Inv w) {r nd : Nat} {d : DirObj} {name : Str} {q : List Str}
    (hr : IsRoot w r) (hq : phys w r q = some nd) (hd : w.node nd = .dir d) :
    view (w.delEntry nd d name) r = (view w r).del (q ++ [name]) ∧
    ∀ r', IsRoot w r' → r' ≠ r → view (w.delEntry nd d name) r' = view w r' := by
  have key : ∀ c, objOf ((w.delEntry nd d name).node c) = objOf (w.node c) := by
    intro c
    simp only [World.delEntry, World.setNode]
    by_cases h1 : c = nd
    · subst h1; simp [hd, objOf, DirObj.remove]
    · simp [h1]
  constructor
  · funext p
    unfold view NS.del
    rw [phys_delEntry hw hr hq hd r hr]
    by_cases hp : q ++ [name] <+: p
    · simp [hp]
    · simp [hp, key]
  · intro r' hr' hne
    funext p
    unfold view
    rw [phys_delEntry hw hr hq hd r' hr']
    simp [hne, key]

end Verif.Mem
