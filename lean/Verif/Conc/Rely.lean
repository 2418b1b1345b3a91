import Verif.Conc.Put
import Verif.Conc.Pool
/-!
# Reasoning about one thread among others

Ghost state: the place every object has been given.  `Rely L T s s'`: between `s` and `s'` only places in `T` have been touched (nothing
is said about places if links are allowed, `L`).  `Wp`: whatever the others do, a program makes only such steps itself, and ends
as stated.
-/
namespace Verif.Conc
open Mem Mem.M Spec Prog

/-- a file system and a location in it -/
abbrev Loc := Nat × List Str

/-- the entry `n` of the directory at `l` -/
def Loc.snoc (l : Loc) (n : Str) : Loc := (l.1, l.2 ++ [n])

/-- the state with the place of every object -/
structure Sit where
  w : World
  at_ : Nat → Loc

open Classical in
/-- new objects get their place from the entry they are stored in -/
noncomputable def places (w w' : World) (l : Nat → Loc) : Nat → Loc := fun i =>
  if i < w.next then l i
  else if h : ∃ j n, (n, i) ∈ w'.entries j then (l h.choose).snoc h.choose_spec.choose
  else (0, [])

/-- an access is made -/
noncomputable def Sit.after {α : Type} (s : Sit) (a : M α) : Sit := ⟨(a s.w).2, places s.w (a s.w).2 s.at_⟩

/-- what all threads keep to: where objects may be, and which directories stay where they are -/
structure Frame where
  fine : Loc → Prop
  keep : Nat → List Str → Nat → Prop

/-- nothing to keep to -/
def Frame.any : Frame := ⟨fun _ => True, fun _ _ _ => False⟩

/-- the places are as the entries say; without links if `L` does not allow them, and then as `F` says -/
structure Good (L : Prop) (F : Frame) (s : Sit) : Prop where
  inv : Inv s.w
  noLink : ¬ L → ∀ i o, s.w.node i ≠ .link o
  root : ∀ r, IsRoot s.w r → s.at_ r = (r, [])
  entry : ∀ j n i, (n, i) ∈ s.w.entries j → s.at_ i = (s.at_ j).snoc n
  fine : ¬ L → ∀ j n i, (n, i) ∈ s.w.entries j → IsRoot s.w (s.at_ j).1 → F.fine ((s.at_ j).snoc n)
  keep : ¬ L → ∀ r q i, F.keep r q i → IsRoot s.w r ∧ phys s.w r q = some i ∧ ∃ d, s.w.node i = .dir d

/-- the same apart from directory entries -/
def NodeSim : Node → Node → Prop
  | .file f, .file f' => f' = f
  | .dir d, .dir d' => d'.mtime = d.mtime ∧ d'.ctime = d.ctime ∧ d'.mode = d.mode
  | .link l, .link l' => l' = l
  | _, _ => False

theorem NodeSim.rfl' (n : Node) : NodeSim n n := by
  cases n <;> simp [NodeSim]

theorem NodeSim.trans {a b c : Node} (h : NodeSim a b) (h' : NodeSim b c) : NodeSim a c := by
  cases a <;> cases b <;> cases c <;> simp_all [NodeSim]

/-- between `s` and `s'` only places in `T` have been touched -/
structure Rely (L : Prop) (T : Loc → Prop) (s s' : Sit) : Prop where
  ext : Ext s.w s'.w
  conns : s'.w.conns = s.w.conns
  hooks : s'.w.hooks = s.w.hooks
  gen : s'.w.gen = s.w.gen
  same : ∀ i, i < s.w.next → s'.at_ i = s.at_ i
  node : ¬ L → ∀ i, i < s.w.next → ¬ T (s.at_ i) → NodeSim (s.w.node i) (s'.w.node i)
  entry : ¬ L → ∀ i n, i < s.w.next → ¬ T ((s.at_ i).snoc n) → (s'.w.entries i).lookup n = (s.w.entries i).lookup n
  list : ¬ L → ∀ i, i < s.w.next → (∀ n, ¬ T ((s.at_ i).snoc n)) → s'.w.entries i = s.w.entries i

theorem Rely.next {L : Prop} {T : Loc → Prop} {s s' : Sit} (h : Rely L T s s') : s.w.next ≤ s'.w.next := h.ext.stays.next

theorem Rely.rfl' (L : Prop) (T : Loc → Prop) (s : Sit) : Rely L T s s :=
  ⟨.rfl' _, rfl, rfl, rfl, fun _ _ => rfl, fun _ _ _ _ => .rfl' _, fun _ _ _ _ _ => rfl, fun _ _ _ _ => rfl⟩

theorem Rely.trans {L : Prop} {T : Loc → Prop} {a b c : Sit} (h : Rely L T a b) (h' : Rely L T b c) : Rely L T a c := by
  refine ⟨h.ext.trans h'.ext, h'.conns.trans h.conns, h'.hooks.trans h.hooks, h'.gen.trans h.gen, ?_, ?_, ?_, ?_⟩
  · intro i hi
    rw [h'.same i (Nat.lt_of_lt_of_le hi h.next), h.same i hi]
  · intro hL i hi ht
    refine (h.node hL i hi ht).trans (h'.node hL i (Nat.lt_of_lt_of_le hi h.next) ?_)
    rw [h.same i hi]; exact ht
  · intro hL i n hi ht
    rw [h'.entry hL i n (Nat.lt_of_lt_of_le hi h.next) (by rw [h.same i hi]; exact ht), h.entry hL i n hi ht]
  · intro hL i hi ht
    rw [h'.list hL i (Nat.lt_of_lt_of_le hi h.next) (by rw [h.same i hi]; exact ht), h.list hL i hi ht]

theorem Rely.mono {L : Prop} {T T' : Loc → Prop} (hT : ∀ l, T l → T' l) {s s' : Sit} (h : Rely L T s s') : Rely L T' s s' :=
  ⟨h.ext, h.conns, h.hooks, h.gen, h.same, fun hL i hi ht => h.node hL i hi fun x => ht (hT _ x),
    fun hL i n hi ht => h.entry hL i n hi fun x => ht (hT _ x), fun hL i hi ht => h.list hL i hi fun n x => ht n (hT _ x)⟩

/-- whatever the others may do -/
def Any_ (_ : Loc) : Prop := True

theorem Rely.any {L : Prop} {T : Loc → Prop} {s s' : Sit} (h : Rely L T s s') : Rely L Any_ s s' := h.mono fun _ _ => trivial

/-- as `Rely`, and no lock has been acquired or released, and nothing is in a directory that is new -/
structure Guar (L : Prop) (T : Loc → Prop) (s s' : Sit) : Prop extends Rely L T s s' where
  held : s'.w.held = s.w.held
  bare : ∀ i, s.w.next ≤ i → s'.w.entries i = []

/-! ## Programs -/

/-- Whatever the others do, `p` keeps the places in order, touches only places in `T`, and ends as `Q` says. -/
def Wp (L : Prop) (F : Frame) (T : Loc → Prop) {α : Type} : Prog α → (Except PyErr α → Sit → Prop) → Sit → Prop
  | .ret r, Q, s => ∀ s', Good L F s' → Rely L Any_ s s' → Q r s'
  | .act a k, Q, s => ∀ s', Good L F s' → Rely L Any_ s s' →
      Good L F (s'.after a) ∧ Guar L T s' (s'.after a) ∧ Wp L F T (k (a s'.w).1) Q (s'.after a)

section
variable {L : Prop} {F : Frame} {T : Loc → Prop}

theorem Wp.stable {α : Type} {p : Prog α} {Q : Except PyErr α → Sit → Prop} {s s' : Sit} (hs : Rely L Any_ s s')
    (h : Wp L F T p Q s) : Wp L F T p Q s' := by
  cases p with
  | ret r => exact fun s2 hg h2 => h s2 hg (hs.trans h2)
  | act a k => exact fun s2 hg h2 => h s2 hg (hs.trans h2)

theorem Wp.of {α : Type} {p : Prog α} {Q : Except PyErr α → Sit → Prop} {s : Sit}
    (h : ∀ s', Good L F s' → Rely L Any_ s s' → Wp L F T p Q s') : Wp L F T p Q s := by
  cases p with
  | ret r => exact fun s2 hg h2 => h s2 hg h2 s2 hg (.rfl' _ _ _)
  | act a k => exact fun s2 hg h2 => h s2 hg h2 s2 hg (.rfl' _ _ _)

theorem Wp.after {α β : Type} {p : Prog α} {f : Except PyErr α → Prog β} {Q : Except PyErr α → Sit → Prop}
    {Q' : Except PyErr β → Sit → Prop} {s : Sit} (h : Wp L F T p Q s)
    (hf : ∀ r s', Good L F s' → Rely L Any_ s s' → Q r s' → Wp L F T (f r) Q' s') : Wp L F T (p.after f) Q' s := by
  induction p generalizing s with
  | ret r => exact .of fun s' hg hs => hf r s' hg hs (h s' hg hs)
  | act a k ih =>
    intro s' hg hs
    obtain ⟨h1, h2, h3⟩ := h s' hg hs
    refine ⟨h1, h2, ih _ h3 fun r s2 g2 hs2 hq => hf r s2 g2 ((hs.trans h2.any).trans hs2) hq⟩

/-- sequencing: exceptions end as they are -/
theorem Wp.bind {α β : Type} {p : Prog α} {f : α → Prog β} {Q : α → Sit → Prop} {Q' : Except PyErr β → Sit → Prop} {s : Sit}
    (h : Wp L F T p (fun r s => ∀ a, r = .ok a → Q a s) s) (he : ∀ e s', Q' (.error e) s')
    (hf : ∀ a s', Good L F s' → Rely L Any_ s s' → Q a s' → Wp L F T (f a) Q' s') : Wp L F T (p >>= f) Q' s := by
  refine Wp.after h fun r s' hg hs hq => ?_
  cases r with
  | ok a => exact hf a s' hg hs (hq a rfl)
  | error e => exact fun s2 _ _ => he e s2

theorem Wp.mono {α : Type} {p : Prog α} {Q Q' : Except PyErr α → Sit → Prop} {s : Sit} (h : Wp L F T p Q s)
    (hq : ∀ r s', Q r s' → Q' r s') : Wp L F T p Q' s := by
  induction p generalizing s with
  | ret r => exact fun s' hg hs => hq _ _ (h s' hg hs)
  | act a k ih =>
    intro s' hg hs
    obtain ⟨h1, h2, h3⟩ := h s' hg hs
    exact ⟨h1, h2, ih _ h3⟩

theorem Wp.ret_ {α : Type} {r : Except PyErr α} {Q : Except PyErr α → Sit → Prop} {s : Sit}
    (h : ∀ s', Good L F s' → Rely L Any_ s s' → Q r s') : Wp L F T (.ret r) Q s := h

theorem Wp.pure_ {α : Type} {a : α} {Q : Except PyErr α → Sit → Prop} {s : Sit}
    (h : ∀ s', Good L F s' → Rely L Any_ s s' → Q (.ok a) s') : Wp L F T (pure a) Q s := h

theorem Wp.raise_ {α : Type} {e : PyErr} {Q : Except PyErr α → Sit → Prop} {s : Sit}
    (h : ∀ s', Good L F s' → Rely L Any_ s s' → Q (.error e) s') : Wp L F T (raise e) Q s := h

theorem Wp.call_ {α : Type} {a : M α} {Q : Except PyErr α → Sit → Prop} {s : Sit}
    (hst : ∀ r s s', Rely L Any_ s s' → Q r s → Q r s')
    (h : ∀ s', Good L F s' → Rely L Any_ s s' → Good L F (s'.after a) ∧ Guar L T s' (s'.after a) ∧ Q (a s'.w).1 (s'.after a)) :
    Wp L F T (call a) Q s := by
  intro s' hg hs
  obtain ⟨h1, h2, h3⟩ := h s' hg hs
  exact ⟨h1, h2, fun s2 _ hs2 => hst _ _ _ hs2 h3⟩

end

/-- places in `T` may be touched as far as `F` is concerned -/
class Sub (T : Loc → Prop) (F : Frame) : Prop where
  sub : ∀ l, T l → F.fine l
  apart : ∀ l, T l → ∀ q i, F.keep l.1 q i → ¬ l.2 <+: q

instance {T : Loc → Prop} : Sub T .any := ⟨fun _ _ => trivial, fun _ _ _ _ h => h.elim⟩

/-! ## Places -/

variable {F : Frame}

theorem places_old {w w' : World} {l : Nat → Loc} {i : Nat} (h : i < w.next) : places w w' l i = l i := by
  simp [places, h]

theorem places_new {w w' : World} (hw : Inv w') {l : Nat → Loc} {i j : Nat} {n : Str} (h : ¬ i < w.next) (he : (n, i) ∈ w'.entries j) :
    places w w' l i = (l j).snoc n := by
  have hx : ∃ j n, (n, i) ∈ w'.entries j := ⟨j, n, he⟩
  have := hw.uniq _ _ _ _ _ hx.choose_spec.choose_spec he
  simp only [places, h, if_false]
  rw [dif_pos hx]
  exact congrArg₂ (fun a b => (l a).snoc b) this.1 this.2

/-- object `i` is there; without links, its place is `l` -/
def At (L : Prop) (s : Sit) (i : Nat) (l : Loc) : Prop := i < s.w.next ∧ (¬ L → s.at_ i = l)

theorem At.stable {L : Prop} {T : Loc → Prop} {s s' : Sit} {i : Nat} {l : Loc} (hs : Rely L T s s') (h : At L s i l) : At L s' i l :=
  ⟨Nat.lt_of_lt_of_le h.1 hs.next, fun hL => (hs.same i h.1).trans (h.2 hL)⟩

theorem Good.at_root {L : Prop} {s : Sit} (h : Good L F s) {r : Nat} (hr : IsRoot s.w r) : At L s r (r, []) := by
  obtain ⟨k, hk⟩ := hr
  exact ⟨(h.inv.root k r hk).1, fun _ => h.root r ⟨k, hk⟩⟩

/-- directories stay where they are if the way to them is not touched -/
theorem Good.kept {L : Prop} {s : Sit} (h : Good L F s) (hL : ¬ L) {w' : World} (hc : w'.conns = s.w.conns)
    (ht : ∀ i d, i < s.w.next → s.w.node i = .dir d → ∃ d', w'.node i = .dir d')
    (he : ∀ q i r, F.keep r q i → ∀ j n p, j < s.w.next → s.at_ j = (r, p) → p ++ [n] <+: q → (w'.entries j).lookup n = (s.w.entries j).lookup n) :
    ∀ r q i, F.keep r q i → IsRoot w' r ∧ phys w' r q = some i ∧ ∃ d, w'.node i = .dir d := by
  intro r q i hk
  obtain ⟨h1, h2, d, h3⟩ := h.keep hL r q i hk
  have key : ∀ (q2 q1 : List Str) (j : Nat), q1 ++ q2 = q → j < s.w.next → s.at_ j = (r, q1) → phys w' j q2 = phys s.w j q2 := by
    intro q2
    induction q2 with
    | nil => intro q1 j _ _ _; rfl
    | cons n q2 ih =>
      intro q1 j e hj ha
      have e' : (q1 ++ [n]) ++ q2 = q := by rw [← e]; simp
      rw [phys_cons, phys_cons, he q i r hk j n q1 hj ha ⟨q2, e'⟩]
      cases hl : (s.w.entries j).lookup n with
      | none => rfl
      | some c =>
        have hm := lookup_mem hl
        simp only [Option.bind_some]
        exact ih (q1 ++ [n]) c e' (h.inv.child _ _ _ hm).2 (by rw [h.entry _ _ _ hm, ha]; rfl)
  have hr : r < s.w.next := (h.at_root h1).1
  have h2' : phys w' r q = some i := (key q [] r rfl hr (h.root r h1)).trans h2
  refine ⟨?_, h2', ht i d (phys_lt h.inv h1 h2) h3⟩
  obtain ⟨k, hk⟩ := h1
  exact ⟨k, by rw [hc]; exact hk⟩

/-- nothing is stored, moved or deleted -/
theorem good_same {L : Prop} {s : Sit} (h : Good L F s) {w' : World} (hi : Inv w') (hc : w'.conns = s.w.conns)
    (he : ∀ j, w'.entries j = s.w.entries j)
    (ht : ∀ i d, i < s.w.next → s.w.node i = .dir d → ∃ d', w'.node i = .dir d')
    (hl : ¬ L → ∀ i o, w'.node i ≠ .link o) : Good L F ⟨w', places s.w w' s.at_⟩ := by
  refine ⟨hi, hl, ?_, ?_, ?_, fun hL => h.kept hL hc ht fun _ _ _ _ j _ _ _ _ _ => by rw [he]⟩
  · rintro r ⟨k, hk⟩
    have hk' : (k, r) ∈ s.w.conns := by rw [← hc]; exact hk
    show places s.w w' s.at_ r = _
    rw [places_old (h.inv.root k r hk').1]
    exact h.root r ⟨k, hk'⟩
  · intro j n i hm
    have hm' : (n, i) ∈ s.w.entries j := by rw [← he]; exact hm
    have := h.inv.child j n i hm'
    show places s.w w' s.at_ i = _
    rw [places_old this.2]
    show _ = Loc.snoc (places s.w w' s.at_ j) n
    rw [places_old (by omega)]
    exact h.entry j n i hm'
  · rintro hL j n i hm ⟨k, hk⟩
    have hm' : (n, i) ∈ s.w.entries j := by rw [← he]; exact hm
    have := h.inv.child j n i hm'
    have hp : places s.w w' s.at_ j = s.at_ j := places_old (by omega)
    show F.fine ((places s.w w' s.at_ j).snoc n)
    change (k, (places s.w w' s.at_ j).1) ∈ w'.conns at hk
    rw [hp, hc] at hk
    rw [hp]
    exact h.fine hL j n i hm' ⟨k, hk⟩

theorem after_query {α : Type} {s : Sit} {f : World → Except PyErr α} : s.after (query f) = ⟨s.w, places s.w s.w s.at_⟩ := rfl

theorem Inv.bare {w : World} (hw : Inv w) {i : Nat} (hi : w.next ≤ i) : w.entries i = [] := entries_dir (hw.fresh i hi)

theorem query_step {L : Prop} {T : Loc → Prop} {α : Type} {s : Sit} (h : Good L F s) {f : World → Except PyErr α} :
    Good L F (s.after (query f)) ∧ Guar L T s (s.after (query f)) :=
  ⟨good_same h h.inv rfl (fun _ => rfl) (fun _ d _ hd => ⟨d, hd⟩) h.noLink,
    ⟨⟨.rfl' _, rfl, rfl, rfl, fun _ hi => places_old hi, fun _ _ _ _ => .rfl' _, fun _ _ _ _ _ => rfl,
      fun _ _ _ _ => rfl⟩, rfl, fun _ hi => Inv.bare h.inv hi⟩⟩

/-- one object is changed, but not its entries -/
theorem setNode_step {L : Prop} {T : Loc → Prop} {s : Sit} (h : Good L F s) {i : Nat} {n : Node} {l : Loc} (hi : At L s i l)
    (hT : ¬ L → T l) (hs : SameShape (s.w.node i) n) (ht : SameType s.w.gen s.w.gen (s.w.node i) n) :
    Good L F ⟨s.w.setNode i n, places s.w (s.w.setNode i n) s.at_⟩ ∧
      Guar L T s ⟨s.w.setNode i n, places s.w (s.w.setNode i n) s.at_⟩ := by
  have he := entries_setNode hs
  refine ⟨good_same h (h.inv.setNode hs hi.1) rfl he ?_ ?_, ⟨⟨.setNode hs ht, rfl, rfl, rfl, fun _ hi => places_old hi, ?_, ?_, ?_⟩, rfl,
    fun j hj => (he j).trans (Inv.bare h.inv hj)⟩⟩
  · intro j d _ hd
    show ∃ d', (if j = i then n else s.w.node j) = _
    split
    · rename_i e
      subst e
      rw [hd] at hs
      cases n with
      | dir d' => exact ⟨d', rfl⟩
      | file f => exact hs.elim
      | link f => exact hs.elim
    · exact ⟨d, hd⟩
  · intro hL j o
    show (if j = i then n else s.w.node j) ≠ _
    split
    · rintro rfl
      have := h.noLink hL i
      cases hn : s.w.node i with
      | link o => exact this o hn
      | file f => rw [hn] at hs; exact hs
      | dir f => rw [hn] at hs; exact hs
    · exact h.noLink hL j o
  · intro hL j hj hTj
    show NodeSim (s.w.node j) (if j = i then n else s.w.node j)
    split
    · rename_i e
      subst e
      exact absurd (by rw [hi.2 hL]; exact hT hL) hTj
    · exact .rfl' _
  · intro hL j m hj _
    exact congrArg _ (he j)
  · exact fun _ j _ _ => he j

theorem tick_step {L : Prop} {T : Loc → Prop} {s : Sit} (h : Good L F s) {n : Nat} :
    Good L F ⟨{ s.w with tick := n }, places s.w { s.w with tick := n } s.at_⟩ ∧
      Guar L T s ⟨{ s.w with tick := n }, places s.w { s.w with tick := n } s.at_⟩ :=
  ⟨good_same h (h.inv.congr rfl rfl rfl) rfl (fun _ => rfl) (fun _ d _ hd => ⟨d, hd⟩) h.noLink,
    ⟨⟨.of_node rfl rfl rfl rfl rfl, rfl, rfl, rfl, fun _ hi => places_old hi, fun _ _ _ _ => .rfl' _, fun _ _ _ _ _ => rfl,
      fun _ _ _ _ => rfl⟩, rfl, fun _ hi => Inv.bare h.inv hi⟩⟩

/-- an object is made and not stored -/
theorem alloc_step {L : Prop} {T : Loc → Prop} {s : Sit} (h : Good L F s) {n : Node} (hl : Leaf n) (hn : ¬ L → ∀ o, n ≠ .link o) :
    Good L F ⟨s.w.alloc n, places s.w (s.w.alloc n) s.at_⟩ ∧ Guar L T s ⟨s.w.alloc n, places s.w (s.w.alloc n) s.at_⟩ := by
  have he : ∀ j, (s.w.alloc n).entries j = s.w.entries j := by
    intro j
    by_cases h' : j = s.w.next
    · subst h'
      rw [entries_dir (h.inv.fresh _ (Nat.le_refl _))]
      simp only [World.entries, World.alloc, if_true]
      cases n with
      | file f => rfl
      | link f => rfl
      | dir d => exact hl
    · simp [World.entries, World.alloc, h']
  refine ⟨⟨h.inv.alloc hl, ?_, ?_, ?_, ?_, fun hL => h.kept hL rfl (fun i d hi hd => ⟨d, by
    show (if i = s.w.next then n else s.w.node i) = _
    rw [if_neg (by omega), hd]⟩) fun _ _ _ _ j _ _ _ _ _ => by rw [he]⟩, ⟨⟨ext_alloc h.inv hl, rfl, rfl, rfl, fun _ hi => places_old hi, ?_, ?_, ?_⟩, rfl,
      fun j hj => (he j).trans (Inv.bare h.inv hj)⟩⟩
  · intro hL j o
    show (if j = s.w.next then n else s.w.node j) ≠ _
    split
    · exact hn hL o
    · exact h.noLink hL j o
  · rintro r ⟨k, hk⟩
    show places s.w _ s.at_ r = _
    rw [places_old (h.inv.root k r hk).1]
    exact h.root r ⟨k, hk⟩
  · intro j m i hm
    rw [he] at hm
    have := h.inv.child j m i hm
    show places s.w _ s.at_ i = Loc.snoc (places s.w _ s.at_ j) m
    rw [places_old this.2, places_old (by omega)]
    exact h.entry j m i hm
  · rintro hL j m i hm ⟨k, hk⟩
    rw [he] at hm
    have := h.inv.child j m i hm
    have hp : places s.w (s.w.alloc n) s.at_ j = s.at_ j := places_old (by omega)
    show F.fine ((places s.w (s.w.alloc n) s.at_ j).snoc m)
    change (k, (places s.w (s.w.alloc n) s.at_ j).1) ∈ s.w.conns at hk
    rw [hp] at hk
    rw [hp]
    exact h.fine hL j m i hm ⟨k, hk⟩
  · intro hL j hj _
    show NodeSim (s.w.node j) (if j = s.w.next then n else s.w.node j)
    rw [if_neg (by omega)]
    exact .rfl' _
  · intro hL j m hj _
    exact congrArg _ (he j)
  · exact fun _ j _ _ => he j

/-- an object is made and stored -/
theorem put_step {L : Prop} {T : Loc → Prop} [hTF : Sub T F] {s : Sit} (h : Good L F s) {nd : Nat} {d : DirObj} {m : Str} {n : Node} {l : Loc}
    (hnd : At L s nd l) (hd : s.w.node nd = .dir d) (hT : ¬ L → T (l.snoc m)) (hl : Leaf n) (hn : ¬ L → ∀ o, n ≠ .link o) :
    Good L F ⟨s.w.addChild nd d m n, places s.w (s.w.addChild nd d m n) s.at_⟩ ∧
      Guar L T s ⟨s.w.addChild nd d m n, places s.w (s.w.addChild nd d m n) s.at_⟩ ∧
      At L ⟨s.w.addChild nd d m n, places s.w (s.w.addChild nd d m n) s.at_⟩ s.w.next (l.snoc m) := by
  have hi := inv_put (name := m) h.inv hd hl hnd.1
  have hnew : places s.w (s.w.addChild nd d m n) s.at_ s.w.next = (s.at_ nd).snoc m :=
    places_new hi (Nat.lt_irrefl _) put_mem
  have hlook : ∀ hL : ¬ L, ∀ j x, j < s.w.next → ¬ T ((s.at_ j).snoc x) →
      ((s.w.addChild nd d m n).entries j).lookup x = (s.w.entries j).lookup x := by
    intro hL j x hj hTj
    rw [entries_put h.inv hd hl hnd.1]
    split
    · rename_i e
      subst e
      rw [lookup_setEntry]
      split
      · rename_i e
        subst e
        exact absurd (by rw [hnd.2 hL]; exact hT hL) hTj
      · rfl
    · rfl
  refine ⟨⟨hi, ?_, ?_, ?_, ?_, fun hL => h.kept hL rfl ?_ ?_⟩,
    ⟨⟨ext_put h.inv hd hl hnd.1, rfl, rfl, rfl, fun _ hi => places_old hi, ?_, hlook, ?_⟩, rfl, fun j hj => by
      have := hnd.1
      show (s.w.addChild nd d m n).entries j = _
      rw [entries_put h.inv hd hl hnd.1, if_neg (by omega)]
      exact Inv.bare h.inv hj⟩, ?_⟩
  · intro hL j o
    show (if j = nd then Node.dir _ else if j = s.w.next then n else s.w.node j) ≠ _
    split
    · simp
    split
    · exact hn hL o
    · exact h.noLink hL j o
  · rintro r ⟨k, hk⟩
    show places s.w _ s.at_ r = _
    rw [places_old (h.inv.root k r hk).1]
    exact h.root r ⟨k, hk⟩
  · intro j x i hm
    show places s.w _ s.at_ i = Loc.snoc (places s.w _ s.at_ j) x
    rcases mem_put h.inv hd hl hnd.1 hm with ⟨rfl, rfl, rfl⟩ | ⟨h1, -⟩
    · rw [hnew, places_old hnd.1]
    · have := h.inv.child j x i h1
      rw [places_old this.2, places_old (by omega)]
      exact h.entry j x i h1
  · rintro hL j x i hm ⟨k, hk⟩
    show F.fine ((places s.w (s.w.addChild nd d m n) s.at_ j).snoc x)
    rcases mem_put h.inv hd hl hnd.1 hm with ⟨rfl, rfl, rfl⟩ | ⟨h1, -⟩
    · rw [places_old hnd.1, hnd.2 hL]
      exact hTF.sub _ (hT hL)
    · have := h.inv.child j x i h1
      have hp : places s.w (s.w.addChild nd d m n) s.at_ j = s.at_ j := places_old (by omega)
      change (k, (places s.w (s.w.addChild nd d m n) s.at_ j).1) ∈ s.w.conns at hk
      rw [hp] at hk
      rw [hp]
      exact h.fine hL j x i h1 ⟨k, hk⟩
  · intro j d' hj hd'
    show ∃ d', (if j = nd then Node.dir _ else if j = s.w.next then n else s.w.node j) = _
    split
    · exact ⟨_, rfl⟩
    · rw [if_neg (by omega)]; exact ⟨d', hd'⟩
  · intro q i r hk j x p hj ha hp
    refine hlook hL j x hj fun ht => hTF.apart _ ht q i ?_ ?_
    · rw [ha]; exact hk
    · rw [ha]; exact hp
  · intro hL j hj _
    show NodeSim (s.w.node j) (if j = nd then Node.dir _ else if j = s.w.next then n else s.w.node j)
    split
    · rename_i e; subst e; rw [hd]; simp [NodeSim, DirObj.create]
    · rw [if_neg (by omega)]; exact .rfl' _
  · intro hL j hj hTj
    show (s.w.addChild nd d m n).entries j = _
    rw [entries_put h.inv hd hl hnd.1, if_neg]
    rintro rfl
    exact hTj m (by rw [hnd.2 hL]; exact hT hL)
  · refine ⟨Nat.lt_succ_self _, fun hL => ?_⟩
    show places _ _ _ _ = _
    rw [hnew, hnd.2 hL]

theorem lookup_filter_ne {l : List (Str × Nat)} {n m : Str} (h : m ≠ n) : (l.filter fun e => e.1 ≠ n).lookup m = l.lookup m := by
  induction l with
  | nil => rfl
  | cons x l ih =>
    obtain ⟨k, v⟩ := x
    by_cases hk : k = n
    · subst hk
      have : (m == k) = false := by simpa using h
      rw [List.filter_cons_of_neg (by simp), List.lookup_cons, this]
      exact ih
    · rw [List.filter_cons_of_pos (by simpa using hk), List.lookup_cons, List.lookup_cons, ih]

/-- an entry is deleted -/
theorem del_step {L : Prop} {T : Loc → Prop} [hTF : Sub T F] {s : Sit} (h : Good L F s) {nd : Nat} {d : DirObj} {m : Str} {l : Loc}
    (hnd : At L s nd l) (hd : s.w.node nd = .dir d) (hT : ¬ L → T (l.snoc m)) :
    Good L F ⟨s.w.delEntry nd d m, places s.w (s.w.delEntry nd d m) s.at_⟩ ∧
      Guar L T s ⟨s.w.delEntry nd d m, places s.w (s.w.delEntry nd d m) s.at_⟩ := by
  have he := entries_delEntry (name := m) hd
  have hsub : ∀ j x i, (x, i) ∈ (s.w.delEntry nd d m).entries j → (x, i) ∈ s.w.entries j := by
    intro j x i hm
    rw [he] at hm
    split at hm
    · rename_i e; subst e; exact (List.mem_filter.1 hm).1
    · exact hm
  have hlook : ∀ hL : ¬ L, ∀ j x, j < s.w.next → ¬ T ((s.at_ j).snoc x) →
      ((s.w.delEntry nd d m).entries j).lookup x = (s.w.entries j).lookup x := by
    intro hL j x hj hTj
    rw [he]
    split
    · rename_i e
      subst e
      exact lookup_filter_ne fun e => hTj (by rw [e, hnd.2 hL]; exact hT hL)
    · rfl
  refine ⟨⟨h.inv.delEntry hd hnd.1, ?_, ?_, ?_, ?_, fun hL => h.kept hL rfl ?_ ?_⟩,
    ⟨⟨.delEntry hd, rfl, rfl, rfl, fun _ hi => places_old hi, ?_, hlook, ?_⟩, rfl, fun j hj => by
      have := hnd.1
      show (s.w.delEntry nd d m).entries j = _
      rw [he, if_neg (by omega)]
      exact Inv.bare h.inv hj⟩⟩
  · intro hL j o
    show (if j = nd then Node.dir _ else s.w.node j) ≠ _
    split
    · simp
    · exact h.noLink hL j o
  · rintro r ⟨k, hk⟩
    show places s.w _ s.at_ r = _
    rw [places_old (h.inv.root k r hk).1]
    exact h.root r ⟨k, hk⟩
  · intro j x i hm
    have hm' := hsub j x i hm
    have := h.inv.child j x i hm'
    show places s.w _ s.at_ i = Loc.snoc (places s.w _ s.at_ j) x
    rw [places_old this.2, places_old (by omega)]
    exact h.entry j x i hm'
  · rintro hL j x i hm ⟨k, hk⟩
    have hm' := hsub j x i hm
    have := h.inv.child j x i hm'
    have hp : places s.w (s.w.delEntry nd d m) s.at_ j = s.at_ j := places_old (by omega)
    show F.fine ((places s.w (s.w.delEntry nd d m) s.at_ j).snoc x)
    change (k, (places s.w (s.w.delEntry nd d m) s.at_ j).1) ∈ s.w.conns at hk
    rw [hp] at hk
    rw [hp]
    exact h.fine hL j x i hm' ⟨k, hk⟩
  · intro j d' hj hd'
    show ∃ d', (if j = nd then Node.dir _ else s.w.node j) = _
    split
    · exact ⟨_, rfl⟩
    · exact ⟨d', hd'⟩
  · intro q i r hk j x p hj ha hp
    refine hlook hL j x hj fun ht => hTF.apart _ ht q i ?_ ?_
    · rw [ha]; exact hk
    · rw [ha]; exact hp
  · intro hL j hj _
    show NodeSim (s.w.node j) (if j = nd then Node.dir _ else s.w.node j)
    split
    · rename_i e; subst e; rw [hd]; simp [NodeSim, DirObj.remove]
    · exact .rfl' _
  · intro hL j hj hTj
    show (s.w.delEntry nd d m).entries j = _
    rw [he, if_neg]
    rintro rfl
    exact hTj m (by rw [hnd.2 hL]; exact hT hL)

end Verif.Conc
