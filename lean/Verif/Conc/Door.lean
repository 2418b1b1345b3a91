import Verif.Conc.LockedEnd
/-!
# The lock file can be opened

Between the accesses of `__enter__` others may make the lock file, or make it once more, but not remove it, and the directory it is in
stays.
-/
namespace Verif.Conc
open Mem Mem.M Spec Prog

/-- the lock file `n` of the directory `ds`, and the state at the beginning -/
structure Door where
  w0 : World
  r : Nat
  ds : List Str
  n : Str

/-- the directory is there, and the name is not that of a directory -/
structure Door.Ready (D : Door) (w : World) : Prop where
  inv : Mem.Inv w
  noLink : ∀ i o, w.node i ≠ .link o
  root : IsRoot w D.r
  conns : w.conns = D.w0.conns
  hooks : w.hooks = D.w0.hooks
  dirs : ∀ p, p <+: D.ds → ∃ i d, phys w D.r p = some i ∧ w.node i = .dir d
  spot : ∀ j, phys w D.r (D.ds ++ [D.n]) = some j → ∃ f, w.node j = .file f

/-- what changes meanwhile -/
structure Door.Firm (D : Door) (w w' : World) : Prop where
  ext : Ext w w'
  dirs : ∀ p, p <+: D.ds → phys w' D.r p = phys w D.r p
  spot : phys w D.r (D.ds ++ [D.n]) ≠ none → phys w' D.r (D.ds ++ [D.n]) ≠ none

variable {D : Door}

theorem Door.Firm.rfl' (w : World) : D.Firm w w := ⟨.rfl' _, fun _ _ => rfl, id⟩

theorem Door.Firm.trans {a b c : World} (h : D.Firm a b) (h' : D.Firm b c) : D.Firm a c :=
  ⟨h.ext.trans h'.ext, fun p hp => (h'.dirs p hp).trans (h.dirs p hp), fun hx => h'.spot (h.spot hx)⟩

/-- a file -/
def IsFile (w : World) (i : Nat) : Prop := i < w.next ∧ ∃ f, w.node i = .file f

theorem IsFile.ext {w w' : World} (hx : Ext w w') {i : Nat} (h : IsFile w i) : IsFile w' i := by
  obtain ⟨h1, f, h2⟩ := h
  refine ⟨Nat.lt_of_lt_of_le h1 hx.stays.next, ?_⟩
  have := hx.stays.type i h1
  rw [h2] at this
  cases e : w'.node i with
  | file g => exact ⟨g, rfl⟩
  | dir g => rw [e] at this; exact this.elim
  | link g => rw [e] at this; exact this.elim

/-- whatever happens meanwhile, the program ends as `Q` says -/
def Will (D : Door) {α : Type} : Prog α → (Except PyErr α → World → Prop) → World → Prop
  | .ret r, Q, w => ∀ w', D.Ready w' → D.Firm w w' → Q r w'
  | .act a k, Q, w => ∀ w', D.Ready w' → D.Firm w w' → Will D (k (a w').1) Q (a w').2

theorem Will.stable {α : Type} {p : Prog α} {Q : Except PyErr α → World → Prop} {w w' : World} (hs : D.Firm w w') (h : Will D p Q w) : Will D p Q w' := by
  cases p with
  | ret r => exact fun w2 hg h2 => h w2 hg (hs.trans h2)
  | act a k => exact fun w2 hg h2 => h w2 hg (hs.trans h2)

theorem Will.of {α : Type} {p : Prog α} {Q : Except PyErr α → World → Prop} {w : World} (h : ∀ w', D.Ready w' → D.Firm w w' → Will D p Q w') :
    Will D p Q w := by
  cases p with
  | ret r => exact fun w2 hg h2 => h w2 hg h2 w2 hg (.rfl' _)
  | act a k => exact fun w2 hg h2 => h w2 hg h2 w2 hg (.rfl' _)

theorem Will.after {α β : Type} {p : Prog α} {f : Except PyErr α → Prog β} {Q : Except PyErr α → World → Prop}
    {Q' : Except PyErr β → World → Prop} {w : World} (h : Will D p Q w) (hf : ∀ x w', D.Ready w' → Q x w' → Will D (f x) Q' w') :
    Will D (p.after f) Q' w := by
  induction p generalizing w with
  | ret r => exact .of fun w' hg hs => hf r w' hg (h w' hg hs)
  | act a k ih => exact fun w' hg hs => ih _ (h w' hg hs)

/-- sequencing, when there is no exception -/
theorem Will.bind {α β : Type} {p : Prog α} {f : α → Prog β} {Q : α → World → Prop} {Q' : Except PyErr β → World → Prop} {w : World}
    (h : Will D p (fun x w => ∃ a, x = .ok a ∧ Q a w) w) (hf : ∀ a w', D.Ready w' → Q a w' → Will D (f a) Q' w') : Will D (p >>= f) Q' w := by
  refine Will.after h fun x w' hg ⟨a, hx, hq⟩ => ?_
  subst hx
  exact hf a w' hg hq

theorem Will.pure_ {α : Type} {a : α} {Q : Except PyErr α → World → Prop} {w : World} (h : ∀ w', D.Ready w' → D.Firm w w' → Q (.ok a) w') :
    Will D (pure a : Prog α) Q w := h

/-- one access -/
theorem Will.call_ {α : Type} {a : M α} {Q : α → World → Prop} {w : World} (hQ : ∀ x w w', D.Firm w w' → Q x w → Q x w')
    (h : ∀ w', D.Ready w' → D.Firm w w' → ∃ x, (a w').1 = .ok x ∧ Q x (a w').2) : Will D (call a) (fun x w => ∃ a, x = .ok a ∧ Q a w) w := by
  intro w' hg hs w2 _ h2
  obtain ⟨x, h3, h4⟩ := h w' hg hs
  exact ⟨x, h3, hQ x _ _ h2 h4⟩

/-- something is looked at -/
theorem will_query {α : Type} {f : World → Except PyErr α} {Q : α → World → Prop} {w : World} (hQ : ∀ x w w', D.Firm w w' → Q x w → Q x w')
    (h : ∀ w', D.Ready w' → D.Firm w w' → ∃ x, f w' = .ok x ∧ Q x w') : Will D (call (query f)) (fun x w => ∃ a, x = .ok a ∧ Q a w) w :=
  .call_ hQ h

/-! ## memory.py -/

/-- where a directory on the way is -/
def Door.Here (D : Door) (q : List Str) (c : Nat) (w : World) : Prop := phys w D.r q = some c

theorem Door.Here.stable {q : List Str} (hq : q <+: D.ds) {c : Nat} {w w' : World} (h : D.Firm w w') (hc : D.Here q c w) : D.Here q c w' :=
  (h.dirs q hq).trans hc

theorem Door.Ready.entry {q : List Str} {n : Str} (hq : q ++ [n] <+: D.ds) {c : Nat} {w : World} (h : D.Ready w) (hc : D.Here q c w) :
    ∃ j o, w.node c = .dir o ∧ o.get n = some j ∧ D.Here (q ++ [n]) j w ∧ tagOf (w.node j) = .dir := by
  obtain ⟨i, o, h1, h2⟩ := h.dirs q ((List.prefix_append _ _).trans hq)
  rw [show phys w D.r q = some c from hc, Option.some.injEq] at h1
  subst h1
  obtain ⟨j, o', h3, h4⟩ := h.dirs _ hq
  refine ⟨j, o, h2, ?_, h3, by rw [h4]; rfl⟩
  rw [phys_snoc, show phys w D.r q = some c from hc, Option.bind_some, entries_dir h2] at h3
  exact h3

theorem will_child {res : Uri → Prog (Option Nat)} {q : List Str} {n : Str} {f : Bool} (hq : q ++ [n] <+: D.ds) {c : Nat} {w : World}
    (hc : D.Here q c w) : Will D (cChild res c n f) (fun x w => ∃ a, x = .ok a ∧ ∃ j, a = some j ∧ D.Here (q ++ [n]) j w) w := by
  have hq' := (List.prefix_append q [n]).trans hq
  unfold cChild
  refine .bind (Q := fun a w => a = true ∧ D.Here q c w) (will_query (fun _ _ _ hf h => ⟨h.1, h.2.stable hq' hf⟩) fun w1 g1 f1 => ?_) fun x w1 g1 h1 => ?_
  · obtain ⟨j, o, h1, h2, -⟩ := g1.entry hq (hc.stable hq' f1)
    refine ⟨true, ?_, rfl, hc.stable hq' f1⟩
    unfold DirObj.get at h2
    simp only [h1, DirObj.has, h2, Option.isSome_some]
  obtain ⟨rfl, h1⟩ := h1
  refine .bind (Q := fun a w => D.Here (q ++ [n]) a w) (will_query (fun _ _ _ hf h => h.stable hq hf) fun w2 g2 f2 => ?_) fun j w2 g2 h2 => ?_
  · obtain ⟨j, o, h3, h4, h5, -⟩ := g2.entry hq (h1.stable hq' f2)
    exact ⟨j, by simp [h3, h4], h5⟩
  refine .bind (Q := fun a w => a = Tag.dir ∧ D.Here (q ++ [n]) j w) (will_query (fun _ _ _ hf h => ⟨h.1, h.2.stable hq hf⟩) fun w3 g3 f3 => ?_) fun tg w3 g3 h3 => ?_
  · obtain ⟨i, o, h4, h5⟩ := g3.dirs _ hq
    rw [show phys w3 D.r (q ++ [n]) = some j from h2.stable hq f3, Option.some.injEq] at h4
    subst h4
    exact ⟨.dir, by rw [h5]; rfl, rfl, h2.stable hq f3⟩
  obtain ⟨rfl, h3⟩ := h3
  exact .pure_ fun w4 _ f4 => ⟨_, rfl, j, rfl, h3.stable hq f4⟩

theorem will_prevLoop {res : Uri → Prog (Option Nat)} {f th : Bool} {last : Str} (steps : List Str) :
    ∀ {q : List Str} {prev : Option Nat} {c : Nat} (_ : q ++ steps <+: D.ds) {w : World} (_ : D.Here q c w),
      Will D (cPrevLoop res f th last steps prev (some c)) (fun x w => ∃ a, x = .ok a ∧ ∃ i, a.2 = some i ∧ D.Here (q ++ steps) i w) w := by
  induction steps with
  | nil =>
    intro q prev c hq w hc
    rw [List.append_nil] at hq ⊢
    exact .pure_ fun w' _ hf => ⟨_, rfl, c, rfl, hc.stable hq hf⟩
  | cons n steps ih =>
    intro q prev c hq w hc
    have hq1 : q ++ [n] <+: D.ds := .trans ⟨steps, by simp⟩ hq
    have hq' := (List.prefix_append q [n]).trans hq1
    unfold cPrevLoop
    refine .bind (Q := fun a w => a = true ∧ D.Here q c w) (will_query (fun _ _ _ hf h => ⟨h.1, h.2.stable hq' hf⟩) fun w1 g1 f1 => ?_) fun x w1 g1 h1 => ?_
    · obtain ⟨j, o, h1, h2, -⟩ := g1.entry hq1 (hc.stable hq' f1)
      refine ⟨true, ?_, rfl, hc.stable hq' f1⟩
      unfold DirObj.get at h2
      simp only [h1, DirObj.has, h2, Option.isSome_some]
    obtain ⟨rfl, h1⟩ := h1
    refine .bind (will_child hq1 h1) fun a w2 g2 h2 => ?_
    obtain ⟨j, rfl, h2⟩ := h2
    have := ih (q := q ++ [n]) (prev := some c) (by rw [List.append_assoc]; exact hq) h2
    rw [List.append_assoc] at this
    exact this

theorem will_parent {p : Str} (hp : splitC '/' p = D.ds ++ [D.n]) {w : World} :
    Will D (cParent D.r p) (fun x w => ∃ a, x = .ok a ∧ D.Here D.ds a.1 w ∧ a.2.1 = D.n ∧ (a.2.2 = true → phys w D.r (D.ds ++ [D.n]) ≠ none)) w := by
  unfold cParent cNode cPrev cPrevWith
  rw [hp, List.dropLast_concat]
  refine .of fun w0 g0 f0 => ?_
  refine .bind (Q := fun a w => ∃ i, a = some i ∧ D.Here D.ds i w) ?_ fun a w1 g1 h1 => ?_
  · refine .bind (Q := fun a w => ∃ i, a.2 = some i ∧ D.Here D.ds i w) ?_ fun a w1 g1 h1 => ?_
    · have h0 : D.Here [] D.r w0 := rfl
      exact will_prevLoop D.ds (q := []) (List.prefix_refl _) h0
    · obtain ⟨i, h2, h3⟩ := h1
      exact .pure_ fun w2 _ f2 => ⟨_, rfl, i, h2, h3.stable (List.prefix_refl _) f2⟩
  obtain ⟨i, rfl, h1⟩ := h1
  refine .bind (Q := fun a w => a = i ∧ D.Here D.ds i w) (.pure_ fun w2 _ f2 => ⟨_, rfl, rfl, h1.stable (List.prefix_refl _) f2⟩) fun a w2 g2 h2 => ?_
  obtain ⟨rfl, h2⟩ := h2
  have e : (D.ds ++ [D.n]).getLastD [] = D.n := by simp
  rw [e]
  refine .bind (Q := fun x w => D.Here D.ds a w ∧ (x = true → phys w D.r (D.ds ++ [D.n]) ≠ none))
    (will_query (fun _ _ _ hf h => ⟨h.1.stable (List.prefix_refl _) hf, fun hx => hf.spot (h.2 hx)⟩) fun w3 g3 f3 => ?_) fun x w3 g3 h3 => ?_
  · obtain ⟨j, o, h4, h5⟩ := g3.dirs _ (List.prefix_refl _)
    have h6 := h2.stable (List.prefix_refl _) f3
    rw [show phys w3 D.r D.ds = some a from h6, Option.some.injEq] at h4
    subst h4
    refine ⟨o.has D.n, by simp [h5], h6, fun hx => ?_⟩
    rw [phys_snoc, show phys w3 D.r D.ds = some a from h6, Option.bind_some, entries_dir h5]
    unfold DirObj.has at hx
    intro hn
    rw [hn] at hx
    cases hx
  exact .pure_ fun w4 _ f4 => ⟨_, rfl, h3.1.stable (List.prefix_refl _) f4, rfl, fun hx => f4.spot (h3.2 hx)⟩

/-- the entry is looked up -/
theorem will_spot {res : Uri → Prog (Option Nat)} {d : Nat} {f : Bool} {w : World} (hd : D.Here D.ds d w) (hn : phys w D.r (D.ds ++ [D.n]) ≠ none) :
    Will D (cChild res d D.n f) (fun x w => ∃ a, x = .ok a ∧ ∃ j, a = some j ∧ IsFile w j) w := by
  have look : ∀ w1, D.Ready w1 → D.Firm w w1 → ∃ o j, w1.node d = .dir o ∧ o.get D.n = some j ∧ IsFile w1 j := by
    intro w1 g1 f1
    obtain ⟨i, o, h1, h2⟩ := g1.dirs _ (List.prefix_refl _)
    have h3 := hd.stable (List.prefix_refl _) f1
    rw [show phys w1 D.r D.ds = some d from h3, Option.some.injEq] at h1
    subst h1
    obtain ⟨j, hj⟩ := Option.ne_none_iff_exists'.1 (f1.spot hn)
    have hj' := hj
    rw [phys_snoc, show phys w1 D.r D.ds = some d from h3, Option.bind_some, entries_dir h2] at hj'
    exact ⟨o, j, h2, hj', phys_lt g1.inv g1.root hj, g1.spot j hj⟩
  unfold cChild
  refine .bind (Q := fun a w1 => a = true ∧ D.Firm w w1) (will_query (fun _ _ _ hf h => ⟨h.1, h.2.trans hf⟩) fun w1 g1 f1 => ?_) fun x w1 g1 h1 => ?_
  · obtain ⟨o, j, h1, h2, -⟩ := look w1 g1 f1
    refine ⟨true, ?_, rfl, f1⟩
    unfold DirObj.get at h2
    simp only [h1, DirObj.has, h2, Option.isSome_some]
  obtain ⟨rfl, f1⟩ := h1
  refine .bind (Q := fun a w => IsFile w a) (will_query (fun _ _ _ hf h => h.ext hf.ext) fun w2 g2 f2 => ?_) fun j w2 g2 h2 => ?_
  · obtain ⟨o, j, h1, h2, h3⟩ := look w2 g2 (f1.trans f2)
    exact ⟨j, by simp [h1, h2], h3⟩
  refine .bind (Q := fun a w => a = Tag.file ∧ IsFile w j) (will_query (fun _ _ _ hf h => ⟨h.1, h.2.ext hf.ext⟩) fun w3 g3 f3 => ?_) fun tg w3 g3 h3 => ?_
  · have h4 := h2.ext f3.ext
    obtain ⟨-, f, h5⟩ := id h4
    exact ⟨.file, by rw [h5]; rfl, rfl, h4⟩
  obtain ⟨rfl, h3⟩ := h3
  exact .pure_ fun w4 _ f4 => ⟨_, rfl, j, rfl, h3.ext f4.ext⟩

/-- something is done to a file -/
theorem will_file {α : Type} {g : FileObj → α × FileObj} {i : Nat} {w : World} (hi : IsFile w i) :
    Will D (call (aFile i fun f => .ok (g f))) (fun x w => ∃ a, x = .ok a ∧ IsFile w i) w := by
  refine .call_ (Q := fun _ w => IsFile w i) (fun _ _ _ hf h => h.ext hf.ext) fun w1 g1 f1 => ?_
  obtain ⟨h1, f, h2⟩ := hi.ext f1.ext
  rw [run_aFile]
  simp only [h2]
  exact ⟨(g f).1, rfl, h1, (g f).2, by simp [World.setNode]⟩

theorem will_reset {i : Nat} {w : World} (hi : IsFile w i) : Will D (cReset i) (fun x w => ∃ a, x = .ok a ∧ IsFile w i) w := by
  unfold cReset
  refine .bind (will_file hi) fun _ w1 g1 h1 => ?_
  refine .bind (Q := fun _ w => IsFile w i) (.call_ (fun _ _ _ hf h => h.ext hf.ext) fun w2 g2 f2 => ⟨_, rfl, h1.ext f2.ext⟩) fun t w2 g2 h2 => ?_
  refine .bind (will_file h2) fun _ w3 g3 h3 => ?_
  refine .bind (will_file h3) fun _ w4 g4 h4 => ?_
  refine .bind (Q := fun _ w => IsFile w i) (will_query (fun _ _ _ hf h => h.ext hf.ext) fun w5 g5 f5 => ⟨_, rfl, h4.ext f5.ext⟩) fun g w5 g5 h5 => ?_
  exact will_file h5

theorem will_newFile {d : Nat} {p : Str} {w : World} (hd : D.Here D.ds d w) :
    Will D (call (aNewFile d D.n p)) (fun x w => ∃ a, x = .ok a ∧ IsFile w a) w := by
  refine .call_ (Q := fun a w => IsFile w a) (fun _ _ _ hf h => h.ext hf.ext) fun w1 g1 f1 => ?_
  obtain ⟨i, o, h1, h2⟩ := g1.dirs _ (List.prefix_refl _)
  have h3 : phys w1 D.r D.ds = some d := hd.stable (List.prefix_refl _) f1
  rw [h3, Option.some.injEq] at h1
  subst h1
  have hlt := phys_lt g1.inv g1.root h3
  have e : aNewFile d D.n p w1 = (.ok w1.next, w1.addChild d o D.n (w1.freshFile p)) := by
    unfold aNewFile
    rw [bind_ok (newFile_eq w1 p), bind_ok (createChild_alloc h2 hlt)]
    rfl
  rw [e]
  refine ⟨_, rfl, ?_, ⟨[], 0, w1.clock w1.tick, w1.clock w1.tick, 0, p, (w1.gen, p)⟩, ?_⟩
  · show w1.next < w1.next + 1
    omega
  · show (if w1.next = d then _ else if w1.next = w1.next then _ else _) = _
    rw [if_neg (by omega), if_pos rfl]
    rfl

theorem will_openWrite {u : Uri} {p : Str} {b : Bool} (hu : stripPath u = .ok p) (hp : splitC '/' p = D.ds ++ [D.n]) {w : World} :
    Will D (cOpenWrite D.r u b) (fun x w => ∃ h, x = .ok h ∧ IsFile w h.id) w := by
  unfold cOpenWrite
  rw [hu]
  show Will D (cParent D.r p >>= _) _ w
  refine .bind (will_parent hp) fun x w1 g1 h1 => ?_
  obtain ⟨h1, h2, h3⟩ := h1
  rw [h2]
  split
  · rename_i hx
    refine .bind (will_spot h1 (h3 hx)) fun c w2 g2 h4 => ?_
    obtain ⟨j, rfl, h4⟩ := h4
    refine .bind (Q := fun a w => a = Tag.file ∧ IsFile w j) (will_query (fun _ _ _ hf h => ⟨h.1, h.2.ext hf.ext⟩) fun w3 g3 f3 => ?_) fun tg w3 g3 h5 => ?_
    · have h5 := h4.ext f3.ext
      obtain ⟨-, f, h6⟩ := id h5
      exact ⟨.file, by rw [h6]; rfl, rfl, h5⟩
    obtain ⟨rfl, h5⟩ := h5
    exact .bind (will_reset h5) fun _ w4 g4 h6 => .pure_ fun w5 _ f5 => ⟨_, rfl, h6.ext f5.ext⟩
  · exact .bind (will_newFile h1) fun i w2 g2 h4 => .pure_ fun w3 _ f3 => ⟨_, rfl, h4.ext f3.ext⟩

theorem will_enter {a : Lock.Args} {p : Str} (hx : ∀ kv ∈ a.path.allExtras, kv.1 ∉ reservedNames) (hs : a.path.scheme = some cl!"memory")
    (hc : D.w0.connOf (connKey a.path) = some D.r) (hk : D.w0.hooks D.r = []) (hu : stripPath a.path = .ok p) (hp : splitC '/' p = D.ds ++ [D.n]) {w : World} :
    Will D (cEnter a) (fun x w => ∃ h, x = .ok h ∧ IsFile w h.id) w := by
  unfold cEnter cConn
  refine .bind (Q := fun r _ => r = D.r) (will_query (fun _ _ _ _ h => h) fun w1 g1 f1 => ⟨D.r, ?_, rfl⟩) fun r w1 g1 h1 => ?_
  · have : ¬ (a.path.allExtras.any fun kv => kv.1 ∈ reservedNames) = true := by
      rw [List.any_eq_true]
      rintro ⟨kv, h1, h2⟩
      exact hx kv h1 (by simpa using h2)
    rw [if_neg this, if_pos hs, connOf_congr g1.conns, hc]
  subst h1
  rw [preCallHook_query]
  refine .bind (Q := fun _ _ => True) (will_query (fun _ _ _ _ h => h) fun w2 g2 f2 => ⟨(), ?_, trivial⟩) fun _ w2 g2 _ => ?_
  · rw [hu]
    simp only [g2.hooks, hk, List.lookup_nil]
  · exact will_openWrite hu hp

end Verif.Conc
