import Verif.Conc.Threads
import Mathlib.Data.List.Forall2
/-!
# A thread among others and the same thread alone

`Sim C`: what the thread can see below its place `q0` in the file system `r0` is the same in both runs, up to the numbers of
objects and the times.  `Rel`: two programs make corresponding accesses, with corresponding outcomes.
-/
namespace Verif.Conc
open Mem Mem.M Spec Prog

/-- the two runs, and which object of the first corresponds to which of the second -/
structure Ctx where
  s : Sit
  v : World
  ρ : Nat → Nat → Prop

/-- at or below `q0`, or on the way to it -/
def Cmp (q0 q : List Str) : Prop := q <+: q0 ∨ q0 <+: q

theorem Cmp.prefix {q0 a b : List Str} (h : Cmp q0 b) (hp : a <+: b) : Cmp q0 a := by
  rcases h with h | h
  · exact .inl (hp.trans h)
  · exact (List.prefix_or_prefix_of_prefix hp h)

/-- the same file, up to times -/
def FileRel (f f' : FileObj) : Prop := f'.data = f.data ∧ f'.pos = f.pos ∧ f'.mode = f.mode ∧ f'.path = f.path ∧ f'.lock = f.lock

/-- corresponding entries -/
def EntryRel (ρ : Nat → Nat → Prop) (e e' : Str × Nat) : Prop := e'.1 = e.1 ∧ ρ e.2 e'.2

/-- both nothing, or corresponding -/
def OptRel {α β : Type} (R : α → β → Prop) : Option α → Option β → Prop
  | some a, some b => R a b
  | none, none => True
  | _, _ => False

/-- corresponding objects at `q` -/
def NodeRel (q0 : List Str) (ρ : Nat → Nat → Prop) (q : List Str) : Node → Node → Prop
  | .file f, .file f' => FileRel f f'
  | .dir d, .dir d' => d'.mode = d.mode ∧ (q0 <+: q → List.Forall₂ (EntryRel ρ) d.files d'.files) ∧
      ∀ n, q ++ [n] <+: q0 → OptRel ρ (d.files.lookup n) (d'.files.lookup n)
  | _, _ => False

theorem OptRel.mono {α β : Type} {R R' : α → β → Prop} (h : ∀ a b, R a b → R' a b) {o : Option α} {o' : Option β} (ho : OptRel R o o') :
    OptRel R' o o' := by
  cases o <;> cases o' <;> simp_all [OptRel]

theorem EntryRel.mono {ρ ρ' : Nat → Nat → Prop} (h : ∀ i j, ρ i j → ρ' i j) {e e' : Str × Nat} (he : EntryRel ρ e e') : EntryRel ρ' e e' :=
  ⟨he.1, h _ _ he.2⟩

theorem NodeRel.mono {q0 : List Str} {ρ ρ' : Nat → Nat → Prop} (h : ∀ i j, ρ i j → ρ' i j) {q : List Str} {n n' : Node}
    (hn : NodeRel q0 ρ q n n') : NodeRel q0 ρ' q n n' := by
  cases n <;> cases n' <;> simp only [NodeRel] at hn ⊢
  · exact hn
  · exact ⟨hn.1, fun hq => List.Forall₂.imp (fun _ _ he => he.mono h) (hn.2.1 hq), fun m hm => (hn.2.2 m hm).mono h⟩

theorem forall₂_lookup {ρ : Nat → Nat → Prop} {l l' : List (Str × Nat)} (h : List.Forall₂ (EntryRel ρ) l l') (n : Str) :
    OptRel ρ (l.lookup n) (l'.lookup n) := by
  induction h with
  | nil => trivial
  | @cons a b l l' hab _ ih =>
    obtain ⟨k, i⟩ := a
    obtain ⟨k', i'⟩ := b
    obtain ⟨h1, h2⟩ := hab
    simp only at h1 h2
    subst h1
    rw [List.lookup_cons, List.lookup_cons]
    cases n == k' with
    | true => exact h2
    | false => exact ih

theorem forall₂_setEntry {ρ : Nat → Nat → Prop} {l l' : List (Str × Nat)} (h : List.Forall₂ (EntryRel ρ) l l') (n : Str) {i i' : Nat} (hi : ρ i i') :
    List.Forall₂ (EntryRel ρ) (setEntry l n i) (setEntry l' n i') := by
  induction h with
  | nil => exact .cons ⟨rfl, hi⟩ .nil
  | @cons a b l l' hab ht ih =>
    obtain ⟨k, j⟩ := a
    obtain ⟨k', j'⟩ := b
    obtain ⟨h1, h2⟩ := hab
    simp only at h1 h2
    subst h1
    simp only [setEntry]
    split
    · exact .cons ⟨rfl, hi⟩ ht
    · exact .cons ⟨rfl, h2⟩ ih

theorem forall₂_filter {ρ : Nat → Nat → Prop} {l l' : List (Str × Nat)} (h : List.Forall₂ (EntryRel ρ) l l') (n : Str) :
    List.Forall₂ (EntryRel ρ) (l.filter fun e => e.1 ≠ n) (l'.filter fun e => e.1 ≠ n) := by
  induction h with
  | nil => exact .nil
  | @cons a b l l' hab ht ih =>
    obtain ⟨k, j⟩ := a
    obtain ⟨k', j'⟩ := b
    obtain ⟨h1, h2⟩ := hab
    simp only at h1 h2
    subst h1
    by_cases hk : k' = n
    · rw [List.filter_cons_of_neg (by simpa using hk), List.filter_cons_of_neg (by simpa using hk)]; exact ih
    · rw [List.filter_cons_of_pos (by simpa using hk), List.filter_cons_of_pos (by simpa using hk)]; exact .cons ⟨rfl, h2⟩ ih

theorem forall₂_keys {ρ : Nat → Nat → Prop} {l l' : List (Str × Nat)} (h : List.Forall₂ (EntryRel ρ) l l') : l'.map Prod.fst = l.map Prod.fst := by
  induction h with
  | nil => rfl
  | cons hab _ ih => rw [List.map_cons, List.map_cons, ih, hab.1]

theorem lookup_filter_self {l : List (Str × Nat)} {n : Str} : (l.filter fun e => e.1 ≠ n).lookup n = none := by
  rw [lookup_none]
  intro c hc
  have := (List.mem_filter.1 hc).2
  simp at this

variable {F : Frame} {r0 : Nat} {q0 : List Str}

/-- what both runs have in common -/
structure Sim (F : Frame) (r0 : Nat) (q0 : List Str) (C : Ctx) : Prop where
  good : Good False F C.s
  conns : C.v.conns = C.s.w.conns
  hooks : C.v.hooks = C.s.w.hooks
  gen : C.v.gen = C.s.w.gen
  dom : ∀ i i', C.ρ i i' → i < C.s.w.next ∧ i' < C.v.next
  inj : ∀ i i' j j', C.ρ i i' → C.ρ j j' → (i = j ↔ i' = j')
  root : IsRoot C.s.w r0 → C.ρ r0 r0
  place : ∀ i i', C.ρ i i' → (C.s.at_ i).1 = r0 ∧ Cmp q0 (C.s.at_ i).2
  node : ∀ i i', C.ρ i i' → NodeRel q0 C.ρ (C.s.at_ i).2 (C.s.w.node i) (C.v.node i')

/-- later -/
structure Le (C C' : Ctx) : Prop where
  rely : Rely False Any_ C.s C'.s
  ρ : ∀ i i', C.ρ i i' → C'.ρ i i'

theorem Le.rfl' (C : Ctx) : Le C C := ⟨.rfl' _ _ _, fun _ _ h => h⟩
theorem Le.trans {A B C : Ctx} (h : Le A B) (h' : Le B C) : Le A C := ⟨h.rely.trans h'.rely, fun _ _ x => h'.ρ _ _ (h.ρ _ _ x)⟩

/-- the others touch nothing at or below `q0` nor on the way to it -/
theorem Sim.others {C : Ctx} (h : Sim F r0 q0 C) {T : Loc → Prop} (hT : ∀ l, T l → l.1 = r0 → ¬ Cmp q0 l.2) {s' : Sit} (hg : Good False F s')
    (hr : Rely False T C.s s') : Sim F r0 q0 ⟨s', C.v, C.ρ⟩ ∧ Le C ⟨s', C.v, C.ρ⟩ := by
  refine ⟨⟨hg, h.conns.trans hr.conns.symm, h.hooks.trans hr.hooks.symm, h.gen.trans hr.gen.symm,
    fun i i' hi => ⟨Nat.lt_of_lt_of_le (h.dom i i' hi).1 hr.next, (h.dom i i' hi).2⟩, h.inj, ?_, ?_, ?_⟩, ⟨hr.any, fun _ _ h => h⟩⟩
  · rintro ⟨k, hk⟩
    exact h.root ⟨k, by rw [← hr.conns]; exact hk⟩
  · intro i i' hi
    show (s'.at_ i).1 = r0 ∧ Cmp q0 (s'.at_ i).2
    rw [hr.same i (h.dom i i' hi).1]
    exact h.place i i' hi
  · intro i i' hi
    have hd := (h.dom i i' hi).1
    have hp := h.place i i' hi
    have hn := h.node i i' hi
    show NodeRel q0 C.ρ (s'.at_ i).2 (s'.w.node i) (C.v.node i')
    rw [hr.same i hd]
    have h1 := hr.node (by simp) i hd fun ht => hT _ ht hp.1 hp.2
    cases e1 : C.s.w.node i with
    | link o => exact absurd e1 (h.good.noLink (by simp) i o)
    | file f =>
      rw [e1] at h1 hn
      cases e2 : s'.w.node i with
      | file f' => rw [e2] at h1; rw [show f' = f from h1]; exact hn
      | dir f' => rw [e2] at h1; exact absurd h1 (by simp [NodeSim])
      | link f' => rw [e2] at h1; exact absurd h1 (by simp [NodeSim])
    | dir d =>
      rw [e1] at h1 hn
      cases e2 : s'.w.node i with
      | file f' => rw [e2] at h1; exact absurd h1 (by simp [NodeSim])
      | link f' => rw [e2] at h1; exact absurd h1 (by simp [NodeSim])
      | dir d' =>
        rw [e2] at h1
        cases e3 : C.v.node i' with
        | file f' => rw [e3] at hn; exact absurd hn (by simp [NodeRel])
        | link f' => rw [e3] at hn; exact absurd hn (by simp [NodeRel])
        | dir d2 =>
          rw [e3] at hn
          refine ⟨hn.1.trans h1.2.2.symm, fun hq => ?_, fun n hq => ?_⟩
          · have := hr.list (by simp) i hd fun n ht => hT _ ht hp.1 (.inr (hq.trans (List.prefix_append _ _)))
            rw [entries_dir e1, entries_dir e2] at this
            rw [this]
            exact hn.2.1 hq
          · have := hr.entry (by simp) i n hd fun ht => hT _ ht hp.1 (.inl hq)
            rw [entries_dir e1, entries_dir e2] at this
            rw [this]
            exact hn.2.2 n hq

/-! ## Programs -/

/-- Both programs make corresponding accesses, whatever the others do in the first run, and end as `Q` says. -/
def Rel (F : Frame) (r0 : Nat) (q0 : List Str) {α β : Type} : Prog α → Prog β → (Except PyErr α → Except PyErr β → Ctx → Prop) → Ctx → Prop
  | .ret r, .ret r', Q, C => ∀ C', Sim F r0 q0 C' → Le C C' → Q r r' C'
  | .act a k, .act a' k', Q, C => ∀ C', Sim F r0 q0 C' → Le C C' → Good False F (C'.s.after a) → Rely False Any_ C'.s (C'.s.after a) →
      ∃ ρ', Sim F r0 q0 ⟨C'.s.after a, (a' C'.v).2, ρ'⟩ ∧ Le C' ⟨C'.s.after a, (a' C'.v).2, ρ'⟩ ∧
        Rel F r0 q0 (k (a C'.s.w).1) (k' (a' C'.v).1) Q ⟨C'.s.after a, (a' C'.v).2, ρ'⟩
  | _, _, _, _ => False

/-- corresponding results, or the same exception -/
def Same {α β : Type} (R : α → β → Ctx → Prop) : Except PyErr α → Except PyErr β → Ctx → Prop
  | .ok a, .ok b, C => R a b C
  | .error e, .error e', _ => e = e'
  | _, _, _ => False

theorem Rel.stable {α β : Type} {p : Prog α} {p' : Prog β} {Q : Except PyErr α → Except PyErr β → Ctx → Prop} {C C' : Ctx} (hl : Le C C')
    (h : Rel F r0 q0 p p' Q C) : Rel F r0 q0 p p' Q C' := by
  cases p <;> cases p'
  · exact fun D hs h2 => h D hs (hl.trans h2)
  · exact h.elim
  · exact h.elim
  · exact fun D hs h2 => h D hs (hl.trans h2)

theorem Rel.of {α β : Type} {p : Prog α} {p' : Prog β} {Q : Except PyErr α → Except PyErr β → Ctx → Prop} {C : Ctx} (h0 : Sim F r0 q0 C)
    (h : ∀ C', Sim F r0 q0 C' → Le C C' → Rel F r0 q0 p p' Q C') : Rel F r0 q0 p p' Q C := h C h0 (.rfl' _)

theorem Rel.after {α β α' β' : Type} {p : Prog α} {p' : Prog α'} {f : Except PyErr α → Prog β} {f' : Except PyErr α' → Prog β'}
    {Q : Except PyErr α → Except PyErr α' → Ctx → Prop} {Q' : Except PyErr β → Except PyErr β' → Ctx → Prop} {C : Ctx}
    (h0 : Sim F r0 q0 C) (h : Rel F r0 q0 p p' Q C)
    (hf : ∀ r r' C', Sim F r0 q0 C' → Le C C' → Q r r' C' → Rel F r0 q0 (f r) (f' r') Q' C') : Rel F r0 q0 (p.after f) (p'.after f') Q' C := by
  induction p generalizing C p' with
  | ret r =>
    cases p' with
    | act a k => exact h.elim
    | ret r' => exact hf r r' C h0 (.rfl' _) (h C h0 (.rfl' _))
  | act a k ih =>
    cases p' with
    | ret r => exact h.elim
    | act a' k' =>
      intro D hs hl hg hr
      obtain ⟨ρ', h1, h2, h3⟩ := h D hs hl hg hr
      exact ⟨ρ', h1, h2, ih _ h1 h3 fun r r' E hE hlE hq => hf r r' E hE ((hl.trans h2).trans hlE) hq⟩

theorem Rel.bind {α β α' β' : Type} {p : Prog α} {p' : Prog α'} {f : α → Prog β} {f' : α' → Prog β'}
    {R : α → α' → Ctx → Prop} {R' : β → β' → Ctx → Prop} {C : Ctx} (h0 : Sim F r0 q0 C) (h : Rel F r0 q0 p p' (Same R) C)
    (hf : ∀ a a' C', Sim F r0 q0 C' → Le C C' → R a a' C' → Rel F r0 q0 (f a) (f' a') (Same R') C') :
    Rel F r0 q0 (p >>= f) (p' >>= f') (Same R') C := by
  refine Rel.after h0 h fun r r' D hs hl hq => ?_
  cases r with
  | ok a =>
    cases r' with
    | ok a' => exact hf a a' D hs hl hq
    | error e => exact hq.elim
  | error e =>
    cases r' with
    | ok a' => exact hq.elim
    | error e' => exact fun _ _ _ => hq

theorem Rel.ret_ {α β : Type} {r : Except PyErr α} {r' : Except PyErr β} {Q : Except PyErr α → Except PyErr β → Ctx → Prop} {C : Ctx}
    (h : ∀ C', Sim F r0 q0 C' → Le C C' → Q r r' C') : Rel F r0 q0 (.ret r) (.ret r') Q C := h

theorem Rel.pure_ {α β : Type} {a : α} {b : β} {R : α → β → Ctx → Prop} {C : Ctx}
    (h : ∀ C', Sim F r0 q0 C' → Le C C' → R a b C') : Rel F r0 q0 (pure a) (pure b) (Same R) C := h

theorem Rel.raise_ {α β : Type} {e : PyErr} {R : α → β → Ctx → Prop} {C : Ctx} : Rel F r0 q0 (raise e) (raise e) (Same R) C := fun _ _ _ => rfl

/-- the same result -/
abbrev Eq_ {α : Type} : α → α → Ctx → Prop := fun a b _ => b = a

/-- something that does not look at shared objects -/
theorem Rel.lift_ {α : Type} {x : Except PyErr α} {C : Ctx} : Rel F r0 q0 (lift x) (lift x) (Same Eq_) C := by
  intro D hs hl
  cases x <;> rfl

/-- as `lift_`, remembering what it was -/
theorem Rel.lift_eq {α : Type} {x : Except PyErr α} {C : Ctx} : Rel F r0 q0 (lift x) (lift x) (Same fun a b _ => b = a ∧ x = .ok a) C := by
  intro D hs hl
  cases x with
  | ok a => exact ⟨rfl, rfl⟩
  | error e => rfl

theorem Same.mono {α β : Type} {R R' : α → β → Ctx → Prop} {r : Except PyErr α} {r' : Except PyErr β} {C : Ctx} (h : ∀ a b, R a b C → R' a b C)
    (hs : Same R r r' C) : Same R' r r' C := by
  cases r <;> cases r' <;> simp_all [Same]

theorem Same.stable {α β : Type} {R : α → β → Ctx → Prop} {r : Except PyErr α} {r' : Except PyErr β} {C C' : Ctx} (h : ∀ a b, R a b C → R a b C')
    (hs : Same R r r' C) : Same R r r' C' := by
  cases r <;> cases r' <;> simp_all [Same]

/-! ## Accesses -/

theorem rel_call {α β : Type} {a : M α} {a' : M β} {R : α → β → Ctx → Prop} {C : Ctx} (hst : ∀ x y C C', Le C C' → R x y C → R x y C')
    (h : ∀ C', Sim F r0 q0 C' → Le C C' → Good False F (C'.s.after a) → Rely False Any_ C'.s (C'.s.after a) →
      ∃ ρ', Sim F r0 q0 ⟨C'.s.after a, (a' C'.v).2, ρ'⟩ ∧ Le C' ⟨C'.s.after a, (a' C'.v).2, ρ'⟩ ∧
        Same R (a C'.s.w).1 (a' C'.v).1 ⟨C'.s.after a, (a' C'.v).2, ρ'⟩) : Rel F r0 q0 (call a) (call a') (Same R) C := by
  intro D hs hl hg hr
  obtain ⟨ρ', h1, h2, h3⟩ := h D hs hl hg hr
  exact ⟨ρ', h1, h2, fun E _ hlE => h3.stable fun x y hx => hst x y _ _ hlE hx⟩

theorem Sim.query {C : Ctx} (h : Sim F r0 q0 C) {α : Type} {f : World → Except PyErr α} :
    Sim F r0 q0 ⟨C.s.after (query f), C.v, C.ρ⟩ ∧ Le C ⟨C.s.after (query f), C.v, C.ρ⟩ := by
  have := query_step (T := fun _ => False) (f := f) h.good
  exact h.others (T := fun _ => False) (fun _ h => h.elim) this.1 this.2.toRely

theorem rel_query {α β : Type} {f : World → Except PyErr α} {f' : World → Except PyErr β} {R : α → β → Ctx → Prop} {C : Ctx}
    (hst : ∀ x y C C', Le C C' → R x y C → R x y C') (h : ∀ C', Sim F r0 q0 C' → Le C C' → Same R (f C'.s.w) (f' C'.v) C') :
    Rel F r0 q0 (call (query f)) (call (query f')) (Same R) C := by
  refine rel_call hst fun D hs hl hg hr => ⟨D.ρ, ?_⟩
  have h1 := hs.query (f := f)
  exact ⟨h1.1, h1.2, (h D hs hl).stable fun x y hx => hst x y _ _ h1.2 hx⟩

/-- corresponding objects at `q` -/
def Pr (r0 : Nat) (C : Ctx) (i i' : Nat) (q : List Str) : Prop := C.ρ i i' ∧ C.s.at_ i = (r0, q) ∧ i < C.s.w.next

theorem Pr.stable {C C' : Ctx} (hl : Le C C') {i i' : Nat} {q : List Str} (h : Pr r0 C i i' q) : Pr r0 C' i i' q :=
  ⟨hl.ρ _ _ h.1, (hl.rely.same i h.2.2).trans h.2.1, Nat.lt_of_lt_of_le h.2.2 hl.rely.next⟩

/-- kinds correspond, and there are no links -/
theorem Sim.kinds {C : Ctx} (h : Sim F r0 q0 C) {i i' : Nat} (hi : C.ρ i i') :
    (∃ f f', C.s.w.node i = .file f ∧ C.v.node i' = .file f' ∧ FileRel f f') ∨
    ∃ d d', C.s.w.node i = .dir d ∧ C.v.node i' = .dir d' ∧ d'.mode = d.mode ∧
      (q0 <+: (C.s.at_ i).2 → List.Forall₂ (EntryRel C.ρ) d.files d'.files) ∧
      ∀ n, (C.s.at_ i).2 ++ [n] <+: q0 → OptRel C.ρ (d.files.lookup n) (d'.files.lookup n) := by
  have hn := h.node i i' hi
  cases e1 : C.s.w.node i with
  | link o => exact absurd e1 (h.good.noLink (by simp) i o)
  | file f =>
    cases e2 : C.v.node i' with
    | file f' => rw [e1, e2] at hn; exact .inl ⟨f, f', rfl, rfl, hn⟩
    | dir f' => rw [e1, e2] at hn; exact hn.elim
    | link f' => rw [e1, e2] at hn; exact hn.elim
  | dir d =>
    cases e2 : C.v.node i' with
    | file f' => rw [e1, e2] at hn; exact hn.elim
    | link f' => rw [e1, e2] at hn; exact hn.elim
    | dir d' => rw [e1, e2] at hn; exact .inr ⟨d, d', rfl, rfl, hn⟩

/-- looking up a name on the way or below -/
theorem Sim.look {C : Ctx} (_ : Sim F r0 q0 C) {q : List Str} {d d' : DirObj}
    (h1 : q0 <+: q → List.Forall₂ (EntryRel C.ρ) d.files d'.files)
    (h2 : ∀ n, q ++ [n] <+: q0 → OptRel C.ρ (d.files.lookup n) (d'.files.lookup n)) {n : Str} (hc : Cmp q0 (q ++ [n])) :
    OptRel C.ρ (d.files.lookup n) (d'.files.lookup n) := by
  rcases hc with hc | hc
  · exact h2 n hc
  · rcases List.prefix_concat_iff.1 hc with e | e
    · exact h2 n (e ▸ List.prefix_rfl)
    · exact forall₂_lookup (h1 e) n

theorem rel_has {C : Ctx} {c c' : Nat} {q : List Str} {n : Str} (hc : Pr r0 C c c' q) (hq : Cmp q0 (q ++ [n])) :
    Rel F r0 q0 (call (aHas c n)) (call (aHas c' n)) (Same Eq_) C := by
  refine rel_query (fun _ _ _ _ _ h => h) fun D hs hl => ?_
  have hd := hc.stable hl
  rcases hs.kinds hd.1 with ⟨f, f', h1, h2, -⟩ | ⟨d, d', h1, h2, -, h4, h5⟩
  · simp only [h1, h2]; rfl
  · rw [hd.2.1] at h4 h5
    have := hs.look h4 h5 hq
    simp only [h1, h2]
    show DirObj.has d' n = DirObj.has d n
    unfold DirObj.has
    cases e1 : d.files.lookup n <;> cases e2 : d'.files.lookup n <;> rw [e1, e2] at this <;> simp_all [OptRel]

/-- both nothing, or corresponding objects at `q` -/
abbrev PO (r0 : Nat) (q : List Str) : Option Nat → Option Nat → Ctx → Prop := fun o o' C => OptRel (fun i i' => Pr r0 C i i' q) o o'

theorem PO.stable {q : List Str} {o o' : Option Nat} {C C' : Ctx} (hl : Le C C') (h : PO r0 q o o' C) : PO r0 q o o' C' :=
  OptRel.mono (fun _ _ hp => hp.stable hl) h

theorem rel_get {C : Ctx} {c c' : Nat} {q : List Str} {n : Str} (hc : Pr r0 C c c' q) (hq : Cmp q0 (q ++ [n])) :
    Rel F r0 q0 (call (aGet c n)) (call (aGet c' n)) (Same fun i i' C => Pr r0 C i i' (q ++ [n])) C := by
  refine rel_query (fun _ _ _ _ hl h => h.stable hl) fun D hs hl => ?_
  have hd := hc.stable hl
  rcases hs.kinds hd.1 with ⟨f, f', h1, h2, -⟩ | ⟨d, d', h1, h2, -, h4, h5⟩
  · simp only [h1, h2]; rfl
  · rw [hd.2.1] at h4 h5
    have := hs.look h4 h5 hq
    simp only [h1, h2, DirObj.get]
    cases e1 : d.files.lookup n with
    | none =>
      cases e2 : d'.files.lookup n with
      | none => rfl
      | some j => rw [e1, e2] at this; exact this.elim
    | some i =>
      cases e2 : d'.files.lookup n with
      | none => rw [e1, e2] at this; exact this.elim
      | some j =>
        rw [e1, e2] at this
        have hm : (n, i) ∈ D.s.w.entries c := by rw [entries_dir h1]; exact lookup_mem e1
        exact ⟨this, by rw [hs.good.entry _ _ _ hm, hd.2.1]; rfl, (hs.good.inv.child _ _ _ hm).2⟩

theorem rel_tag {C : Ctx} {i i' : Nat} (hi : C.ρ i i') :
    Rel F r0 q0 (call (aTag i)) (call (aTag i')) (Same fun t t' _ => t' = t ∧ ∀ u, t ≠ .link u) C := by
  refine rel_query (fun _ _ _ _ _ h => h) fun D hs hl => ?_
  rcases hs.kinds (hl.ρ _ _ hi) with ⟨f, f', h1, h2, -⟩ | ⟨d, d', h1, h2, -⟩
  · rw [h1, h2]; exact ⟨rfl, fun u h => by simp [tagOf] at h⟩
  · rw [h1, h2]; exact ⟨rfl, fun u h => by simp [tagOf] at h⟩

theorem rel_isEmpty {C : Ctx} {c c' : Nat} {q : List Str} (hc : Pr r0 C c c' q) (hq : q0 <+: q) :
    Rel F r0 q0 (call (aIsEmpty c)) (call (aIsEmpty c')) (Same Eq_) C := by
  refine rel_query (fun _ _ _ _ _ h => h) fun D hs hl => ?_
  have hd := hc.stable hl
  rcases hs.kinds hd.1 with ⟨f, f', h1, h2, -⟩ | ⟨d, d', h1, h2, -, h4, -⟩
  · simp only [h1, h2]; rfl
  · rw [hd.2.1] at h4
    have := h4 hq
    simp only [h1, h2]
    show decide (d'.files = []) = decide (d.files = [])
    simp only [← List.length_eq_zero_iff, this.length_eq]

theorem rel_keys {C : Ctx} {c c' : Nat} {q : List Str} (hc : Pr r0 C c c' q) (hq : q0 <+: q) :
    Rel F r0 q0 (call (aKeys c)) (call (aKeys c')) (Same Eq_) C := by
  refine rel_query (fun _ _ _ _ _ h => h) fun D hs hl => ?_
  have hd := hc.stable hl
  rcases hs.kinds hd.1 with ⟨f, f', h1, h2, -⟩ | ⟨d, d', h1, h2, -, h4, -⟩
  · simp only [h1, h2]; rfl
  · rw [hd.2.1] at h4
    simp only [h1, h2]
    exact forall₂_keys (h4 hq)

theorem rel_info {C : Ctx} {i i' : Nat} (hi : C.ρ i i') :
    Rel F r0 q0 (call (aInfo i)) (call (aInfo i')) (Same fun a b _ => b.mode = a.mode) C := by
  refine rel_query (fun _ _ _ _ _ h => h) fun D hs hl => ?_
  rcases hs.kinds (hl.ρ _ _ hi) with ⟨f, f', h1, h2, h3⟩ | ⟨d, d', h1, h2, h3, -⟩
  · rw [h1, h2]; exact h3.2.2.1
  · rw [h1, h2]; exact h3

theorem rel_now {C : Ctx} : Rel F r0 q0 (call now) (call now) (Same fun _ _ _ => True) C := by
  refine rel_call (fun _ _ _ _ _ h => h) fun D hs hl hg hr => ⟨D.ρ, ?_, ⟨hr, fun _ _ h => h⟩, trivial⟩
  have h1 := tick_step (T := fun _ => False) hs.good (n := D.s.w.tick + 1)
  have h2 := hs.others (T := fun _ => False) (fun _ h => h.elim) h1.1 h1.2.toRely
  exact ⟨h2.1.good, h2.1.conns, h2.1.hooks, h2.1.gen, h2.1.dom, h2.1.inj, h2.1.root, h2.1.place, h2.1.node⟩

/-- corresponding changes of corresponding objects -/
theorem Sim.set {C : Ctx} (h : Sim F r0 q0 C) {i i' : Nat} (hi : C.ρ i i') {n n' : Node} {l : Nat → Loc}
    (hg : Good False F ⟨C.s.w.setNode i n, l⟩) (hr : Rely False Any_ C.s ⟨C.s.w.setNode i n, l⟩)
    (hn : NodeRel q0 C.ρ (C.s.at_ i).2 n n') :
    Sim F r0 q0 ⟨⟨C.s.w.setNode i n, l⟩, C.v.setNode i' n', C.ρ⟩ := by
  refine ⟨hg, h.conns, h.hooks, h.gen, h.dom, h.inj, h.root, ?_, ?_⟩
  · intro j j' hj
    show (l j).1 = r0 ∧ Cmp q0 (l j).2
    rw [show l j = C.s.at_ j from hr.same j (h.dom _ _ hj).1]
    exact h.place j j' hj
  · intro j j' hj
    show NodeRel q0 C.ρ (l j).2 (if j = i then n else C.s.w.node j) (if j' = i' then n' else C.v.node j')
    rw [show l j = C.s.at_ j from hr.same j (h.dom _ _ hj).1]
    by_cases e : j = i
    · have e' := (h.inj _ _ _ _ hj hi).1 e
      subst e; subst e'
      rw [if_pos rfl, if_pos rfl]; exact hn
    · rw [if_neg e, if_neg fun e' => e ((h.inj _ _ _ _ hj hi).2 e')]
      exact h.node j j' hj

/-- corresponding changes of files -/
def FunRel {α β : Type} (R : α → β → Prop) (g : FileObj → Except PyErr (α × FileObj)) (g' : FileObj → Except PyErr (β × FileObj)) : Prop :=
  ∀ f f', FileRel f f' → match g f, g' f' with
    | .ok x, .ok x' => R x.1 x'.1 ∧ FileRel x.2 x'.2
    | .error e, .error e' => e = e'
    | _, _ => False

theorem rel_file {α β : Type} {R : α → β → Prop} {g : FileObj → Except PyErr (α × FileObj)} {g' : FileObj → Except PyErr (β × FileObj)}
    (hgg : FunRel R g g') {C : Ctx} {i i' : Nat} (hi : C.ρ i i') :
    Rel F r0 q0 (call (aFile i g)) (call (aFile i' g')) (Same fun a b _ => R a b) C := by
  refine rel_call (fun _ _ _ _ _ h => h) fun D hs hl hg hr => ⟨D.ρ, ?_⟩
  have hd := hl.ρ _ _ hi
  have hsame : ∀ (e : PyErr), aFile i g D.s.w = (.error e, D.s.w) → aFile i' g' D.v = (.error e, D.v) →
      Sim F r0 q0 ⟨D.s.after (aFile i g), (aFile i' g' D.v).2, D.ρ⟩ ∧ Le D ⟨D.s.after (aFile i g), (aFile i' g' D.v).2, D.ρ⟩ ∧
        Same (fun a b _ => R a b) (aFile i g D.s.w).1 (aFile i' g' D.v).1 ⟨D.s.after (aFile i g), (aFile i' g' D.v).2, D.ρ⟩ := by
    intro e h1 h2
    unfold Sit.after
    rw [h1, h2]
    have := hs.query (f := fun _ => (.ok () : Except PyErr Unit))
    exact ⟨this.1, this.2, rfl⟩
  rcases hs.kinds hd with ⟨f, f', h1, h2, h3⟩ | ⟨d, d', h1, h2, -⟩
  · have hx := hgg f f' h3
    cases e1 : g f with
    | error e =>
      cases e2 : g' f' with
      | ok x => rw [e1, e2] at hx; exact hx.elim
      | error e' =>
        rw [e1, e2] at hx
        simp only at hx
        subst hx
        exact hsame e (by rw [run_aFile, h1]; simp only [e1]) (by rw [run_aFile, h2]; simp only [e2])
    | ok x =>
      cases e2 : g' f' with
      | error e => rw [e1, e2] at hx; exact hx.elim
      | ok x' =>
        rw [e1, e2] at hx
        have a1 : aFile i g D.s.w = (.ok x.1, D.s.w.setNode i (.file x.2)) := aFile_ok h1 e1
        have a2 : aFile i' g' D.v = (.ok x'.1, D.v.setNode i' (.file x'.2)) := aFile_ok h2 e2
        unfold Sit.after at hg hr ⊢
        rw [a1] at hg hr ⊢
        rw [a2]
        exact ⟨hs.set hd hg hr hx.2, ⟨hr, fun _ _ h => h⟩, hx.1⟩
  · exact hsame .attributeError (by rw [run_aFile, h1]) (by rw [run_aFile, h2])

theorem rel_setMtime {C : Ctx} {i i' : Nat} {t t' : Int} (hi : C.ρ i i') :
    Rel F r0 q0 (call (aSetMtime i t)) (call (aSetMtime i' t')) (Same Eq_) C := by
  refine rel_call (fun _ _ _ _ _ h => h) fun D hs hl hg hr => ⟨D.ρ, ?_, ⟨hr, fun _ _ h => h⟩, rfl⟩
  have hd := hl.ρ _ _ hi
  refine hs.set hd hg hr ?_
  have := hs.node i i' hd
  cases e1 : D.s.w.node i <;> cases e2 : D.v.node i' <;> rw [e1, e2] at this <;> exact this

theorem rel_setMode {C : Ctx} {i i' : Nat} {m : Int} (hi : C.ρ i i') :
    Rel F r0 q0 (call (aSetMode i m)) (call (aSetMode i' m)) (Same Eq_) C := by
  refine rel_call (fun _ _ _ _ _ h => h) fun D hs hl hg hr => ⟨D.ρ, ?_, ⟨hr, fun _ _ h => h⟩, rfl⟩
  have hd := hl.ρ _ _ hi
  refine hs.set hd hg hr ?_
  have := hs.node i i' hd
  cases e1 : D.s.w.node i <;> cases e2 : D.v.node i' <;> rw [e1, e2] at this
  · exact ⟨this.1, this.2.1, rfl, this.2.2.2⟩
  · exact this
  · exact this
  · exact this
  · exact ⟨rfl, this.2⟩
  · exact this
  · exact this
  · exact this
  · exact this

theorem rel_del {C : Ctx} {c c' : Nat} {q : List Str} {n : Str} (hc : Pr r0 C c c' q) (hq : Cmp q0 (q ++ [n])) :
    Rel F r0 q0 (call (delChild c n)) (call (delChild c' n)) (Same Eq_) C := by
  refine rel_call (fun _ _ _ _ _ h => h) fun D hs hl hg hr => ⟨D.ρ, ?_⟩
  have hd := hc.stable hl
  have hsame : ∀ (e : PyErr), delChild c n D.s.w = (.error e, D.s.w) → delChild c' n D.v = (.error e, D.v) →
      Sim F r0 q0 ⟨D.s.after (delChild c n), (delChild c' n D.v).2, D.ρ⟩ ∧ Le D ⟨D.s.after (delChild c n), (delChild c' n D.v).2, D.ρ⟩ ∧
        Same Eq_ (delChild c n D.s.w).1 (delChild c' n D.v).1 ⟨D.s.after (delChild c n), (delChild c' n D.v).2, D.ρ⟩ := by
    intro e h1 h2
    unfold Sit.after
    rw [h1, h2]
    have := hs.query (f := fun _ => (.ok () : Except PyErr Unit))
    exact ⟨this.1, this.2, rfl⟩
  rcases hs.kinds hd.1 with ⟨f, f', h1, h2, -⟩ | ⟨d, d', h1, h2, h3, h4, h5⟩
  · exact hsame .attributeError (by unfold delChild; rw [h1]) (by unfold delChild; rw [h2])
  · have hlook := hs.look (by rw [hd.2.1] at h4; exact h4) (by rw [hd.2.1] at h5; exact h5) hq
    have hb : d'.has n = d.has n := by
      unfold DirObj.has
      cases e1 : d.files.lookup n <;> cases e2 : d'.files.lookup n <;> rw [e1, e2] at hlook <;> simp_all [OptRel]
    cases hh : d.has n with
    | false =>
      exact hsame .keyError (by unfold delChild; rw [h1]; simp [hh]) (by unfold delChild; rw [h2]; simp [hb, hh])
    | true =>
      have a1 : delChild c n D.s.w = (.ok (), D.s.w.setNode c (.dir (d.remove n))) := by unfold delChild; rw [h1]; simp [hh]
      have a2 : delChild c' n D.v = (.ok (), D.v.setNode c' (.dir (d'.remove n))) := by unfold delChild; rw [h2]; simp [hb, hh]
      unfold Sit.after at hg hr ⊢
      rw [a1] at hg hr ⊢
      rw [a2]
      refine ⟨hs.set hd.1 hg hr ⟨h3, fun hx => forall₂_filter (h4 hx) n, fun m hm => ?_⟩, ⟨hr, fun _ _ h => h⟩, rfl⟩
      show OptRel _ ((d.files.filter fun e => e.1 ≠ n).lookup m) ((d'.files.filter fun e => e.1 ≠ n).lookup m)
      by_cases e : m = n
      · subst e; rw [lookup_filter_self, lookup_filter_self]; trivial
      · rw [lookup_filter_ne e, lookup_filter_ne e]; exact h5 m hm

/-! ## New objects -/

theorem new_eq {a : M Nat} {n : World → Node} (ha : ∀ w, a w = (.ok w.next, w.alloc (n w))) {w : World} {d : Nat} (hd : d < w.next) (m : Str) :
    (do let i ← a; createChild d m i; pure i : M Nat) w =
      match w.node d with
      | .dir o => (.ok w.next, w.addChild d o m (n w))
      | _ => (.error .attributeError, w.alloc (n w)) := by
  rw [bind_ok (ha w)]
  cases ho : w.node d with
  | dir o => rw [bind_ok (createChild_alloc ho hd)]; rfl
  | file f =>
    refine bind_error (e := .attributeError) ?_
    unfold createChild
    simp only [World.alloc, if_neg (Nat.ne_of_lt hd), ho]
  | link f =>
    refine bind_error (e := .attributeError) ?_
    unfold createChild
    simp only [World.alloc, if_neg (Nat.ne_of_lt hd), ho]

theorem new_unit_eq {a : M Nat} {n : World → Node} (ha : ∀ w, a w = (.ok w.next, w.alloc (n w))) {w : World} {d : Nat} (hd : d < w.next) (m : Str) :
    (do let i ← a; createChild d m i : M Unit) w =
      match w.node d with
      | .dir o => (.ok (), w.addChild d o m (n w))
      | _ => (.error .attributeError, w.alloc (n w)) := by
  rw [bind_ok (ha w)]
  cases ho : w.node d with
  | dir o => rw [createChild_alloc ho hd]
  | file f =>
    unfold createChild
    simp only [World.alloc, if_neg (Nat.ne_of_lt hd), ho]
  | link f =>
    unfold createChild
    simp only [World.alloc, if_neg (Nat.ne_of_lt hd), ho]

/-- objects made and not stored do not matter -/
theorem Sim.alloc {C : Ctx} (h : Sim F r0 q0 C) {n n' : Node} {l : Nat → Loc}
    (hg : Good False F ⟨C.s.w.alloc n, l⟩) (hr : Rely False Any_ C.s ⟨C.s.w.alloc n, l⟩) :
    Sim F r0 q0 ⟨⟨C.s.w.alloc n, l⟩, C.v.alloc n', C.ρ⟩ := by
  refine ⟨hg, h.conns, h.hooks, h.gen, fun i i' hi => ⟨Nat.lt_succ_of_lt (h.dom _ _ hi).1, Nat.lt_succ_of_lt (h.dom _ _ hi).2⟩, h.inj, h.root, ?_, ?_⟩
  · intro j j' hj
    show (l j).1 = r0 ∧ Cmp q0 (l j).2
    rw [show l j = C.s.at_ j from hr.same j (h.dom _ _ hj).1]
    exact h.place j j' hj
  · intro j j' hj
    have hd := h.dom _ _ hj
    show NodeRel q0 C.ρ (l j).2 (if j = C.s.w.next then n else C.s.w.node j) (if j' = C.v.next then n' else C.v.node j')
    rw [show l j = C.s.at_ j from hr.same j hd.1, if_neg (Nat.ne_of_lt hd.1), if_neg (Nat.ne_of_lt hd.2)]
    exact h.node j j' hj

/-- objects without content correspond -/
def LeafRel : Node → Node → Prop
  | .file f, .file f' => FileRel f f'
  | .dir d, .dir d' => d'.mode = d.mode ∧ d.files = [] ∧ d'.files = []
  | _, _ => False

/-- the new objects correspond -/
def newPair (ρ : Nat → Nat → Prop) (a a' : Nat) : Nat → Nat → Prop := fun i i' => ρ i i' ∨ (i = a ∧ i' = a')

theorem Sim.put {C : Ctx} (h : Sim F r0 q0 C) {c c' : Nat} {q : List Str} {m : Str} (hc : Pr r0 C c c' q) (hq : Cmp q0 (q ++ [m]))
    {d d' : DirObj} (hd : C.s.w.node c = .dir d) (hd' : C.v.node c' = .dir d') {n n' : Node} (hn : LeafRel n n') {l : Nat → Loc}
    (hg : Good False F ⟨C.s.w.addChild c d m n, l⟩) (hr : Rely False Any_ C.s ⟨C.s.w.addChild c d m n, l⟩) :
    Sim F r0 q0 ⟨⟨C.s.w.addChild c d m n, l⟩, C.v.addChild c' d' m n', newPair C.ρ C.s.w.next C.v.next⟩ ∧
      Pr r0 ⟨⟨C.s.w.addChild c d m n, l⟩, C.v.addChild c' d' m n', newPair C.ρ C.s.w.next C.v.next⟩ C.s.w.next C.v.next (q ++ [m]) := by
  have hsame : ∀ j j', C.ρ j j' → l j = C.s.at_ j := fun j j' hj => hr.same j (h.dom _ _ hj).1
  have hput : (m, C.s.w.next) ∈ (C.s.w.addChild c d m n).entries c := put_mem
  have hnew : l C.s.w.next = (r0, q ++ [m]) := by
    rw [show l C.s.w.next = (l c).snoc m from hg.entry c m _ hput, hsame c c' hc.1, hc.2.1]
    rfl
  have hold : ∀ {i i'}, C.ρ i i' → ¬ (i = C.s.w.next) ∧ ¬ (i' = C.v.next) := fun hi =>
    ⟨Nat.ne_of_lt (h.dom _ _ hi).1, Nat.ne_of_lt (h.dom _ _ hi).2⟩
  have hmono : ∀ i i', C.ρ i i' → newPair C.ρ C.s.w.next C.v.next i i' := fun _ _ h => .inl h
  refine ⟨⟨hg, h.conns, h.hooks, h.gen, ?_, ?_, fun hr => .inl (h.root hr), ?_, ?_⟩, .inr ⟨rfl, rfl⟩, hnew, Nat.lt_succ_self _⟩
  · rintro i i' (hi | ⟨rfl, rfl⟩)
    · exact ⟨Nat.lt_succ_of_lt (h.dom _ _ hi).1, Nat.lt_succ_of_lt (h.dom _ _ hi).2⟩
    · exact ⟨Nat.lt_succ_self _, Nat.lt_succ_self _⟩
  · rintro i i' j j' (hi | ⟨rfl, rfl⟩) (hj | ⟨rfl, rfl⟩)
    · exact h.inj _ _ _ _ hi hj
    · exact ⟨fun e => absurd e (hold hi).1, fun e => absurd e (hold hi).2⟩
    · exact ⟨fun e => absurd e.symm (hold hj).1, fun e => absurd e.symm (hold hj).2⟩
    · simp
  · rintro i i' (hi | ⟨rfl, rfl⟩)
    · show (l i).1 = r0 ∧ Cmp q0 (l i).2
      rw [hsame i i' hi]
      exact h.place i i' hi
    · show (l C.s.w.next).1 = r0 ∧ Cmp q0 (l C.s.w.next).2
      rw [hnew]
      exact ⟨rfl, hq⟩
  · have hne : ∀ {i i'}, C.ρ i i' → (i = c ↔ i' = c') := fun hi => h.inj _ _ _ _ hi hc.1
    rintro i i' (hi | ⟨rfl, rfl⟩)
    · show NodeRel q0 _ (l i).2 (if i = c then .dir (d.create m C.s.w.next) else if i = C.s.w.next then n else C.s.w.node i)
        (if i' = c' then .dir (d'.create m C.v.next) else if i' = C.v.next then n' else C.v.node i')
      rw [hsame i i' hi]
      by_cases e : i = c
      · have e' := (hne hi).1 e
        subst e; subst e'
        rw [if_pos rfl, if_pos rfl]
        have hx := h.node i i' hi
        rw [hd, hd'] at hx
        have hx' := NodeRel.mono hmono hx
        refine ⟨hx.1, fun hl => forall₂_setEntry (hx'.2.1 hl) m (.inr ⟨rfl, rfl⟩), fun k hk => ?_⟩
        show OptRel _ ((setEntry d.files m C.s.w.next).lookup k) ((setEntry d'.files m C.v.next).lookup k)
        rw [lookup_setEntry, lookup_setEntry]
        split
        · exact .inr ⟨rfl, rfl⟩
        · exact hx'.2.2 k hk
      · rw [if_neg e, if_neg fun e' => e ((hne hi).2 e'), if_neg (hold hi).1, if_neg (hold hi).2]
        exact NodeRel.mono hmono (h.node i i' hi)
    · have e1 : ¬ C.s.w.next = c := fun e => absurd (e ▸ (h.dom _ _ hc.1).1) (Nat.lt_irrefl _)
      have e2 : ¬ C.v.next = c' := fun e => absurd (e ▸ (h.dom _ _ hc.1).2) (Nat.lt_irrefl _)
      show NodeRel q0 _ (l C.s.w.next).2 (if C.s.w.next = c then .dir (d.create m C.s.w.next) else if C.s.w.next = C.s.w.next then n else C.s.w.node C.s.w.next)
        (if C.v.next = c' then .dir (d'.create m C.v.next) else if C.v.next = C.v.next then n' else C.v.node C.v.next)
      rw [if_neg e1, if_neg e2, if_pos rfl, if_pos rfl]
      cases n <;> cases n' <;> simp only [LeafRel] at hn
      · exact hn
      · refine ⟨hn.1, fun _ => ?_, fun k _ => ?_⟩
        · rw [hn.2.1, hn.2.2]; exact .nil
        · rw [hn.2.1, hn.2.2]; trivial

theorem rel_newFile {C : Ctx} {c c' : Nat} {q : List Str} {m p : Str} (hc : Pr r0 C c c' q) (hq : Cmp q0 (q ++ [m])) :
    Rel F r0 q0 (call (aNewFile c m p)) (call (aNewFile c' m p)) (Same fun i i' C => Pr r0 C i i' (q ++ [m])) C := by
  refine rel_call (fun _ _ _ _ hl h => h.stable hl) fun D hs hl hg hr => ?_
  have hd := hc.stable hl
  have hdom := hs.dom _ _ hd.1
  unfold aNewFile at hg hr ⊢
  unfold Sit.after at hg hr ⊢
  rw [new_eq (fun w => newFile_eq w p) hdom.1] at hg hr ⊢
  rw [new_eq (fun w => newFile_eq w p) hdom.2]
  rcases hs.kinds hd.1 with ⟨f, f', h1, h2, -⟩ | ⟨d, d', h1, h2, -⟩
  · simp only [h1, h2] at hg hr ⊢
    exact ⟨D.ρ, hs.alloc hg hr, ⟨hr, fun _ _ h => h⟩, rfl⟩
  · simp only [h1, h2] at hg hr ⊢
    have := hs.put hd hq h1 h2 (n := .file ⟨[], 0, D.s.w.clock D.s.w.tick, D.s.w.clock D.s.w.tick, 0, p, (D.s.w.gen, p)⟩)
      (n' := .file ⟨[], 0, D.v.clock D.v.tick, D.v.clock D.v.tick, 0, p, (D.v.gen, p)⟩)
      ⟨rfl, rfl, rfl, rfl, by rw [hs.gen]⟩ hg hr
    exact ⟨_, this.1, ⟨hr, fun _ _ h => .inl h⟩, this.2⟩

theorem rel_newDir {C : Ctx} {c c' : Nat} {q : List Str} {m : Str} (hc : Pr r0 C c c' q) (hq : Cmp q0 (q ++ [m])) :
    Rel F r0 q0 (call (aNewDir c m)) (call (aNewDir c' m)) (Same Eq_) C := by
  refine rel_call (fun _ _ _ _ hl h => h) fun D hs hl hg hr => ?_
  have hd := hc.stable hl
  have hdom := hs.dom _ _ hd.1
  unfold aNewDir at hg hr ⊢
  unfold Sit.after at hg hr ⊢
  rw [new_unit_eq newDir_eq hdom.1] at hg hr ⊢
  rw [new_unit_eq newDir_eq hdom.2]
  rcases hs.kinds hd.1 with ⟨f, f', h1, h2, -⟩ | ⟨d, d', h1, h2, -⟩
  · simp only [h1, h2] at hg hr ⊢
    exact ⟨D.ρ, hs.alloc hg hr, ⟨hr, fun _ _ h => h⟩, rfl⟩
  · simp only [h1, h2] at hg hr ⊢
    have := hs.put hd hq h1 h2 (n := .dir ⟨[], D.s.w.clock D.s.w.tick, D.s.w.clock D.s.w.tick, 0⟩)
      (n' := .dir ⟨[], D.v.clock D.v.tick, D.v.clock D.v.tick, 0⟩) ⟨rfl, rfl, rfl⟩ hg hr
    exact ⟨_, this.1, ⟨hr, fun _ _ h => .inl h⟩, rfl⟩

end Verif.Conc
