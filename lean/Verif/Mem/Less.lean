import Verif.Mem.Pres
/-!
# What removing leaves

Removing only takes entries out of directories: the objects that still have a name have it since before, and the files are as
they were, with their contents and positions.
-/
namespace Verif.Mem
open M

/-- files are as they were, and directories have no new entries -/
structure Less (w w' : World) : Prop where
  file : ∀ j f, w.node j = .file f → w'.node j = .file f
  entry : ∀ j n c, (w'.entries j).lookup n = some c → (w.entries j).lookup n = some c

theorem Less.refl (w : World) : Less w w := ⟨fun _ _ h => h, fun _ _ _ h => h⟩

theorem Less.trans {a b c : World} (h : Less a b) (h' : Less b c) : Less a c :=
  ⟨fun j f hf => h'.file j f (h.file j f hf), fun j n x hx => h.entry j n x (h'.entry j n x hx)⟩

/-- what has a name had it before -/
theorem Less.phys {w w' : World} (h : Less w w') {r : Nat} {q : List Str} : ∀ {j : Nat}, Spec.phys w' r q = some j → Spec.phys w r q = some j := by
  induction q using List.reverseRecOn with
  | nil => exact fun h => h
  | append_singleton q n ih =>
    intro j hj
    rw [phys_snoc] at hj ⊢
    cases hq : Spec.phys w' r q with
    | none => rw [hq] at hj; cases hj
    | some i =>
      rw [hq] at hj
      rw [ih hq]
      exact h.entry i n j hj

theorem Less.delEntry {w : World} {i : Nat} {d : DirObj} {n : Str} (hd : w.node i = .dir d) : Less w (w.delEntry i d n) := by
  refine ⟨fun j f hf => ?_, fun j m c hc => ?_⟩
  · have : j ≠ i := by rintro rfl; rw [hd] at hf; cases hf
    simp [World.delEntry, World.setNode, this, hf]
  · rw [entries_delEntry hd] at hc
    split at hc
    · rename_i e
      subst e
      rw [lookup_filter] at hc
      split at hc
      · cases hc
      · exact hc
    · exact hc

/-- a computation that only removes -/
def Lessens {α : Type} (m : M α) : Prop := ∀ w, Inv w → Inv (m w).2 ∧ Less w (m w).2

theorem Lessens.ret {α : Type} (a : α) : Lessens (pure a : M α) := fun w hw => ⟨hw, .refl w⟩
theorem Lessens.raise {α : Type} (e : PyErr) : Lessens (raise e : M α) := fun w hw => ⟨hw, .refl w⟩
theorem Lessens.query {α : Type} (f : World → Except PyErr α) : Lessens (query f) := fun w hw => ⟨hw, .refl w⟩
theorem Lessens.lift {α : Type} (x : Except PyErr α) : Lessens (lift x) := fun w hw => ⟨hw, .refl w⟩

theorem Lessens.bind {α β : Type} {m : M α} {f : α → M β} (h : Lessens m) (h' : ∀ a, Lessens (f a)) : Lessens (m >>= f) := by
  intro w hw
  rw [bind_apply]
  have h1 := h w hw
  cases hm : m w with
  | mk x w1 =>
    rw [hm] at h1
    cases x with
    | error e => exact h1
    | ok a => have := h' a w1 h1.1; exact ⟨this.1, h1.2.trans this.2⟩

theorem Lessens.ite {α : Type} {c : Prop} [Decidable c] {m m' : M α} (h : Lessens m) (h' : Lessens m') :
    Lessens (if c then m else m') := by split <;> assumption

theorem Lessens.forM {α : Type} {f : α → M PUnit} (l : List α) (h : ∀ a, Lessens (f a)) : Lessens (l.forM f) := by
  induction l with
  | nil => exact .ret _
  | cons a l ih => exact (h a).bind fun _ => ih

theorem lessens_getConnection (u : Uri) : Lessens (getConnection u) := by
  intro w hw
  refine ⟨(getConnection_pres u w hw).1, ?_⟩
  unfold getConnection
  split
  · exact .refl w
  split
  · split
    · exact .refl w
    · by_cases ht : truthy (connKey u).key.hostname = true
      · rw [createConn_host ht]; exact .refl w
      · rw [createConn_eq ht]
        have hn := hw.fresh w.next (Nat.le_refl _)
        have he : ∀ j, j ≠ w.next → (w.connect (connKey u)).node j = w.node j := by
          intro j hj
          simp [World.connect, World.alloc, hj]
        refine ⟨fun j f hf => ?_, fun j n c hc => ?_⟩
        · rw [he j (by rintro rfl; rw [hn] at hf; cases hf), hf]
        · by_cases hj : j = w.next
          · subst hj
            simp [World.connect, World.alloc, World.entries] at hc
          · unfold World.entries at hc ⊢
            rwa [he j hj] at hc
  split <;> exact .refl w

theorem Lessens.withConn {α : Type} {u : Uri} {m : Meth} {body : Nat → M α} (h : ∀ r, Lessens (body r)) :
    Lessens (withConn u m body) :=
  (lessens_getConnection u).bind fun r => ((Lessens.lift _).bind fun _ => .query _).bind fun _ => h r

theorem lessens_query_conn {α : Type} (u : Uri) (m : Meth) (f : Nat → World → Except PyErr α) :
    Lessens (Mem.withConn u m fun r => query (f r)) := .withConn fun _ => .query _

theorem lessens_removefile (r : Nat) (u : Uri) : Lessens (removefile r u) := by
  intro w hw
  refine ⟨(pres_removefile r u w hw).1, ?_⟩
  rcases removefile_cases (w := w) (r := r) u with ⟨e, h⟩ | h | ⟨i, d, c, a, b, h⟩
  · rw [h]; exact .refl w
  · rw [h]; exact .refl w
  · rw [h]; exact .delEntry a

theorem lessens_removedir (r : Nat) (u : Uri) : Lessens (removedir r u) := by
  intro w hw
  refine ⟨(pres_removedir r u w hw).1, ?_⟩
  rcases removedir_cases (w := w) (r := r) u with ⟨e, h⟩ | h | ⟨i, d, c, a, b, h⟩
  · rw [h]; exact .refl w
  · rw [h]; exact .refl w
  · rw [h]; exact .delEntry a

end Verif.Mem

namespace Verif.Gen
open Mem Mem.M

theorem lessens_classify (r : Nat) (top : Uri) (l : List Str) : Lessens (classify r top l) := by
  induction l with
  | nil => exact .ret _
  | cons x l ih =>
    rw [classify]
    exact (Lessens.lift _).bind fun _ => (Lessens.query _).bind fun _ => ih.bind fun _ => .ret _

theorem lessens_walkDirs {σ : Type} {f : Bool} {visit : Uri → σ → M σ} (h : ∀ u s, Lessens (visit u s))
    (top : Uri) (l : List Str) (s : σ) : Lessens (walkDirs f visit top l s) := by
  induction l generalizing s with
  | nil => exact .ret _
  | cons x l ih =>
    rw [walkDirs]
    exact (Lessens.lift _).bind fun p => (lessens_query_conn p _ _).bind fun b =>
      .ite ((h p s).bind fun s' => ih s') ((Lessens.ret s).bind fun s' => ih s')

theorem lessens_walk {q : Nat} {σ : Type} {td f : Bool}
    {body : σ → Uri → List Str → List Str → M (σ × List Str)} (h : ∀ s u d n, Lessens (body s u d n))
    (n : Nat) (u : Uri) (s : σ) : Lessens (walk q td f body n u s) := by
  induction n generalizing u s with
  | zero => exact .raise _
  | succ n ih =>
    rw [walk]
    refine (Lessens.query _).bind fun names => (lessens_classify q u _).bind fun x => .ite ?_ ?_
    · exact (h s u _ _).bind fun y => lessens_walkDirs ih u _ _
    · exact (lessens_walkDirs ih u _ _).bind fun s' => (h s' u _ _).bind fun y => .ret _

theorem lessens_removeBody (r : Nat) (top : Uri) (dirs files : List Str) : Lessens (removeBody r top dirs files) :=
  (Lessens.forM files fun _ => (Lessens.lift _).bind fun p => lessens_removefile r p).bind fun _ =>
    Lessens.forM dirs fun _ => (Lessens.lift _).bind fun p => (Lessens.query _).bind fun _ =>
      .ite (lessens_removefile r p) (lessens_removedir r p)

theorem lessens_removeDirRec (n r : Nat) (u : Uri) : Lessens (removeDirRec n r u) :=
  (lessens_walk (fun _ u d f => (lessens_removeBody r u d f).bind fun _ => .ret _) n u ()).bind fun _ =>
    (Lessens.query _).bind fun _ => .ite (lessens_removefile r u) (lessens_removedir r u)

theorem lessens_uRemove (n : Nat) (u : Uri) (rec : Bool) : Lessens (uRemove n u rec) :=
  .withConn fun r => (Lessens.query _).bind fun _ => .ite (lessens_removefile r u)
    ((Lessens.query _).bind fun _ => .ite (.raise _)
      ((Lessens.query _).bind fun _ => .ite (.ite (lessens_removeDirRec n r u) (lessens_removedir r u))
        ((Lessens.query _).bind fun _ => .ite (lessens_removefile r u) (.ret _))))

end Verif.Gen
