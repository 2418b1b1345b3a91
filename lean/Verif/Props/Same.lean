import Verif.Any.SameMove
/-!
# C112 A program cannot tell a memory file system from local files

Any sequence of calls, each chosen by what the calls before it answered, gets the answers, the exceptions and the tree
that a plain file system (Verif/Any/Plain.lean) gives, in every memory file system and on local files; so two places
that hold the same tree cannot be told apart.  Where the backends do differ the plain file system has no expectation
(`PyErr.outside`), and the differences are stated below with witnesses.
-/
namespace Verif.Props
open Verif.Spec Verif.Gen Verif.Any
open Mem (World)

section
variable {ι : Type} {E : ι → Dict} {r : ι → Nat} {k : Option ι} {F : Option ι → List Str → Option Any.Kind} {s : Sys}

/-- the place `k` holds the tree `t`: names that fit, no links -/
structure Holds (r : ι → Nat) (s : Sys) (k : Option ι) (t : Tree) : Prop where
  here : ∀ p, siteV r s k p = t.get p
  keys : (t.map (·.1)).Nodup
  fit : ∀ p, siteV r s k p ≠ none → Fit p
  noLink : ∀ p, siteV r s k p ≠ some .other

theorem Holds.rel {t : Tree} (h : Holds r s k t) (hok : SysOk E r s) : Rel E r k (siteV r s) t s :=
  ⟨hok, h.here, fun _ _ => rfl, h.keys, fun p hp => h.fit p (by rw [h.here]; exact hp), fun p => by rw [← h.here]; exact h.noLink p⟩

theorem holds_of_rel {t : Tree} (h : Rel E r k F t s) : Holds r s k t :=
  ⟨h.here, h.keys, fun p hp => h.fit p (by rw [← h.here]; exact hp), fun p => by rw [h.here]; exact h.noLink p⟩

/-- one call -/
theorem alike_act (hr : Function.Injective r) (depth : Nat) (a : Act) : Alike E r k F Eq (a.plain depth) (a.run E k depth) := by
  have u : ∀ {x : OM Tree Unit} {y : OM Sys Unit}, Alike E r k F (fun _ _ => True) x y →
      Alike E r k F Eq (x >>= fun _ => pure Ans.unit) (y >>= fun _ => pure Ans.unit) :=
    fun h => alike_bind h fun _ _ _ => alike_pure rfl
  unfold Act.plain
  split
  · rename_i hf
    cases a with
    | exists_ p => exact alike_bind (alike_uExists hf) (by rintro b _ rfl; exact alike_pure rfl)
    | isfile p => exact alike_bind (alike_uIsfile hf) (by rintro b _ rfl; exact alike_pure rfl)
    | isdir p => exact alike_bind (alike_uIsdir hf) (by rintro b _ rfl; exact alike_pure rfl)
    | islink p => exact alike_bind (alike_uIslink hf) (by rintro _ _ ⟨rfl, rfl⟩; exact alike_pure rfl)
    | listdir p => exact alike_bind (alike_uListdir hf) (by rintro b _ ⟨rfl, -⟩; exact alike_pure rfl)
    | mkdir p => exact u (alike_uMkdir hr hf)
    | makedirs p => exact u (alike_uMakedirs hr depth hf)
    | write p l => exact u (alike_write hr hf l)
    | read p => exact alike_bind (alike_read hr hf.nm) (by rintro b _ rfl; exact alike_pure rfl)
    | md5 p => exact alike_bind (alike_md5 hr hf.nm) (by intro a b h; exact alike_pure (by rw [h]))
    | copystat p q => exact u (alike_uCopystat hr hf.1 hf.2)
    | remove p b => exact u (alike_uRemove hr depth hf b)
    | move p q => exact u (alike_move hr depth hf.1 hf.2.1 hf.2.2.1 hf.2.2.2)
    | copy p q b ig fl => exact u (alike_uCopy hr depth b fl hf.1 hf.2.1 hf.2.2.1 hf.2.2.2)
    | walk p td fl => exact alike_bind (alike_uWalk hf depth td fl) (by intro a b h; exact alike_pure (by rw [h]))
    | glob p m => exact alike_bind (alike_uGlob hf m) (by intro a b h; exact alike_pure (by rw [h]))
  · exact alike_out

theorem exec_none {σ : Type} {α : Type} {step : α → OM σ Ans} {pr : Prg α} {n : Nat} {x : σ} (h : pr (pr.exec step n x).1 = none) :
    pr.exec step (n + 1) x = pr.exec step n x := by
  rw [Prg.exec, h]

theorem exec_some {σ : Type} {α : Type} {step : α → OM σ Ans} {pr : Prg α} {n : Nat} {x : σ} {a : α} (h : pr (pr.exec step n x).1 = some a) :
    pr.exec step (n + 1) x = ((pr.exec step n x).1 ++ [(step a (pr.exec step n x).2).1], (step a (pr.exec step n x).2).2) := by
  rw [Prg.exec, h]

theorem exec_rel (hr : Function.Injective r) (depth : Nat) (pr : Prg Act) : ∀ (n : Nat) {t : Tree} {s : Sys}, Rel E r k F t s →
    (∀ x ∈ (pr.exec (Act.plain depth) n t).1, x ≠ .error .outside) →
    (pr.exec (Act.run E k depth) n s).1 = (pr.exec (Act.plain depth) n t).1 ∧
      Rel E r k F (pr.exec (Act.plain depth) n t).2 (pr.exec (Act.run E k depth) n s).2
  | 0, _, _, h, _ => ⟨rfl, h⟩
  | n + 1, t, s, h, hq => by
    cases hp : pr (pr.exec (Act.plain depth) n t).1 with
    | none =>
      rw [exec_none hp] at hq ⊢
      obtain ⟨h1, h2⟩ := exec_rel hr depth pr n h hq
      rw [exec_none (by rw [h1, hp])]
      exact ⟨h1, h2⟩
    | some a =>
      rw [exec_some hp] at hq ⊢
      obtain ⟨h1, h2⟩ := exec_rel hr depth pr n h fun x hx => hq x (by simp [hx])
      rw [exec_some (by rw [h1, hp])]
      have h3 := alike_act hr depth a _ _ h2
      have h4 := hq _ (List.mem_append_right _ (List.mem_singleton.2 rfl))
      dsimp only
      revert h3 h4
      generalize a.plain depth (pr.exec (Act.plain depth) n t).2 = x
      generalize a.run E k depth (pr.exec (Act.run E k depth) n s).2 = y
      intro h3 h4
      cases h3 with
      | out => exact absurd rfl h4
      | ok hab hrel => cases hab; exact ⟨by rw [h1], hrel⟩
      | err hrel => exact ⟨by rw [h1], hrel⟩

/-- a program in a memory file system or on local files gets the answers and the tree of the plain file system, and what
    is in other places stays -/
theorem C112_plain (hr : Function.Injective r) (hok : SysOk E r s) {t : Tree} (h : Holds r s k t) (depth : Nat) (pr : Prg Act) (n : Nat)
    (hq : ∀ x ∈ (pr.exec (Act.plain depth) n t).1, x ≠ .error .outside) :
    (pr.exec (Act.run E k depth) n s).1 = (pr.exec (Act.plain depth) n t).1 ∧
    Holds r (pr.exec (Act.run E k depth) n s).2 k (pr.exec (Act.plain depth) n t).2 ∧
    SysOk E r (pr.exec (Act.run E k depth) n s).2 ∧
    ∀ j, j ≠ k → siteV r (pr.exec (Act.run E k depth) n s).2 j = siteV r s j := by
  obtain ⟨h1, h2⟩ := exec_rel hr depth pr n (h.rel hok) hq
  exact ⟨h1, holds_of_rel h2, h2.ok, h2.there⟩

/-- every place with names that fit and without links holds a tree -/
theorem C112_tree (hok : SysOk E r s) (hf : ∀ p, siteV r s k p ≠ none → Fit p) (hl : ∀ p, siteV r s k p ≠ some .other) :
    ∃ t, Holds r s k t := by
  obtain ⟨ps, hps⟩ : ∃ ps : List (List Str), ∀ p, siteV r s k p ≠ none → p ∈ ps := by
    cases k with
    | none =>
      refine ⟨s.disk.ents.map (·.1), fun p hp => ?_⟩
      obtain ⟨e, he, e1⟩ := (lookup_isSome s.disk.ents p).2 (show s.disk.tree p ≠ none by
        intro hc; apply hp; simp only [siteV]; rw [hc]; rfl)
      exact List.mem_map.2 ⟨e, he, e1⟩
    | some i =>
      refine ⟨allPaths s.mem s.mem.next (r i), fun p hp => view_mem_allPaths hok.inv (hok.fs i).isRoot ?_⟩
      intro hc; apply hp; simp only [siteV]; rw [hc]; rfl
  have key : ∀ l : List (List Str), ∃ t : Tree, (∀ p, t.lookup p = if p ∈ l then siteV r s k p else none) ∧
      (t.map (·.1)).Nodup ∧ ∀ e ∈ t, e.1 ∈ l := by
    intro l
    induction l with
    | nil => exact ⟨[], by simp, by simp, by simp⟩
    | cons q l ih =>
      obtain ⟨t, h1, h2, h3⟩ := ih
      by_cases hq : q ∈ l
      · refine ⟨t, fun p => ?_, h2, fun e he => List.mem_cons_of_mem _ (h3 e he)⟩
        rw [h1]
        by_cases hpq : p = q
        · subst hpq; simp [hq]
        · simp [hpq]
      cases hv : siteV r s k q with
      | none =>
        refine ⟨t, fun p => ?_, h2, fun e he => List.mem_cons_of_mem _ (h3 e he)⟩
        rw [h1]
        by_cases hpq : p = q
        · subst hpq; simp [hv]
        · simp [hpq]
      | some o =>
        refine ⟨(q, o) :: t, fun p => ?_, ?_, ?_⟩
        · by_cases hpq : p = q
          · subst hpq; simp [hv]
          · have : (p == q) = false := by simpa using hpq
            rw [List.lookup_cons, this]
            simp only [h1]
            simp [hpq]
        · rw [List.map_cons, List.nodup_cons]
          refine ⟨fun hm => ?_, h2⟩
          obtain ⟨e, he, e1⟩ := List.mem_map.1 hm
          exact hq ((show e.1 = q from e1) ▸ h3 e he)
        · intro e he
          rcases List.mem_cons.1 he with rfl | he
          · simp
          · exact List.mem_cons_of_mem _ (h3 e he)
  obtain ⟨t, h1, h2, -⟩ := key ps
  refine ⟨t, fun p => ?_, h2, hf, hl⟩
  by_cases hp : p = []
  · subst hp; rw [site_root hok]; rfl
  · rw [Tree.get_ne hp, h1]
    split
    · rfl
    · rename_i hm
      by_contra hc
      exact hm (hps p hc)

/-- two places that hold the same tree cannot be told apart: the same answers, the same exceptions, the same tree after
    every program -/
theorem C112_same {ι' : Type} {E' : ι' → Dict} {r' : ι' → Nat} {k' : Option ι'} {s' : Sys} (hr : Function.Injective r)
    (hr' : Function.Injective r') (hok : SysOk E r s) (hok' : SysOk E' r' s') {t : Tree} (h : Holds r s k t)
    (hv : siteV r' s' k' = siteV r s k) (depth : Nat) (pr : Prg Act) (n : Nat)
    (hq : ∀ x ∈ (pr.exec (Act.plain depth) n t).1, x ≠ .error .outside) :
    (pr.exec (Act.run E' k' depth) n s').1 = (pr.exec (Act.run E k depth) n s).1 ∧
    siteV r' (pr.exec (Act.run E' k' depth) n s').2 k' = siteV r (pr.exec (Act.run E k depth) n s).2 k := by
  have h' : Holds r' s' k' t := ⟨fun p => by rw [hv]; exact h.here p, h.keys, fun p => by rw [hv]; exact h.fit p,
    fun p => by rw [hv]; exact h.noLink p⟩
  obtain ⟨a1, a2, -, -⟩ := C112_plain hr hok h depth pr n hq
  obtain ⟨b1, b2, -, -⟩ := C112_plain hr' hok' h' depth pr n hq
  exact ⟨by rw [b1, a1], funext fun p => by rw [b2.here, a2.here]⟩

end

/-! ## A concrete case: the same files in memory and on disk -/

/-- calls one after the other, whatever they answer -/
def listPrg (l : List Act) : Prg Act := fun xs => l[xs.length]?

/-- /a/ and /a/f with the bytes "hi", in memory -/
def twinMem : World := Mem.runAll [.mkdir (mu cl!"/a"), .open_ (mu cl!"/a/f") (some cl!"w"), .write ⟨2, false, false⟩ (.str cl!"hi")]
  (World.init fun n => n)

/-- the same in memory and on disk -/
def twinSys : Sys := ⟨twinMem, ⟨[([], .dir 0o755), ([cl!"a"], .dir 0o755), ([cl!"a", cl!"f"], .file 0o644 [104, 105])], [], 0o22, []⟩⟩

/-- the same as a tree -/
def twinTree : Tree := [([cl!"a"], .dir), ([cl!"a", cl!"f"], .file [104, 105])]

theorem twinMem_reachable : Mem.Reachable twinMem := ⟨_, _, rfl⟩

theorem twin_ok : SysOk (fun _ : Unit => []) (fun _ => 0) twinSys :=
  ⟨twinMem_reachable.inv,
   fun _ => ⟨by decide +kernel, by decide +kernel, by
     intro p cb m h
     have : twinMem.hooks 0 = [] := by decide +kernel
     change (twinMem.hooks 0).lookup p = _ at h
     rw [this] at h; simp at h⟩,
   diskOk_of (by decide) (by decide) (by decide)⟩

theorem twin_holds (k : Option Unit) : Holds (fun _ : Unit => 0) twinSys k twinTree := by
  obtain ⟨ps, hps, hin⟩ : ∃ ps : List (List Str), (∀ p, siteV (fun _ : Unit => 0) twinSys k p ≠ none → p ∈ ps) ∧
      ∀ p ∈ ps, p = [] ∨ p = [cl!"a"] ∨ p = [cl!"a", cl!"f"] := by
    cases k with
    | none =>
      refine ⟨twinSys.disk.ents.map (·.1), fun p hp => ?_, by decide +kernel⟩
      obtain ⟨e, he, e1⟩ := (lookup_isSome twinSys.disk.ents p).2 (show twinSys.disk.tree p ≠ none by
        intro hc; apply hp; simp only [siteV]; rw [hc]; rfl)
      exact List.mem_map.2 ⟨e, he, e1⟩
    | some i =>
      refine ⟨allPaths twinMem twinMem.next 0, fun p hp => view_mem_allPaths twin_ok.inv (twin_ok.fs ()).isRoot ?_, by decide +kernel⟩
      intro hc; apply hp; simp only [siteV]; rw [hc]; rfl
  have hk : ∀ k : Option Unit, siteV (fun _ : Unit => 0) twinSys k [] = some .dir ∧ siteV (fun _ : Unit => 0) twinSys k [cl!"a"] = some .dir ∧
      siteV (fun _ : Unit => 0) twinSys k [cl!"a", cl!"f"] = some (.file [104, 105]) := by
    intro k
    rcases k with _ | u
    · decide +kernel
    · cases u; decide +kernel
  obtain ⟨h0, h1, h2⟩ := hk k
  have hcase : ∀ p, siteV (fun _ : Unit => 0) twinSys k p = none ∨ p = [] ∨ p = [cl!"a"] ∨ p = [cl!"a", cl!"f"] := fun p => by
    by_cases h : siteV (fun _ : Unit => 0) twinSys k p = none
    · exact .inl h
    · exact .inr (hin p (hps p h))
  refine ⟨fun p => ?_, by decide, fun p hp => ?_, fun p => ?_⟩
  · by_cases hp : p ∈ [[], [cl!"a"], [cl!"a", cl!"f"]]
    · simp only [List.mem_cons, List.not_mem_nil, or_false] at hp
      rcases hp with rfl | rfl | rfl
      · rw [h0]; rfl
      · rw [h1]; decide
      · rw [h2]; decide
    · simp only [List.mem_cons, List.not_mem_nil, or_false, not_or] at hp
      rcases hcase p with h | h | h | h
      · rw [h, Tree.get_ne hp.1]
        have e1 : (p == [cl!"a"]) = false := by simpa using hp.2.1
        have e2 : (p == [cl!"a", cl!"f"]) = false := by simpa using hp.2.2
        simp only [twinTree, List.lookup_cons, e1, e2, List.lookup_nil]
      · exact absurd h hp.1
      · exact absurd h hp.2.1
      · exact absurd h hp.2.2
  · rcases hcase p with h | rfl | rfl | rfl
    · exact absurd h hp
    all_goals decide +kernel
  · rcases hcase p with h | rfl | rfl | rfl
    · rw [h]; simp
    · rw [h0]; simp
    · rw [h1]; simp
    · rw [h2]; simp

/-- a program that works on the tree; the calls after the read go on only if the bytes are as expected -/
def twinPrg : Prg Act := fun xs =>
  match xs.length with
  | 0 => some (.copy [cl!"a"] [cl!"b"] true [] true)
  | 1 => some (.write [cl!"a", cl!"g"] [[1], [2, 3]])
  | 2 => some (.mkdir [cl!"a"])
  | 3 => some (.read [cl!"b", cl!"f"])
  | 4 => if xs.getLast? = some (.ok (.bytes [104, 105])) then some (.remove [cl!"a"] true) else none
  | 5 => some (.walk [] true true)
  | 6 => some (.listdir [cl!"a"])
  | _ => none

/-- what the plain file system answers -/
theorem twin_plain : (twinPrg.exec (Act.plain 50) 9 twinTree).1 =
    [.ok .unit, .ok .unit, .error (.os .EEXIST), .ok (.bytes [104, 105]), .ok .unit,
     .ok (.rows [(cl!"/", [cl!"b"], []), (cl!"/b", [], [cl!"f"])]), .error (.os .ENOENT)] := by decide +kernel

/-- permissions can only be copied from something to something -/
example : ((listPrg [.copystat [cl!"a"] [cl!"n"], .copystat [cl!"n"] [cl!"a"], .copystat [cl!"a", cl!"f"] [cl!"a", cl!"f"]]).exec (Act.plain 50) 9 twinTree).1 =
    [.error (.os .ENOENT), .error (.os .ENOENT), .ok .unit] := by decide +kernel

/-- moving: a directory into another, a file onto another, back to a free name -/
def twinMoves : Prg Act := listPrg [.makedirs [cl!"x", cl!"y"], .move [cl!"a"] [cl!"x", cl!"y"], .write [cl!"g"] [[7]], .move [cl!"g"] [cl!"x", cl!"y", cl!"a", cl!"f"],
  .move [cl!"x", cl!"y"] [cl!"z"], .walk [] true true, .read [cl!"z", cl!"a", cl!"f"]]

theorem twin_moves : (twinMoves.exec (Act.plain 50) 9 twinTree).1 =
    [.ok .unit, .ok .unit, .ok .unit, .ok .unit, .ok .unit,
     .ok (.rows [(cl!"/", [cl!"x", cl!"z"], []), (cl!"/x", [], []), (cl!"/z", [cl!"a"], []), (cl!"/z/a", [], [cl!"f"])]), .ok (.bytes [7])] := by
  decide +kernel

example (k : Option Unit) : (twinMoves.exec (Act.run (fun _ : Unit => []) k 50) 9 twinSys).1 =
    [.ok .unit, .ok .unit, .ok .unit, .ok .unit, .ok .unit,
     .ok (.rows [(cl!"/", [cl!"x", cl!"z"], []), (cl!"/x", [], []), (cl!"/z", [cl!"a"], []), (cl!"/z/a", [], [cl!"f"])]), .ok (.bytes [7])] :=
  (C112_plain unit_inj twin_ok (twin_holds k) 50 twinMoves 9 (by rw [twin_moves]; decide)).1.trans twin_moves

/-- in memory and on local files -/
example (k : Option Unit) : (twinPrg.exec (Act.run (fun _ : Unit => []) k 50) 9 twinSys).1 =
    [.ok .unit, .ok .unit, .error (.os .EEXIST), .ok (.bytes [104, 105]), .ok .unit,
     .ok (.rows [(cl!"/", [cl!"b"], []), (cl!"/b", [], [cl!"f"])]), .error (.os .ENOENT)] :=
  (C112_plain unit_inj twin_ok (twin_holds k) 50 twinPrg 9 (by rw [twin_plain]; decide)).1.trans twin_plain

/-- the one cannot be told from the other -/
example : siteV (fun _ : Unit => 0) (twinPrg.exec (Act.run (fun _ : Unit => []) none 50) 9 twinSys).2 none =
    siteV (fun _ : Unit => 0) (twinPrg.exec (Act.run (fun _ : Unit => []) (some ()) 50) 9 twinSys).2 (some ()) :=
  (C112_same unit_inj unit_inj twin_ok twin_ok (twin_holds (some ())) (funext fun p => by rw [(twin_holds none).here, (twin_holds (some ())).here])
    50 twinPrg 9 (by rw [twin_plain]; decide)).2

example : ∃ t, Holds (fun _ : Unit => 0) twinSys (some ()) t :=
  C112_tree twin_ok (twin_holds (some ())).fit (twin_holds (some ())).noLink

/-! ## Where they can be told apart -/

/-- what one call answers in the twin places -/
def twinAsk (k : Option Unit) (a : Act) : Except PyErr Ans := (a.run (fun _ : Unit => []) k 50 twinSys).1

/-- a path that leads through a file: the memory backend raises AttributeError, on local files nothing is there -/
theorem C112_through_file_refuted : twinAsk (some ()) (.exists_ [cl!"a", cl!"f", cl!"x"]) = .error .attributeError ∧
    twinAsk none (.exists_ [cl!"a", cl!"f", cl!"x"]) = .ok (.bool false) := by decide +kernel

/-- listing a file -/
theorem C112_listdir_file_refuted : twinAsk (some ()) (.listdir [cl!"a", cl!"f"]) = .error .attributeError ∧
    twinAsk none (.listdir [cl!"a", cl!"f"]) = .error (.os .ENOTDIR) := by decide +kernel

/-- making the root -/
theorem C112_mkdir_root_refuted : twinAsk (some ()) (.mkdir []) = .ok .unit ∧ twinAsk none (.mkdir []) = .error (.os .EEXIST) := by
  decide +kernel

/-- reading a directory -/
theorem C112_read_dir_refuted : twinAsk (some ()) (.read [cl!"a"]) ≠ twinAsk none (.read [cl!"a"]) := by
  decide +kernel

/-- moving a directory into itself: the memory backend copies until Python's recursion limit, on local files shutil refuses -/
theorem C112_move_inside_refuted : twinAsk (some ()) (.move [cl!"a"] [cl!"a", cl!"n"]) = .error .recursionError ∧
    twinAsk none (.move [cl!"a"] [cl!"a", cl!"n"]) = .error .shutilError := by decide +kernel

/-- moving what is not there -/
theorem C112_move_missing_refuted : twinAsk (some ()) (.move [cl!"n"] [cl!"m"]) = .error .fileDoesNotExist ∧
    twinAsk none (.move [cl!"n"] [cl!"m"]) = .error (.os .ENOENT) := by decide +kernel

/-- of copying a file to itself the plain file system expects nothing -/
example : (Act.plain 50 (.copy [cl!"a", cl!"f"] [cl!"a", cl!"f"] false [] true) twinTree).1 = .error .outside := by decide +kernel

end Verif.Props
