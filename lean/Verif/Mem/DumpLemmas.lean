import Verif.Mem.Dump
import Verif.Mem.ApiLemmas
import Verif.Spec.DumpSpec
/-!
# A dump is a run through the sorted list of locations
-/
namespace Verif.Mem
open Spec

/-! ## The order -/

/-- locations below an object with the objects there, in the order of a sorted walk -/
def walkOrder (w : World) : Nat → Nat → List (List Str × Nat)
  | 0, _ => []
  | k + 1, i =>
    match w.node i with
    | .dir d => (sortedItems d).flatMap fun x =>
        ([x.1], x.2) :: (walkOrder w k x.2).map fun y => (x.1 :: y.1, y.2)
    | _ => []

theorem mem_sortedItems {d : DirObj} {n : Str} {c : Nat} : (n, c) ∈ sortedItems d ↔ d.files.lookup n = some c := by
  simp only [sortedItems, List.mem_filterMap, mem_sortStr]
  constructor
  · rintro ⟨m, -, h⟩
    cases hl : d.files.lookup m with
    | none => simp [hl] at h
    | some x => simp only [hl, Option.map_some, Option.some.injEq, Prod.mk.injEq] at h; rw [← h.1, ← h.2, hl]
  · intro h
    exact ⟨n, List.mem_map.2 ⟨_, lookup_mem h, rfl⟩, by rw [h]; rfl⟩

theorem sortedItems_pairwise {d : DirObj} (h : d.keys.Nodup) :
    (sortedItems d).Pairwise fun x y => strLt x.1 y.1 := by
  unfold sortedItems
  rw [List.pairwise_filterMap]
  refine (pairwise_sortStr h).imp ?_
  intro a b hab x hx y hy
  cases ha : d.files.lookup a with
  | none => simp [ha] at hx
  | some i =>
    cases hb : d.files.lookup b with
    | none => simp [hb] at hy
    | some j =>
      simp only [ha, Option.map_some, Option.some.injEq] at hx
      simp only [hb, Option.map_some, Option.some.injEq] at hy
      subst hx; subst hy; exact hab

theorem mem_walkOrder {w : World} (hw : Inv w) {k i : Nat} (hk : w.next ≤ k + i) {q : List Str} {c : Nat} :
    (q, c) ∈ walkOrder w k i ↔ q ≠ [] ∧ phys w i q = some c := by
  induction k generalizing i q c with
  | zero =>
    simp only [walkOrder, List.not_mem_nil, false_iff, not_and]
    intro hq h
    have := (phys_ge hw h).2 hq
    omega
  | succ k ih =>
    rw [walkOrder]
    cases hd : w.node i with
    | file f =>
      simp only [List.not_mem_nil, false_iff, not_and]
      intro hq; cases q with
      | nil => exact absurd rfl hq
      | cons n q => simp [phys, hd]
    | link f =>
      simp only [List.not_mem_nil, false_iff, not_and]
      intro hq; cases q with
      | nil => exact absurd rfl hq
      | cons n q => simp [phys, hd]
    | dir d =>
      simp only [List.mem_flatMap, List.mem_cons, List.mem_map, Prod.mk.injEq, Prod.exists]
      constructor
      · rintro ⟨n, e, hx, h⟩
        have hl := mem_sortedItems.1 hx
        have hc := hw.child i n e (by rw [entries_dir hd]; exact lookup_mem hl)
        rcases h with ⟨rfl, rfl⟩ | ⟨q', c', h, rfl, rfl⟩
        · refine ⟨by simp, ?_⟩
          simp [phys, hd, hl]
        · refine ⟨by simp, ?_⟩
          have := ((ih (i := e) (by omega)).1 h).2
          simp [phys, hd, hl, this]
      · rintro ⟨hq, h⟩
        cases q with
        | nil => exact absurd rfl hq
        | cons n q =>
          simp only [phys, hd] at h
          cases hl : d.files.lookup n with
          | none => simp [hl] at h
          | some e =>
            have hc := hw.child i n e (by rw [entries_dir hd]; exact lookup_mem hl)
            simp only [hl] at h
            refine ⟨n, e, mem_sortedItems.2 hl, ?_⟩
            cases q with
            | nil => left; simp only [phys, Option.some.injEq] at h; exact ⟨rfl, h.symm⟩
            | cons m q =>
              right
              exact ⟨m :: q, c, (ih (i := e) (by omega)).2 ⟨by simp, h⟩, rfl, rfl⟩

theorem walkOrder_pairwise {w : World} (hw : Inv w) (k i : Nat) :
    (walkOrder w k i).Pairwise fun x y => LocLt x.1 y.1 := by
  induction k generalizing i with
  | zero => simp [walkOrder]
  | succ k ih =>
    rw [walkOrder]
    cases hd : w.node i with
    | file f => simp
    | link f => simp
    | dir d =>
      simp only
      have hn : d.keys.Nodup := by have := hw.nodup i; rwa [entries_dir hd] at this
      rw [List.pairwise_flatMap]
      constructor
      · intro x _
        rw [List.pairwise_cons]
        constructor
        · intro y hy
          obtain ⟨z, hz, rfl⟩ := List.mem_map.1 hy
          refine Or.inr ⟨rfl, ?_⟩
          cases hq : z.1 with
          | nil =>
            exfalso
            -- no location of the order is empty
            have key : ∀ k i (z : List Str × Nat), z ∈ walkOrder w k i → z.1 ≠ [] := by
              intro k; cases k with
              | zero => intro i z h; simp [walkOrder] at h
              | succ k =>
                intro i z h
                rw [walkOrder] at h
                cases hd : w.node i with
                | file f => simp [hd] at h
                | link f => simp [hd] at h
                | dir d =>
                  simp only [hd, List.mem_flatMap, List.mem_cons, List.mem_map] at h
                  obtain ⟨x, -, rfl | ⟨y, -, rfl⟩⟩ := h <;> simp
            exact key _ _ z hz hq
          | cons a b => trivial
        · rw [List.pairwise_map]
          exact (ih x.2).imp fun h => Or.inr ⟨rfl, h⟩
      · refine (sortedItems_pairwise hn).imp ?_
        intro a b hab x hx y hy
        have h1 : ∃ t, x.1 = a.1 :: t := by
          rcases List.mem_cons.1 hx with rfl | hx
          · exact ⟨[], rfl⟩
          · obtain ⟨z, -, rfl⟩ := List.mem_map.1 hx; exact ⟨_, rfl⟩
        have h2 : ∃ t, y.1 = b.1 :: t := by
          rcases List.mem_cons.1 hy with rfl | hy
          · exact ⟨[], rfl⟩
          · obtain ⟨z, -, rfl⟩ := List.mem_map.1 hy; exact ⟨_, rfl⟩
        obtain ⟨t, h1⟩ := h1
        obtain ⟨t', h2⟩ := h2
        rw [h1, h2]
        exact Or.inl hab

theorem LocLt.irrefl (q : List Str) : ¬ LocLt q q := by
  induction q with
  | nil => simp [LocLt]
  | cons a q ih => rintro (h | h); exacts [h.2 rfl, ih h.2]

theorem walkOrder_listed {w : World} (hw : Inv w) (r : Nat) :
    Listed (view w r) ((walkOrder w w.next r).map Prod.fst) := by
  constructor
  · rw [List.pairwise_map]; exact walkOrder_pairwise hw _ _
  · intro q
    rw [List.mem_map]
    constructor
    · rintro ⟨⟨q', c⟩, h, rfl⟩
      obtain ⟨h1, h2⟩ := (mem_walkOrder hw (by omega)).1 h
      exact ⟨h1, by simp [view, h2]⟩
    · rintro ⟨h1, h2⟩
      cases hp : phys w r q with
      | none => simp [view, hp] at h2
      | some c => exact ⟨(q, c), (mem_walkOrder hw (by omega)).2 ⟨h1, hp⟩, rfl⟩

theorem LocLt.trichotomy : ∀ p q : List Str, LocLt p q ∨ p = q ∨ LocLt q p
  | [], [] => Or.inr (Or.inl rfl)
  | [], _ :: _ => Or.inl trivial
  | _ :: _, [] => Or.inr (Or.inr trivial)
  | a :: p, b :: q => by
    by_cases h : a = b
    · subst h
      rcases LocLt.trichotomy p q with h | h | h
      · exact Or.inl (Or.inr ⟨rfl, h⟩)
      · exact Or.inr (Or.inl (by rw [h]))
      · exact Or.inr (Or.inr (Or.inr ⟨rfl, h⟩))
    · rcases strLe_total a b with h' | h'
      · exact Or.inl (Or.inl ⟨h', h⟩)
      · exact Or.inr (Or.inr (Or.inl ⟨h', fun e => h e.symm⟩))

theorem LocLt.asymm : ∀ {p q : List Str}, LocLt p q → ¬ LocLt q p
  | [], _ :: _, _, h => h
  | a :: p, b :: q, h, h' => by
    rcases h with h | h
    · rcases h' with h' | h'
      · exact h.2 (strLe_antisymm h.1 h'.1)
      · exact h.2 h'.1.symm
    · rcases h' with h' | h'
      · exact h'.2 h.1.symm
      · exact LocLt.asymm h.2 h'.2

/-- there is only one such list -/
theorem Listed.unique {ns : NS} {l m : List (List Str)} (hl : Listed ns l) (hm : Listed ns m) : l = m := by
  have key : ∀ l m : List (List Str), l.Pairwise LocLt → m.Pairwise LocLt → (∀ q, q ∈ l ↔ q ∈ m) → l = m := by
    intro l
    induction l with
    | nil =>
      intro m _ _ h
      cases m with
      | nil => rfl
      | cons b m => exact absurd ((h b).2 (by simp)) (by simp)
    | cons a l ih =>
      intro m hl hm h
      cases m with
      | nil => exact absurd ((h a).1 (by simp)) (by simp)
      | cons b m =>
        rw [List.pairwise_cons] at hl hm
        have hab : a = b := by
          rcases List.mem_cons.1 ((h a).1 (by simp)) with e | e
          · exact e
          · rcases List.mem_cons.1 ((h b).2 (by simp)) with e' | e'
            · exact e'.symm
            · exact absurd (hl.1 b e') (LocLt.asymm (hm.1 a e))
        subst hab
        congr 1
        refine ih m hl.2 hm.2 fun q => ?_
        constructor
        · intro hq
          rcases List.mem_cons.1 ((h q).1 (List.mem_cons_of_mem _ hq)) with e | e
          · exact absurd (e ▸ hl.1 q hq) (LocLt.irrefl _)
          · exact e
        · intro hq
          rcases List.mem_cons.1 ((h q).2 (List.mem_cons_of_mem _ hq)) with e | e
          · exact absurd (e ▸ hm.1 q hq) (LocLt.irrefl _)
          · exact e
  exact key l m hl.sorted hm.sorted fun q => by rw [hl.mem, hm.mem]

/-! ## The run -/

/-- what is done at one location; `depth` counts from the root -/
def dumpOne (skip : Str → Bool) (depth : Nat) (q : List Str) (c : Nat) : DM := fun s =>
  match s.1.node c with
  | .file f =>
    if skip (q.getLastD []) then (.error .typeError, s)
    else match utf8Decode (f.data.drop f.pos) with
      | some t => (.ok (), s.1.setNode c (toEnd (.file f)),
          s.2 ++ (cl!"--- START " ++ locText q ++ cl!" ---\n" ++ t ++ cl!"\n--- END ---\n\n"))
      | none => (.error .unicodeDecode, s.1.setNode c (toEnd (.file f)),
          s.2 ++ (cl!"--- START " ++ locText q ++ cl!" ---\n"))
  | .link l =>
    match l.target.str with
    | .ok t => (.ok (), s.1, s.2 ++ (cl!"LINK: " ++ locText q ++ cl!" -> " ++ t ++ cl!"\n"))
    | .error e => (.error e, s)
  | .dir _ => (if q.length < depth then .ok () else .error .recursionError, s.1, s.2 ++ (cl!"DIR: " ++ locText q ++ cl!"\n"))

/-- one location after the other -/
def dumpList (skip : Str → Bool) (depth : Nat) : List (List Str × Nat) → DM
  | [] => fun s => (.ok (), s)
  | x :: l => DM.seq (dumpOne skip depth x.1 x.2) (dumpList skip depth l)

theorem DM.seq_assoc (a b c : DM) : DM.seq (DM.seq a b) c = DM.seq a (DM.seq b c) := by
  funext s
  simp only [DM.seq]
  rcases a s with ⟨_ | _, _⟩ <;> rfl

theorem DM.seq_congr {a b c d : DM} {s : World × Str} (h : a s = b s) (h' : ∀ s', b s = (.ok (), s') → c s' = d s') :
    DM.seq a c s = DM.seq b d s := by
  simp only [DM.seq, h]
  split
  · next s' e => exact h' s' e
  · rfl

theorem dumpList_append (skip : Str → Bool) (depth : Nat) (l m : List (List Str × Nat)) :
    dumpList skip depth (l ++ m) = DM.seq (dumpList skip depth l) (dumpList skip depth m) := by
  induction l with
  | nil => funext s; rfl
  | cons x l ih => rw [List.cons_append, dumpList, ih, dumpList, DM.seq_assoc]

/-- only positions of files differ -/
def Twin (w w' : World) : Prop := ∀ j, w'.node j = w.node j ∨ ∃ f p, w.node j = .file f ∧ w'.node j = .file { f with pos := p }

theorem Twin.rfl' (w : World) : Twin w w := fun _ => Or.inl rfl

theorem Twin.trans {a b c : World} (h : Twin a b) (h' : Twin b c) : Twin a c := by
  intro j
  rcases h j with e | ⟨f, p, e1, e2⟩
  · rcases h' j with e' | ⟨f', p', e1', e2'⟩
    · exact Or.inl (e'.trans e)
    · exact Or.inr ⟨f', p', by rw [← e, e1'], e2'⟩
  · rcases h' j with e' | ⟨f', p', e1', e2'⟩
    · exact Or.inr ⟨f, p, e1, e'.trans e2⟩
    · rw [e2] at e1'
      cases e1'
      exact Or.inr ⟨f, p', e1, e2'⟩

theorem Twin.dir {w w' : World} (h : Twin w w') {j : Nat} {d : DirObj} (hd : w.node j = .dir d) : w'.node j = .dir d := by
  rcases h j with e | ⟨f, p, e1, -⟩
  · rw [e, hd]
  · rw [hd] at e1; cases e1

theorem dumpOne_twin (skip : Str → Bool) (depth : Nat) (q : List Str) (c : Nat) (s : World × Str) :
    Twin s.1 (dumpOne skip depth q c s).2.1 := by
  have hset : ∀ f, s.1.node c = .file f → Twin s.1 (s.1.setNode c (toEnd (.file f))) := by
    intro f hf j
    by_cases hj : j = c
    · subst hj
      exact Or.inr ⟨f, _, hf, by simp [World.setNode, toEnd]; rfl⟩
    · exact Or.inl (by simp [World.setNode, hj])
  unfold dumpOne
  cases hn : s.1.node c with
  | file f =>
    simp only
    split
    · exact .rfl' _
    · split
      · exact hset f hn
      · exact hset f hn
  | link l => simp only; split <;> exact .rfl' _
  | dir d => exact .rfl' _

theorem dumpList_twin (skip : Str → Bool) (depth : Nat) (l : List (List Str × Nat)) (s : World × Str) :
    Twin s.1 (dumpList skip depth l s).2.1 := by
  induction l generalizing s with
  | nil => exact .rfl' _
  | cons x l ih =>
    rw [dumpList, DM.seq]
    have h := dumpOne_twin skip depth x.1 x.2 s
    split
    · next s' e => rw [e] at h; exact h.trans (ih s')
    · next s' e => rw [e] at h; exact h

/-- the path `traverse` is called with at a location -/
def preText (q : List Str) : Str := cl!"memory:///" ++ q.flatMap fun n => n ++ ['/']

theorem intercalate_snoc (q : List Str) (n : Str) :
    List.intercalate ['/'] (q ++ [n]) = (q.flatMap fun n => n ++ ['/']) ++ n := by
  induction q with
  | nil => simp [List.intercalate]
  | cons a q ih =>
    cases q with
    | nil => simp [List.intercalate]
    | cons b q =>
      have : List.intercalate ['/'] (a :: b :: q ++ [n]) = a ++ ['/'] ++ List.intercalate ['/'] (b :: q ++ [n]) := by
        simp [List.intercalate]
      rw [this, ih]
      simp

theorem preText_name (q : List Str) (n : Str) : preText q ++ n = locText (q ++ [n]) := by
  rw [preText, locText, intercalate_snoc, List.append_assoc]

theorem preText_ends (q : List Str) : ∃ t, preText q = t ++ ['/'] := by
  rcases List.eq_nil_or_concat q with rfl | ⟨p, n, rfl⟩
  · exact ⟨cl!"memory://", rfl⟩
  · exact ⟨cl!"memory:///" ++ (p.flatMap fun n => n ++ ['/']) ++ n, by simp [preText]⟩

theorem dumpPath_pre (q : List Str) (n : Str) : dumpPath (preText q) n = preText (q ++ [n]) := by
  obtain ⟨t, ht⟩ := preText_ends q
  have he : endsWith (preText q) cl!"/" = true := by
    rw [ht]; simp [endsWith]
  rw [dumpPath, if_pos he, ht, List.dropLast_concat]
  have : preText (q ++ [n]) = preText q ++ n ++ ['/'] := by simp [preText]
  rw [this, ht]

theorem dumpFile_eq {skip : Str → Bool} {depth : Nat} {q : List Str} {n : Str} {c : Nat} {s : World × Str} {f : FileObj}
    (hf : s.1.node c = .file f) : dumpFile skip (preText q) n c s = dumpOne skip depth (q ++ [n]) c s := by
  have hl : (q ++ [n]).getLastD [] = n := by simp
  have hr : (⟨c, true, false⟩ : Handle).read (-1) s.1 = _ := read_eq rfl hf
  unfold dumpFile dumpOne
  rw [hf]
  simp only [hl, hr, BytesIO.read_all, Handle.decode]
  split
  · rfl
  · have hm : f.pos + (f.data.length - f.pos) = max f.pos f.data.length := by omega
    have hp : s.1.put c { f with pos := f.pos + (f.data.length - f.pos) } s.1.tick = s.1.setNode c (toEnd (.file f)) := by
      rw [hm]; rfl
    cases hd : utf8Decode (f.data.drop f.pos) with
    | none => simp [hp, preText_name]
    | some t => simp [hp, preText_name]

theorem dumpTree_eq {w : World} (hw : Inv w) (skip : Str → Bool) (k : Nat) : ∀ (i D : Nat) (q : List Str) (s : World × Str)
    (d : DirObj), w.next ≤ k + i → Twin w s.1 → w.node i = .dir d →
    dumpTree skip (D + 1) i (preText q) s =
      dumpList skip (q.length + (D + 1)) ((walkOrder w k i).map fun y => (q ++ y.1, y.2)) s := by
  induction k with
  | zero =>
    intro i D q s d hk ht hd
    rw [dumpTree]; beta_reduce; rw [ht.dir hd]
    have := hw.fresh i (by omega)
    rw [hd] at this
    cases this
    rfl
  | succ k ih =>
    intro i D q s d hk ht hd
    rw [dumpTree]; beta_reduce; rw [ht.dir hd, walkOrder, hd]
    simp only
    have key : ∀ (l : List (Str × Nat)), (∀ x ∈ l, i < x.2) → ∀ s, Twin w s.1 →
        dumpItems skip (dumpTree skip D) (preText q) l s =
          dumpList skip (q.length + (D + 1)) ((l.flatMap fun x =>
            ([x.1], x.2) :: (walkOrder w k x.2).map fun y => (x.1 :: y.1, y.2)).map fun y => (q ++ y.1, y.2)) s := by
      intro l
      induction l with
      | nil => intro _ s _; rfl
      | cons x l ihl =>
        intro hl s ht
        obtain ⟨n, c⟩ := x
        rw [dumpItems, List.flatMap_cons, List.map_append, dumpList_append, List.map_cons, dumpList]
        have hc : i < c := hl (n, c) (by simp)
        have one : dumpItem skip (dumpTree skip D) (preText q) n c s =
            DM.seq (dumpOne skip (q.length + (D + 1)) (q ++ [n]) c)
              (dumpList skip (q.length + (D + 1))
                ((walkOrder w k c).map fun y => (q ++ n :: y.1, y.2))) s := by
          unfold dumpItem
          rcases ht c with e | ⟨f, p, e1, e2⟩
          · cases hn : w.node c with
            | file f =>
              have hs : s.1.node c = .file f := e.trans hn
              have hempty : walkOrder w k c = [] := by cases k <;> simp [walkOrder, hn]
              simp only [hs, hempty, List.map_nil]
              rw [dumpFile_eq (depth := q.length + (D + 1)) hs, DM.seq]
              split
              · next s' e' => rw [e']; rfl
              · next s' e' => rw [e']
            | link o =>
              have hs : s.1.node c = .link o := e.trans hn
              have hempty : walkOrder w k c = [] := by cases k <;> simp [walkOrder, hn]
              simp only [hs, hempty, List.map_nil, dumpLink, DM.seq, dumpOne, preText_name, dumpList]
              cases o.target.str <;> rfl
            | dir d' =>
              have hs : s.1.node c = .dir d' := e.trans hn
              simp only [hs, DM.seq, DM.put, dumpOne, dumpPath_pre, preText_name]
              cases D with
              | zero => simp [dumpTree]
              | succ D =>
                have hlt : (q ++ [n]).length < q.length + (D + 1 + 1) := by simp
                rw [if_pos hlt, ih c D (q ++ [n]) _ d' (by omega) (by exact ht) hn]
                have : (q ++ [n]).length + (D + 1) = q.length + (D + 1 + 1) := by simp; omega
                rw [this]
                simp
          · have hempty : walkOrder w k c = [] := by cases k <;> simp [walkOrder, e1]
            simp only [e2, hempty, List.map_nil]
            rw [dumpFile_eq (depth := q.length + (D + 1)) e2, DM.seq]
            split
            · next s' e' => rw [e']; rfl
            · next s' e' => rw [e']
        have hmap : ((walkOrder w k c).map fun y => (n :: y.1, y.2)).map (fun y => (q ++ y.1, y.2)) =
            (walkOrder w k c).map fun y => (q ++ n :: y.1, y.2) := by simp [Function.comp_def]
        rw [hmap]
        have htw : Twin s.1 (DM.seq (dumpOne skip (q.length + (D + 1)) (q ++ [n]) c)
              (dumpList skip (q.length + (D + 1)) ((walkOrder w k c).map fun y => (q ++ n :: y.1, y.2))) s).2.1 :=
          dumpList_twin skip _ ((q ++ [n], c) :: _) s
        refine DM.seq_congr one fun s' e' => ?_
        have e'' : (DM.seq (dumpOne skip (q.length + (D + 1)) (q ++ [n]) c)
              (dumpList skip (q.length + (D + 1)) ((walkOrder w k c).map fun y => (q ++ n :: y.1, y.2))) s) = (.ok (), s') := e'
        rw [e''] at htw
        exact ihl (fun x hx => hl x (by simp [hx])) s' (ht.trans htw)
    refine key _ ?_ s ht
    rintro ⟨n, c⟩ hx
    exact (hw.child i n c (by rw [entries_dir hd]; exact lookup_mem (mem_sortedItems.1 hx))).1

/-! ## What the run leaves and writes -/

section
variable {w : World} (hw : Inv w) {r : Nat} (hr : IsRoot w r)
include hw hr

theorem drawn_node_new {S : List (List Str)} {q : List Str} {c : Nat} (hp : phys w r q = some c) (hq : q ∉ S) :
    (drawn w r S).node c = w.node c := by
  simp only [drawn]
  rw [if_neg]
  rintro ⟨q', h1, h2⟩
  exact hq ((phys_inj hw hr hr hp h2).2 ▸ h1)

omit hw hr in
theorem drawn_snoc {S : List (List Str)} {q : List Str} {c : Nat} (hp : phys w r q = some c) :
    (drawn w r S).setNode c (toEnd (w.node c)) = drawn w r (S ++ [q]) := by
  simp only [drawn, World.setNode, World.mk.injEq, and_true]
  funext j
  by_cases hj : j = c
  · subst hj
    rw [if_pos rfl, if_pos ⟨q, by simp, hp⟩]
  · rw [if_neg hj]
    have : (∃ q' ∈ S, phys w r q' = some j) ↔ ∃ q' ∈ S ++ [q], phys w r q' = some j := by
      constructor
      · rintro ⟨q', h1, h2⟩; exact ⟨q', by simp [h1], h2⟩
      · rintro ⟨q', h1, h2⟩
        rcases List.mem_append.1 h1 with h | h
        · exact ⟨q', h, h2⟩
        · rw [List.mem_singleton] at h
          subst h
          rw [hp] at h2
          exact absurd (Option.some.inj h2).symm hj
    simp only [this]

omit hw hr in
theorem drawn_still {S : List (List Str)} {q : List Str} {c : Nat} (hp : phys w r q = some c)
    (hf : toEnd (w.node c) = w.node c) : drawn w r (S ++ [q]) = drawn w r S := by
  rw [← drawn_snoc hp]
  simp only [drawn, World.setNode, World.mk.injEq, and_true]
  funext j
  by_cases hj : j = c
  · subst hj
    rw [if_pos rfl, hf]; split <;> rfl
  · rw [if_neg hj]

/-- one location -/
theorem dumpOne_eq {skip : Str → Bool} {depth : Nat} {S : List (List Str)} {q : List Str} {c : Nat} {out : Str}
    (hp : phys w r q = some c) (hq : q ∉ S) :
    dumpOne skip depth q c (drawn w r S, out) =
      match (shown skip depth w r q).2 with
      | none => (.ok (), drawn w r (S ++ [q]), out ++ (shown skip depth w r q).1)
      | some e => (.error e, drawn w r (if e = .typeError then S else S ++ [q]), out ++ (shown skip depth w r q).1) := by
  have hs : shown skip depth w r q = piece skip depth q (w.node c) := by simp [shown, hp]
  rw [hs, dumpOne]
  simp only [drawn_node_new hw hr hp hq]
  cases hn : w.node c with
  | file f =>
    simp only [piece]
    split
    · simp
    · have h1 := drawn_snoc (S := S) hp
      rw [hn] at h1
      cases utf8Decode (f.data.drop f.pos) with
      | none => simp [h1]
      | some t => simp [h1]
  | link l =>
    have h1 := drawn_still (S := S) hp (by rw [hn]; rfl)
    simp only [piece]
    cases l.target.str with
    | error e => by_cases h : e = .typeError <;> simp [h1, h]
    | ok t => simp [h1]
  | dir d =>
    have h1 := drawn_still (S := S) hp (by rw [hn]; rfl)
    simp only [piece]
    by_cases hd : q.length < depth
    · simp [hd, h1]
    · simp [hd, h1]

/-- everything can be shown -/
theorem dumpList_ok {skip : Str → Bool} {depth : Nat} (l : List (List Str × Nat)) (S : List (List Str)) (out : Str)
    (hp : ∀ x ∈ l, phys w r x.1 = some x.2) (hn : (S ++ l.map Prod.fst).Nodup)
    (hs : ∀ x ∈ l, (shown skip depth w r x.1).2 = none) :
    dumpList skip depth l (drawn w r S, out) =
      (.ok (), drawn w r (S ++ l.map Prod.fst), out ++ (l.map Prod.fst).flatMap fun q => (shown skip depth w r q).1) := by
  induction l generalizing S out with
  | nil => simp [dumpList]
  | cons x l ih =>
    have hq : x.1 ∉ S := by
      rw [List.map_cons, List.nodup_append] at hn
      intro h; exact hn.2.2 _ h _ (List.mem_cons_self ..) rfl
    rw [dumpList, DM.seq, dumpOne_eq hw hr (hp x (by simp)) hq, hs x (by simp)]
    simp only
    rw [ih _ _ (fun y hy => hp y (by simp [hy])) (by simpa using hn) fun y hy => hs y (by simp [hy])]
    simp

/-- something cannot -/
theorem dumpList_error {skip : Str → Bool} {depth : Nat} (l m : List (List Str × Nat)) (x : List Str × Nat)
    (S : List (List Str)) (out : Str) {e : PyErr}
    (hp : ∀ y ∈ l ++ x :: m, phys w r y.1 = some y.2) (hn : (S ++ (l ++ x :: m).map Prod.fst).Nodup)
    (hs : ∀ y ∈ l, (shown skip depth w r y.1).2 = none) (he : (shown skip depth w r x.1).2 = some e) :
    dumpList skip depth (l ++ x :: m) (drawn w r S, out) =
      (.error e, drawn w r (S ++ l.map Prod.fst ++ if e = .typeError then [] else [x.1]),
        out ++ (l.map Prod.fst).flatMap (fun q => (shown skip depth w r q).1) ++ (shown skip depth w r x.1).1) := by
  have h1 : (S ++ l.map Prod.fst).Nodup := by
    rw [List.map_append, ← List.append_assoc, List.nodup_append] at hn; exact hn.1
  have hq : x.1 ∉ S ++ l.map Prod.fst := by
    rw [List.map_append, List.map_cons, ← List.append_assoc, List.nodup_append] at hn
    intro h; exact hn.2.2 _ h _ (List.mem_cons_self ..) rfl
  rw [dumpList_append, DM.seq, dumpList_ok hw hr l S out (fun y hy => hp y (by simp [hy])) h1 hs]
  simp only
  rw [dumpList, DM.seq, dumpOne_eq hw hr (hp x (by simp)) hq, he]
  simp only
  split <;> simp

end

theorem drawn_nil (w : World) (r : Nat) : drawn w r [] = w := by
  simp [drawn]

theorem walkOrder_eq {w : World} (hw : Inv w) {r : Nat} {l : List (List Str)} (hl : Listed (view w r) l) :
    (walkOrder w w.next r).map Prod.fst = l := Listed.unique (walkOrder_listed hw r) hl

theorem listed_nodup {ns : NS} {l : List (List Str)} (h : Listed ns l) : l.Nodup :=
  h.sorted.imp fun {a b} hab => by rintro rfl; exact LocLt.irrefl _ hab

section
variable {w : World} (hw : Inv w) {r : Nat} (hr : IsRoot w r)
include hw hr

theorem dumpTree_root (skip : Str → Bool) (depth : Nat) (out : Str) :
    dumpTree skip (depth + 1) r cl!"memory:///" (w, out) = dumpList skip (depth + 1) (walkOrder w w.next r) (w, out) := by
  obtain ⟨k, hk⟩ := hr
  obtain ⟨d, hd⟩ := isDir_iff.1 (hw.root k r hk).2.1
  have := dumpTree_eq hw skip w.next r depth [] (w, out) d (by omega) (.rfl' w) hd
  simpa [preText] using this

theorem dump_ok {skip : Str → Bool} {depth : Nat} {l : List (List Str)} (hl : Listed (view w r) l) (out : Str)
    (hs : ∀ q ∈ l, (shown skip (depth + 1) w r q).2 = none) :
    dump skip (depth + 1) r (w, out) =
      (.ok (), drawn w r l, out ++ cl!"MEMORY DUMP: START\n" ++ (l.flatMap fun q => (shown skip (depth + 1) w r q).1)
        ++ cl!"MEMORY DUMP: END\n") := by
  have he := walkOrder_eq hw hl
  have h := dumpList_ok hw hr (skip := skip) (depth := depth + 1) (walkOrder w w.next r) [] (out ++ cl!"MEMORY DUMP: START\n")
    (fun x hx => ((mem_walkOrder hw (by omega)).1 hx).2) (by rw [he, List.nil_append]; exact listed_nodup hl)
    (fun x hx => hs _ (by rw [← he]; exact List.mem_map.2 ⟨x, hx, rfl⟩))
  rw [drawn_nil, he, List.nil_append] at h
  simp only [dump, DM.seq, DM.put, dumpTree_root hw hr, h]

theorem dump_error {skip : Str → Bool} {depth : Nat} {l m : List (List Str)} {q : List Str}
    (hl : Listed (view w r) (l ++ q :: m)) (out : Str) {e : PyErr}
    (hs : ∀ p ∈ l, (shown skip (depth + 1) w r p).2 = none) (he : (shown skip (depth + 1) w r q).2 = some e) :
    dump skip (depth + 1) r (w, out) =
      (.error e, drawn w r (l ++ if e = .typeError then [] else [q]),
        out ++ cl!"MEMORY DUMP: START\n" ++ (l.flatMap fun q => (shown skip (depth + 1) w r q).1)
        ++ (shown skip (depth + 1) w r q).1) := by
  have ho := walkOrder_eq hw hl
  obtain ⟨l', m', h1, h2, h3⟩ := List.map_eq_append_iff.1 ho
  obtain ⟨x, m'', h4, h5, h6⟩ := List.map_eq_cons_iff.1 h3
  subst h4; subst h2; subst h5
  have h := dumpList_error hw hr (skip := skip) (depth := depth + 1) l' m'' x [] (out ++ cl!"MEMORY DUMP: START\n")
    (e := e) (fun y hy => ((mem_walkOrder hw (by omega)).1 (h1 ▸ hy)).2)
    (by rw [← h1, ho, List.nil_append]; exact listed_nodup hl)
    (fun y hy => hs _ (List.mem_map.2 ⟨y, hy, rfl⟩)) he
  rw [drawn_nil, ← h1, List.nil_append] at h
  simp only [dump, DM.seq, DM.put, dumpTree_root hw hr, h]

omit hw hr in
theorem drawn_entries (l : List (List Str)) (j : Nat) : (drawn w r l).entries j = w.entries j := by
  by_cases h : ∃ q ∈ l, phys w r q = some j
  · simp only [World.entries, drawn, if_pos h]
    cases w.node j <;> rfl
  · simp only [World.entries, drawn, if_neg h]

omit hw hr in
theorem drawn_phys (l : List (List Str)) (r' : Nat) (q : List Str) : phys (drawn w r l) r' q = phys w r' q := by
  induction q generalizing r' with
  | nil => rfl
  | cons n q ih => simp only [phys_cons, drawn_entries, ih]

omit hr in
theorem drawn_becomes (l : List (List Str)) : Becomes w (drawn w r l) r (view w r) := by
  have hobj : ∀ j, objOf ((drawn w r l).node j) = objOf (w.node j) := by
    intro j
    simp only [drawn]
    split
    · cases w.node j <;> rfl
    · rfl
  have hview : ∀ r', view (drawn w r l) r' = view w r' := by
    intro r'
    funext q
    simp only [view, drawn_phys, hobj]
  have hent := drawn_entries (w := w) (r := r) l
  refine ⟨?_, Nat.le_refl _, rfl, rfl, rfl, rfl, rfl, hview r, fun r' _ _ => hview r'⟩
  refine ⟨?_, ?_, ?_, ?_, ?_, hw.roots⟩
  · intro i hi
    have := hw.fresh i hi
    simp only [drawn, this, toEnd, ite_self]
  · intro i; rw [hent]; exact hw.nodup i
  · intro i n c; rw [hent]; exact hw.child i n c
  · intro i n j m c; rw [hent, hent]; exact hw.uniq i n j m c
  · intro k r' hk
    obtain ⟨h1, h2, h3⟩ := hw.root k r' hk
    refine ⟨h1, ?_, fun i n => by rw [hent]; exact h3 i n⟩
    obtain ⟨d, hd⟩ := isDir_iff.1 h2
    simp [World.isDir, drawn, hd, toEnd]

end

end Verif.Mem
