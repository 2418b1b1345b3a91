import Verif.Props.Steer
/-!
# C120: leaving out directories, removing files, removing empty directories

Loops over a walk, on memory and local file systems.
-/
namespace Verif.Props
open Verif.Spec Verif.Any
open Verif.Gen (Order)
open scoped List

/-- `rows.append((root, dirs, files)); dirs[:] = keep(root, dirs, files)` -/
def pruning (keep : Uri → List Str → List Str → List Str) : Body (List (Uri × List Str × List Str)) :=
  fun t root dirs files => pure (t ++ [(root, dirs, files)], keep root dirs files)

/-- `for f in files: if bad(f): (root / f).remove()` -/
def sweeping (bad : Str → Bool) (depth : Nat) : Body Unit := fun _ root dirs files => do
  (files.filter bad).forM fun f => do
    let p ← OM.lift (root.div f)
    uRemove sysOps depth p false
  pure ((), dirs)

/-- `if not root.listdir(): root.remove()` -/
def hollowing (depth : Nat) : Body Unit := fun _ root dirs _ => do
  let l ← uListdir sysOps root
  if l.isEmpty then uRemove sysOps depth root false
  pure ((), dirs)

section
variable {ι : Type}

/-- the directories that are reached from `q` in steps that `keep` keeps -/
inductive Reached (E : ι → Dict) (r : ι → Nat) (s : Sys) (k : Option ι) (keep : Uri → List Str → List Str → List Str) (q : List Str) :
    List Str → Prop
  | top : Reached E r s k keep q q
  | step {p n} : Reached E r s k keep q p →
      n ∈ keep (siteRow E r s k p).1 (siteRow E r s k p).2.1 (siteRow E r s k p).2.2 → Reached E r s k keep q (p ++ [n])

variable {E : ι → Dict} {r : ι → Nat} {s : Sys} {k : Option ι} {q : List Str} {H : Nat}

theorem mem_rowDirs {p : List Str} {n : Str} : n ∈ (siteRow E r s k p).2.1 ↔ siteV r s k (p ++ [n]) = some .dir := by
  show n ∈ List.filter _ _ ↔ _
  rw [List.mem_filter, site_mem_names, isD_iff]
  exact ⟨fun h => h.2, fun h => ⟨by rw [h]; simp, h⟩⟩

theorem mem_rowFiles {p : List Str} {n : Str} :
    n ∈ (siteRow E r s k p).2.2 ↔ siteV r s k (p ++ [n]) ≠ none ∧ siteV r s k (p ++ [n]) ≠ some .dir := by
  show n ∈ List.filter _ _ ↔ _
  rw [List.mem_filter, site_mem_names, Bool.not_eq_true', ← Bool.not_eq_true, isD_iff]

variable (hr : Function.Injective r)
include hr

/-- Leaving names out of `dirs` (or putting them in another order) leaves out what is below them, and nothing else: the rows are those
of the directories that are reached through kept names, each once, parents first, those beside each other in the order kept. -/
theorem C120_prune {keep : Uri → List Str → List Str → List Str} (hk : ∀ u ds fs, keep u ds fs <+~ ds)
    (hf : Fits E r k q H s) (hd : siteV r s k q = some .dir) {depth : Nat} (hh : H ≤ depth) (fl : Bool) :
    ∃ ps : List (List Str), uVisit sysOps depth (siteAt E k q) true fl (pruning keep) [] s = (.ok (ps.map (siteRow E r s k)), s) ∧
      (∀ p, p ∈ ps ↔ Reached E r s k keep q p) ∧ ps.Nodup ∧
      ps.Pairwise (Before (ps.map fun p => (p, keep (siteRow E r s k p).1 (siteRow E r s k p).2.1 (siteRow E r s k p).2.2))) := by
  have hm : Mild E r k q H (pruning keep) := by
    rintro t s p t1 ds s1 h1 h2 h3 ⟨⟩
    have hnd : ((siteRow E r s k p).2.1).Nodup := ((site_names_sorted h1.ok).filter _).imp fun h e => h.2 e
    obtain ⟨l, h4, h5⟩ := hk (siteRow E r s k p).1 (siteRow E r s k p).2.1 (siteRow E r s k p).2.2
    exact ⟨h1, h4.nodup_iff.1 (hnd.sublist h5), fun n hn => mem_rowDirs.1 (h5.subset (h4.symm.subset hn)), fun x _ _ h => h⟩
  obtain ⟨vs, o, s', a1, a2, a3⟩ := C120_down hr hm hf hd hh fl []
  have key : ∀ {vs t s1 o s'}, Went (pruning keep) (fun s p => siteRow E r s k p)
      (fun s p => Fits E r k q H s ∧ q <+: p ∧ siteV r s k p = some .dir) vs t s1 o s' → s1 = s →
      o = .ok (t ++ (vs.map (·.1)).map (siteRow E r s k)) ∧ s' = s ∧
      vs = (vs.map (·.1)).map fun p => (p, keep (siteRow E r s k p).1 (siteRow E r s k p).2.1 (siteRow E r s k p).2.2) := by
    intro vs t s1 o s' h
    induction h with
    | done => rintro rfl; simp
    | next h0 h1 _ ih =>
      rintro rfl
      cases h1
      obtain ⟨b1, b2, b3⟩ := ih rfl
      refine ⟨?_, b2, ?_⟩
      · rw [b1]; simp [siteRow]
      · rw [List.map_cons, List.map_cons, ← b3]
    | raises h0 h1 => cases h1
  obtain ⟨b1, b2, b3⟩ := key a2 rfl
  subst b1; subst b2
  rw [List.nil_append] at a1
  refine ⟨vs.map (·.1), a1, fun p => ⟨fun hp => ?_, fun hp => ?_⟩, Down.nodup a3 ?_, by rw [← b3]; exact a3.order⟩
  · obtain ⟨v, hv, rfl⟩ := List.mem_map.1 hp
    have : ∀ m, ∀ v ∈ vs, v.1.length ≤ m → Reached E r s' k keep q v.1 := by
      intro m
      induction m with
      | zero =>
        intro v hv hl
        rcases a3.from_ v hv with e | ⟨w, hw, n, hn, e⟩
        · rw [e]; exact .top
        · rw [e] at hl; simp at hl
      | succ m ih =>
        intro v hv hl
        rcases a3.from_ v hv with e | ⟨w, hw, n, hn, e⟩
        · rw [e]; exact .top
        · rw [e] at hl ⊢
          refine .step (ih w hw (by simp at hl; omega)) ?_
          rw [b3] at hw
          obtain ⟨p, -, rfl⟩ := List.mem_map.1 hw
          exact hn
    exact this _ v hv le_rfl
  · induction hp with
    | top => exact a3.top
    | step _ hn ih =>
      obtain ⟨v, hv, rfl⟩ := List.mem_map.1 ih
      have e : v.2 = keep (siteRow E r s' k v.1).1 (siteRow E r s' k v.1).2.1 (siteRow E r s' k v.1).2.2 := by
        have hv' := hv
        rw [b3] at hv'
        obtain ⟨p, -, rfl⟩ := List.mem_map.1 hv'
        rfl
      rcases a3.all v hv _ (by rw [e]; exact hn) with h | ⟨h, -⟩
      · exact h
      · cases h
  · intro v hv
    rw [b3] at hv
    obtain ⟨p, -, rfl⟩ := List.mem_map.1 hv
    have hnd : ((siteRow E r s' k p).2.1).Nodup := ((site_names_sorted hf.ok).filter _).imp fun h e => h.2 e
    obtain ⟨l, h4, h5⟩ := hk (siteRow E r s' k p).1 (siteRow E r s' k p).2.1 (siteRow E r s' k p).2.2
    exact h4.nodup_iff.1 (hnd.sublist h5)

/-- the files of one directory are removed -/
theorem sweep_files (depth : Nat) {p : List Str} : ∀ (l : List Str) {s : Sys}, SysOk E r s → l.Nodup →
    (∀ n ∈ l, Nm (p ++ [n]) ∧ ∃ d, siteV r s k (p ++ [n]) = some (.file d)) →
    ∃ s', (l.forM fun f => do
        let u ← OM.lift ((siteAt E k p).div f)
        uRemove sysOps depth u false : OM Sys Unit) s = (.ok (), s') ∧ SysOk E r s' ∧
      ∀ j x, (j = k ∧ ∃ n ∈ l, x = p ++ [n]) ∧ siteV r s' j x = none ∨
        ¬ (j = k ∧ ∃ n ∈ l, x = p ++ [n]) ∧ siteV r s' j x = siteV r s j x := by
  intro l
  induction l with
  | nil => intro s hs _ _; exact ⟨s, rfl, hs, fun j x => .inr ⟨by simp, rfl⟩⟩
  | cons n l ih =>
    intro s hs hnd hl
    obtain ⟨h1, d, h2⟩ := hl n (by simp)
    obtain ⟨s1, k1, k2, k3, k4⟩ := C76_file hr hs h1 h2 depth false
    have hnn := (List.nodup_cons.1 hnd).1
    obtain ⟨s2, j1, j2, j3⟩ := ih k2 (List.nodup_cons.1 hnd).2 (by
      intro m hm
      obtain ⟨g1, g2⟩ := hl m (by simp [hm])
      refine ⟨g1, ?_⟩
      rw [k4 _ _ (by rintro ⟨-, h⟩; simp at h; subst h; exact hnn hm)]
      exact g2)
    refine ⟨s2, ?_, j2, fun j x => ?_⟩
    · have hdiv : (siteAt E k p).div n = .ok (siteAt E k (p ++ [n])) := (sysLaws E r hr).div1 h1
      rw [List.forM_eq_forM, List.forM_cons, bind_ok (a := ()) (s' := s1) (by rw [bind_lift hdiv]; exact k1)]
      exact j1
    · rcases j3 j x with ⟨⟨e1, m, hm, e2⟩, h⟩ | ⟨h, h'⟩
      · exact .inl ⟨⟨e1, m, by simp [hm], e2⟩, h⟩
      · by_cases hx : j = k ∧ x = p ++ [n]
        · refine .inl ⟨⟨hx.1, n, by simp, hx.2⟩, ?_⟩
          rw [h', hx.1, hx.2, k3]
        · refine .inr ⟨?_, by rw [h', k4 _ _ hx]⟩
          rintro ⟨e1, m, hm, e2⟩
          rcases List.mem_cons.1 hm with rfl | hm
          · exact hx ⟨e1, e2⟩
          · exact h ⟨e1, m, hm, e2⟩

theorem sweep_step (bad : Str → Bool) (d : Nat) (hf : Fits E r k q H s) {p : List Str} (hp : q <+: p) (t : Unit) :
    ∃ s1, runsAt E r k (sweeping bad d) t s p = (.ok ((), (siteRow E r s k p).2.1), s1) ∧ SysOk E r s1 ∧
      ∀ j x, (j = k ∧ isF (siteV r s k x) = true ∧ ∃ n, bad n = true ∧ x = p ++ [n]) ∧ siteV r s1 j x = none ∨
        ¬ (j = k ∧ isF (siteV r s k x) = true ∧ ∃ n, bad n = true ∧ x = p ++ [n]) ∧ siteV r s1 j x = siteV r s j x := by
  have hfile : ∀ n, n ∈ (siteRow E r s k p).2.2 ↔ isF (siteV r s k (p ++ [n])) = true := by
    intro n
    rw [mem_rowFiles]
    obtain ⟨y, rfl⟩ := hp
    have := hf.sub.noLink (y ++ [n])
    rw [← List.append_assoc] at this
    cases hv : siteV r s k (q ++ y ++ [n]) with
    | none => simp [isF]
    | some o =>
      cases o with
      | dir => simp [isF]
      | file b => simp [isF]
      | other => exact absurd hv this
  have hnd : ((siteRow E r s k p).2.2).Nodup := ((site_names_sorted hf.ok).filter _).imp fun h e => h.2 e
  obtain ⟨s1, a1, a2, a3⟩ := sweep_files hr d (p := p) ((siteRow E r s k p).2.2.filter bad) hf.ok (hnd.filter _) (k := k) (by
    intro n hn
    have h1 := (hfile n).1 (List.mem_filter.1 hn).1
    have h2 : ∃ b, siteV r s k (p ++ [n]) = some (.file b) := by
      cases hv : siteV r s k (p ++ [n]) with
      | none => rw [hv] at h1; cases h1
      | some o =>
        cases o with
        | dir => rw [hv] at h1; cases h1
        | file b => exact ⟨b, rfl⟩
        | other => rw [hv] at h1; cases h1
    refine ⟨?_, h2⟩
    obtain ⟨y, rfl⟩ := hp
    obtain ⟨b, hb⟩ := h2
    rw [List.append_assoc] at hb ⊢
    exact hf.sub.nm _ (by rw [hb]; simp))
  refine ⟨s1, ?_, a2, fun j x => ?_⟩
  · unfold runsAt sweeping
    rw [show (siteRow E r s k p).1 = siteAt E k p from rfl, bind_ok a1]; rfl
  · have e : (j = k ∧ ∃ n ∈ (siteRow E r s k p).2.2.filter bad, x = p ++ [n]) ↔
        (j = k ∧ isF (siteV r s k x) = true ∧ ∃ n, bad n = true ∧ x = p ++ [n]) := by
      constructor
      · rintro ⟨e, n, hn, rfl⟩
        obtain ⟨h1, h2⟩ := List.mem_filter.1 hn
        exact ⟨e, (hfile n).1 h1, n, h2, rfl⟩
      · rintro ⟨e, h1, n, h2, rfl⟩
        exact ⟨e, n, List.mem_filter.2 ⟨(hfile n).2 h1, h2⟩, rfl⟩
    rw [← e]; exact a3 j x

/-- The loop that removes the files with bad names removes all of them, wherever they are below `q`, and nothing else. -/
theorem C120_sweep (bad : Str → Bool) (hf : Fits E r k q H s) (hd : siteV r s k q = some .dir) {depth : Nat} (hh : H ≤ depth) (fl : Bool)
    (d : Nat) : ∃ s', uVisit sysOps depth (siteAt E k q) true fl (sweeping bad d) () s = (.ok (), s') ∧ SysOk E r s' ∧
      (∀ x n, q <+: x → bad n = true → isF (siteV r s k (x ++ [n])) = true → siteV r s' k (x ++ [n]) = none) ∧
      ∀ j y, ¬ (j = k ∧ isF (siteV r s k y) = true ∧ ∃ x n, q <+: x ∧ bad n = true ∧ y = x ++ [n]) → siteV r s' j y = siteV r s j y := by
  have hst : SteadyBody E r k q H (sweeping bad d) := by
    intro t s p t1 ds s1 h1 h2 h3 h4
    obtain ⟨s2, a1, a2, a3⟩ := sweep_step hr bad d h1 h2 t
    rw [a1] at h4
    cases h4
    have hle : ∀ x, siteV r s1 k x = none ∧ isF (siteV r s k x) = true ∨ siteV r s1 k x = siteV r s k x := by
      intro x
      rcases a3 k x with ⟨⟨-, h, -⟩, h'⟩ | ⟨-, h⟩
      · exact .inl ⟨h', h⟩
      · exact .inr h
    have hdir : ∀ x, siteV r s1 k x = some .dir ↔ siteV r s k x = some .dir := by
      intro x
      rcases hle x with ⟨a, b⟩ | h
      · rw [a]
        constructor
        · intro h; cases h
        · intro h; rw [h] at b; cases b
      · rw [h]
    refine ⟨⟨a2, ⟨fun x hx => ?_, fun x hx => ?_⟩, fun x hx => h1.deep x ((hdir _).1 hx)⟩, rfl, fun x _ => hdir x⟩
    · rcases hle (q ++ x) with ⟨a, -⟩ | h
      · exact absurd a hx
      · exact h1.sub.nm x (by rwa [← h])
    · rcases hle (q ++ x) with ⟨a, -⟩ | h
      · rw [a] at hx; cases hx
      · exact h1.sub.noLink x (by rwa [← h])
  obtain ⟨vs, o, s', a1, a2, a3⟩ := C120_steady hr hst hf hd hh fl ()
  have key : ∀ {vs t s1 o s'}, Went (sweeping bad d) (fun s p => siteRow E r s k p)
      (fun s p => Fits E r k q H s ∧ q <+: p ∧ siteV r s k p = some .dir) vs t s1 o s' → SysOk E r s1 →
      (∀ j y, siteV r s1 j y = siteV r s j y ∨ (j = k ∧ isF (siteV r s k y) = true ∧ ∃ x n, q <+: x ∧ bad n = true ∧ y = x ++ [n]) ∧
        siteV r s1 j y = none) →
      o = .ok () ∧ SysOk E r s' ∧
      (∀ j y, siteV r s' j y = siteV r s j y ∨ (j = k ∧ isF (siteV r s k y) = true ∧ ∃ x n, q <+: x ∧ bad n = true ∧ y = x ++ [n]) ∧
        siteV r s' j y = none) ∧
      (∀ y, siteV r s1 k y = none → siteV r s' k y = none) ∧
      ∀ v ∈ vs, ∀ n, bad n = true → isF (siteV r s k (v.1 ++ [n])) = true → siteV r s' k (v.1 ++ [n]) = none := by
    intro vs t s1 o s' h
    induction h with
    | done => exact fun h1 h2 => ⟨rfl, h1, h2, fun _ h => h, by simp⟩
    | @next t s1 p t1 ds s2 vs o s3 h0 h1 _ ih =>
      intro hs hJ
      obtain ⟨s4, b1, b2, b3⟩ := sweep_step hr bad d h0.1 h0.2.1 t
      have e : (Except.ok (t1, ds), s2) = ((Except.ok ((), (siteRow E r s1 k p).2.1), s4) : Except PyErr (Unit × List Str) × Sys) :=
        h1.symm.trans b1
      cases e
      have gone : ∀ y, siteV r s1 k y = none → siteV r s2 k y = none := by
        intro y hy
        rcases b3 k y with ⟨-, h⟩ | ⟨-, h⟩
        · exact h
        · rw [h, hy]
      obtain ⟨c1, c2, c3, c4, c5⟩ := ih b2 (by
        intro j y
        rcases b3 j y with ⟨⟨e, hy, n, hn, hyn⟩, h⟩ | ⟨-, h⟩
        · rcases hJ j y with h' | ⟨h', -⟩
          · subst e
            exact .inr ⟨⟨rfl, by rw [← h']; exact hy, p, n, h0.2.1, hn, hyn⟩, h⟩
          · exact .inr ⟨h', h⟩
        · rcases hJ j y with h' | ⟨h', h''⟩
          · exact .inl (h.trans h')
          · exact .inr ⟨h', h.trans h''⟩)
      refine ⟨c1, c2, c3, fun y hy => c4 y (gone y hy), fun v hv n hn hy => ?_⟩
      rcases List.mem_cons.1 hv with rfl | hv
      · apply c4
        rcases hJ k (p ++ [n]) with h' | ⟨-, h'⟩
        · rcases b3 k (p ++ [n]) with ⟨-, h⟩ | ⟨h, -⟩
          · exact h
          · exact absurd ⟨rfl, by rw [h']; exact hy, n, hn, rfl⟩ h
        · exact gone _ h'
      · exact c5 v hv n hn hy
    | @raises t s1 p e s2 h0 h1 =>
      intro _ _
      obtain ⟨s4, b1, -⟩ := sweep_step hr bad d h0.1 h0.2.1 t
      have e : (Except.error e, s2) = ((Except.ok ((), (siteRow E r s1 k p).2.1), s4) : Except PyErr (Unit × List Str) × Sys) :=
        h1.symm.trans b1
      cases e
  obtain ⟨c1, c2, c3, -, c5⟩ := key a2 hf.ok (fun _ _ => .inl rfl)
  subst c1
  obtain ⟨d1, -⟩ := a3 rfl
  refine ⟨s', a1, c2, fun x n hx hn hy => ?_, fun j y hy => ?_⟩
  · have hxd : siteV r s k x = some .dir := (sysLaws E r hr).tree hf.ok (n := n) (by
      show siteV r s k (x ++ [n]) ≠ none
      intro h; rw [h] at hy; cases hy)
    obtain ⟨v, hv, rfl⟩ := List.mem_map.1 ((d1 x).2 ⟨hx, hxd⟩)
    exact c5 v hv n hn hy
  · rcases c3 j y with h | ⟨h, -⟩
    · exact h
    · exact absurd h hy

/-- below `x` there are no files -/
def Hollow (r : ι → Nat) (s : Sys) (k : Option ι) (x : List Str) : Prop := ∀ y, x <+: y → isF (siteV r s k y) = false

/-- The loop that removes empty directories from the bottom up removes the directories without files below them, and nothing else. -/
theorem C120_hollow (h : SysOk E r s) (hsub : Sub (siteV r s k) q) (hq : q ≠ []) (hd : siteV r s k q = some .dir) {depth : Nat}
    (hh : ∀ x, siteV r s k (q ++ x) = some .dir → x.length < depth) (fl : Bool) (d : Nat) :
    ∃ s', uVisit sysOps depth (siteAt E k q) false fl (hollowing d) () s = (.ok (), s') ∧ SysOk E r s' ∧
      (∀ x, q <+: x → Hollow r s k x → siteV r s' k x = none) ∧
      ∀ j x, ¬ (j = k ∧ q <+: x ∧ Hollow r s k x) → siteV r s' j x = siteV r s j x := by
  have hroot : ∀ {x}, q <+: x → Hollow r s k x → siteV r s k x ≠ none → siteV r s k x = some .dir := by
    rintro x ⟨y, rfl⟩ hx hne
    have h1 := hsub.noLink y
    have h2 := hx _ (List.prefix_refl _)
    cases hv : siteV r s k (q ++ y) with
    | none => exact absurd hv hne
    | some o =>
      cases o with
      | dir => rfl
      | file b => rw [hv] at h2; cases h2
      | other => exact absurd hv h1
  -- what the body does, once it has run for the directories in `p`
  have body : ∀ (s1 : Sys) (p : List Str) (t : Unit), SysOk E r s1 → q <+: p → siteV r s k p = some .dir → siteV r s1 k p = some .dir →
      ∃ s2, hollowing d t (siteRow E r s k p).1 (siteRow E r s k p).2.1 (siteRow E r s k p).2.2 s1 =
          (.ok ((), (siteRow E r s k p).2.1), s2) ∧ SysOk E r s2 ∧
        (((∀ n, siteV r s1 k (p ++ [n]) = none) ∧ siteV r s2 k p = none) ∨ ((∃ n, siteV r s1 k (p ++ [n]) ≠ none) ∧ siteV r s2 k p = some .dir)) ∧
        ∀ j x, ¬ (j = k ∧ x = p) → siteV r s2 j x = siteV r s1 j x := by
    intro s1 p t hs hp hd0 hd1
    have hn : Nm p := by
      obtain ⟨y, rfl⟩ := hp
      exact hsub.nm y (by rw [hd0]; simp)
    have hp0 : p ≠ [] := by
      rintro rfl
      exact hq (List.prefix_nil.1 hp)
    let L := sysLaws E r hr
    have hls : uListdir sysOps (siteAt E k p) s1 = (.ok (siteNames r s1 k p), s1) := by
      have e : Any.withConn sysOps (siteAt E k p) .listdir (fun c => sysOps.listdir c (siteAt E k p)) s1 = _ := L.withConn hs hn _ _
      unfold uListdir
      rw [e]; exact L.listdir hs hn hd1
    have hbody : hollowing d t (siteRow E r s k p).1 (siteRow E r s k p).2.1 (siteRow E r s k p).2.2 s1 =
        (do
          if (siteNames r s1 k p).isEmpty then uRemove sysOps d (siteAt E k p) false
          pure ((), (siteRow E r s k p).2.1) : OM Sys (Unit × List Str)) s1 := by
      unfold hollowing
      rw [show (siteRow E r s k p).1 = siteAt E k p from rfl, bind_ok hls]
    rw [hbody]
    by_cases he : (siteNames r s1 k p).isEmpty = true
    · have hnone : ∀ n, siteV r s1 k (p ++ [n]) = none := by
        intro n
        by_contra hc
        have := (site_mem_names (r := r) (s := s1) (k := k) (cs := p) (n := n)).2 hc
        rw [List.isEmpty_iff.1 he] at this
        cases this
      obtain ⟨s2, hrm, b2, b3⟩ := L.uRemove_empty (depth := d) hs hn hp0 hd1 hnone
      change uRemove sysOps d (siteAt E k p) false s1 = (.ok (), s2) at hrm
      change siteV r s2 = upd (siteV r s1) k p none at b3
      refine ⟨s2, ?_, b2, .inl ⟨hnone, by rw [b3, upd_same]⟩, fun j x hx => by rw [b3, upd_ne hx]⟩
      rw [if_pos he, bind_ok hrm]; rfl
    · refine ⟨s1, ?_, hs, .inr ⟨?_, hd1⟩, fun _ _ _ => rfl⟩
      · rw [if_neg he]; rfl
      · cases hl : siteNames r s1 k p with
        | nil => rw [hl] at he; simp at he
        | cons n l =>
          exact ⟨n, (site_mem_names (r := r) (s := s1) (k := k) (cs := p) (n := n)).1 (by rw [hl]; simp)⟩
  obtain ⟨ps, vs, o, s', a1, a2, a3, a4, a5, a6⟩ := C120_up hr (τ := Unit) h hsub hd hh (body := hollowing d) (by
    intro t s1 p t1 ds s2 b1 b2 b3 b4 b5
    obtain ⟨s3, c1, c2, -, c4⟩ := body s1 p t b1 b2 b3 b4
    rw [c1] at b5
    cases b5
    refine ⟨c2, fun x hx => c4 k x ?_⟩
    rintro ⟨-, rfl⟩
    exact hx (List.prefix_refl _)) fl ()
  -- the directories of `done` without files are gone
  let J : List (List Str) → Sys → Prop := fun done s1 => SysOk E r s1 ∧
    (∀ x ∈ done, Hollow r s k x → siteV r s1 k x = none) ∧
    ∀ j x, ¬ (j = k ∧ x ∈ done ∧ Hollow r s k x) → siteV r s1 j x = siteV r s j x
  have key : ∀ {vs t s1 o s'}, Went (hollowing d) (fun _ p => siteRow E r s k p)
      (fun s1 p => SysOk E r s1 ∧ q <+: p ∧ siteV r s k p = some .dir ∧ siteV r s1 k p = some .dir) vs t s1 o s' →
      ∀ done, done ++ vs.map (·.1) <+: ps → J done s1 → o = .ok () ∧ J (done ++ vs.map (·.1)) s' := by
    intro vs t s1 o s' h
    induction h with
    | done => intro done _ hJ; exact ⟨rfl, by simpa using hJ⟩
    | @next t s1 p t1 ds s2 vs o s3 h0 h1 _ ih =>
      intro done hpre hJ
      obtain ⟨s4, b1, b2, b3, b4⟩ := body s1 p t h0.1 h0.2.1 h0.2.2.1 h0.2.2.2
      have e : (Except.ok (t1, ds), s2) = ((Except.ok ((), (siteRow E r s k p).2.1), s4) : Except PyErr (Unit × List Str) × Sys) :=
        h1.symm.trans b1
      cases e
      obtain ⟨J1, J2, J3⟩ := hJ
      have hpd : p ∉ done := by
        intro hp
        obtain ⟨z, hz⟩ := hpre
        rw [← hz, List.append_assoc, List.map_cons, List.cons_append] at a6
        exact Order.irrefl ((List.pairwise_append.1 a6).2.2 p hp p (by simp))
      -- the directories in `p` are done
      have hin : ∀ n, siteV r s k (p ++ [n]) = some .dir → p ++ [n] ∈ done := by
        intro n hn
        have hps := (a5 (p ++ [n])).2 ⟨h0.2.1.trans (List.prefix_append _ _), hn⟩
        obtain ⟨z, hz⟩ := hpre
        rw [← hz, List.append_assoc, List.map_cons, List.cons_append] at a6 hps
        rcases List.mem_append.1 hps with h | h
        · exact h
        · exfalso
          rcases List.mem_cons.1 h with h | h
          · simp at h
          · exact Order.up ((List.pairwise_cons.1 (List.pairwise_append.1 a6).2.1).1 _ h) (List.prefix_append _ _)
      have hiff : (∀ n, siteV r s1 k (p ++ [n]) = none) ↔ Hollow r s k p := by
        constructor
        · rintro hn y ⟨z, rfl⟩
          cases z with
          | nil => rw [List.append_nil, h0.2.2.1]; rfl
          | cons n z =>
            rw [show p ++ n :: z = p ++ [n] ++ z by simp]
            by_cases hx : p ++ [n] ∈ done ∧ Hollow r s k (p ++ [n])
            · exact hx.2 _ (List.prefix_append _ _)
            · have := (J3 k (p ++ [n]) (fun hc => hx hc.2)).symm.trans (hn n)
              have h2 : siteV r s k (p ++ [n] ++ z) = none := (sysLaws E r hr).none_below h this
              rw [h2]; rfl
        · intro hp n
          have hpn : Hollow r s k (p ++ [n]) := fun y hy => hp y ((List.prefix_append _ _).trans hy)
          by_cases hx : siteV r s k (p ++ [n]) = none
          · by_cases hd' : p ++ [n] ∈ done
            · exact J2 _ hd' hpn
            · rw [J3 k _ (fun hc => hd' hc.2.1), hx]
          · exact J2 _ (hin n (hroot (h0.2.1.trans (List.prefix_append _ _)) hpn hx)) hpn
      have hJ' : J (done ++ [p]) s2 := by
        refine ⟨b2, fun x hx hxh => ?_, fun j x hx => ?_⟩
        · rcases List.mem_append.1 hx with hx0 | hx
          · rw [b4 k x (by rintro ⟨-, rfl⟩; exact hpd hx0)]
            exact J2 x hx0 hxh
          · rw [List.mem_singleton.1 hx] at hxh ⊢
            rcases b3 with ⟨-, h⟩ | ⟨⟨n, hn⟩, -⟩
            · exact h
            · exact absurd (hiff.2 hxh n) hn
        · by_cases hjx : j = k ∧ x = p
          · obtain ⟨rfl, rfl⟩ := hjx
            have hnh : ¬ Hollow r s j x := fun hc => hx ⟨rfl, by simp, hc⟩
            rcases b3 with ⟨h, -⟩ | ⟨-, h⟩
            · exact absurd (hiff.1 h) hnh
            · rw [h, h0.2.2.1]
          · rw [b4 j x hjx]
            exact J3 j x fun hc => hx ⟨hc.1, by simp [hc.2.1], hc.2.2⟩
      obtain ⟨c1, c2⟩ := ih (done ++ [p]) (by simpa using hpre) hJ'
      exact ⟨c1, by simpa using c2⟩
    | @raises t s1 p e s2 h0 h1 =>
      intro _ _ _
      obtain ⟨s4, b1, -⟩ := body s1 p t h0.1 h0.2.1 h0.2.2.1 h0.2.2.2
      have e : (Except.error e, s2) = ((Except.ok ((), (siteRow E r s k p).2.1), s4) : Except PyErr (Unit × List Str) × Sys) :=
        h1.symm.trans b1
      cases e
  obtain ⟨c1, c2, c3, c4⟩ := key a2 [] (by simpa using a3) ⟨h, by simp, fun _ _ _ => rfl⟩
  subst c1
  have hps := a4 rfl
  rw [List.nil_append, hps] at c3 c4
  refine ⟨s', a1, c2, fun x hx hxh => ?_, fun j x hx => c4 j x fun hc => hx ⟨hc.1, ((a5 x).1 hc.2.1).1, hc.2.2⟩⟩
  by_cases hne : siteV r s k x = none
  · by_cases hm : x ∈ ps
    · exact c3 x hm hxh
    · rw [c4 k x (fun hc => hm hc.2.1), hne]
  · exact c3 x ((a5 x).2 ⟨hx, hroot hx hxh hne⟩) hxh
end

/-! ## A state to try it on -/

/-- local files: in /t a file g.o, a directory a with a file x and an empty directory e in an empty directory e, a directory b with
files y.o and z, and a directory c -/
def loopDisk : Disk :=
  ⟨[([], .dir 0o755), ([cl!"t"], .dir 0o755), ([cl!"t", cl!"g.o"], .file 0o644 [1]), ([cl!"t", cl!"a"], .dir 0o755),
    ([cl!"t", cl!"a", cl!"x"], .file 0o644 [2]), ([cl!"t", cl!"a", cl!"e"], .dir 0o755), ([cl!"t", cl!"a", cl!"e", cl!"e"], .dir 0o755),
    ([cl!"t", cl!"b"], .dir 0o755), ([cl!"t", cl!"b", cl!"y.o"], .file 0o644 [3]), ([cl!"t", cl!"b", cl!"z"], .file 0o600 [4]),
    ([cl!"t", cl!"c"], .dir 0o755)], [], 0o22, []⟩

/-- these and the sample memory file system -/
def loopSys : Sys := ⟨sample, loopDisk⟩

/-- what there is -/
abbrev loopV := siteV (fun _ : Unit => 0) loopSys

theorem loop_there {P : List Str → Prop} (h : ∀ p ∈ loopDisk.ents.map (·.1), P p) {x : List Str} (hx : loopV none x ≠ none) : P x := by
  obtain ⟨e, he, e1⟩ := (lookup_isSome loopDisk.ents x).2 fun e => hx (siteV_lnone.2 e)
  exact h _ (List.mem_map.2 ⟨e, he, e1⟩)

theorem loop_fits : Fits (fun _ : Unit => []) (fun _ => 0) none [cl!"t"] 9 loopSys where
  ok := ⟨sampleSys_ok.inv, sampleSys_ok.fs, diskOk_of (by decide) (by decide) (by decide)⟩
  sub := ⟨fun x hx => loop_there (P := Nm) (by decide +kernel) hx, fun x hx =>
    loop_there (P := fun p => loopV none p ≠ some .other) (by decide +kernel) (fun e => nomatch hx.symm.trans e) hx⟩
  deep x hx := by
    have := loop_there (P := fun p => p.length < 10) (by decide +kernel) (x := [cl!"t"] ++ x) (fun e => nomatch hx.symm.trans e)
    simp only [List.singleton_append, List.length_cons] at this
    omega

/-- walking without the directories called `a`, the others backwards -/
example : ∃ ps : List (List Str), uVisit sysOps 9 (sAt none [cl!"t"]) true true (pruning fun _ ds _ => (ds.filter (· ≠ cl!"a")).reverse) []
    loopSys = (.ok (ps.map (siteRow (fun _ : Unit => []) (fun _ => 0) loopSys none)), loopSys) ∧ [cl!"t", cl!"b"] ∈ ps := by
  obtain ⟨ps, h1, h2, -⟩ := C120_prune unit_inj (keep := fun _ ds _ => (ds.filter (· ≠ cl!"a")).reverse)
    (fun _ ds _ => ⟨ds.filter (· ≠ cl!"a"), (List.reverse_perm _).symm, List.filter_sublist⟩)
    loop_fits (by decide +kernel) (Nat.le_refl 9) true
  exact ⟨ps, h1, (h2 _).2 (.step (p := [cl!"t"]) .top (by decide +kernel))⟩

/-- the same, computed: /t, /t/c, /t/b -/
example : (uVisit sysOps 9 (sAt none [cl!"t"]) true true (pruning fun _ ds _ => (ds.filter (· ≠ cl!"a")).reverse) [] loopSys).1 =
    .ok [(sAt none [cl!"t"], [cl!"a", cl!"b", cl!"c"], [cl!"g.o"]), (sAt none [cl!"t", cl!"c"], [], []),
      (sAt none [cl!"t", cl!"b"], [], [cl!"y.o", cl!"z"])] := by decide +kernel

/-- removing the files whose names end in `.o` -/
example : ∃ s', uVisit sysOps 9 (sAt none [cl!"t"]) true true (sweeping (fun n => endsWith n cl!".o") 5) () loopSys = (.ok (), s') ∧
    siteV (fun _ : Unit => 0) s' none [cl!"t", cl!"b", cl!"y.o"] = none ∧
    siteV (fun _ : Unit => 0) s' none [cl!"t", cl!"b", cl!"z"] = some (.file [4]) := by
  obtain ⟨s', h1, -, h2, h3⟩ := C120_sweep unit_inj (fun n => endsWith n cl!".o") loop_fits (by decide +kernel) (Nat.le_refl 9) true 5
  refine ⟨s', h1, h2 [cl!"t", cl!"b"] cl!"y.o" (by decide) (by decide) (by decide +kernel), (h3 none _ ?_).trans (by decide +kernel)⟩
  rintro ⟨-, -, x, n, -, hn, e⟩
  have := congrArg List.getLast? e
  rw [List.getLast?_concat] at this
  cases this
  revert hn; decide

/-- removing the empty directories: /t/a/e and what is in it, and /t/c; not /t/a -/
example : ∃ s', uVisit sysOps 9 (sAt none [cl!"t"]) false true (hollowing 5) () loopSys = (.ok (), s') ∧
    siteV (fun _ : Unit => 0) s' none [cl!"t", cl!"a", cl!"e"] = none ∧ siteV (fun _ : Unit => 0) s' none [cl!"t", cl!"a"] = some .dir := by
  obtain ⟨s', h1, -, h2, h3⟩ := C120_hollow unit_inj loop_fits.ok loop_fits.sub (by decide) (by decide +kernel) loop_fits.deep true 5
  refine ⟨s', h1, h2 _ (by decide) ?_, (h3 none _ ?_).trans (by decide +kernel)⟩
  · intro y hy
    by_cases hn : loopV none y = none
    · show isF (loopV none y) = false
      rw [hn]; rfl
    · exact loop_there (P := fun y => [cl!"t", cl!"a", cl!"e"] <+: y → isF (loopV none y) = false) (by decide +kernel) hn hy
  · rintro ⟨-, -, h⟩
    exact absurd (h [cl!"t", cl!"a", cl!"x"] (by decide)) (by decide +kernel)

/-- a body that raises in the row of a directory called `b`, and leaves all names in `dirs` -/
def stopsAtB : Body Nat := fun t root dirs _ => if root.last = cl!"b" then OM.raise .keyError else pure (t + 1, dirs)

/-- it is in the row of /t/b that the loop ends; the rows before are those of /t, /t/a and what is below it; /t/c has none -/
example : (uVisit sysOps 9 (sAt none [cl!"t"]) true true stopsAtB 0 loopSys).1 = .error .keyError ∧
    ∃ vs o s', uVisit sysOps 9 (sAt none [cl!"t"]) true true stopsAtB 0 loopSys = (o, s') ∧ Down [cl!"t"] vs o.isOk := by
  refine ⟨by decide +kernel, ?_⟩
  obtain ⟨vs, o, s', h1, -, h2⟩ := C120_down unit_inj (body := stopsAtB) (E := fun _ : Unit => []) (k := none) (q := [cl!"t"]) (H := 9) (by
    intro t s p t1 ds s1 g1 g2 g3 g4
    unfold runsAt stopsAtB at g4
    split at g4
    · cases g4
    · cases g4
      exact ⟨g1, ((site_names_sorted g1.ok).filter _).imp fun h e => h.2 e, fun n hn => mem_rowDirs.1 hn, fun x _ _ h => h⟩)
    loop_fits (by decide +kernel) (Nat.le_refl 9) true 0
  exact ⟨vs, o, s', h1, h2⟩

/-- from the bottom up, with a body that empties `dirs`: there are rows for all directories -/
example : ∃ (ps : List (List Str)) (vs : List (List Str × List Str)) (o : Except PyErr Nat) (s' : Sys),
    uVisit sysOps 9 (sAt none [cl!"t"]) false true (fun (t : Nat) _ _ _ => pure (t + 1, [])) 0 loopSys = (o, s') ∧
    vs.map (·.1) <+: ps ∧ (o.isOk = true → vs.map (·.1) = ps) ∧ [cl!"t", cl!"a", cl!"e", cl!"e"] ∈ ps := by
  obtain ⟨ps, vs, o, s', h1, -, h2, h3, h4, -⟩ := C120_up unit_inj (body := fun (t : Nat) _ _ _ => pure (t + 1, [])) loop_fits.ok
    loop_fits.sub (by decide +kernel) loop_fits.deep (by rintro t s p t1 ds s1 g1 - - - ⟨⟩; exact ⟨g1, fun _ _ => rfl⟩) true 0
  exact ⟨ps, vs, o, s', h1, h2, h3, (h4 _).2 (by decide +kernel)⟩

/-! ## What the conditions are for -/

/-- a body that removes a directory of which there has been no row yet, and that is named in `dirs` of its parent -/
def removesAhead : Body Unit := fun _ root dirs _ => do
  if root.last = cl!"a" then uRemove sysOps 9 (sAt none [cl!"t", cl!"b"]) true
  pure ((), dirs)

/-- the walk raises when it comes to it -/
theorem C120_ahead_refuted : (uVisit sysOps 9 (sAt none [cl!"t"]) true true removesAhead () loopSys).1 = .error (.os .ENOENT) := by
  decide +kernel

/-- a name of a file put into `dirs` -/
theorem C120_added_refuted : (uVisit sysOps 9 (sAt none [cl!"t"]) true true (fun (_ : Unit) _ dirs files => pure ((), dirs ++ files)) ()
    loopSys).1 = .error (.os .ENOTDIR) := by
  decide +kernel

/-- a body that makes a directory, and does not put it into `dirs` -/
def makesUnseen : Body (List Str) := fun t root dirs _ => do
  if root.last = cl!"c" then uMkdir sysOps (sAt none [cl!"t", cl!"c", cl!"n"])
  pure (t ++ [root.last], dirs)

/-- a body that makes a directory and puts it into `dirs` -/
def makesSeen : Body (List Str) := fun t root dirs _ => do
  if root.last = cl!"c" then do
    uMkdir sysOps (sAt none [cl!"t", cl!"c", cl!"n"])
    pure (t ++ [root.last], dirs ++ [cl!"n"])
  else pure (t ++ [root.last], dirs)

/-- there is no row for the one, and one for the other -/
example : (uVisit sysOps 9 (sAt none [cl!"t"]) true true makesUnseen [] loopSys).1 = .ok [cl!"t", cl!"a", cl!"e", cl!"e", cl!"b", cl!"c"] ∧
    (uVisit sysOps 9 (sAt none [cl!"t"]) true true makesSeen [] loopSys).1 = .ok [cl!"t", cl!"a", cl!"e", cl!"e", cl!"b", cl!"c", cl!"n"] := by
  decide +kernel

end Verif.Props
