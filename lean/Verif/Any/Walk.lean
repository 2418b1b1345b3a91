import Verif.Any.Laws
/-! # Walking and removing trees over any backends -/
namespace Verif.Any
open Mem (Meth)
open Verif.Spec Verif.Gen

/-- the tree at `q` has names that can be written in URIs, and no links -/
structure Sub (T : List Str → Option Kind) (q : List Str) : Prop where
  nm : ∀ t, T (q ++ t) ≠ none → Nm (q ++ t)
  noLink : ∀ t, T (q ++ t) ≠ some .other

theorem Sub.below {T : List Str → Option Kind} {q : List Str} (h : Sub T q) (t : List Str) : Sub T (q ++ t) :=
  ⟨fun x => by rw [List.append_assoc]; exact h.nm _, fun x => by rw [List.append_assoc]; exact h.noLink _⟩

theorem Sub.nm0 {T : List Str → Option Kind} {q : List Str} (h : Sub T q) (hd : T q ≠ none) : Nm q := by
  have := h.nm []; simp only [List.append_nil] at this; exact this hd

theorem isD_some {x : Option Kind} (h : isD x = true) : x ≠ none := by rw [isD_iff.1 h]; simp

/-- the map without some of the names of one place -/
noncomputable def wipe {κ : Type} (V : κ → List Str → Option Kind) (k : κ) (P : List Str → Prop) :
    κ → List Str → Option Kind := by
  classical exact fun k' p => if k' = k ∧ P p then none else V k' p

section
variable {κ : Type} {V : κ → List Str → Option Kind} {k k' : κ} {P Q : List Str → Prop} {p : List Str}

theorem wipe_in (h : P p) : wipe V k P k p = none := by simp [wipe, h]
theorem wipe_out (h : ¬ P p) : wipe V k P k' p = V k' p := by simp [wipe, h]
theorem wipe_wipe : wipe (wipe V k P) k Q = wipe V k (fun p => P p ∨ Q p) := by
  funext j p; unfold wipe
  by_cases h1 : j = k <;> by_cases h2 : P p <;> by_cases h3 : Q p <;> simp [h1, h2, h3]
theorem wipe_congr (h : ∀ p, P p ↔ Q p) : wipe V k P = wipe V k Q := by
  rw [show P = Q from funext fun p => propext (h p)]
theorem wipe_false (h : ∀ p, ¬ P p) : wipe V k P = V := by
  funext j p; simp [wipe, h p]
theorem upd_none : upd V k p none = wipe V k (· = p) := by
  funext j q; unfold upd wipe
  by_cases h1 : j = k <;> by_cases h2 : q = p <;> simp [h1, h2]
/-- names at which there is nothing do not matter -/
theorem wipe_ext (h : ∀ p, V k p ≠ none → (P p ↔ Q p)) : wipe V k P = wipe V k Q := by
  funext j p; unfold wipe
  by_cases hj : j = k
  · subst hj
    by_cases hv : V j p = none
    · by_cases h1 : P p <;> by_cases h2 : Q p <;> simp [h1, h2, hv]
    · have := h p hv
      by_cases h1 : P p <;> by_cases h2 : Q p <;> simp_all
  · simp [hj]
end

namespace Laws
variable {σ : Type} {O : Ops σ} {κ : Type} {I : σ → Prop} {may : κ → κ → Prop} (L : Laws O κ I may)

/-- the sub-directories of a directory -/
def dirNames (s : σ) (k : κ) (q : List Str) : List Str := (L.names s k q).filter fun n => isD (L.V s k (q ++ [n]))
/-- the other names in a directory -/
def fileNames (s : σ) (k : κ) (q : List Str) : List Str := (L.names s k q).filter fun n => !isD (L.V s k (q ++ [n]))
/-- what the walk yields for a directory -/
def row (s : σ) (k : κ) (p : List Str) : Uri × List Str × List Str := (L.at_ k p, L.dirNames s k p, L.fileNames s k p)

variable {s : σ} {k k' : κ} {q : List Str}

theorem names_nodup (hs : I s) : (L.names s k q).Nodup := by
  refine (L.names_sorted hs).imp ?_
  intro a b h e
  subst e
  simp [strLt] at h

theorem mem_dirNames (hs : I s) {n : Str} : n ∈ L.dirNames s k q ↔ L.V s k (q ++ [n]) = some .dir := by
  unfold dirNames
  rw [List.mem_filter, L.mem_names hs, isD_iff]
  constructor
  · exact fun h => h.2
  · intro h; exact ⟨by rw [h]; simp, h⟩

theorem mem_fileNames (hs : I s) {n : Str} (h : Sub (L.V s k) q) :
    n ∈ L.fileNames s k q ↔ ∃ d, L.V s k (q ++ [n]) = some (.file d) := by
  unfold fileNames
  rw [List.mem_filter, L.mem_names hs]
  have := h.noLink [n]
  cases hv : L.V s k (q ++ [n]) with
  | none => simp
  | some x =>
    cases x with
    | dir => simp [isD]
    | file d => simp [isD]
    | other => exact absurd hv this

theorem clear_sub (hs : I s) (h : Sub (L.V s k) q) {t : List Str} (ht : L.V s k (q ++ t) ≠ none) :
    Clear (L.V s k) (q ++ t) := L.clear_of hs ht (h.noLink t)

theorem classify (hs : I s) (h : Sub (L.V s k) q) : ∀ l : List Str, (∀ n ∈ l, L.V s k (q ++ [n]) ≠ none) →
    classify O (L.C k) (L.at_ k q) l s = (.ok (l.filter (fun n => isD (L.V s k (q ++ [n]))),
      l.filter (fun n => !isD (L.V s k (q ++ [n])))), s) := by
  intro l
  induction l with
  | nil => intro _; rfl
  | cons n l ih =>
    intro hl
    have h1 := hl n (by simp)
    unfold Any.classify
    rw [bind_lift (L.div1 (h.nm [n] h1)), bind_ok (L.isdir hs (h.nm [n] h1) (L.clear_sub hs h h1)),
      bind_ok (ih fun x hx => hl x (by simp [hx]))]
    cases hb : isD (L.V s k (q ++ [n])) <;> simp [hb]

/-- one level of the walk -/
theorem walk_dir {τ : Type} (hs : I s) (h : Sub (L.V s k) q) (hd : L.V s k q = some .dir) (td fl : Bool)
    (body : τ → Uri → List Str → List Str → OM σ (τ × List Str)) (depth : Nat) (t : τ) :
    walk O (L.C k) td fl body (depth + 1) (L.at_ k q) t s =
      (if td then (do
        let (t, dirs) ← body t (L.at_ k q) (L.dirNames s k q) (L.fileNames s k q)
        walkDirs O fl (walk O (L.C k) td fl body depth) (L.at_ k q) dirs t)
      else (do
        let t ← walkDirs O fl (walk O (L.C k) td fl body depth) (L.at_ k q) (L.dirNames s k q) t
        let (t, _) ← body t (L.at_ k q) (L.dirNames s k q) (L.fileNames s k q)
        pure t) : OM σ τ) s := by
  conv => lhs; unfold Any.walk
  rw [bind_ok (L.listdir hs (h.nm0 (by rw [hd]; simp)) hd), sortStr_of_pairwise (L.names_sorted hs)]
  rw [bind_ok (L.classify hs h _ (fun n hn => (L.mem_names hs).1 hn))]
  rfl

theorem walkDirs_cons {τ : Type} {n : Str} (hs : I s) (h : Sub (L.V s k) q) (hd : L.V s k (q ++ [n]) ≠ none) (fl : Bool)
    (visit : Uri → τ → OM σ τ) (l : List Str) (t : τ) :
    walkDirs O fl visit (L.at_ k q) (n :: l) t s =
      (do
        let t ← visit (L.at_ k (q ++ [n])) t
        walkDirs O fl visit (L.at_ k q) l t : OM σ τ) s := by
  conv => lhs; unfold Any.walkDirs
  rw [bind_lift (L.div1 (h.nm [n] hd)), bind_ok (L.uIslink hs (h.nm [n] hd) (L.clear_sub hs h hd) hd)]
  rfl

/-- the consumer that just collects -/
def collect (t : List (Uri × List Str × List Str)) (top : Uri) (dirs files : List Str) :
    OM σ (List (Uri × List Str × List Str) × List Str) := pure (t ++ [(top, dirs, files)], dirs)

theorem dir_prefix (hs : I s) {a b : List Str} (h : L.V s k (a ++ b) = some .dir) : L.V s k a = some .dir := by
  by_cases hb : b = []
  · subst hb; simpa using h
  · exact L.above hs (by rw [h]; simp) a (List.prefix_append _ _) (by simp [hb])

theorem walk_collect (td fl : Bool) (hs : I s) (depth : Nat) : ∀ (q : List Str) (t : List (Uri × List Str × List Str)),
    Sub (L.V s k) q → L.V s k q = some .dir → (∀ x, L.V s k (q ++ x) = some .dir → x.length < depth) →
    ∃ ps : List (List Str), walk O (L.C k) td fl collect depth (L.at_ k q) t s = (.ok (t ++ ps.map (L.row s k)), s) ∧
      (∀ p, p ∈ ps ↔ q <+: p ∧ L.V s k p = some .dir) ∧ ps.Pairwise (Order td) := by
  induction depth with
  | zero =>
    intro q t _ hd hh
    exact absurd (hh [] (by simpa using hd)) (by simp)
  | succ depth ih =>
    intro q t hsub hd hh
    have loop : ∀ (l : List Str) (t : List (Uri × List Str × List Str)), l.Pairwise strLt → (∀ n ∈ l, n ∈ L.dirNames s k q) →
        ∃ ps : List (List Str), walkDirs O fl (walk O (L.C k) td fl collect depth) (L.at_ k q) l t s =
            (.ok (t ++ ps.map (L.row s k)), s) ∧
          (∀ p, p ∈ ps ↔ (∃ n ∈ l, q ++ [n] <+: p) ∧ L.V s k p = some .dir) ∧ ps.Pairwise (Order td) := by
      intro l
      induction l with
      | nil => intro t _ _; exact ⟨[], by simp [walkDirs], by simp, .nil⟩
      | cons n l ihl =>
        intro t hnd hl
        have hdn := (L.mem_dirNames hs).1 (hl n (by simp))
        rw [L.walkDirs_cons hs hsub (by rw [hdn]; simp)]
        obtain ⟨ps1, h1, h2, h3⟩ := ih (q ++ [n]) t (hsub.below [n]) hdn (by
          intro x hx
          have := hh (n :: x) (by simpa using hx)
          simp at this; omega)
        obtain ⟨ps2, k1, k2, k3⟩ := ihl (t ++ ps1.map (L.row s k)) (List.pairwise_cons.1 hnd).2
          (fun x hx => hl x (by simp [hx]))
        refine ⟨ps1 ++ ps2, ?_, ?_, ?_⟩
        · rw [bind_ok h1, k1]
          simp
        · intro p
          rw [List.mem_append, h2, k2]
          constructor
          · rintro (⟨a, b⟩ | ⟨⟨m, hm, a⟩, b⟩)
            · exact ⟨⟨n, by simp, a⟩, b⟩
            · exact ⟨⟨m, by simp [hm], a⟩, b⟩
          · rintro ⟨⟨m, hm, a⟩, b⟩
            rcases List.mem_cons.1 hm with rfl | hm
            · exact .inl ⟨a, b⟩
            · exact .inr ⟨⟨m, hm, a⟩, b⟩
        · refine List.pairwise_append.2 ⟨h3, k3, ?_⟩
          intro a ha' b hb'
          obtain ⟨ha1, -⟩ := (h2 a).1 ha'
          obtain ⟨⟨m, hm, hb1⟩, -⟩ := (k2 b).1 hb'
          exact order_beside ((List.pairwise_cons.1 hnd).1 m hm) ha1 hb1
    have hnd : (L.dirNames s k q).Pairwise strLt := (L.names_sorted hs).filter _
    have cover : ∀ p, q <+: p → L.V s k p = some .dir → p ≠ q → ∃ n ∈ L.dirNames s k q, q ++ [n] <+: p := by
      intro p hp hpd hne
      obtain ⟨x, rfl⟩ := hp
      cases x with
      | nil => simp at hne
      | cons n x =>
        have hdn : L.V s k (q ++ [n]) = some .dir := L.dir_prefix hs (b := x) (by simpa using hpd)
        exact ⟨n, (L.mem_dirNames hs).2 hdn, ⟨x, by simp⟩⟩
    rw [L.walk_dir hs hsub hd]
    cases td with
    | true =>
      obtain ⟨ps, h1, h2, h3⟩ := loop (L.dirNames s k q) (t ++ [L.row s k q]) hnd (fun n h => h)
      refine ⟨q :: ps, ?_, ?_, ?_⟩
      · rw [if_pos rfl]
        show (collect t (L.at_ k q) (L.dirNames s k q) (L.fileNames s k q) >>= _) s = _
        have h0 : collect t (L.at_ k q) (L.dirNames s k q) (L.fileNames s k q) s =
            (.ok (t ++ [L.row s k q], L.dirNames s k q), s) := rfl
        rw [bind_ok h0]
        show walkDirs O fl _ (L.at_ k q) (L.dirNames s k q) _ s = _
        rw [h1]; simp
      · intro p
        rw [List.mem_cons, h2]
        constructor
        · rintro (rfl | ⟨⟨n, -, a⟩, b⟩)
          · exact ⟨List.prefix_refl _, hd⟩
          · exact ⟨(List.prefix_append _ _).trans a, b⟩
        · rintro ⟨a, b⟩
          by_cases hp : p = q
          · exact .inl hp
          · exact .inr ⟨cover p a b hp, b⟩
      · refine List.pairwise_cons.2 ⟨fun b hb => ?_, h3⟩
        obtain ⟨⟨n, -, hb1⟩, -⟩ := (h2 b).1 hb
        exact order_down hb1
    | false =>
      obtain ⟨ps, h1, h2, h3⟩ := loop (L.dirNames s k q) t hnd (fun n h => h)
      refine ⟨ps ++ [q], ?_, ?_, ?_⟩
      · rw [if_neg Bool.false_ne_true, bind_ok h1]
        show (Except.ok _, _) = _
        simp [row]
      · intro p
        rw [List.mem_append, h2, List.mem_singleton]
        constructor
        · rintro (⟨⟨n, -, a⟩, b⟩ | rfl)
          · exact ⟨(List.prefix_append _ _).trans a, b⟩
          · exact ⟨List.prefix_refl _, hd⟩
        · rintro ⟨a, b⟩
          by_cases hp : p = q
          · exact .inr hp
          · exact .inl ⟨cover p a b hp, b⟩
      · refine List.pairwise_append.2 ⟨h3, List.pairwise_singleton _ _, ?_⟩
        intro a ha b hb
        obtain ⟨⟨n, -, ha1⟩, -⟩ := (h2 a).1 ha
        rw [List.mem_singleton.1 hb]
        exact order_up ha1

theorem uWalk {td fl : Bool} {depth : Nat} (hs : I s) (hsub : Sub (L.V s k) q) (hd : L.V s k q = some .dir)
    (hh : ∀ x, L.V s k (q ++ x) = some .dir → x.length < depth) :
    ∃ ps : List (List Str), uWalk O depth (L.at_ k q) td fl s = (.ok (ps.map (L.row s k)), s) ∧
      (∀ p, p ∈ ps ↔ q <+: p ∧ L.V s k p = some .dir) ∧ ps.Pairwise (Order td) := by
  obtain ⟨ps, h1, h2, h3⟩ := L.walk_collect td fl hs depth q [] hsub hd hh
  refine ⟨ps, ?_, h2, h3⟩
  unfold Any.uWalk
  rw [L.withConn hs (hsub.nm0 (by rw [hd]; simp))]
  rw [List.nil_append] at h1
  exact h1

/-! ## Removing -/

/-- the files of a directory are removed -/
theorem removeFiles : ∀ (l : List Str) {s : σ}, I s → l.Nodup →
    (∀ n ∈ l, Nm (q ++ [n]) ∧ ∃ d, L.V s k (q ++ [n]) = some (.file d)) →
    ∃ s', (l.forM fun f => do
        let p ← OM.lift ((L.at_ k q).div f)
        O.removefile (L.C k) p : OM σ Unit) s = (.ok (), s') ∧ I s' ∧
      L.V s' = wipe (L.V s) k (fun p => ∃ n ∈ l, p = q ++ [n]) := by
  intro l
  induction l with
  | nil => intro s hs _ _; exact ⟨s, rfl, hs, (wipe_false (by simp)).symm⟩
  | cons n l ih =>
    intro s hs hnd hl
    obtain ⟨h1, d, h2⟩ := hl n (by simp)
    obtain ⟨s1, k1, k2, k3⟩ := L.removefile hs h1 h2
    have hnn := (List.nodup_cons.1 hnd).1
    obtain ⟨s2, j1, j2, j3⟩ := ih k2 (List.nodup_cons.1 hnd).2 (by
      intro m hm
      obtain ⟨g1, g2⟩ := hl m (by simp [hm])
      refine ⟨g1, ?_⟩
      rw [k3, upd_ne (by rintro ⟨-, h⟩; simp at h; subst h; exact hnn hm)]
      exact g2)
    refine ⟨s2, ?_, j2, ?_⟩
    · rw [List.forM_eq_forM, List.forM_cons, bind_ok (a := ()) (s' := s1) (by rw [bind_lift (L.div1 h1)]; exact k1)]
      exact j1
    · rw [j3, k3, upd_none, wipe_wipe]
      exact wipe_congr fun p => by simp

/-- the empty sub-directories of a directory are removed -/
theorem removeDirs : ∀ (l : List Str) {s : σ}, I s → l.Nodup →
    (∀ n ∈ l, Nm (q ++ [n]) ∧ L.V s k (q ++ [n]) = some .dir ∧ ∀ m, L.V s k (q ++ [n] ++ [m]) = none) →
    ∃ s', (l.forM fun d => do
        let p ← OM.lift ((L.at_ k q).div d)
        if ← O.islink (L.C k) p then O.removefile (L.C k) p else O.removedir (L.C k) p : OM σ Unit) s = (.ok (), s') ∧ I s' ∧
      L.V s' = wipe (L.V s) k (fun p => ∃ n ∈ l, p = q ++ [n]) := by
  intro l
  induction l with
  | nil => intro s hs _ _; exact ⟨s, rfl, hs, (wipe_false (by simp)).symm⟩
  | cons n l ih =>
    intro s hs hnd hl
    obtain ⟨h1, h2, h3⟩ := hl n (by simp)
    obtain ⟨s1, k1, k2, k3⟩ := L.removedir hs h1 (by simp) h2 h3
    have hnn := (List.nodup_cons.1 hnd).1
    obtain ⟨s2, j1, j2, j3⟩ := ih k2 (List.nodup_cons.1 hnd).2 (by
      intro m hm
      obtain ⟨g1, g2, g3⟩ := hl m (by simp [hm])
      refine ⟨g1, ?_, fun x => ?_⟩
      · rw [k3, upd_ne (by rintro ⟨-, h⟩; simp at h; subst h; exact hnn hm)]
        exact g2
      · rw [k3, upd_none]
        by_cases hx : q ++ [m] ++ [x] = q ++ [n]
        · exact wipe_in (P := fun p => p = q ++ [n]) hx
        · exact (wipe_out (P := fun p => p = q ++ [n]) hx).trans (g3 x))
    refine ⟨s2, ?_, j2, ?_⟩
    · rw [List.forM_eq_forM, List.forM_cons, bind_ok (a := ()) (s' := s1) (by
        rw [bind_lift (L.div1 h1), bind_ok (L.islink hs h1 (L.clear_dir hs h2) (by rw [h2]; simp)), if_neg Bool.false_ne_true]
        exact k1)]
      exact j1
    · rw [j3, k3, upd_none, wipe_wipe]
      exact wipe_congr fun p => by simp

/-- the consumer of the walk in `remove_dir_recursively` -/
def remover (k : κ) (_ : Unit) (top : Uri) (dirs files : List Str) : OM σ (Unit × List Str) := do
  removeBody O (L.C k) top dirs files
  pure ((), dirs)

theorem remove_walk (depth : Nat) : ∀ (q : List Str) {s : σ}, I s →
    Sub (L.V s k) q → L.V s k q = some .dir → (∀ x, L.V s k (q ++ x) = some .dir → x.length < depth) →
    ∃ s', walk O (L.C k) false false (L.remover k) depth (L.at_ k q) () s = (.ok (), s') ∧ I s' ∧
      L.V s' = wipe (L.V s) k (fun p => q <+: p ∧ p ≠ q) := by
  induction depth with
  | zero =>
    intro q s _ _ hd hh
    exact absurd (hh [] (by simpa using hd)) (by simp)
  | succ depth ih =>
    intro q s hs hsub hd hh
    have loop : ∀ (l : List Str) {s1 : σ}, I s1 → l.Nodup → Sub (L.V s1 k) q → (∀ n ∈ l, L.V s1 k (q ++ [n]) = some .dir) →
        (∀ x, L.V s1 k (q ++ x) = some .dir → x.length < depth + 1) →
        ∃ s', walkDirs O false (walk O (L.C k) false false (L.remover k) depth) (L.at_ k q) l () s1 = (.ok (), s') ∧ I s' ∧
          L.V s' = wipe (L.V s1) k (fun p => ∃ n ∈ l, q ++ [n] <+: p ∧ p ≠ q ++ [n]) := by
      intro l
      induction l with
      | nil => intro s1 hs1 _ _ _ _; exact ⟨s1, rfl, hs1, (wipe_false (by simp)).symm⟩
      | cons n l ihl =>
        intro s1 hs1 hnd hsub1 hl hh1
        have hdn := hl n (by simp)
        have hnn := (List.nodup_cons.1 hnd).1
        rw [L.walkDirs_cons hs1 hsub1 (by rw [hdn]; simp)]
        obtain ⟨s2, h1, h2, h3⟩ := ih (q ++ [n]) hs1 (hsub1.below [n]) hdn (by
          intro x hx
          have := hh1 (n :: x) (by simpa using hx)
          simp at this; omega)
        have hle : ∀ p, L.V s2 k p = none ∨ L.V s2 k p = L.V s1 k p := by
          intro p
          rw [h3]
          by_cases hp : q ++ [n] <+: p ∧ p ≠ q ++ [n]
          · exact .inl (wipe_in hp)
          · exact .inr (wipe_out hp)
        obtain ⟨s3, j1, j2, j3⟩ := ihl h2 (List.nodup_cons.1 hnd).2
          ⟨fun x hx => hsub1.nm x (by rcases hle (q ++ x) with h | h
                                      · exact absurd h hx
                                      · rwa [← h]),
           fun x => by rcases hle (q ++ x) with h | h
                       · rw [h]; simp
                       · rw [h]; exact hsub1.noLink x⟩
          (by
            intro m hm
            rw [h3, wipe_out]
            · exact hl m (by simp [hm])
            · rintro ⟨a, -⟩
              have := prefix_snoc_inj a (List.prefix_refl (q ++ [m]))
              subst this; exact hnn hm)
          (by
            intro x hx
            rcases hle (q ++ x) with h | h
            · rw [h] at hx; simp at hx
            · exact hh1 x (by rw [← h]; exact hx))
        refine ⟨s3, ?_, j2, ?_⟩
        · rw [bind_ok h1, j1]
        · rw [j3, h3, wipe_wipe]
          exact wipe_congr fun p => by simp
    have hndD : (L.dirNames s k q).Nodup := (L.names_nodup hs).filter _
    have hndF : (L.fileNames s k q).Nodup := (L.names_nodup hs).filter _
    have hmd : ∀ n ∈ L.dirNames s k q, L.V s k (q ++ [n]) = some .dir := fun n hn => (L.mem_dirNames hs).1 hn
    obtain ⟨s1, a1, a2, a3⟩ := loop (L.dirNames s k q) hs hndD hsub hmd hh
    have keep1 : ∀ n, L.V s1 k (q ++ [n]) = L.V s k (q ++ [n]) := by
      intro n
      rw [a3, wipe_out]
      rintro ⟨m, hm, b, c⟩
      have := prefix_snoc_inj b (List.prefix_refl (q ++ [n]))
      subst this; exact c rfl
    obtain ⟨s2, b1, b2, b3⟩ := L.removeFiles (q := q) (k := k) (L.fileNames s k q) a2 hndF (by
      intro n hn
      obtain ⟨d, hd'⟩ := (L.mem_fileNames hs hsub).1 hn
      exact ⟨hsub.nm [n] (by rw [hd']; simp), d, by rw [keep1, hd']⟩)
    obtain ⟨s3, c1, c2, c3⟩ := L.removeDirs (q := q) (k := k) (L.dirNames s k q) b2 hndD (by
      intro n hn
      have hv := hmd n hn
      refine ⟨hsub.nm [n] (by rw [hv]; simp), ?_, fun m => ?_⟩
      · rw [b3, wipe_out, keep1, hv]
        rintro ⟨m, hm, h⟩
        obtain ⟨d, hd'⟩ := (L.mem_fileNames hs hsub).1 hm
        rw [← h, hv] at hd'; simp at hd'
      · rw [b3]
        by_cases hx : ∃ n' ∈ L.fileNames s k q, q ++ [n] ++ [m] = q ++ [n']
        · rw [wipe_in hx]
        · rw [wipe_out hx, a3, wipe_in]
          exact ⟨n, hn, List.prefix_append _ _, by simp⟩)
    refine ⟨s3, ?_, c2, ?_⟩
    · rw [L.walk_dir hs hsub hd, if_neg Bool.false_ne_true, bind_ok a1]
      have : L.remover k () (L.at_ k q) (L.dirNames s k q) (L.fileNames s k q) s1 = (.ok ((), L.dirNames s k q), s3) := by
        unfold remover removeBody
        rw [bind_ok (a := ()) (s' := s3) (by rw [bind_ok b1]; exact c1)]
        rfl
      rw [bind_ok this]
      rfl
    · rw [c3, b3, a3, wipe_wipe, wipe_wipe]
      apply wipe_ext
      intro p hp
      constructor
      · rintro (⟨n, hn, x, y⟩ | ⟨n, hn, rfl⟩ | ⟨n, hn, rfl⟩)
        · refine ⟨(List.prefix_append _ _).trans x, ?_⟩
          rintro rfl
          have := x.length_le
          simp only [List.length_append, List.length_singleton] at this
          omega
        · exact ⟨List.prefix_append _ _, by simp⟩
        · exact ⟨List.prefix_append _ _, by simp⟩
      · rintro ⟨⟨x, rfl⟩, hne⟩
        cases x with
        | nil => simp at hne
        | cons n x =>
          by_cases hx : x = []
          · subst hx
            cases hv : L.V s k (q ++ [n]) with
            | none => exact absurd hv hp
            | some o =>
              cases o with
              | dir => exact .inr (.inr ⟨n, (L.mem_dirNames hs).2 hv, rfl⟩)
              | file d => exact .inr (.inl ⟨n, (L.mem_fileNames hs hsub).2 ⟨d, hv⟩, rfl⟩)
              | other => exact absurd hv (hsub.noLink [n])
          · refine .inl ⟨n, (L.mem_dirNames hs).2 ?_, ⟨x, by simp⟩, by simp [hx]⟩
            exact L.above hs hp _ ⟨x, by simp⟩ (by simp [hx])

/-- a whole tree is removed, and nothing else -/
theorem uRemove_tree {depth : Nat} (hs : I s) (hsub : Sub (L.V s k) q) (hq : q ≠ []) (hd : L.V s k q = some .dir)
    (hh : ∀ x, L.V s k (q ++ x) = some .dir → x.length < depth) :
    ∃ s', uRemove O depth (L.at_ k q) true s = (.ok (), s') ∧ I s' ∧ L.V s' = wipe (L.V s) k (fun p => q <+: p) := by
  have hn : Nm q := hsub.nm0 (by rw [hd]; simp)
  have hc := L.clear_dir hs hd
  obtain ⟨s1, a1, a2, a3⟩ := L.remove_walk depth q hs hsub hd hh
  have hd1 : L.V s1 k q = some .dir := by rw [a3, wipe_out (by simp), hd]
  obtain ⟨s2, b1, b2, b3⟩ := L.removedir a2 hn hq hd1 (fun n => by
    rw [a3, wipe_in]; exact ⟨List.prefix_append _ _, by simp⟩)
  refine ⟨s2, ?_, b2, ?_⟩
  · unfold Any.uRemove
    rw [L.withConn hs hn, bind_ok (L.islink hs hn hc (by rw [hd]; simp)), if_neg Bool.false_ne_true,
      bind_ok (L.exists_ hs hn hc), hd]
    show ((do if ← O.isdir (L.C k) (L.at_ k q) then _ else _ : OM σ Unit)) s = _
    rw [bind_ok (L.isdir hs hn hc), hd]
    show removeDirRec O depth (L.C k) (L.at_ k q) s = _
    unfold removeDirRec
    have a1' : walk O (L.C k) false false (fun (_ : Unit) top dirs files => do
        removeBody O (L.C k) top dirs files
        pure ((), dirs)) depth (L.at_ k q) () s = (.ok (), s1) := a1
    rw [bind_ok a1', bind_ok (L.islink a2 hn (L.clear_dir a2 hd1) (by rw [hd1]; simp)), if_neg Bool.false_ne_true]
    exact b1
  · rw [b3, a3, upd_none, wipe_wipe]
    apply wipe_congr
    intro p
    constructor
    · rintro (h | rfl)
      · exact h.1
      · exact List.prefix_refl _
    · intro h
      by_cases hp : p = q
      · exact .inr hp
      · exact .inl ⟨h, hp⟩

/-- a file is removed, and nothing else -/
theorem uRemove_file {depth : Nat} {rec : Bool} {d : Bytes} (hs : I s) (hn : Nm q) (hd : L.V s k q = some (.file d)) :
    ∃ s', uRemove O depth (L.at_ k q) rec s = (.ok (), s') ∧ I s' ∧ L.V s' = upd (L.V s) k q none := by
  have hc : Clear (L.V s k) q := L.clear_of hs (by rw [hd]; simp) (by rw [hd]; simp)
  obtain ⟨s2, b1, b2, b3⟩ := L.removefile hs hn hd
  refine ⟨s2, ?_, b2, b3⟩
  unfold Any.uRemove
  rw [L.withConn hs hn, bind_ok (L.islink hs hn hc (by rw [hd]; simp)), if_neg Bool.false_ne_true,
    bind_ok (L.exists_ hs hn hc), hd]
  show ((do if ← O.isdir (L.C k) (L.at_ k q) then _ else _ : OM σ Unit)) s = _
  rw [bind_ok (L.isdir hs hn hc), hd]
  show ((do if ← O.isfile (L.C k) (L.at_ k q) then _ else _ : OM σ Unit)) s = _
  rw [bind_ok (L.isfile hs hn hc), hd]
  exact b1

end Laws
end Verif.Any
