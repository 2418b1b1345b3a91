import Verif.Gen.DirLemmas
/-! # The walk over a physical directory -/
namespace Verif.Gen
open Verif.Spec Verif.Mem Verif.Mem.M

/-- the sorted names in the directory at `p` -/
def names (w : World) (r : Nat) (p : List Str) : List Str :=
  match phys w r p with
  | some i => match w.node i with
    | .dir d => sortStr d.keys
    | _ => []
  | none => []

theorem names_eq {w : World} {r i : Nat} {p : List Str} {d : DirObj} (h : phys w r p = some i) (hd : w.node i = .dir d) :
    names w r p = sortStr d.keys := by
  unfold names; simp only [h, hd]

theorem mem_names {w : World} {r : Nat} {p : List Str} {n : Str} : n ∈ names w r p ↔ view w r (p ++ [n]) ≠ none := by
  unfold names
  cases h : phys w r p with
  | none =>
    have : view w r (p ++ [n]) = none := by unfold view; rw [phys_append, h]; rfl
    simp [this]
  | some i =>
    have e : view w r (p ++ [n]) = (phys w i [n]).map fun i => objOf (w.node i) := by
      unfold view; rw [phys_append, h]; rfl
    rw [e]
    cases hd : w.node i with
    | dir d =>
      simp only [mem_sortStr, phys, hd]
      rw [DirObj.keys, List.mem_map]
      cases hl : d.files.lookup n with
      | none =>
        simp only [Option.map_none, ne_eq, not_true_eq_false, iff_false]
        rintro ⟨⟨a, b⟩, h1, h2⟩
        subst h2
        exact absurd (List.lookup_eq_none_iff.1 hl _ h1) (by simp)
      | some c =>
        simp only [Option.map_some, ne_eq, reduceCtorEq, not_false_eq_true, iff_true]
        obtain ⟨l1, l2, h1, h2⟩ := List.lookup_eq_some_iff.1 hl
        exact ⟨(n, c), by rw [h1]; simp, rfl⟩
    | file f => simp [phys, hd]
    | link l => simp [phys, hd]

theorem names_sorted {w : World} (hw : Inv w) {r : Nat} {p : List Str} : (names w r p).Pairwise strLt := by
  unfold names
  cases h : phys w r p with
  | none => exact .nil
  | some i =>
    cases hd : w.node i with
    | dir d => simpa only [hd] using pairwise_sortStr (keys_nodup hw hd)
    | file f => simp only [hd]; exact .nil
    | link l => simp only [hd]; exact .nil

theorem names_nodup {w : World} (hw : Inv w) {r : Nat} {p : List Str} : (names w r p).Nodup := by
  unfold names
  cases h : phys w r p with
  | none => exact .nil
  | some i =>
    cases hd : w.node i with
    | dir d => simpa only [hd] using nodup_sortStr (keys_nodup hw hd)
    | file f => simp only [hd]; exact .nil
    | link l => simp only [hd]; exact .nil

/-! ## Physical directories -/

theorem isDir_prefix {w : World} {r : Nat} {a b : List Str} (h : (view w r).isDir (a ++ b)) : (view w r).isDir a := by
  cases b with
  | nil => simpa using h
  | cons n b => obtain ⟨m, t, h⟩ := h; exact (view_below h).1

theorem plain_of_view {w : World} {r : Nat} {cs : List Str} {o : Obj} (h : view w r cs = some o) : Plain (view w r) cs := by
  rintro q n s rfl; exact (view_below h).1

theorem plain_snoc {w : World} {r : Nat} {q : List Str} (h : (view w r).isDir q) (n : Str) : Plain (view w r) (q ++ [n]) := by
  intro a m b hab
  have : a <+: q := by
    rcases List.eq_nil_or_concat b with rfl | ⟨b', x, rfl⟩
    · rw [(List.append_inj' hab rfl).1]; exact List.prefix_refl _
    · rw [List.concat_eq_append] at hab
      have : q ++ [n] = (a ++ m :: b') ++ [x] := by simpa using hab
      exact ⟨m :: b', (List.append_inj' this rfl).1.symm⟩
  obtain ⟨s, rfl⟩ := this
  exact isDir_prefix h

theorem isDir_goes {w : World} {r : Nat} {q : List Str} (h : (view w r).isDir q) :
    Goes (view w r) maxDepth [] q (.found q) := by
  obtain ⟨m, t, h'⟩ := h
  exact Plain.goes (plain_of_view h') h' rfl

/-- every name at or below `q` can be written in a URI -/
def Writable (ns : NS) (q : List Str) : Prop := ∀ s, ns (q ++ s) ≠ none → Ok (q ++ s)

/-- asking `isdir` about a link below `q` does not raise (it does for links leading below a file) -/
def Answers (ns : NS) (q : List Str) : Prop := ∀ s, ns.isLink (q ++ s) → ∃ b, dirAns ns (q ++ s) = .ok b

theorem Writable.below {ns : NS} {q : List Str} (h : Writable ns q) (s : List Str) : Writable ns (q ++ s) := by
  intro t ht; rw [List.append_assoc] at *; exact h _ ht

theorem Answers.below {ns : NS} {q : List Str} (h : Answers ns q) (s : List Str) : Answers ns (q ++ s) := by
  intro t ht; rw [List.append_assoc] at *; exact h _ ht

/-- whether `isdir` says yes -/
def isD (ns : NS) (p : List Str) : Bool :=
  match dirAns ns p with
  | .ok b => b
  | .error _ => false

theorem isD_of_dir {w : World} {r : Nat} {p : List Str} (h : (view w r).isDir p) : isD (view w r) p = true := by
  unfold isD; rw [dirAns_dir (isDir_goes h) h]

theorem isD_file {w : World} {r : Nat} {p : List Str} (h : (view w r).isFile p) :
    dirAns (view w r) p = .ok false := by
  obtain ⟨b, m, t, h⟩ := h
  apply dirAns_notDir (Plain.goes (plain_of_view h) h rfl)
  rintro ⟨m', t', h'⟩; rw [h] at h'; simp at h'

theorem dirAns_isD {w : World} {r : Nat} {q : List Str} {n : Str} (ha : Answers (view w r) q)
    (h : view w r (q ++ [n]) ≠ none) : dirAns (view w r) (q ++ [n]) = .ok (isD (view w r) (q ++ [n])) := by
  have : ∃ b, dirAns (view w r) (q ++ [n]) = .ok b := by
    cases hv : view w r (q ++ [n]) with
    | none => exact absurd hv h
    | some o =>
      cases o with
      | file b m t => exact ⟨_, isD_file ⟨b, m, t, hv⟩⟩
      | dir m t => have hd : (view w r).isDir (q ++ [n]) := ⟨m, t, hv⟩; exact ⟨_, dirAns_dir (isDir_goes hd) hd⟩
      | link u m t => exact ha [n] ⟨u, m, t, hv⟩
  obtain ⟨b, hb⟩ := this
  unfold isD; rw [hb]

/-- what `isdir` says about something that is not a link -/
theorem isD_iff {w : World} {r : Nat} {p : List Str} (hl : ¬ (view w r).isLink p) (h : view w r p ≠ none) :
    isD (view w r) p = true ↔ (view w r).isDir p := by
  refine ⟨fun hd => ?_, isD_of_dir⟩
  cases hv : view w r p with
  | none => exact absurd hv h
  | some o =>
    cases o with
    | file b m t => unfold isD at hd; rw [isD_file ⟨b, m, t, hv⟩] at hd; simp at hd
    | dir m t => exact ⟨m, t, hv⟩
    | link u m t => exact absurd ⟨u, m, t, hv⟩ hl

section
variable {w : World} {E : Dict} {r : Nat} (hw : Inv w) (hf : Fs w E r)
include hw hf

theorem classify_eq {q : List Str} (hok : Ok q) : ∀ l : List Str,
    (∀ n ∈ l, Ok (q ++ [n]) ∧ dirAns (view w r) (q ++ [n]) = .ok (isD (view w r) (q ++ [n]))) →
    classify r (mem E q) l w = (.ok (l.filter (fun n => isD (view w r) (q ++ [n])),
      l.filter (fun n => !isD (view w r) (q ++ [n]))), w) := by
  intro l
  induction l with
  | nil => intro _; rfl
  | cons n l ih =>
    intro h
    obtain ⟨h1, h2⟩ := h n (by simp)
    unfold classify
    rw [bind_lift (mem_div hok.clean (h1.clean n (by simp)) E),
      bind_query (by rw [isdir_ans hw hf.isRoot (stepsOf_mem h1 E), h2]),
      bind_ok (ih fun x hx => h x (by simp [hx]))]
    cases hb : isD (view w r) (q ++ [n]) <;> simp [hb]

theorem listdir_names {q : List Str} (hok : Ok q) (hd : (view w r).isDir q) :
    listdir w r (mem E q) = .ok (names w r q) := by
  obtain ⟨i, d, hi, hid⟩ := isDir_view hd
  rw [names_eq hi hid]
  exact listdir_found hw hf.isRoot (stepsOf_mem hok E) (by rw [filter_clean hok.nil_not_mem]; exact isDir_goes hd) hi hid

/-- the names of a directory about which `isdir` says yes / no -/
def dirNames (w : World) (r : Nat) (q : List Str) : List Str := (names w r q).filter fun n => isD (view w r) (q ++ [n])
/-- the names of a directory about which `isdir` says no -/
def fileNames (w : World) (r : Nat) (q : List Str) : List Str := (names w r q).filter fun n => !isD (view w r) (q ++ [n])

/-- one level of the walk -/
theorem walk_dir {σ : Type} {q : List Str} (hok : Writable (view w r) q) (ha : Answers (view w r) q)
    (hd : (view w r).isDir q) (td fl : Bool) (body : σ → Uri → List Str → List Str → M (σ × List Str)) (depth : Nat)
    (s : σ) :
    walk r td fl body (depth + 1) (mem E q) s w =
      (if td then (do
        let (s, dirs) ← body s (mem E q) (dirNames w r q) (fileNames w r q)
        walkDirs fl (walk r td fl body depth) (mem E q) dirs s)
      else (do
        let s ← walkDirs fl (walk r td fl body depth) (mem E q) (dirNames w r q) s
        let (s, _) ← body s (mem E q) (dirNames w r q) (fileNames w r q)
        pure s) : M σ) w := by
  have hq : Ok q := by
    have := hok [] (by obtain ⟨m, t, h⟩ := hd; simp [h])
    simpa using this
  conv => lhs; unfold walk
  rw [bind_query (listdir_names hw hf hq hd), sortStr_of_pairwise (names_sorted hw)]
  rw [bind_ok (classify_eq hw hf hq _ ?_)]
  · rfl
  · intro n hn
    have := mem_names.1 hn
    exact ⟨hok [n] this, dirAns_isD ha this⟩

theorem islink_at {q : List Str} {n : Str} (hok : Ok (q ++ [n])) (hd : (view w r).isDir q) :
    islink w r (mem E (q ++ [n])) = .ok ((view w r (q ++ [n])).any Obj.isLink) :=
  islink_nofollow hw hf.isRoot (stepsOf_mem hok E) (isDir_goes hd) hd (.inr (plain_snoc hd n))

theorem uIslink_at {q : List Str} {n : Str} (hok : Ok (q ++ [n])) (hd : (view w r).isDir q) :
    uIslink (mem E (q ++ [n])) w = (.ok ((view w r (q ++ [n])).any Obj.isLink), w) :=
  uIslink_nofollow hw (hf.serves _) (stepsOf_mem hok E) (isDir_goes hd) hd (.inr (plain_snoc hd n))

theorem walkDirs_cons {σ : Type} {q : List Str} {n : Str} (hq : Ok q) (hok : Ok (q ++ [n])) (hd : (view w r).isDir q) (fl : Bool)
    (visit : Uri → σ → M σ) (l : List Str) (s : σ) :
    walkDirs fl visit (mem E q) (n :: l) s w =
      (do
        let s ← if !((view w r (q ++ [n])).any Obj.isLink) || fl then visit (mem E (q ++ [n])) s else pure s
        walkDirs fl visit (mem E q) l s : M σ) w := by
  conv => lhs; unfold walkDirs
  rw [bind_lift (mem_div hq.clean (hok.clean n (by simp)) E), bind_ok (uIslink_at hw hf hok hd)]
end

/-! ## Collecting what the walk yields -/

/-- what the walk yields for a directory -/
def row (E : Dict) (w : World) (r : Nat) (p : List Str) : Uri × List Str × List Str :=
  (mem E p, dirNames w r p, fileNames w r p)

/-- The order of the walk: a directory comes before (bottom-up: after) those below it, those beside each other come in the
    order of their names, each with all below it. -/
def Order (td : Bool) : List Str → List Str → Prop
  | [], [] => False
  | [], _ :: _ => td = true
  | _ :: _, [] => td = false
  | a :: x, b :: y => strLt a b ∨ (a = b ∧ Order td x y)

theorem order_append {td : Bool} {a b : List Str} : ∀ (q : List Str), Order td a b → Order td (q ++ a) (q ++ b)
  | [], h => h
  | _ :: q, h => .inr ⟨rfl, order_append q h⟩

theorem order_down {q p : List Str} {n : Str} (h : q ++ [n] <+: p) : Order true q p := by
  obtain ⟨t, rfl⟩ := h
  rw [List.append_assoc]
  have := order_append (td := true) (a := []) (b := [n] ++ t) q rfl
  rwa [List.append_nil] at this

theorem order_up {q p : List Str} {n : Str} (h : q ++ [n] <+: p) : Order false p q := by
  obtain ⟨t, rfl⟩ := h
  rw [List.append_assoc]
  have := order_append (td := false) (a := [n] ++ t) (b := []) q rfl
  rwa [List.append_nil] at this

theorem order_beside {td : Bool} {q a b : List Str} {n m : Str} (h : strLt n m) (ha : q ++ [n] <+: a) (hb : q ++ [m] <+: b) : Order td a b := by
  obtain ⟨x, rfl⟩ := ha
  obtain ⟨y, rfl⟩ := hb
  rw [List.append_assoc, List.append_assoc]
  exact order_append q (.inl h)

theorem Order.irrefl {td : Bool} : ∀ {a : List Str}, ¬ Order td a a
  | [], h => h
  | _ :: _, .inl h => h.2 rfl
  | _ :: _, .inr h => Order.irrefl h.2

/-- nobody comes after somebody below it -/
theorem Order.down : ∀ {a b : List Str}, Order true a b → ¬ b <+: a
  | [], [], h, _ => h
  | [], _ :: _, _, c => by simp at c
  | _ :: _, [], h, _ => by simp [Order] at h
  | _ :: _, _ :: _, .inl h, c => h.2 (List.cons_prefix_cons.1 c).1.symm
  | _ :: _, _ :: _, .inr h, c => Order.down h.2 (List.cons_prefix_cons.1 c).2

/-- nobody comes before somebody above it -/
theorem Order.up : ∀ {a b : List Str}, Order false a b → ¬ a <+: b
  | [], [], h, _ => h
  | [], _ :: _, h, _ => by simp [Order] at h
  | _ :: _, [], _, c => by simp at c
  | _ :: _, _ :: _, .inl h, c => h.2 (List.cons_prefix_cons.1 c).1
  | _ :: _, _ :: _, .inr h, c => Order.up h.2 (List.cons_prefix_cons.1 c).2

theorem prefix_snoc_inj {q p : List Str} {a b : Str} (h1 : q ++ [a] <+: p) (h2 : q ++ [b] <+: p) : a = b := by
  obtain ⟨s, rfl⟩ := h1
  obtain ⟨t, ht⟩ := h2
  simp at ht
  exact ht.1.symm

section
variable {w : World} {E : Dict} {r : Nat} (hw : Inv w) (hf : Fs w E r)
include hw hf

/-- the consumer that just collects -/
def collect (s : List (Uri × List Str × List Str)) (top : Uri) (dirs files : List Str) :
    M (List (Uri × List Str × List Str) × List Str) := pure (s ++ [(top, dirs, files)], dirs)

theorem walk_collect (td fl : Bool) (depth : Nat) : ∀ (q : List Str) (s : List (Uri × List Str × List Str)),
    Writable (view w r) q → Answers (view w r) q → (view w r).isDir q →
    (∀ t, (view w r).isDir (q ++ t) → t.length < depth) →
    (fl = true → ∀ t, ¬ (view w r).isLink (q ++ t)) →
    ∃ ps : List (List Str), walk r td fl collect depth (mem E q) s w = (.ok (s ++ ps.map (row E w r)), w) ∧
      (∀ p, p ∈ ps ↔ q <+: p ∧ (view w r).isDir p) ∧ ps.Pairwise (Order td) := by
  induction depth with
  | zero =>
    intro q s _ _ hd hh _
    exact absurd (hh [] (by simpa using hd)) (by simp)
  | succ depth ih =>
    intro q s hok ha hd hh hfl
    have hq : Ok q := by
      have := hok [] (by obtain ⟨m, t, h⟩ := hd; simp [h])
      simpa using this
    have loop : ∀ (l : List Str) (s : List (Uri × List Str × List Str)), l.Pairwise strLt → (∀ n ∈ l, n ∈ dirNames w r q) →
        ∃ ps : List (List Str), walkDirs fl (walk r td fl collect depth) (mem E q) l s w = (.ok (s ++ ps.map (row E w r)), w) ∧
          (∀ p, p ∈ ps ↔ (∃ n ∈ l, q ++ [n] <+: p) ∧ (view w r).isDir p) ∧ ps.Pairwise (Order td) := by
      intro l
      induction l with
      | nil => intro s _ _; exact ⟨[], by simp [walkDirs], by simp, .nil⟩
      | cons n l ihl =>
        intro s hnd hl
        have hn := List.mem_filter.1 (hl n (by simp))
        have hex := mem_names.1 hn.1
        rw [walkDirs_cons hw hf hq (hok [n] hex) hd]
        cases hlink : (view w r (q ++ [n])).any Obj.isLink with
        | true =>
          have hlk := any_isLink.1 hlink
          have hflf : fl = false := by
            cases fl with
            | false => rfl
            | true => exact absurd hlk (hfl rfl [n])
          obtain ⟨ps, h1, h2, h3⟩ := ihl s (List.pairwise_cons.1 hnd).2 (fun x hx => hl x (by simp [hx]))
          refine ⟨ps, ?_, ?_, h3⟩
          · rw [hflf] at h1 ⊢
            simp only [Bool.not_true, Bool.or_self, Bool.false_eq_true, if_false]
            exact h1
          · intro p
            rw [h2]
            constructor
            · rintro ⟨⟨m, hm, hp⟩, h⟩; exact ⟨⟨m, by simp [hm], hp⟩, h⟩
            · rintro ⟨⟨m, hm, hp⟩, h⟩
              rcases List.mem_cons.1 hm with rfl | hm
              · exfalso
                obtain ⟨t, rfl⟩ := hp
                obtain ⟨x, y, h4⟩ := isDir_prefix h
                obtain ⟨u, x', y', h5⟩ := hlk
                rw [h4] at h5; simp at h5
              · exact ⟨⟨m, hm, hp⟩, h⟩
        | false =>
          have hnl : ¬ (view w r).isLink (q ++ [n]) := fun h => by rw [any_isLink.2 h] at hlink; simp at hlink
          have hdn : (view w r).isDir (q ++ [n]) := (isD_iff hnl hex).1 hn.2
          obtain ⟨ps1, h1, h2, h3⟩ := ih (q ++ [n]) s (hok.below [n]) (ha.below [n]) hdn (by
            intro t ht
            have := hh (n :: t) (by simpa using ht)
            simp at this; omega) (fun h t => by have := hfl h (n :: t); simpa using this)
          obtain ⟨ps2, k1, k2, k3⟩ := ihl (s ++ ps1.map (row E w r)) (List.pairwise_cons.1 hnd).2
            (fun x hx => hl x (by simp [hx]))
          refine ⟨ps1 ++ ps2, ?_, ?_, ?_⟩
          · simp only [Bool.not_false, Bool.true_or, if_true]
            rw [bind_ok h1, k1]
            simp
          · intro p
            rw [List.mem_append, h2, k2]
            constructor
            · rintro (⟨a, b⟩ | ⟨⟨m, hm, a⟩, b⟩)
              · exact ⟨⟨n, by simp, a⟩, b⟩
              · exact ⟨⟨m, by simp [hm], a⟩, b⟩
            · rintro ⟨⟨m, hm, a⟩, b⟩
              rcases List.mem_cons.1 hm with rfl | hm
              · exact .inl ⟨a, b⟩
              · exact .inr ⟨⟨m, hm, a⟩, b⟩
          · refine List.pairwise_append.2 ⟨h3, k3, ?_⟩
            intro a ha' b hb'
            obtain ⟨ha1, -⟩ := (h2 a).1 ha'
            obtain ⟨⟨m, hm, hb1⟩, -⟩ := (k2 b).1 hb'
            exact order_beside ((List.pairwise_cons.1 hnd).1 m hm) ha1 hb1
    have hnd : (dirNames w r q).Pairwise strLt := (names_sorted hw).filter _
    have cover : ∀ p, q <+: p → (view w r).isDir p → p ≠ q → ∃ n ∈ dirNames w r q, q ++ [n] <+: p := by
      intro p hp hpd hne
      obtain ⟨t, rfl⟩ := hp
      cases t with
      | nil => simp at hne
      | cons n t =>
        have hdn : (view w r).isDir (q ++ [n]) := isDir_prefix (b := t) (by simpa using hpd)
        refine ⟨n, List.mem_filter.2 ⟨mem_names.2 ?_, isD_of_dir hdn⟩, ⟨t, by simp⟩⟩
        obtain ⟨m, x, h⟩ := hdn; rw [h]; simp
    rw [walk_dir hw hf hok ha hd]
    cases td with
    | true =>
      obtain ⟨ps, h1, h2, h3⟩ := loop (dirNames w r q) (s ++ [row E w r q]) hnd (fun _ h => h)
      refine ⟨q :: ps, ?_, ?_, ?_⟩
      · simp only [if_true]
        rw [show collect s (mem E q) (dirNames w r q) (fileNames w r q) = pure (s ++ [row E w r q], dirNames w r q) from rfl,
          bind_ok (pure_apply _ _)]
        simp only [h1]
        simp
      · intro p
        rw [List.mem_cons, h2]
        constructor
        · rintro (rfl | ⟨⟨n, -, h⟩, h'⟩)
          · exact ⟨List.prefix_refl _, hd⟩
          · exact ⟨(List.prefix_append _ _).trans h, h'⟩
        · rintro ⟨a, b⟩
          by_cases hpq : p = q
          · exact .inl hpq
          · exact .inr ⟨cover p a b hpq, b⟩
      · refine List.pairwise_cons.2 ⟨?_, h3⟩
        intro b hb
        obtain ⟨⟨n, -, h⟩, -⟩ := (h2 b).1 hb
        exact order_down h
    | false =>
      obtain ⟨ps, h1, h2, h3⟩ := loop (dirNames w r q) s hnd (fun _ h => h)
      refine ⟨ps ++ [q], ?_, ?_, ?_⟩
      · simp only [Bool.false_eq_true, if_false]
        rw [bind_ok h1]
        simp [collect, row, bind_apply]
      · intro p
        rw [List.mem_append, List.mem_singleton, h2]
        constructor
        · rintro (⟨⟨n, -, h⟩, h'⟩ | rfl)
          · exact ⟨(List.prefix_append _ _).trans h, h'⟩
          · exact ⟨List.prefix_refl _, hd⟩
        · rintro ⟨a, b⟩
          by_cases hpq : p = q
          · exact .inr hpq
          · exact .inl ⟨cover p a b hpq, b⟩
      · refine List.pairwise_append.2 ⟨h3, by simp, ?_⟩
        intro a ha' b hb
        rw [List.mem_singleton] at hb
        subst hb
        obtain ⟨⟨n, -, h⟩, -⟩ := (h2 a).1 ha'
        exact order_up h
end
end Verif.Gen
