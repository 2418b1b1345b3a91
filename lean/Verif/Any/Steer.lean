import Verif.Any.Walk
/-!
# Loops over a walk

`for root, dirs, files in u.walk(...): body` with a body that does other things between the rows and that changes the list
`dirs` in place.
-/
namespace Verif.Any
open Mem (Meth)
open Verif.Spec Verif.Gen
open scoped List

/-- fs.py:738-750 with fs.py:998-1017: the loop `for root, dirs, files in u.walk(topdown, followlinks): body`.  `walk` is a
generator: the body runs between its steps, and finds and leaves its variables `t`, the state, and the list `dirs`.  A body that
raises, or that leaves the loop, ends it (there is nothing in `walk` that would catch it). -/
def uVisit {σ τ : Type} (O : Ops σ) (depth : Nat) (u : Uri) (topdown followlinks : Bool)
    (body : τ → Uri → List Str → List Str → OM σ (τ × List Str)) (t : τ) : OM σ τ :=
  withConn O u .walk fun c => walk O c topdown followlinks body depth u t

/-- the body of a loop runs for one row after the other.  The list has the place of each row and what the body leaves in `dirs`. -/
inductive Went {σ τ : Type} (body : τ → Uri → List Str → List Str → OM σ (τ × List Str))
    (row : σ → List Str → Uri × List Str × List Str) (Pre : σ → List Str → Prop) :
    List (List Str × List Str) → τ → σ → Except PyErr τ → σ → Prop
  | done {t s} : Went body row Pre [] t s (.ok t) s
  | next {t s p t1 ds s1 vs o s2} : Pre s p → body t (row s p).1 (row s p).2.1 (row s p).2.2 s = (.ok (t1, ds), s1) →
      Went body row Pre vs t1 s1 o s2 → Went body row Pre ((p, ds) :: vs) t s o s2
  | raises {t s p e s1} : Pre s p → body t (row s p).1 (row s p).2.1 (row s p).2.2 s = (.error e, s1) →
      Went body row Pre [(p, [])] t s (.error e) s1

theorem Went.append {σ τ : Type} {body : τ → Uri → List Str → List Str → OM σ (τ × List Str)}
    {row : σ → List Str → Uri × List Str × List Str} {Pre : σ → List Str → Prop} {vs ws : List (List Str × List Str)} {t : τ}
    {s : σ} {o1 : Except PyErr τ} {s1 : σ} (h : Went body row Pre vs t s o1 s1) : ∀ {t1 : τ} {o : Except PyErr τ} {s2 : σ},
    o1 = .ok t1 → Went body row Pre ws t1 s1 o s2 → Went body row Pre (vs ++ ws) t s o s2 := by
  induction h with
  | done => intro t1 o s2 e k; cases e; exact k
  | next h0 h1 _ ih => intro t1 o s2 e k; exact .next h0 h1 (ih e k)
  | raises _ _ => intro t1 o s2 e _; cases e

theorem Went.mono {σ τ : Type} {body : τ → Uri → List Str → List Str → OM σ (τ × List Str)}
    {row : σ → List Str → Uri × List Str × List Str} {Pre Pre' : σ → List Str → Prop} (hp : ∀ s p, Pre s p → Pre' s p)
    {vs : List (List Str × List Str)} {t : τ} {s : σ} {o : Except PyErr τ} {s1 : σ} (h : Went body row Pre vs t s o s1) :
    Went body row Pre' vs t s o s1 := by
  induction h with
  | done => exact .done
  | next h0 h1 _ ih => exact .next (hp _ _ h0) h1 ih
  | raises h0 h1 => exact .raises (hp _ _ h0) h1

/-- `a` comes before `b` in a walk from the top down: it is above `b`, or a row names the directories of both one after the other -/
def Before (vs : List (List Str × List Str)) (a b : List Str) : Prop :=
  (a <+: b ∧ a ≠ b) ∨ ∃ v ∈ vs, ∃ n m, [n, m] <+ v.2 ∧ v.1 ++ [n] <+: a ∧ v.1 ++ [m] <+: b

theorem Before.mono {vs ws : List (List Str × List Str)} (h : ∀ v ∈ vs, ∃ w ∈ ws, w.1 = v.1 ∧ v.2 <+ w.2) {a b : List Str}
    (hb : Before vs a b) : Before ws a b := by
  rcases hb with hb | ⟨v, hv, n, m, h1, h2, h3⟩
  · exact .inl hb
  · obtain ⟨w, hw, e, hs⟩ := h v hv
    exact .inr ⟨w, hw, n, m, h1.trans hs, by rw [e]; exact h2, by rw [e]; exact h3⟩

/-- the rows of a walk from the top down at `q`: `q`, and the directories that the rows name; and which are missing when the body
raised: those named after one in which it did -/
structure Down (q : List Str) (vs : List (List Str × List Str)) (ok : Bool) : Prop where
  from_ : ∀ v ∈ vs, v.1 = q ∨ ∃ w ∈ vs, ∃ n ∈ w.2, v.1 = w.1 ++ [n]
  order : (vs.map (·.1)).Pairwise (Before vs)
  all : ∀ v ∈ vs, ∀ n ∈ v.2, v.1 ++ [n] ∈ vs.map (·.1) ∨
    ok = false ∧ ∃ m z, [m, n] <+ v.2 ∧ vs.getLast? = some z ∧ v.1 ++ [m] <+: z.1
  top : q ∈ vs.map (·.1)

theorem Down.below {q : List Str} {vs : List (List Str × List Str)} {ok : Bool} (h : Down q vs ok) : ∀ v ∈ vs, q <+: v.1 := by
  have : ∀ k, ∀ v ∈ vs, v.1.length ≤ k → q <+: v.1 := by
    intro k
    induction k with
    | zero =>
      intro v hv hk
      rcases h.from_ v hv with e | ⟨w, _, n, _, e⟩
      · rw [e]; exact List.prefix_refl _
      · rw [e] at hk; simp at hk
    | succ k ih =>
      intro v hv hk
      rcases h.from_ v hv with e | ⟨w, hw, n, _, e⟩
      · rw [e]; exact List.prefix_refl _
      · have := ih w hw (by rw [e] at hk; simp at hk; omega)
        rw [e]; exact this.trans (List.prefix_append _ _)
  intro v hv
  exact this _ v hv le_rfl

namespace Laws
variable {σ : Type} {O : Ops σ} {κ : Type} {I : σ → Prop} {may : κ → κ → Prop} (L : Laws O κ I may)
variable {k : κ}

/-- a tree at `q` that can be walked: no links, names that can be written, and less than `H` levels -/
structure Fit (k : κ) (q : List Str) (H : Nat) (s : σ) : Prop where
  inv : I s
  sub : Sub (L.V s k) q
  deep : ∀ x, L.V s k (q ++ x) = some .dir → x.length < H

/-- what the body of a loop from the top down must not do: at the row of `p` it leaves a tree that can be walked, in `dirs` only
names of directories in `p`, each once, and all directories that are not below `p` -/
def Tame {τ : Type} (k : κ) (q : List Str) (H : Nat) (body : τ → Uri → List Str → List Str → OM σ (τ × List Str)) : Prop :=
  ∀ t s p t1 ds s1, L.Fit k q H s → q <+: p → L.V s k p = some .dir →
    body t (L.at_ k p) (L.dirNames s k p) (L.fileNames s k p) s = (.ok (t1, ds), s1) →
    L.Fit k q H s1 ∧ ds.Nodup ∧ (∀ n ∈ ds, L.V s1 k (p ++ [n]) = some .dir) ∧
      ∀ x, q <+: x → ¬ p <+: x → L.V s k x = some .dir → L.V s1 k x = some .dir

theorem steer {τ : Type} {q0 : List Str} {H : Nat} {body : τ → Uri → List Str → List Str → OM σ (τ × List Str)}
    (ht : L.Tame k q0 H body) (fl : Bool) (depth : Nat) : ∀ (q : List Str) (t : τ) (s : σ), L.Fit k q0 H s → q0 <+: q →
    L.V s k q = some .dir → q0.length + H ≤ q.length + depth →
    ∃ vs o s', walk O (L.C k) true fl body depth (L.at_ k q) t s = (o, s') ∧
      Went body (fun s p => L.row s k p) (fun s p => L.Fit k q0 H s ∧ q0 <+: p ∧ L.V s k p = some .dir) vs t s o s' ∧
      Down q vs o.isOk ∧ (o.isOk = true → L.Fit k q0 H s' ∧
        ∀ x, q0 <+: x → ¬ q <+: x → L.V s k x = some .dir → L.V s' k x = some .dir) := by
  induction depth with
  | zero =>
    intro q t s hf hq hd hh
    obtain ⟨x, rfl⟩ := hq
    have := hf.deep x hd
    simp at hh; omega
  | succ depth ih =>
    intro q t s hf hq hd hh
    have hsubq : ∀ {s : σ}, L.Fit k q0 H s → Sub (L.V s k) q := fun h => by
      obtain ⟨x, rfl⟩ := hq
      exact h.sub.below x
    have loop : ∀ (l : List Str) (t : τ) (s : σ), L.Fit k q0 H s → l.Nodup → (∀ n ∈ l, L.V s k (q ++ [n]) = some .dir) →
        ∃ vs o s', walkDirs O fl (walk O (L.C k) true fl body depth) (L.at_ k q) l t s = (o, s') ∧
          Went body (fun s p => L.row s k p) (fun s p => L.Fit k q0 H s ∧ q0 <+: p ∧ L.V s k p = some .dir) vs t s o s' ∧
          (∀ v ∈ vs, (∃ n ∈ l, v.1 = q ++ [n]) ∨ ∃ w ∈ vs, ∃ n ∈ w.2, v.1 = w.1 ++ [n]) ∧
          (∀ v ∈ vs, ∃ n ∈ l, q ++ [n] <+: v.1) ∧
          (vs.map (·.1)).Pairwise (Before ((q, l) :: vs)) ∧
          (∀ v ∈ (q, l) :: vs, ∀ n ∈ v.2, v.1 ++ [n] ∈ vs.map (·.1) ∨
            o.isOk = false ∧ ∃ m z, [m, n] <+ v.2 ∧ vs.getLast? = some z ∧ v.1 ++ [m] <+: z.1) ∧
          (o.isOk = true → L.Fit k q0 H s' ∧
            ∀ x, q0 <+: x → (∀ n ∈ l, ¬ q ++ [n] <+: x) → L.V s k x = some .dir → L.V s' k x = some .dir) := by
      intro l
      induction l with
      | nil =>
        intro t s hf _ _
        exact ⟨[], .ok t, s, rfl, .done, by simp, by simp, by simp, by simp, fun _ => ⟨hf, fun x _ _ h => h⟩⟩
      | cons n l ihl =>
        intro t s hf hnd hl
        have hdn := hl n (by simp)
        have hnn := (List.nodup_cons.1 hnd).1
        obtain ⟨vs1, o1, s1, a1, a2, a3, a4⟩ := ih (q ++ [n]) t s hf (hq.trans (List.prefix_append _ _)) hdn
          (by simp only [List.length_append, List.length_singleton]; omega)
        have hb1 := a3.below
        rw [L.walkDirs_cons hf.inv (hsubq hf) (by rw [hdn]; simp)]
        have mono1 : ∀ ws : List (List Str × List Str), (∀ v ∈ vs1, v ∈ ws) → ∀ v ∈ vs1, ∃ w ∈ (q, n :: l) :: ws, w.1 = v.1 ∧ v.2 <+ w.2 :=
          fun ws h v hv => ⟨v, List.mem_cons_of_mem _ (h v hv), rfl, List.Sublist.refl _⟩
        cases o1 with
        | error e =>
          refine ⟨vs1, .error e, s1, bind_error a1, a2, ?_, fun v hv => ⟨n, by simp, hb1 v hv⟩,
            a3.order.imp fun h => h.mono (mono1 vs1 fun v hv => hv), ?_, fun h => by cases h⟩
          · intro v hv
            rcases a3.from_ v hv with e | h
            · exact .inl ⟨n, by simp, e⟩
            · exact .inr h
          · intro v hv m hm
            rcases List.mem_cons.1 hv with rfl | hv
            · rcases List.mem_cons.1 hm with rfl | hm
              · exact .inl a3.top
              · refine .inr ⟨rfl, n, ?_⟩
                obtain ⟨v0, hv0, -⟩ := List.mem_map.1 a3.top
                have hne : vs1 ≠ [] := by rintro rfl; simp at hv0
                refine ⟨vs1.getLast hne, ?_, List.getLast?_eq_some_getLast hne, hb1 _ (List.getLast_mem hne)⟩
                exact List.Sublist.cons_cons _ (List.singleton_sublist.2 hm)
            · exact a3.all v hv m hm
        | ok t1 =>
          obtain ⟨b1, b2⟩ := a4 rfl
          obtain ⟨vs2, o, s2, c1, c2, c3, c4, c5, c6, c7⟩ := ihl t1 s1 b1 (List.nodup_cons.1 hnd).2 (by
            intro m hm
            refine b2 _ (hq.trans (List.prefix_append _ _)) ?_ (hl m (by simp [hm]))
            intro h
            have := prefix_snoc_inj h (List.prefix_refl (q ++ [m]))
            subst this; exact hnn hm)
          refine ⟨vs1 ++ vs2, o, s2, by rw [bind_ok a1, c1], a2.append rfl c2, ?_, ?_, ?_, ?_, ?_⟩
          · intro v hv
            rcases List.mem_append.1 hv with hv | hv
            · rcases a3.from_ v hv with e | ⟨w, hw, h⟩
              · exact .inl ⟨n, by simp, e⟩
              · exact .inr ⟨w, by simp [hw], h⟩
            · rcases c3 v hv with ⟨m, hm, e⟩ | ⟨w, hw, h⟩
              · exact .inl ⟨m, by simp [hm], e⟩
              · exact .inr ⟨w, by simp [hw], h⟩
          · intro v hv
            rcases List.mem_append.1 hv with hv | hv
            · exact ⟨n, by simp, hb1 v hv⟩
            · obtain ⟨m, hm, h⟩ := c4 v hv
              exact ⟨m, by simp [hm], h⟩
          · rw [List.map_append]
            have mono2 : ∀ v ∈ (q, l) :: vs2, ∃ w ∈ (q, n :: l) :: (vs1 ++ vs2), w.1 = v.1 ∧ v.2 <+ w.2 := by
              intro v hv
              rcases List.mem_cons.1 hv with rfl | hv
              · exact ⟨_, List.mem_cons_self, rfl, List.sublist_cons_self _ _⟩
              · exact ⟨v, by simp [hv], rfl, List.Sublist.refl _⟩
            refine List.pairwise_append.2 ⟨a3.order.imp fun h => h.mono (mono1 _ fun v hv => by simp [hv]),
              c5.imp fun h => h.mono mono2, ?_⟩
            intro a ha b hb
            obtain ⟨v, hv, rfl⟩ := List.mem_map.1 ha
            obtain ⟨w, hw, rfl⟩ := List.mem_map.1 hb
            obtain ⟨m, hm, h⟩ := c4 w hw
            exact .inr ⟨(q, n :: l), List.mem_cons_self, n, m, List.Sublist.cons_cons _ (List.singleton_sublist.2 hm), hb1 v hv, h⟩
          · have last : ∀ z, vs2.getLast? = some z → (vs1 ++ vs2).getLast? = some z := by
              intro z hz
              rw [List.getLast?_append, hz]; rfl
            intro v hv m hm
            rcases List.mem_cons.1 hv with rfl | hv
            · rcases List.mem_cons.1 hm with rfl | hm
              · exact .inl (by rw [List.map_append]; exact List.mem_append_left _ a3.top)
              · rcases c6 (q, l) List.mem_cons_self m hm with h | ⟨h1, m', z, h2, h3, h4⟩
                · exact .inl (by rw [List.map_append]; exact List.mem_append_right _ h)
                · exact .inr ⟨h1, m', z, h2.trans (List.sublist_cons_self _ _), last z h3, h4⟩
            · rcases List.mem_append.1 hv with hv | hv
              · rcases a3.all v hv m hm with h | ⟨h, -⟩
                · exact .inl (by rw [List.map_append]; exact List.mem_append_left _ h)
                · cases h
              · rcases c6 v (List.mem_cons_of_mem _ hv) m hm with h | ⟨h1, m', z, h2, h3, h4⟩
                · exact .inl (by rw [List.map_append]; exact List.mem_append_right _ h)
                · exact .inr ⟨h1, m', z, h2, last z h3, h4⟩
          · intro ho
            obtain ⟨d1, d2⟩ := c7 ho
            refine ⟨d1, fun x hx hnx hd => d2 x hx (fun m hm => hnx m (by simp [hm])) (b2 x hx (hnx n (by simp)) hd)⟩
    rw [L.walk_dir hf.inv (hsubq hf) hd, if_pos rfl]
    cases hb : body t (L.at_ k q) (L.dirNames s k q) (L.fileNames s k q) s with
    | mk o1 s1 =>
      cases o1 with
      | error e =>
        refine ⟨[(q, [])], .error e, s1, bind_error hb, .raises ⟨hf, hq, hd⟩ hb, ⟨by simp, by simp, by simp, by simp⟩, fun h => by cases h⟩
      | ok a =>
        obtain ⟨t1, ds⟩ := a
        obtain ⟨f1, f2, f3, f4⟩ := ht t s q t1 ds s1 hf hq hd hb
        obtain ⟨vs, o, s2, c1, c2, c3, c4, c5, c6, c7⟩ := loop ds t1 s1 f1 f2 f3
        refine ⟨(q, ds) :: vs, o, s2, ?_, .next ⟨hf, hq, hd⟩ hb c2, ⟨?_, ?_, ?_, by simp⟩, ?_⟩
        · rw [bind_ok hb]; exact c1
        · intro v hv
          rcases List.mem_cons.1 hv with rfl | hv
          · exact .inl rfl
          · rcases c3 v hv with ⟨n, hn, e⟩ | ⟨w, hw, h⟩
            · exact .inr ⟨(q, ds), List.mem_cons_self, n, hn, e⟩
            · exact .inr ⟨w, List.mem_cons_of_mem _ hw, h⟩
        · rw [List.map_cons]
          refine List.pairwise_cons.2 ⟨fun a ha => .inl ?_, c5⟩
          obtain ⟨v, hv, rfl⟩ := List.mem_map.1 ha
          obtain ⟨n, -, h⟩ := c4 v hv
          refine ⟨(List.prefix_append _ _).trans h, ?_⟩
          intro e
          have := h.length_le
          rw [← e] at this
          simp only [List.length_append, List.length_singleton] at this
          omega
        · intro v hv n hn
          rcases c6 v hv n hn with h | ⟨h1, m, z, h2, h3, h4⟩
          · exact .inl (by rw [List.map_cons]; exact List.mem_cons_of_mem _ h)
          · refine .inr ⟨h1, m, z, h2, ?_, h4⟩
            rw [List.getLast?_cons, h3]; rfl
        · intro ho
          obtain ⟨d1, d2⟩ := c7 ho
          refine ⟨d1, fun x hx hnx hd => d2 x hx (fun n _ h => hnx ((List.prefix_append _ _).trans h)) (f4 x hx hnx hd)⟩

/-! ## From the bottom up -/

theorem names_congr {s s' : σ} {q : List Str} (hs : I s) (hs' : I s') (h : ∀ n, L.V s k (q ++ [n]) = L.V s' k (q ++ [n])) :
    L.names s k q = L.names s' k q :=
  pairwise_ext (L.names_sorted hs) (L.names_sorted hs') fun n => by rw [L.mem_names hs, L.mem_names hs', h]

theorem row_congr {s s' : σ} {q : List Str} (hs : I s) (hs' : I s') (h : ∀ n, L.V s k (q ++ [n]) = L.V s' k (q ++ [n])) :
    L.row s k q = L.row s' k q := by
  unfold row dirNames fileNames
  rw [L.names_congr hs hs' h]
  simp only [h]

/-- what the body of a loop from the bottom up must not do: at the row of `p` it changes nothing that is not below `p` -/
def Inside {τ : Type} (k : κ) (q : List Str) (s0 : σ) (body : τ → Uri → List Str → List Str → OM σ (τ × List Str)) : Prop :=
  ∀ t s p t1 ds s1, I s → q <+: p → L.V s0 k p = some .dir → L.V s k p = some .dir →
    body t (L.at_ k p) (L.dirNames s0 k p) (L.fileNames s0 k p) s = (.ok (t1, ds), s1) →
    I s1 ∧ ∀ x, ¬ p <+: x → L.V s1 k x = L.V s k x

theorem steer_up {τ : Type} {q0 : List Str} {s0 : σ} {body : τ → Uri → List Str → List Str → OM σ (τ × List Str)}
    (h0 : I s0) (hsub : Sub (L.V s0 k) q0) (ht : L.Inside k q0 s0 body) (fl : Bool) (depth : Nat) : ∀ (q : List Str) (t : τ) (s : σ),
    I s → q0 <+: q → L.V s0 k q = some .dir → (∀ x, q <+: x → L.V s k x = L.V s0 k x) →
    (∀ x, L.V s0 k (q ++ x) = some .dir → x.length < depth) →
    ∃ ps vs o s', walk O (L.C k) false fl body depth (L.at_ k q) t s = (o, s') ∧
      Went body (fun _ p => L.row s0 k p) (fun s p => I s ∧ q0 <+: p ∧ L.V s0 k p = some .dir ∧ L.V s k p = some .dir) vs t s o s' ∧
      vs.map (·.1) <+: ps ∧ (o.isOk = true → vs.map (·.1) = ps) ∧
      (∀ p, p ∈ ps ↔ q <+: p ∧ L.V s0 k p = some .dir) ∧ ps.Pairwise (Order false) ∧
      (o.isOk = true → I s' ∧ ∀ x, ¬ q <+: x → L.V s' k x = L.V s k x) := by
  induction depth with
  | zero =>
    intro q t s _ _ hd _ hh
    exact absurd (hh [] (by simpa using hd)) (by simp)
  | succ depth ih =>
    intro q t s hs hq hd hv hh
    have hsubq : Sub (L.V s0 k) q := by
      obtain ⟨x, rfl⟩ := hq
      exact hsub.below x
    have hsubs : Sub (L.V s k) q := ⟨fun x hx => hsubq.nm x (by rwa [← hv _ (List.prefix_append _ _)]),
      fun x => by rw [hv _ (List.prefix_append _ _)]; exact hsubq.noLink x⟩
    obtain ⟨ps0, -, p1, p2⟩ := L.walk_collect (k := k) false fl h0 (depth + 1) q [] hsubq hd hh
    have loop : ∀ (l : List Str) (t : τ) (s : σ), I s → l.Pairwise strLt → (∀ n ∈ l, L.V s0 k (q ++ [n]) = some .dir) →
        (∀ n ∈ l, ∀ x, q ++ [n] <+: x → L.V s k x = L.V s0 k x) →
        ∃ ps vs o s', walkDirs O fl (walk O (L.C k) false fl body depth) (L.at_ k q) l t s = (o, s') ∧
          Went body (fun _ p => L.row s0 k p) (fun s p => I s ∧ q0 <+: p ∧ L.V s0 k p = some .dir ∧ L.V s k p = some .dir) vs t s o s' ∧
          vs.map (·.1) <+: ps ∧ (o.isOk = true → vs.map (·.1) = ps) ∧
          (∀ p, p ∈ ps ↔ (∃ n ∈ l, q ++ [n] <+: p) ∧ L.V s0 k p = some .dir) ∧ ps.Pairwise (Order false) ∧
          (o.isOk = true → I s' ∧ ∀ x, (∀ n ∈ l, ¬ q ++ [n] <+: x) → L.V s' k x = L.V s k x) := by
      intro l
      induction l with
      | nil =>
        intro t s hs _ _ _
        exact ⟨[], [], .ok t, s, rfl, .done, by simp, by simp, by simp, .nil, fun _ => ⟨hs, fun x _ => rfl⟩⟩
      | cons n l ihl =>
        intro t s hs hnd hl hvl
        have hdn := hl n (by simp)
        have hdn' : L.V s k (q ++ [n]) = some .dir := by rw [hvl n (by simp) _ (List.prefix_refl _), hdn]
        have hnm : Nm (q ++ [n]) := hsubq.nm [n] (by rw [hdn]; simp)
        have lt := (List.pairwise_cons.1 hnd).1
        obtain ⟨ps1, vs1, o1, s1, a1, a2, a3, a4, a5, a6, a7⟩ := ih (q ++ [n]) t s hs (hq.trans (List.prefix_append _ _)) hdn
          (hvl n (by simp)) (by
            intro x hx
            have := hh (n :: x) (by simpa using hx)
            simp at this; omega)
        have step : walkDirs O fl (walk O (L.C k) false fl body depth) (L.at_ k q) (n :: l) t s =
            (do
              let t ← walk O (L.C k) false fl body depth (L.at_ k (q ++ [n])) t
              walkDirs O fl (walk O (L.C k) false fl body depth) (L.at_ k q) l t : OM σ τ) s := by
          conv => lhs; unfold Any.walkDirs
          rw [bind_lift (L.div1 hnm), bind_ok (L.uIslink hs hnm (L.clear_dir hs hdn') (by rw [hdn']; simp))]
          rfl
        rw [step]
        have join : ∀ ps2 : List (List Str), (∀ p, p ∈ ps2 ↔ (∃ n ∈ l, q ++ [n] <+: p) ∧ L.V s0 k p = some .dir) →
            ps2.Pairwise (Order false) →
            (∀ p, p ∈ ps1 ++ ps2 ↔ (∃ m ∈ n :: l, q ++ [m] <+: p) ∧ L.V s0 k p = some .dir) ∧ (ps1 ++ ps2).Pairwise (Order false) := by
          intro ps2 k2 k3
          refine ⟨fun p => ?_, List.pairwise_append.2 ⟨a6, k3, ?_⟩⟩
          · rw [List.mem_append, a5, k2]
            constructor
            · rintro (⟨a, b⟩ | ⟨⟨m, hm, a⟩, b⟩)
              · exact ⟨⟨n, by simp, a⟩, b⟩
              · exact ⟨⟨m, by simp [hm], a⟩, b⟩
            · rintro ⟨⟨m, hm, a⟩, b⟩
              rcases List.mem_cons.1 hm with rfl | hm
              · exact .inl ⟨a, b⟩
              · exact .inr ⟨⟨m, hm, a⟩, b⟩
          · intro a ha' b hb'
            obtain ⟨ha1, -⟩ := (a5 a).1 ha'
            obtain ⟨⟨m, hm, hb1⟩, -⟩ := (k2 b).1 hb'
            exact order_beside (lt m hm) ha1 hb1
        cases o1 with
        | error e =>
          classical
          obtain ⟨j1, j2⟩ := join (ps0.filter fun p => decide (∃ m ∈ l, q ++ [m] <+: p)) (by
            intro p
            rw [List.mem_filter, p1, decide_eq_true_iff]
            constructor
            · rintro ⟨⟨-, a⟩, b⟩; exact ⟨b, a⟩
            · rintro ⟨⟨m, hm, a⟩, b⟩; exact ⟨⟨(List.prefix_append _ _).trans a, b⟩, m, hm, a⟩) (p2.filter _)
          exact ⟨_, vs1, .error e, s1, bind_error a1, a2, a3.trans (List.prefix_append _ _), (fun h => by cases h), j1, j2,
            fun h => by cases h⟩
        | ok t1 =>
          obtain ⟨b1, b2⟩ := a7 rfl
          obtain ⟨ps2, vs2, o, s2, c1, c2, c3, c4, c5, c6, c7⟩ := ihl t1 s1 b1 (List.pairwise_cons.1 hnd).2
            (fun m hm => hl m (by simp [hm])) (by
              intro m hm x hx
              rw [b2 x, hvl m (by simp [hm]) x hx]
              intro h
              have := prefix_snoc_inj h hx
              subst this
              exact (lt _ hm).2 rfl)
          obtain ⟨j1, j2⟩ := join ps2 c5 c6
          refine ⟨ps1 ++ ps2, vs1 ++ vs2, o, s2, by rw [bind_ok a1, c1], a2.append rfl c2, ?_, ?_, j1, j2, ?_⟩
          · rw [List.map_append, a4 rfl]
            exact (List.prefix_append_right_inj _).2 c3
          · intro ho
            rw [List.map_append, a4 rfl, c4 ho]
          · intro ho
            obtain ⟨d1, d2⟩ := c7 ho
            refine ⟨d1, fun x hx => ?_⟩
            rw [d2 x fun m hm => hx m (by simp [hm]), b2 x (hx n (by simp))]
    have hrow : L.row s k q = L.row s0 k q := L.row_congr hs h0 fun n => hv _ (List.prefix_append _ _)
    have hrd : L.dirNames s k q = L.dirNames s0 k q := congrArg (·.2.1) hrow
    have hrf : L.fileNames s k q = L.fileNames s0 k q := congrArg (·.2.2) hrow
    have hds : L.V s k q = some .dir := by rw [hv _ (List.prefix_refl _), hd]
    rw [L.walk_dir hs hsubs hds, if_neg Bool.false_ne_true, hrd, hrf]
    obtain ⟨ps, vs, o1, s1, c1, c2, c3, c4, c5, c6, c7⟩ := loop (L.dirNames s0 k q) t s hs ((L.names_sorted h0).filter _)
      (fun n hn => (L.mem_dirNames h0).1 hn) (fun n _ x hx => hv x ((List.prefix_append _ _).trans hx))
    have cover : ∀ p, p ∈ ps ++ [q] ↔ q <+: p ∧ L.V s0 k p = some .dir := by
      intro p
      rw [List.mem_append, c5, List.mem_singleton]
      constructor
      · rintro (⟨⟨n, -, a⟩, b⟩ | rfl)
        · exact ⟨(List.prefix_append _ _).trans a, b⟩
        · exact ⟨List.prefix_refl _, hd⟩
      · rintro ⟨⟨x, rfl⟩, b⟩
        cases x with
        | nil => exact .inr (by simp)
        | cons n x =>
          have hdn : L.V s0 k (q ++ [n]) = some .dir := L.dir_prefix h0 (b := x) (by simpa using b)
          exact .inl ⟨⟨n, (L.mem_dirNames h0).2 hdn, ⟨x, by simp⟩⟩, b⟩
    have ordered : (ps ++ [q]).Pairwise (Order false) := by
      refine List.pairwise_append.2 ⟨c6, List.pairwise_singleton _ _, ?_⟩
      intro a ha b hb
      obtain ⟨⟨n, -, ha1⟩, -⟩ := (c5 a).1 ha
      rw [List.mem_singleton.1 hb]
      exact order_up ha1
    cases o1 with
    | error e =>
      exact ⟨ps ++ [q], vs, .error e, s1, bind_error c1, c2, c3.trans (List.prefix_append _ _), (fun h => by cases h), cover, ordered,
        fun h => by cases h⟩
    | ok t1 =>
      obtain ⟨d1, d2⟩ := c7 rfl
      have hq1 : L.V s1 k q = some .dir := by
        rw [d2 q, hds]
        intro n _ h
        have := h.length_le
        simp only [List.length_append, List.length_singleton] at this
        omega
      rw [bind_ok c1]
      cases hb : body t1 (L.at_ k q) (L.dirNames s0 k q) (L.fileNames s0 k q) s1 with
      | mk o2 s2 =>
        cases o2 with
        | error e =>
          refine ⟨ps ++ [q], vs ++ [(q, [])], .error e, s2, bind_error hb, c2.append rfl (.raises ⟨d1, hq, hd, hq1⟩ hb), ?_, ?_, cover,
            ordered, fun h => by cases h⟩
          · rw [List.map_append, c4 rfl]; exact List.prefix_refl _
          · intro _; rw [List.map_append, c4 rfl]; rfl
        | ok a =>
          obtain ⟨t2, ds⟩ := a
          obtain ⟨e1, e2⟩ := ht t1 s1 q t2 ds s2 d1 hq hd hq1 hb
          refine ⟨ps ++ [q], vs ++ [(q, ds)], .ok t2, s2, ?_, c2.append rfl (.next ⟨d1, hq, hd, hq1⟩ hb .done), ?_, ?_, cover, ordered, ?_⟩
          · rw [bind_ok hb]; rfl
          · rw [List.map_append, c4 rfl]; exact List.prefix_refl _
          · intro _; rw [List.map_append, c4 rfl]; rfl
          · intro _
            refine ⟨e1, fun x hx => ?_⟩
            rw [e2 x hx, d2 x]
            intro n _ h
            exact hx ((List.prefix_append _ _).trans h)

/-- an empty directory is removed -/
theorem uRemove_empty {depth : Nat} {s : σ} {q : List Str} (hs : I s) (hn : Nm q) (hq : q ≠ []) (hd : L.V s k q = some .dir)
    (he : ∀ n, L.V s k (q ++ [n]) = none) :
    ∃ s', uRemove O depth (L.at_ k q) false s = (.ok (), s') ∧ I s' ∧ L.V s' = upd (L.V s) k q none := by
  have hc := L.clear_dir hs hd
  obtain ⟨s2, b1, b2, b3⟩ := L.removedir hs hn hq hd he
  refine ⟨s2, ?_, b2, b3⟩
  unfold Any.uRemove
  rw [L.withConn hs hn, bind_ok (L.islink hs hn hc (by rw [hd]; simp)), if_neg Bool.false_ne_true,
    bind_ok (L.exists_ hs hn hc), hd]
  show ((do if ← O.isdir (L.C k) (L.at_ k q) then _ else _ : OM σ Unit)) s = _
  rw [bind_ok (L.isdir hs hn hc), hd]
  exact b1

end Laws
end Verif.Any
