import Verif.Any.Frail
import Verif.Any.Copy
/-! # What copying and removing leave behind when calls fail -/
namespace Verif.Any
open Mem (Meth)
open Verif.Spec Verif.Gen

namespace Laws
variable {σ : Type} {O : Ops σ} {κ : Type} {I : σ → Prop} {may : κ → κ → Prop} (L : Laws O κ I may)

/-- whatever fails, in the end the invariant and `Q` hold -/
def Ends {α : Type} (m : OM (Frail σ) α) (s : σ) (Q : (κ → List Str → Option Kind) → Prop) : Prop :=
  ∀ f : Frail σ, f.st = s → I (m f).2.st ∧ Q (L.V (m f).2.st)

variable {L} {α β : Type} {s s1 : σ} {Q Q' : (κ → List Str → Option Kind) → Prop}

theorem Ends.mono {m : OM (Frail σ) α} (h : L.Ends m s Q) (hq : ∀ W, Q W → Q' W) : L.Ends m s Q' :=
  fun f hf => ⟨(h f hf).1, hq _ (h f hf).2⟩

theorem Ends.bind {m : OM (Frail σ) α} {m' : OM σ α} {g : α → OM (Frail σ) β} {a : α} (hs : Sim m m') (e : m' s = (.ok a, s1))
    (h1 : L.Ends m s Q) (h2 : L.Ends (g a) s1 Q) : L.Ends (m >>= g) s Q := by
  intro f hf
  obtain ⟨k1, k2⟩ := h1 f hf
  obtain ⟨-, j2, -⟩ := hs f
  show I (OM.bnd m g f).2.st ∧ _
  have : (m >>= g) f = OM.bnd m g f := rfl
  rw [this]
  unfold OM.bnd
  cases hm : m f with
  | mk x f1 =>
    rw [hm] at k1 k2 j2
    cases x with
    | error er => exact ⟨k1, k2⟩
    | ok b =>
      have := (j2 b rfl).1
      rw [hf, e] at this
      simp only [Prod.mk.injEq, Except.ok.injEq] at this
      obtain ⟨rfl, h⟩ := this
      exact h2 f1 h.symm

theorem Ends.pure {a : α} (hs : I s) (h : Q (L.V s)) : L.Ends (pure a) s Q := by
  rintro f rfl
  exact ⟨hs, h⟩

theorem Ends.raise {e : PyErr} (hs : I s) (h : Q (L.V s)) : L.Ends (OM.raise (α := α) e) s Q := by
  rintro f rfl
  exact ⟨hs, h⟩

theorem Ends.lift {x : Except PyErr α} (hs : I s) (h : Q (L.V s)) : L.Ends (OM.lift x) s Q := by
  rintro f rfl
  exact ⟨hs, h⟩

theorem Ends.bind_lift {x : Except PyErr α} {a : α} {g : α → OM (Frail σ) β} (hx : x = .ok a) (h : L.Ends (g a) s Q) :
    L.Ends (OM.lift x >>= g) s Q := by
  subst hx; exact h

theorem Ends.fr {m : OM σ α} (hs : I s) (h : Q (L.V s)) (hs' : I (m s).2) (h' : Q (L.V (m s).2)) : L.Ends (fr m) s Q := by
  rintro f rfl
  unfold Any.fr
  cases f.plan f.now with
  | none => exact ⟨hs', h'⟩
  | some x =>
    dsimp only
    split
    · exact ⟨hs', h'⟩
    · exact ⟨hs, h⟩

/-- a call that only asks -/
theorem Ends.ask {m : OM σ α} {a : α} (e : m s = (.ok a, s)) (hs : I s) (h : Q (L.V s)) : L.Ends (Any.fr m) s Q :=
  Ends.fr hs h (by rw [e]; exact hs) (by rw [e]; exact h)

/-- a call that changes something -/
theorem Ends.act {m : OM σ α} {a : α} (e : m s = (.ok a, s1)) (hs : I s) (h : Q (L.V s)) (hs1 : I s1) (h1 : Q (L.V s1)) :
    L.Ends (Any.fr m) s Q :=
  Ends.fr hs h (by rw [e]; exact hs1) (by rw [e]; exact h1)

theorem Ends.bind_ask {m : OM σ α} {a : α} {g : α → OM (Frail σ) β} (e : m s = (.ok a, s)) (hs : I s) (h : Q (L.V s))
    (h2 : L.Ends (g a) s Q) : L.Ends (Any.fr m >>= g) s Q :=
  Ends.bind (sim_fr m) e (Ends.ask e hs h) h2

section
variable {pumpF : O.Hd → O.Hd → OM (Frail σ) Unit} {k k' : κ} {q cs : List Str}
local notation "F" => frailOps O pumpF

theorem Ends.withConn {m : Meth} {body : O.Conn → OM (Frail σ) α} (hs : I s) (hn : Nm cs) (h : Q (L.V s))
    (hb : L.Ends (body (L.C k)) s Q) : L.Ends (Any.withConn (F) (L.at_ k cs) m body) s Q :=
  Ends.bind_ask (L.conn hs hn) hs h (Ends.bind_ask (L.hook hs hn) hs h hb)

theorem ends_uExists (hs : I s) (hn : Nm cs) (hc : Clear (L.V s k) cs) (h : Q (L.V s)) : L.Ends (Any.uExists (F) (L.at_ k cs)) s Q :=
  Ends.withConn hs hn h (Ends.ask (L.exists_ hs hn hc) hs h)
theorem ends_uIsfile (hs : I s) (hn : Nm cs) (hc : Clear (L.V s k) cs) (h : Q (L.V s)) : L.Ends (Any.uIsfile (F) (L.at_ k cs)) s Q :=
  Ends.withConn hs hn h (Ends.ask (L.isfile hs hn hc) hs h)
theorem ends_uIsdir (hs : I s) (hn : Nm cs) (hc : Clear (L.V s k) cs) (h : Q (L.V s)) : L.Ends (Any.uIsdir (F) (L.at_ k cs)) s Q :=
  Ends.withConn hs hn h (Ends.ask (L.isdir hs hn hc) hs h)
theorem ends_uIslink (hs : I s) (hn : Nm cs) (hc : Clear (L.V s k) cs) (he : L.V s k cs ≠ none) (h : Q (L.V s)) :
    L.Ends (Any.uIslink (F) (L.at_ k cs)) s Q :=
  Ends.withConn hs hn h (Ends.ask (L.islink hs hn hc he) hs h)

/-! ## makedirs -/

theorem ends_makedirs (depth : Nat) : ∀ {s : σ} {cs : List Str}, I s → Nm cs →
    (∀ p, p <+: cs → L.V s k p = some .dir ∨ L.V s k p = none) → cs.length < depth → (∀ p, p <+: cs → Q (mkdirs (L.V s) k p)) →
    L.Ends (Any.makedirs (F) depth (L.at_ k cs)) s Q := by
  induction depth with
  | zero => intro s cs _ _ _ h; simp at h
  | succ depth ih =>
    intro s cs hs hn hp hl hQ
    have hc : Clear (L.V s k) cs := ⟨fun p h _ => hp p h, by rcases hp cs (List.prefix_refl _) with h | h <;> simp [h]⟩
    have hQ0 : Q (L.V s) := by
      have := hQ [] (List.nil_prefix)
      rwa [mkdirs_eq] at this
      intro p h
      rw [List.prefix_nil.1 h]; exact L.root hs
    unfold Any.makedirs
    refine Ends.bind (sim_isdir _) (L.uIsdir hs hn hc) (ends_uIsdir hs hn hc hQ0) ?_
    rcases hp cs (List.prefix_refl _) with h | h
    · rw [show isD (L.V s k cs) = true by rw [h]; rfl, if_pos rfl]
      exact Ends.pure hs hQ0
    · rw [show isD (L.V s k cs) = false by rw [h]; rfl, if_neg Bool.false_ne_true]
      rcases List.eq_nil_or_concat cs with rfl | ⟨init, n, rfl⟩
      · rw [L.root hs] at h; simp at h
      rw [List.concat_eq_append] at *
      refine Ends.bind_lift (L.split hn) ?_
      have hn' : Nm init := hn.of_prefix
      have hp' : ∀ p, p <+: init → L.V s k p = some .dir ∨ L.V s k p = none :=
        fun p h1 => hp p (h1.trans (List.prefix_append _ _))
      have hc' : Clear (L.V s k) init :=
        ⟨fun p h _ => hp' p h, by rcases hp' init (List.prefix_refl _) with h | h <;> simp [h]⟩
      dsimp only
      refine Ends.bind (sim_isdir _) (L.uIsdir hs hn' hc') (ends_uIsdir hs hn' hc' hQ0) ?_
      have hne : n ≠ [] := (hn.ok.clean n (by simp)).ne
      have last : ∀ s1, I s1 → L.V s1 = mkdirs (L.V s) k init → L.Ends (uMkdir (F) (L.at_ k (init ++ [n]))) s1 Q := by
        intro s1 h1 h2
        have hv : L.V s1 k (init ++ [n]) = none := by
          rw [h2]; unfold mkdirs
          rw [if_neg (fun hpre => by have := hpre.2.length_le; simp only [List.length_append, List.length_singleton] at this; omega), h]
        obtain ⟨s', e1, e2, e3⟩ := L.mkdir h1 hn (by rw [h2]; simp [mkdirs]) hv
        have hQ1 : Q (L.V s1) := by rw [h2]; exact hQ _ (List.prefix_append _ _)
        refine Ends.withConn h1 hn hQ1 (Ends.act e1 h1 hQ1 e2 ?_)
        rw [e3, h2, mkdirs_snoc]
        exact hQ _ (List.prefix_refl _)
      rcases hp' init (List.prefix_refl _) with h1 | h1
      · rw [show isD (L.V s k init) = true by rw [h1]; rfl, Bool.not_true, if_neg Bool.false_ne_true, if_pos hne]
        refine last s hs (mkdirs_eq ?_).symm
        intro p h2
        by_cases hpc : p = init
        · rw [hpc, h1]
        · exact L.above hs (by rw [h1]; simp) p h2 hpc
      · obtain ⟨s1, e1, e2, e3⟩ := L.makedirs depth hs hn' hp' (by simp at hl; omega)
        rw [show isD (L.V s k init) = false by rw [h1]; rfl, Bool.not_false, if_pos rfl, if_pos hne]
        refine Ends.bind (sim_makedirs _ _) e1 (ih hs hn' hp' (by simp at hl; omega) fun p h2 => hQ p (h2.trans (List.prefix_append _ _))) ?_
        exact last s1 e2 e3

theorem ends_uMakedirs {depth : Nat} (hs : I s) (hn : Nm cs) (hp : ∀ p, p <+: cs → L.V s k p = some .dir ∨ L.V s k p = none)
    (hl : cs.length < depth) (hQ : ∀ p, p <+: cs → Q (mkdirs (L.V s) k p)) : L.Ends (Any.uMakedirs (F) depth (L.at_ k cs)) s Q := by
  refine Ends.withConn hs hn ?_ (ends_makedirs depth hs hn hp hl hQ)
  have := hQ [] (List.nil_prefix)
  rwa [mkdirs_eq] at this
  intro p h
  rw [List.prefix_nil.1 h]; exact L.root hs

theorem ends_uMakedirs1 {depth : Nat} {e : List Str} {n : Str} (hdep : 0 < depth) (hs : I s) (hn : Nm (e ++ [n]))
    (hd : L.V s k e = some .dir) (he : L.V s k (e ++ [n]) = none) (h : Q (L.V s)) (h' : Q (upd (L.V s) k (e ++ [n]) (some .dir))) :
    L.Ends (Any.uMakedirs (F) depth (L.at_ k (e ++ [n]))) s Q := by
  obtain ⟨depth, rfl⟩ := Nat.exists_eq_succ_of_ne_zero (Nat.pos_iff_ne_zero.1 hdep)
  obtain ⟨s', e1, e2, e3⟩ := L.mkdir hs hn hd he
  have hc := L.clear_in hs hd (n := n) (by rw [he]; simp)
  refine Ends.withConn hs hn h ?_
  unfold Any.makedirs
  refine Ends.bind (sim_isdir _) (L.uIsdir hs hn hc) (ends_uIsdir hs hn hc h) ?_
  rw [show isD (L.V s k (e ++ [n])) = false by rw [he]; rfl, if_neg Bool.false_ne_true]
  refine Ends.bind_lift (L.split hn) ?_
  dsimp only
  refine Ends.bind (sim_isdir _) (L.uIsdir hs hn.of_prefix (L.clear_dir hs hd)) (ends_uIsdir hs hn.of_prefix (L.clear_dir hs hd) h) ?_
  rw [show isD (L.V s k e) = true by rw [hd]; rfl, Bool.not_true, if_neg Bool.false_ne_true, if_pos (hn.ok.clean n (by simp)).ne]
  refine Ends.withConn hs hn h (Ends.act e1 hs h e2 ?_)
  rw [e3]; exact h'

/-! ## Walking -/

theorem ends_classify (hs : I s) (h : Sub (L.V s k) q) (hQ : Q (L.V s)) : ∀ l : List Str, (∀ n ∈ l, L.V s k (q ++ [n]) ≠ none) →
    L.Ends (Any.classify (F) (L.C k) (L.at_ k q) l) s Q := by
  intro l
  induction l with
  | nil => intro _; exact Ends.pure hs hQ
  | cons n l ih =>
    intro hl
    have h1 := hl n (by simp)
    refine Ends.bind_lift (L.div1 (h.nm [n] h1)) ?_
    refine Ends.bind_ask (L.isdir hs (h.nm [n] h1) (L.clear_sub hs h h1)) hs hQ ?_
    refine Ends.bind (sim_classify _ _ _) (L.classify hs h l fun x hx => hl x (by simp [hx])) (ih fun x hx => hl x (by simp [hx])) ?_
    exact Ends.pure hs hQ

theorem ends_walk_dir {τ : Type} (hs : I s) (h : Sub (L.V s k) q) (hd : L.V s k q = some .dir) (td fl : Bool)
    (body : τ → Uri → List Str → List Str → OM (Frail σ) (τ × List Str)) (depth : Nat) (t : τ) (hQ : Q (L.V s))
    (hb : L.Ends (if td then (do
        let (t, dirs) ← body t (L.at_ k q) (L.dirNames s k q) (L.fileNames s k q)
        walkDirs (F) fl (walk (F) (L.C k) td fl body depth) (L.at_ k q) dirs t)
      else (do
        let t ← walkDirs (F) fl (walk (F) (L.C k) td fl body depth) (L.at_ k q) (L.dirNames s k q) t
        let (t, _) ← body t (L.at_ k q) (L.dirNames s k q) (L.fileNames s k q)
        pure t)) s Q) :
    L.Ends (walk (F) (L.C k) td fl body (depth + 1) (L.at_ k q) t) s Q := by
  conv => arg 2; unfold Any.walk
  refine Ends.bind_ask (L.listdir hs (h.nm0 (by rw [hd]; simp)) hd) hs hQ ?_
  rw [sortStr_of_pairwise (L.names_sorted hs)]
  refine Ends.bind (sim_classify _ _ _) (L.classify hs h _ (fun n hn => (L.mem_names hs).1 hn))
    (ends_classify hs h hQ _ (fun n hn => (L.mem_names hs).1 hn)) ?_
  exact hb

theorem ends_walkDirs_cons {τ : Type} {n : Str} (hs : I s) (h : Sub (L.V s k) q) (hd : L.V s k (q ++ [n]) ≠ none) (fl : Bool)
    {visit : Uri → τ → OM (Frail σ) τ} {l : List Str} {t : τ} (hQ : Q (L.V s))
    (hb : L.Ends (do
        let t ← visit (L.at_ k (q ++ [n])) t
        walkDirs (F) fl visit (L.at_ k q) l t) s Q) :
    L.Ends (walkDirs (F) fl visit (L.at_ k q) (n :: l) t) s Q := by
  conv => arg 2; unfold Any.walkDirs
  refine Ends.bind_lift (L.div1 (h.nm [n] hd)) ?_
  exact Ends.bind (sim_islink _) (L.uIslink hs (h.nm [n] hd) (L.clear_sub hs h hd) hd) (ends_uIslink hs (h.nm [n] hd) (L.clear_sub hs h hd) hd hQ) hb

/-! ## Removing -/

variable {q0 : List Str}

theorem ends_removeFiles (hq : ∀ W p, Q W → q0 <+: p → Q (upd W k p none)) (hq0 : q0 <+: q) : ∀ (l : List Str) {s : σ}, I s → Q (L.V s) → l.Nodup →
    (∀ n ∈ l, Nm (q ++ [n]) ∧ ∃ d, L.V s k (q ++ [n]) = some (.file d)) →
    L.Ends (l.forM fun f => do
        let p ← OM.lift ((L.at_ k q).div f)
        (F).removefile (L.C k) p) s Q := by
  intro l
  induction l with
  | nil => intro s hs hQ _ _; exact Ends.pure hs hQ
  | cons n l ih =>
    intro s hs hQ hnd hl
    obtain ⟨h1, d, h2⟩ := hl n (by simp)
    obtain ⟨s1, k1, k2, k3⟩ := L.removefile hs h1 h2
    have hnn := (List.nodup_cons.1 hnd).1
    have hQ1 : Q (L.V s1) := by rw [k3]; exact hq _ _ hQ (hq0.trans (List.prefix_append _ _))
    rw [List.forM_eq_forM, List.forM_cons]
    refine Ends.bind (m' := do
        let p ← OM.lift ((L.at_ k q).div n)
        O.removefile (L.C k) p) (a := ()) (s1 := s1) (sim_bind (sim_lift _) fun _ => sim_fr _) (by rw [Any.bind_lift (L.div1 h1)]; exact k1)
      (Ends.bind_lift (L.div1 h1) (Ends.act k1 hs hQ k2 hQ1)) ?_
    exact ih k2 hQ1 (List.nodup_cons.1 hnd).2 (by
      intro m hm
      obtain ⟨g1, g2⟩ := hl m (by simp [hm])
      refine ⟨g1, ?_⟩
      rw [k3, upd_ne (by rintro ⟨-, h⟩; simp at h; subst h; exact hnn hm)]
      exact g2)

theorem ends_removeDirs (hq : ∀ W p, Q W → q0 <+: p → Q (upd W k p none)) (hq0 : q0 <+: q) : ∀ (l : List Str) {s : σ}, I s → Q (L.V s) → l.Nodup →
    (∀ n ∈ l, Nm (q ++ [n]) ∧ L.V s k (q ++ [n]) = some .dir ∧ ∀ m, L.V s k (q ++ [n] ++ [m]) = none) →
    L.Ends (l.forM fun d => do
        let p ← OM.lift ((L.at_ k q).div d)
        if ← (F).islink (L.C k) p then (F).removefile (L.C k) p else (F).removedir (L.C k) p) s Q := by
  intro l
  induction l with
  | nil => intro s hs hQ _ _; exact Ends.pure hs hQ
  | cons n l ih =>
    intro s hs hQ hnd hl
    obtain ⟨h1, h2, h3⟩ := hl n (by simp)
    obtain ⟨s1, k1, k2, k3⟩ := L.removedir hs h1 (by simp) h2 h3
    have hnn := (List.nodup_cons.1 hnd).1
    have hQ1 : Q (L.V s1) := by rw [k3]; exact hq _ _ hQ (hq0.trans (List.prefix_append _ _))
    have hlk := L.islink hs h1 (L.clear_dir hs h2) (by rw [h2]; simp)
    rw [List.forM_eq_forM, List.forM_cons]
    refine Ends.bind (m' := do
        let p ← OM.lift ((L.at_ k q).div n)
        if ← O.islink (L.C k) p then O.removefile (L.C k) p else O.removedir (L.C k) p) (a := ()) (s1 := s1)
      (sim_bind (sim_lift _) fun _ => sim_bind (sim_fr _) fun _ => sim_ite (sim_fr _) (sim_fr _))
      (by rw [Any.bind_lift (L.div1 h1), bind_ok hlk, if_neg Bool.false_ne_true]; exact k1)
      (Ends.bind_lift (L.div1 h1) (Ends.bind_ask hlk hs hQ (by rw [if_neg Bool.false_ne_true]; exact Ends.act k1 hs hQ k2 hQ1))) ?_
    exact ih k2 hQ1 (List.nodup_cons.1 hnd).2 (by
      intro m hm
      obtain ⟨g1, g2, g3⟩ := hl m (by simp [hm])
      refine ⟨g1, ?_, fun x => ?_⟩
      · rw [k3, upd_ne (by rintro ⟨-, h⟩; simp at h; subst h; exact hnn hm)]
        exact g2
      · rw [k3, upd_none]
        by_cases hx : q ++ [m] ++ [x] = q ++ [n]
        · exact wipe_in (P := fun p => p = q ++ [n]) hx
        · exact (wipe_out (P := fun p => p = q ++ [n]) hx).trans (g3 x))

/-- the consumer of the walk in `remove_dir_recursively`, with failing calls -/
def fremover (L : Laws O κ I may) (pumpF : O.Hd → O.Hd → OM (Frail σ) Unit) (k : κ) (_ : Unit) (top : Uri) (dirs files : List Str) :
    OM (Frail σ) (Unit × List Str) := do
  removeBody (frailOps O pumpF) (L.C k) top dirs files
  pure ((), dirs)

theorem sim_remover (u : Uri) (ds fs : List Str) : Sim (L.fremover pumpF k () u ds fs) (L.remover k () u ds fs) :=
  sim_bind (sim_removeBody _ _ _ _) fun _ => sim_pure _

theorem ends_remove_walk (hq : ∀ W P, Q W → (∀ p, P p → q0 <+: p) → Q (wipe W k P)) (depth : Nat) : ∀ (q : List Str) {s : σ}, q0 <+: q → I s → Q (L.V s) →
    Sub (L.V s k) q → L.V s k q = some .dir → (∀ x, L.V s k (q ++ x) = some .dir → x.length < depth) →
    L.Ends (walk (F) (L.C k) false false (L.fremover pumpF k) depth (L.at_ k q) ()) s Q := by
  have hq' : ∀ W p, Q W → q0 <+: p → Q (upd W k p none) := by
    intro W p h1 h2
    rw [upd_none]
    exact hq W _ h1 (by rintro _ rfl; exact h2)
  induction depth with
  | zero =>
    intro q s _ _ _ _ hd hh
    exact absurd (hh [] (by simpa using hd)) (by simp)
  | succ depth ih =>
    intro q s hq0 hs hQ hsub hd hh
    have loop : ∀ (l : List Str) {s1 : σ}, I s1 → Q (L.V s1) → l.Nodup → Sub (L.V s1 k) q → (∀ n ∈ l, L.V s1 k (q ++ [n]) = some .dir) →
        (∀ x, L.V s1 k (q ++ x) = some .dir → x.length < depth + 1) →
        L.Ends (walkDirs (F) false (walk (F) (L.C k) false false (L.fremover pumpF k) depth) (L.at_ k q) l ()) s1 Q ∧
        ∃ s', walkDirs O false (walk O (L.C k) false false (L.remover k) depth) (L.at_ k q) l () s1 = (.ok (), s') ∧ I s' ∧
          L.V s' = wipe (L.V s1) k (fun p => ∃ n ∈ l, q ++ [n] <+: p ∧ p ≠ q ++ [n]) := by
      intro l
      induction l with
      | nil => intro s1 hs1 hQ1 _ _ _ _; exact ⟨Ends.pure hs1 hQ1, s1, rfl, hs1, (wipe_false (by simp)).symm⟩
      | cons n l ihl =>
        intro s1 hs1 hQ1 hnd hsub1 hl hh1
        have hdn := hl n (by simp)
        have hnn := (List.nodup_cons.1 hnd).1
        rw [L.walkDirs_cons hs1 hsub1 (by rw [hdn]; simp)]
        have hh1' : ∀ x, L.V s1 k (q ++ [n] ++ x) = some .dir → x.length < depth := by
          intro x hx
          have := hh1 (n :: x) (by simpa using hx)
          simp at this; omega
        obtain ⟨s2, h1, h2, h3⟩ := L.remove_walk depth (q ++ [n]) hs1 (hsub1.below [n]) hdn hh1'
        have hQ2 : Q (L.V s2) := by
          rw [h3]
          exact hq _ _ hQ1 fun p hp => (hq0.trans (List.prefix_append _ _)).trans hp.1
        have hle : ∀ p, L.V s2 k p = none ∨ L.V s2 k p = L.V s1 k p := by
          intro p
          rw [h3]
          by_cases hp : q ++ [n] <+: p ∧ p ≠ q ++ [n]
          · exact .inl (wipe_in hp)
          · exact .inr (wipe_out hp)
        obtain ⟨j0, s3, j1, j2, j3⟩ := ihl h2 hQ2 (List.nodup_cons.1 hnd).2
          ⟨fun x hx => hsub1.nm x (by rcases hle (q ++ x) with h | h
                                      · exact absurd h hx
                                      · rwa [← h]),
           fun x => by rcases hle (q ++ x) with h | h
                       · rw [h]; simp
                       · rw [h]; exact hsub1.noLink x⟩
          (by
            intro m hm
            rw [h3, wipe_out]
            · exact hl m (by simp [hm])
            · rintro ⟨a, -⟩
              have := prefix_snoc_inj a (List.prefix_refl (q ++ [m]))
              subst this; exact hnn hm)
          (by
            intro x hx
            rcases hle (q ++ x) with h | h
            · rw [h] at hx; simp at hx
            · exact hh1 x (by rw [← h]; exact hx))
        refine ⟨?_, s3, ?_, j2, ?_⟩
        · exact ends_walkDirs_cons hs1 hsub1 (by rw [hdn]; simp) _ hQ1
            (Ends.bind (sim_walk _ _ _ (fun _ _ _ _ => sim_remover _ _ _) _ _ _) h1
              (ih (q ++ [n]) (hq0.trans (List.prefix_append _ _)) hs1 hQ1 (hsub1.below [n]) hdn hh1') j0)
        · rw [bind_ok h1, j1]
        · rw [j3, h3, wipe_wipe]
          exact wipe_congr fun p => by simp
    have hndD : (L.dirNames s k q).Nodup := (L.names_nodup hs).filter _
    have hndF : (L.fileNames s k q).Nodup := (L.names_nodup hs).filter _
    have hmd : ∀ n ∈ L.dirNames s k q, L.V s k (q ++ [n]) = some .dir := fun n hn => (L.mem_dirNames hs).1 hn
    obtain ⟨a0, s1, a1, a2, a3⟩ := loop (L.dirNames s k q) hs hQ hndD hsub hmd hh
    have hQ1 : Q (L.V s1) := by
      rw [a3]
      refine hq _ _ hQ ?_
      rintro p ⟨n, -, h, -⟩
      exact (hq0.trans (List.prefix_append _ _)).trans h
    have keep1 : ∀ n, L.V s1 k (q ++ [n]) = L.V s k (q ++ [n]) := by
      intro n
      rw [a3, wipe_out]
      rintro ⟨m, hm, b, c⟩
      have := prefix_snoc_inj b (List.prefix_refl (q ++ [n]))
      subst this; exact c rfl
    have hF : ∀ n ∈ L.fileNames s k q, Nm (q ++ [n]) ∧ ∃ d, L.V s1 k (q ++ [n]) = some (.file d) := by
      intro n hn
      obtain ⟨d, hd'⟩ := (L.mem_fileNames hs hsub).1 hn
      exact ⟨hsub.nm [n] (by rw [hd']; simp), d, by rw [keep1, hd']⟩
    obtain ⟨s2, b1, b2, b3⟩ := L.removeFiles (q := q) (k := k) (L.fileNames s k q) a2 hndF hF
    have b0 := ends_removeFiles (pumpF := pumpF) hq' hq0 _ a2 hQ1 hndF hF
    have hQ2 : Q (L.V s2) := by
      rw [b3]
      refine hq _ _ hQ1 ?_
      rintro _ ⟨n, -, rfl⟩
      exact hq0.trans (List.prefix_append _ _)
    have hD : ∀ n ∈ L.dirNames s k q, Nm (q ++ [n]) ∧ L.V s2 k (q ++ [n]) = some .dir ∧ ∀ m, L.V s2 k (q ++ [n] ++ [m]) = none := by
      intro n hn
      have hv := hmd n hn
      refine ⟨hsub.nm [n] (by rw [hv]; simp), ?_, fun m => ?_⟩
      · rw [b3, wipe_out, keep1, hv]
        rintro ⟨m, hm, h⟩
        obtain ⟨d, hd'⟩ := (L.mem_fileNames hs hsub).1 hm
        rw [← h, hv] at hd'; simp at hd'
      · rw [b3]
        by_cases hx : ∃ n' ∈ L.fileNames s k q, q ++ [n] ++ [m] = q ++ [n']
        · rw [wipe_in hx]
        · rw [wipe_out hx, a3, wipe_in]
          exact ⟨n, hn, List.prefix_append _ _, by simp⟩
    have c0 := ends_removeDirs (pumpF := pumpF) hq' hq0 _ b2 hQ2 hndD hD
    obtain ⟨s3, c1, c2, c3⟩ := L.removeDirs (q := q) (k := k) (L.dirNames s k q) b2 hndD hD
    have hQ3 : Q (L.V s3) := by
      rw [c3]
      refine hq _ _ hQ2 ?_
      rintro _ ⟨n, -, rfl⟩
      exact hq0.trans (List.prefix_append _ _)
    refine ends_walk_dir hs hsub hd _ _ _ _ _ hQ ?_
    rw [if_neg Bool.false_ne_true]
    refine Ends.bind (sim_walkDirs _ (sim_walk _ _ _ (fun _ _ _ _ => sim_remover _ _ _) _) _ _ _) a1 a0 ?_
    refine Ends.bind (m' := L.remover k () (L.at_ k q) (L.dirNames s k q) (L.fileNames s k q)) (sim_remover _ _ _) (a := ((), L.dirNames s k q)) (s1 := s3) ?_ ?_ ?_
    · unfold remover removeBody
      rw [bind_ok (a := ()) (s' := s3) (by rw [bind_ok b1]; exact c1)]
      rfl
    · refine Ends.bind (sim_removeBody _ _ _ _) (a := ()) (s1 := s3) (by unfold removeBody; rw [bind_ok b1]; exact c1) ?_ (Ends.pure c2 hQ3)
      exact Ends.bind (sim_forM (fun _ => sim_bind (sim_lift _) fun _ => sim_fr _) _) b1 b0 c0
    · exact Ends.pure c2 hQ3

theorem ends_uRemove_tree {depth : Nat} (hq : ∀ W P, Q W → (∀ p, P p → q0 <+: p) → Q (wipe W k P)) (hs : I s) (hQ : Q (L.V s))
    (hsub : Sub (L.V s k) q0) (hne : q0 ≠ []) (hd : L.V s k q0 = some .dir)
    (hh : ∀ x, L.V s k (q0 ++ x) = some .dir → x.length < depth) : L.Ends (uRemove (F) depth (L.at_ k q0) true) s Q := by
  have hn : Nm q0 := hsub.nm0 (by rw [hd]; simp)
  have hc := L.clear_dir hs hd
  obtain ⟨s1, a1, a2, a3⟩ := L.remove_walk depth q0 hs hsub hd hh
  have a0 := ends_remove_walk (pumpF := pumpF) hq depth q0 (List.prefix_refl _) hs hQ hsub hd hh
  have hQ1 : Q (L.V s1) := by rw [a3]; exact hq _ _ hQ fun p hp => hp.1
  have hd1 : L.V s1 k q0 = some .dir := by rw [a3, wipe_out (by simp), hd]
  obtain ⟨s2, b1, b2, b3⟩ := L.removedir a2 hn hne hd1 (fun n => by
    rw [a3, wipe_in]; exact ⟨List.prefix_append _ _, by simp⟩)
  have hQ2 : Q (L.V s2) := by rw [b3, upd_none]; exact hq _ _ hQ1 (by rintro _ rfl; exact List.prefix_refl _)
  unfold Any.uRemove
  refine Ends.withConn hs hn hQ (Ends.bind_ask (L.islink hs hn hc (by rw [hd]; simp)) hs hQ ?_)
  rw [if_neg Bool.false_ne_true]
  refine Ends.bind_ask (L.exists_ hs hn hc) hs hQ ?_
  rw [hd]
  show L.Ends ((do if ← (F).isdir (L.C k) (L.at_ k q0) then _ else _ : OM (Frail σ) Unit)) s Q
  refine Ends.bind_ask (L.isdir hs hn hc) hs hQ ?_
  rw [hd]
  show L.Ends (removeDirRec (F) depth (L.C k) (L.at_ k q0)) s Q
  unfold removeDirRec
  refine Ends.bind (sim_walk _ _ _ (fun _ _ _ _ => sim_remover _ _ _) _ _ _) a1 a0 ?_
  refine Ends.bind_ask (L.islink a2 hn (L.clear_dir a2 hd1) (by rw [hd1]; simp)) a2 hQ1 ?_
  rw [if_neg Bool.false_ne_true]
  exact Ends.act b1 a2 hQ1 b2 hQ2

theorem ends_uRemove_file {depth : Nat} {rec : Bool} {d : Bytes} (hs : I s) (hn : Nm q) (hQ : Q (L.V s)) (hQ' : Q (upd (L.V s) k q none))
    (hd : L.V s k q = some (.file d)) : L.Ends (uRemove (F) depth (L.at_ k q) rec) s Q := by
  have hc : Clear (L.V s k) q := L.clear_of hs (by rw [hd]; simp) (by rw [hd]; simp)
  obtain ⟨s1, b1, b2, b3⟩ := L.removefile hs hn hd
  unfold Any.uRemove
  refine Ends.withConn hs hn hQ (Ends.bind_ask (L.islink hs hn hc (by rw [hd]; simp)) hs hQ ?_)
  rw [if_neg Bool.false_ne_true]
  refine Ends.bind_ask (L.exists_ hs hn hc) hs hQ ?_
  rw [hd]
  show L.Ends ((do if ← (F).isdir (L.C k) (L.at_ k q) then _ else _ : OM (Frail σ) Unit)) s Q
  refine Ends.bind_ask (L.isdir hs hn hc) hs hQ ?_
  rw [hd]
  show L.Ends ((do if ← (F).isfile (L.C k) (L.at_ k q) then _ else _ : OM (Frail σ) Unit)) s Q
  refine Ends.bind_ask (L.isfile hs hn hc) hs hQ ?_
  rw [hd]
  exact Ends.act b1 hs hQ b2 (by rw [b3]; exact hQ')

end
end Laws
end Verif.Any
