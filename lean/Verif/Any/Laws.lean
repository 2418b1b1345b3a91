import Verif.Any.Ops
import Verif.Gen.CopyTree
/-!
# What the algorithms need of backends

`Laws O κ I`: a family of places `κ` (file systems), each with its URIs and what is in it as a map from names to kinds
of objects, such that the primitive operations do to the map what they should in all states satisfying `I`.
-/
namespace Verif.Any
open Mem (Meth)
open Verif.Spec Verif.Gen

/-- what is at a name: a directory, a file with its content, or something else (a link) -/
inductive Kind
  | dir
  | file (data : Bytes)
  | other
  deriving DecidableEq

/-- `Kind.dir` -/
def isD : Option Kind → Bool
  | some .dir => true
  | _ => false

/-- `Kind.file` -/
def isF : Option Kind → Bool
  | some (.file _) => true
  | _ => false

theorem isD_iff {x : Option Kind} : isD x = true ↔ x = some .dir := by
  cases x with
  | none => simp [isD]
  | some k => cases k <;> simp [isD]

/-- names that can be written in URIs of every backend -/
structure Nm (cs : List Str) : Prop where
  ok : Ok cs
  noDots : ∀ c ∈ cs, c ≠ cl!"." ∧ c ≠ cl!".."
  noColon : ∀ r, cs.head? ≠ some (':' :: r)

theorem Nm.nil : Nm [] := ⟨.nil, by simp, by simp⟩

theorem Nm.of_prefix {a b : List Str} (h : Nm (a ++ b)) : Nm a := by
  refine ⟨h.ok.of_prefix, fun c hc => h.noDots c (by simp [hc]), fun r hr => h.noColon r ?_⟩
  cases a with
  | nil => simp at hr
  | cons x a => simpa using hr

instance (cs : List Str) : Decidable (Nm cs) :=
  decidable_of_iff ((Ok cs ∧ ∀ c ∈ cs, c ≠ cl!"." ∧ c ≠ cl!"..") ∧ startsWith (cs.head?.getD []) cl!":" = false) <| by
    constructor
    · rintro ⟨⟨a, b⟩, c⟩
      refine ⟨a, b, fun r hr => ?_⟩
      rw [hr] at c
      simp [startsWith] at c
    · rintro ⟨a, b, c⟩
      refine ⟨⟨a, b⟩, ?_⟩
      cases h : cs.head? with
      | none => rfl
      | some n =>
        cases n with
        | nil => rfl
        | cons x n =>
          have : ':' ≠ x := by rintro rfl; exact c n h
          simp [startsWith, List.isPrefixOf, this]

/-- no link, and no file before the end -/
structure Clear (T : List Str → Option Kind) (cs : List Str) : Prop where
  above : ∀ p, p <+: cs → p ≠ cs → T p = some .dir ∨ T p = none
  here : T cs ≠ some .other

/-- the map with something else at one name of one place -/
noncomputable def upd {κ : Type} (V : κ → List Str → Option Kind) (k : κ) (p : List Str) (x : Option Kind) :
    κ → List Str → Option Kind := by
  classical exact fun k' p' => if k' = k ∧ p' = p then x else V k' p'

theorem upd_same {κ : Type} (V : κ → List Str → Option Kind) (k : κ) (p : List Str) (x : Option Kind) :
    upd V k p x k p = x := by simp [upd]

theorem upd_ne {κ : Type} {V : κ → List Str → Option Kind} {k k' : κ} {p p' : List Str} {x : Option Kind}
    (h : ¬ (k' = k ∧ p' = p)) : upd V k p x k' p' = V k' p' := by simp [upd, h]

theorem upd_self {κ : Type} {V : κ → List Str → Option Kind} {k : κ} {p : List Str} {x : Option Kind} (h : V k p = x) :
    upd V k p x = V := by
  funext k' p'
  by_cases hk : k' = k ∧ p' = p
  · obtain ⟨rfl, rfl⟩ := hk; rw [upd_same, h]
  · rw [upd_ne hk]

/-- the laws; `may k k'`: files can be copied from `k` to `k'` -/
structure Laws {σ : Type} (O : Ops σ) (κ : Type) (I : σ → Prop) (may : κ → κ → Prop) where
  at_ : κ → List Str → Uri
  C : κ → O.Conn
  V : σ → κ → List Str → Option Kind
  names : σ → κ → List Str → List Str
  conn : ∀ {s k cs}, I s → Nm cs → O.conn (at_ k cs) s = (.ok (C k), s)
  hook : ∀ {s k cs m}, I s → Nm cs → O.hook (C k) (at_ k cs) m s = (.ok (), s)
  exists_ : ∀ {s k cs}, I s → Nm cs → Clear (V s k) cs → O.exists_ (C k) (at_ k cs) s = (.ok (V s k cs).isSome, s)
  isfile : ∀ {s k cs}, I s → Nm cs → Clear (V s k) cs → O.isfile (C k) (at_ k cs) s = (.ok (isF (V s k cs)), s)
  isdir : ∀ {s k cs}, I s → Nm cs → Clear (V s k) cs → O.isdir (C k) (at_ k cs) s = (.ok (isD (V s k cs)), s)
  islink : ∀ {s k cs}, I s → Nm cs → Clear (V s k) cs → V s k cs ≠ none → O.islink (C k) (at_ k cs) s = (.ok false, s)
  listdir : ∀ {s k cs}, I s → Nm cs → V s k cs = some .dir → O.listdir (C k) (at_ k cs) s = (.ok (names s k cs), s)
  names_sorted : ∀ {s k cs}, I s → (names s k cs).Pairwise strLt
  mem_names : ∀ {s k cs n}, I s → (n ∈ names s k cs ↔ V s k (cs ++ [n]) ≠ none)
  mkdir : ∀ {s k cs n}, I s → Nm (cs ++ [n]) → V s k cs = some .dir → V s k (cs ++ [n]) = none →
    ∃ s', O.mkdir (C k) (at_ k (cs ++ [n])) s = (.ok (), s') ∧ I s' ∧ V s' = upd (V s) k (cs ++ [n]) (some .dir)
  removefile : ∀ {s k cs d}, I s → Nm cs → V s k cs = some (.file d) →
    ∃ s', O.removefile (C k) (at_ k cs) s = (.ok (), s') ∧ I s' ∧ V s' = upd (V s) k cs none
  removedir : ∀ {s k cs}, I s → Nm cs → cs ≠ [] → V s k cs = some .dir → (∀ n, V s k (cs ++ [n]) = none) →
    ∃ s', O.removedir (C k) (at_ k cs) s = (.ok (), s') ∧ I s' ∧ V s' = upd (V s) k cs none
  copy : ∀ {s k k' cs ds n d}, may k k' → I s → Nm cs → Nm (ds ++ [n]) → V s k cs = some (.file d) → V s k' ds = some .dir →
    (V s k' (ds ++ [n]) = none ∨ isF (V s k' (ds ++ [n])) = true) → ¬ (k = k' ∧ cs = ds ++ [n]) →
    ∃ s', (do
        copyContent O (at_ k cs) (at_ k' (ds ++ [n]))
        if (at_ k cs).scheme = (at_ k' (ds ++ [n])).scheme then O.copystat (C k) (at_ k cs) (at_ k' (ds ++ [n])) : OM σ Unit) s =
      (.ok (), s') ∧ I s' ∧ V s' = upd (V s) k' (ds ++ [n]) (some (.file d))
  root : ∀ {s k}, I s → V s k [] = some .dir
  tree : ∀ {s k cs n}, I s → V s k (cs ++ [n]) ≠ none → V s k cs = some .dir
  div : ∀ {k cs ns p}, Nm (cs ++ ns) → ns ≠ [] → slash ns = '/' :: p → (at_ k cs).div p = .ok (at_ k (cs ++ ns))
  split : ∀ {k cs n}, Nm (cs ++ [n]) → (at_ k (cs ++ [n])).split = .ok (at_ k cs, n)
  last : ∀ {k cs n}, Nm (cs ++ [n]) → (at_ k (cs ++ [n])).last = n
  path : ∀ {k cs}, Nm cs → (at_ k cs).path = pathOf cs

section
variable {σ : Type} {O : Ops σ}

@[simp] theorem pure_apply {α : Type} (a : α) (s : σ) : (pure a : OM σ α) s = (.ok a, s) := rfl
@[simp] theorem raise_apply {α : Type} (e : PyErr) (s : σ) : (OM.raise e : OM σ α) s = (.error e, s) := rfl
@[simp] theorem lift_apply {α : Type} (x : Except PyErr α) (s : σ) : (OM.lift x) s = (x, s) := rfl

theorem bind_ok {α β : Type} {m : OM σ α} {f : α → OM σ β} {s s' : σ} {a : α} (h : m s = (.ok a, s')) :
    (m >>= f) s = f a s' := by
  show OM.bnd m f s = _
  unfold OM.bnd
  rw [h]

theorem bind_error {α β : Type} {m : OM σ α} {f : α → OM σ β} {s s' : σ} {e : PyErr} (h : m s = (.error e, s')) :
    (m >>= f) s = (.error e, s') := by
  show OM.bnd m f s = _
  unfold OM.bnd
  rw [h]

theorem bind_lift {α β : Type} {x : Except PyErr α} {f : α → OM σ β} {s : σ} {a : α} (h : x = .ok a) :
    (OM.lift x >>= f) s = f a s := bind_ok (by rw [lift_apply, h])

end

namespace Laws
variable {σ : Type} {O : Ops σ} {κ : Type} {I : σ → Prop} {may : κ → κ → Prop} (L : Laws O κ I may)
variable {s : σ} {k k' : κ} {cs ds q : List Str}
include L

theorem withConn (hs : I s) (hn : Nm cs) {α : Type} (m : Meth) (body : O.Conn → OM σ α) :
    Any.withConn O (L.at_ k cs) m body s = body (L.C k) s := by
  unfold Any.withConn
  rw [bind_ok (L.conn hs hn), bind_ok (L.hook hs hn)]

theorem uExists (hs : I s) (hn : Nm cs) (hc : Clear (L.V s k) cs) :
    uExists O (L.at_ k cs) s = (.ok (L.V s k cs).isSome, s) := by
  unfold Any.uExists; rw [L.withConn hs hn, L.exists_ hs hn hc]

theorem uIsfile (hs : I s) (hn : Nm cs) (hc : Clear (L.V s k) cs) :
    uIsfile O (L.at_ k cs) s = (.ok (isF (L.V s k cs)), s) := by
  unfold Any.uIsfile; rw [L.withConn hs hn, L.isfile hs hn hc]

theorem uIsdir (hs : I s) (hn : Nm cs) (hc : Clear (L.V s k) cs) :
    uIsdir O (L.at_ k cs) s = (.ok (isD (L.V s k cs)), s) := by
  unfold Any.uIsdir; rw [L.withConn hs hn, L.isdir hs hn hc]

theorem uIslink (hs : I s) (hn : Nm cs) (hc : Clear (L.V s k) cs) (he : L.V s k cs ≠ none) :
    uIslink O (L.at_ k cs) s = (.ok false, s) := by
  unfold Any.uIslink; rw [L.withConn hs hn, L.islink hs hn hc he]

theorem div1 {n : Str} (h : Nm (cs ++ [n])) : (L.at_ k cs).div n = .ok (L.at_ k (cs ++ [n])) :=
  L.div h (by simp) (by simp [slash])

/-- everything above an object is a directory -/
theorem above (hs : I s) (h : L.V s k cs ≠ none) : ∀ p, p <+: cs → p ≠ cs → L.V s k p = some .dir := by
  intro p hp hne
  obtain ⟨t, rfl⟩ := hp
  induction t using List.reverseRecOn with
  | nil => simp at hne
  | append_singleton t n ih =>
    rw [← List.append_assoc] at h
    have h1 := L.tree hs h
    by_cases ht : t = []
    · subst ht; simpa using h1
    · exact ih (by rw [h1]; simp) (by simp [ht])

theorem clear_of (hs : I s) (h : L.V s k cs ≠ none) (ho : L.V s k cs ≠ some .other) : Clear (L.V s k) cs :=
  ⟨fun p hp hne => .inl (L.above hs h p hp hne), ho⟩

theorem clear_dir (hs : I s) (h : L.V s k cs = some .dir) : Clear (L.V s k) cs :=
  L.clear_of hs (by rw [h]; simp) (by rw [h]; simp)

/-- a name in a directory -/
theorem clear_in (hs : I s) {n : Str} (h : L.V s k cs = some .dir) (ho : L.V s k (cs ++ [n]) ≠ some .other) :
    Clear (L.V s k) (cs ++ [n]) := by
  refine ⟨fun p hp hne => .inl ?_, ho⟩
  rcases prefix_snoc_iff.1 hp with h1 | h1
  · by_cases hp' : p = cs
    · rw [hp', h]
    · exact L.above hs (by rw [h]; simp) p h1 hp'
  · exact absurd h1 hne

theorem none_below (hs : I s) {t : List Str} (h : L.V s k cs = none) : L.V s k (cs ++ t) = none := by
  induction t using List.reverseRecOn with
  | nil => simpa using h
  | append_singleton t n ih =>
    cases hx : L.V s k (cs ++ (t ++ [n])) with
    | none => rfl
    | some x =>
      have := L.tree hs (cs := cs ++ t) (n := n) (k := k) (by rw [List.append_assoc, hx]; simp)
      rw [ih] at this; simp at this

/-! ## makedirs -/

/-- the map with all of `cs` made directories -/
noncomputable def _root_.Verif.Any.mkdirs (V : κ → List Str → Option Kind) (k : κ) (cs : List Str) :
    κ → List Str → Option Kind := by
  classical exact fun k' p => if k' = k ∧ p <+: cs then some .dir else V k' p

omit L in
theorem _root_.Verif.Any.mkdirs_eq {V : κ → List Str → Option Kind} (h : ∀ p, p <+: cs → V k p = some .dir) :
    mkdirs V k cs = V := by
  funext k' p
  unfold mkdirs
  split
  · rename_i c; rw [c.1, h p c.2]
  · rfl

omit L in
theorem _root_.Verif.Any.mkdirs_snoc {V : κ → List Str → Option Kind} {n : Str} :
    upd (mkdirs V k cs) k (cs ++ [n]) (some .dir) = mkdirs V k (cs ++ [n]) := by
  funext k' p
  unfold mkdirs upd
  by_cases hk : k' = k
  · by_cases hp : p = cs ++ [n]
    · simp [hk, hp]
    · simp [hk, hp, prefix_snoc_iff]
  · simp [hk]

/-- `makedirs` makes what is missing of a path that is not blocked by a file or link -/
theorem makedirs (depth : Nat) : ∀ {s : σ} {cs : List Str}, I s → Nm cs → (∀ p, p <+: cs → L.V s k p = some .dir ∨ L.V s k p = none) →
    cs.length < depth → ∃ s', makedirs O depth (L.at_ k cs) s = (.ok (), s') ∧ I s' ∧ L.V s' = mkdirs (L.V s) k cs := by
  induction depth with
  | zero => intro s cs _ _ _ h; simp at h
  | succ depth ih =>
    intro s cs hs hn hp hl
    have hc : Clear (L.V s k) cs := ⟨fun p h _ => hp p h, by rcases hp cs (List.prefix_refl _) with h | h <;> simp [h]⟩
    unfold Any.makedirs
    rw [bind_ok (L.uIsdir hs hn hc)]
    rcases hp cs (List.prefix_refl _) with h | h
    · refine ⟨s, by simp [isD, h], hs, (mkdirs_eq ?_).symm⟩
      intro p h1
      by_cases hpc : p = cs
      · rw [hpc, h]
      · exact L.above hs (by rw [h]; simp) p h1 hpc
    · have hf : isD (L.V s k cs) = false := by rw [h]; rfl
      rw [hf, if_neg Bool.false_ne_true]
      rcases List.eq_nil_or_concat cs with rfl | ⟨init, n, rfl⟩
      · rw [L.root hs] at h; simp at h
      rw [List.concat_eq_append] at *
      rw [bind_lift (L.split hn)]
      have hn' : Nm init := hn.of_prefix
      have hp' : ∀ p, p <+: init → L.V s k p = some .dir ∨ L.V s k p = none :=
        fun p h1 => hp p (h1.trans (List.prefix_append _ _))
      have hc' : Clear (L.V s k) init :=
        ⟨fun p h _ => hp' p h, by rcases hp' init (List.prefix_refl _) with h | h <;> simp [h]⟩
      dsimp only
      rw [bind_ok (L.uIsdir hs hn' hc')]
      have hne : n ≠ [] := (hn.ok.clean n (by simp)).ne
      have last : ∀ s1, I s1 → L.V s1 = mkdirs (L.V s) k init → ∃ s', uMkdir O (L.at_ k (init ++ [n])) s1 = (.ok (), s') ∧ I s' ∧
          L.V s' = mkdirs (L.V s) k (init ++ [n]) := by
        intro s1 h1 h2
        have hv : L.V s1 k (init ++ [n]) = none := by
          rw [h2]; unfold mkdirs
          rw [if_neg (fun hpre => by have := hpre.2.length_le; simp only [List.length_append, List.length_singleton] at this; omega), h]
        obtain ⟨s', e1, e2, e3⟩ := L.mkdir h1 hn (by rw [h2]; simp [mkdirs]) hv
        exact ⟨s', by unfold uMkdir; rw [L.withConn h1 hn, e1], e2, by rw [e3, h2, mkdirs_snoc]⟩
      rcases hp' init (List.prefix_refl _) with h1 | h1
      · have hd : isD (L.V s k init) = true := by rw [h1]; rfl
        rw [hd, Bool.not_true, if_neg Bool.false_ne_true, if_pos hne]
        refine last s hs (mkdirs_eq ?_).symm
        intro p h2
        by_cases hpc : p = init
        · rw [hpc, h1]
        · exact L.above hs (by rw [h1]; simp) p h2 hpc
      · have hd : isD (L.V s k init) = false := by rw [h1]; rfl
        obtain ⟨s1, e1, e2, e3⟩ := ih hs hn' hp' (by simp at hl; omega)
        rw [hd, Bool.not_false, if_pos rfl, bind_ok e1, if_pos hne]
        exact last s1 e2 e3

theorem uMakedirs {depth : Nat} (hs : I s) (hn : Nm cs) (hp : ∀ p, p <+: cs → L.V s k p = some .dir ∨ L.V s k p = none)
    (hl : cs.length < depth) :
    ∃ s', uMakedirs O depth (L.at_ k cs) s = (.ok (), s') ∧ I s' ∧ L.V s' = mkdirs (L.V s) k cs := by
  unfold Any.uMakedirs
  rw [L.withConn hs hn]
  exact L.makedirs depth hs hn hp hl

end Laws
end Verif.Any
