import Verif.Reg.Plugins
/-!
# C117 Backends come from the entry points

Which backend and which URI class a scheme has after fs.py has been imported, for every list of entry points.
-/
namespace Verif.Props
open Verif.Reg

/-- the class that an entry point gives for a scheme -/
def gives (s : Option Str) : Load → Option Backend
  | .loads b => if b.scheme = some s then some b else none
  | _ => none

/-- the class of the last entry point for a scheme -/
def lastFor (s : Option Str) (l : List Load) : Option Backend := l.reverse.findSome? (gives s)

/-- the entry point gives a class with both attributes, or cannot be loaded -/
def Sound : Load → Prop
  | .loads b => b.scheme ≠ none ∧ b.uri ≠ none
  | .raises _ => True
  | .exits _ => False

instance : DecidablePred Sound := fun x => by cases x <;> unfold Sound <;> infer_instance

theorem lookup_slot {d : List (Option Str × Str)} {k k' : Option Str} {v : Str} :
    (slot d k v).lookup k' = if k' = k then some v else d.lookup k' := by
  induction d with
  | nil =>
    by_cases h : k' = k
    · subst h; simp [slot]
    · have : (k' == k) = false := by simpa using h
      simp [slot, List.lookup_cons, this, h]
  | cons e d ih =>
    obtain ⟨a, b⟩ := e
    unfold slot
    by_cases hk : k = a
    · subst hk
      rw [if_pos rfl]
      by_cases h : k' = k
      · subst h; simp
      · have : (k' == k) = false := by simpa using h
        simp [List.lookup_cons, this, h]
    · rw [if_neg hk, List.lookup_cons, List.lookup_cons, ih]
      by_cases h : k' = a
      · subst h
        have : ¬ k' = k := fun c => hk c.symm
        simp [this]
      · have : (k' == a) = false := by simpa using h
        simp [this]

theorem lastFor_cons {s : Option Str} {x : Load} {l : List Load} : lastFor s (x :: l) = (lastFor s l).or (gives s x) := by
  unfold lastFor
  rw [List.reverse_cons, List.findSome?_append]
  simp

/-- What an import leaves: it succeeds, and every scheme has the backend and the URI class of the last entry point for
    it; entry points that cannot be loaded do not count. -/
theorem C117_last {l : List Load} (h : ∀ x ∈ l, Sound x) (t : Tables) :
    ∃ t', loadAll l t = (.ok (), t') ∧ ∀ s,
      t'.schemes.lookup s = ((lastFor s l).map Backend.name).or (t.schemes.lookup s) ∧
      t'.uris.lookup s = ((lastFor s l).bind Backend.uri).or (t.uris.lookup s) := by
  induction l generalizing t with
  | nil => exact ⟨t, rfl, fun s => by simp [lastFor]⟩
  | cons x l ih =>
    have hx := h x (by simp)
    have hl := fun y hy => h y (List.mem_cons_of_mem _ hy)
    cases x with
    | exits e => exact absurd hx id
    | raises e =>
      obtain ⟨t', h1, h2⟩ := ih hl t
      exact ⟨t', h1, fun s => by rw [lastFor_cons]; simpa [gives] using h2 s⟩
    | loads b =>
      obtain ⟨n, sc, u⟩ := b
      obtain ⟨s0, rfl⟩ := Option.ne_none_iff_exists'.1 hx.1
      obtain ⟨u0, rfl⟩ := Option.ne_none_iff_exists'.1 hx.2
      obtain ⟨t', h1, h2⟩ := ih hl ⟨slot t.schemes s0 n, slot t.uris s0 u0⟩
      refine ⟨t', h1, fun s => ?_⟩
      obtain ⟨a, b⟩ := h2 s
      rw [a, b, lookup_slot, lookup_slot, lastFor_cons]
      cases hL : lastFor s l with
      | some y =>
        obtain ⟨x, hx, hy⟩ := List.exists_of_findSome?_eq_some hL
        have hS := hl x (List.mem_reverse.1 hx)
        cases x with
        | loads b' =>
          have : y = b' := by
            simp only [gives] at hy
            split at hy
            · exact (Option.some.inj hy).symm
            · cases hy
          subst this
          obtain ⟨u1, e1⟩ := Option.ne_none_iff_exists'.1 hS.2
          simp [e1]
        | raises e => cases hy
        | exits e => cases hy
      | none =>
        by_cases hs : s = s0
        · subst hs; simp [gives]
        · have : ¬ s0 = s := fun c => hs c.symm
          simp [gives, hs, this]

/-- entry points that cannot be loaded change nothing, wherever they are -/
theorem C117_skip (l : List Load) (t : Tables) : loadAll (l.filter fun | .raises _ => false | _ => true) t = loadAll l t := by
  induction l generalizing t with
  | nil => rfl
  | cons x l ih =>
    cases x with
    | raises e => exact ih t
    | exits e => rfl
    | loads b =>
      show loadAll (.loads b :: _) t = _
      unfold loadAll
      cases (Load.loads b).turn t with
      | mk r t' =>
        cases r with
        | error e => rfl
        | ok u => exact ih t'

/-- if no two classes have the same scheme, the order of the entry points does not matter -/
theorem C117_order {l l' : List Load} (hp : l.Perm l') (h : ∀ x ∈ l, Sound x)
    (hd : ∀ s x y a b, x ∈ l → y ∈ l → gives s x = some a → gives s y = some b → a = b) (t : Tables) :
    ∃ u u', loadAll l t = (.ok (), u) ∧ loadAll l' t = (.ok (), u') ∧
      ∀ s, u.schemes.lookup s = u'.schemes.lookup s ∧ u.uris.lookup s = u'.uris.lookup s := by
  obtain ⟨u, h1, h2⟩ := C117_last h t
  obtain ⟨u', h1', h2'⟩ := C117_last (fun x hx => h x (hp.mem_iff.2 hx)) t
  refine ⟨u, u', h1, h1', fun s => ?_⟩
  have e : lastFor s l = lastFor s l' := by
    have key : ∀ {m m' : List Load}, (∀ x, x ∈ m ↔ x ∈ m') →
        (∀ x y a b, x ∈ m → y ∈ m → gives s x = some a → gives s y = some b → a = b) → ∀ {a}, lastFor s m = some a → lastFor s m' = some a := by
      intro m m' hm hd a ha
      obtain ⟨x, hx, hxa⟩ := List.exists_of_findSome?_eq_some ha
      cases hb : lastFor s m' with
      | none =>
        have := List.findSome?_eq_none_iff.1 hb x (List.mem_reverse.2 ((hm x).1 (List.mem_reverse.1 hx)))
        rw [hxa] at this; cases this
      | some b =>
        obtain ⟨y, hy, hyb⟩ := List.exists_of_findSome?_eq_some hb
        rw [hd x y a b (List.mem_reverse.1 hx) ((hm y).2 (List.mem_reverse.1 hy)) hxa hyb]
    have h3 : ∀ x, x ∈ l ↔ x ∈ l' := fun x => hp.mem_iff
    cases ha : lastFor s l with
    | some a => exact (key h3 (hd s) ha).symm
    | none =>
      cases hb : lastFor s l' with
      | none => rfl
      | some b =>
        have := key (fun x => (h3 x).symm) (fun x y a b hx hy => hd s x y a b ((h3 x).2 hx) ((h3 y).2 hy)) hb
        rw [ha] at this; cases this
  rw [(h2 s).1, (h2 s).2, (h2' s).1, (h2' s).2, e]
  exact ⟨rfl, rfl⟩

/-- a class without one of the attributes, or what is not an `Exception`, ends the import, with AttributeError or that exception; entry
    points after it are not even tried -/
theorem C117_stops {l m m' : List Load} {x : Load} (hl : ∀ y ∈ l, Sound y) (hx : ¬ Sound x) (t : Tables) :
    ∃ e, (loadAll (l ++ x :: m) t).1 = .error e ∧ (x = .exits e ∨ (∃ b, x = .loads b) ∧ e = .attributeError) ∧
      loadAll (l ++ x :: m') t = loadAll (l ++ x :: m) t := by
  induction l generalizing t with
  | nil =>
    show ∃ e, (loadAll (x :: m) t).1 = .error e ∧ (x = .exits e ∨ (∃ b, x = .loads b) ∧ e = .attributeError) ∧ loadAll (x :: m') t = loadAll (x :: m) t
    unfold loadAll
    cases x with
    | raises e => exact absurd trivial hx
    | exits e => exact ⟨e, rfl, .inl rfl, rfl⟩
    | loads b =>
      obtain ⟨n, sc, u⟩ := b
      cases sc with
      | none => exact ⟨_, rfl, .inr ⟨⟨_, rfl⟩, rfl⟩, rfl⟩
      | some s =>
        cases u with
        | none => exact ⟨_, rfl, .inr ⟨⟨_, rfl⟩, rfl⟩, rfl⟩
        | some u => exact absurd ⟨by simp, by simp⟩ hx
  | cons y l ih =>
    show ∃ e, (loadAll (y :: (l ++ x :: m)) t).1 = .error e ∧ (x = .exits e ∨ (∃ b, x = .loads b) ∧ e = .attributeError) ∧ loadAll (y :: (l ++ x :: m')) t = loadAll (y :: (l ++ x :: m)) t
    unfold loadAll
    obtain ⟨t', ht⟩ : ∃ t', y.turn t = (.ok (), t') := by
      have hy := hl y (by simp)
      cases y with
      | raises e => exact ⟨t, rfl⟩
      | exits e => exact hy.elim
      | loads b =>
        obtain ⟨n, sc, u⟩ := b
        cases sc with
        | none => exact absurd rfl hy.1
        | some s =>
          cases u with
          | none => exact absurd rfl hy.2
          | some u => exact ⟨_, rfl⟩
    rw [ht]
    exact ih (fun y hy => hl y (List.mem_cons_of_mem _ hy)) t'

/-- the name of a URI class of the model -/
def className : UriClass → Str
  | .base => cl!"BaseUri"
  | .localfs => cl!"LocalFileSystemUri"
  | .memory => cl!"MemoryFileSystemUri"
  | .zip => cl!"ZipFileSystemUri"

/-- The shipped entry points, in any order and with any others that cannot be loaded between them: exactly the schemes
    file, memory and zip have a backend, and `URI` takes the classes that the model of URIs takes. -/
theorem C117_shipped {l : List Load} (hp : (l.filter fun | .raises _ => false | _ => true).Perm shipped) :
    ∃ t, loadAll l ⟨[], []⟩ = (.ok (), t) ∧ (∀ s, t.uriClass s = className (classOf s)) ∧
      ∀ s, t.schemes.lookup s ≠ none ↔ s = some cl!"file" ∨ s = some cl!"memory" ∨ s = some cl!"zip" := by
  obtain ⟨u, u', h1, h2, h3⟩ := C117_order hp.symm (by decide) (by
    intro s x y a b hx hy ha hb
    have key : ∀ x ∈ shipped, ∀ y ∈ shipped, x = y ∨ ∀ a b, x = .loads a → y = .loads b → a.scheme ≠ b.scheme := by
      intro x hx y hy
      simp only [shipped, List.mem_cons, List.not_mem_nil, or_false] at hx hy
      rcases hx with rfl | rfl | rfl <;> rcases hy with rfl | rfl | rfl <;> first
        | exact .inl rfl
        | exact .inr (by rintro a b ⟨⟩ ⟨⟩; decide)
    rcases key x hx y hy with rfl | c
    · rw [ha] at hb; exact Option.some.inj hb
    · cases x with
      | loads a' =>
        cases y with
        | loads b' =>
          simp only [gives] at ha hb
          split at ha
          · split at hb
            · rename_i c1 c2; exact absurd (c1.trans c2.symm) (c _ _ rfl rfl)
            · cases hb
          · cases ha
        | raises e => cases hb
        | exits e => cases hb
      | raises e => cases ha
      | exits e => cases ha) ⟨[], []⟩
  rw [C117_skip] at h2
  refine ⟨u', h2, ?_⟩
  have hu : u = ⟨[(some cl!"file", cl!"LocalFileSystem"), (some cl!"memory", cl!"MemoryFileSystem"), (some cl!"zip", cl!"ZipFileSystem")],
      [(some cl!"file", cl!"LocalFileSystemUri"), (some cl!"memory", cl!"MemoryFileSystemUri"), (some cl!"zip", cl!"ZipFileSystemUri")]⟩ := by
    have : (loadAll shipped ⟨[], []⟩).2 = u := by rw [h1]
    rw [← this]
    decide +kernel
  subst hu
  constructor
  · intro s
    unfold Tables.uriClass
    rw [← (h3 (some s)).2]
    unfold classOf
    have e : ∀ x : Str, ((some s : Option Str) == some x) = decide (s = x) := by intro x; by_cases h : s = x <;> simp [h]
    simp only [List.lookup_cons, List.lookup_nil, e]
    by_cases c1 : s = cl!"file"
    · simp [c1, className]
    by_cases c2 : s = cl!"memory"
    · simp [c2, className]
    by_cases c3 : s = cl!"zip"
    · simp [c3, className]
    simp [c1, c2, c3, className]
  · intro s
    rw [← (h3 s).1]
    simp only [List.lookup_cons, List.lookup_nil]
    by_cases c1 : s = some cl!"file"
    · simp [c1]
    by_cases c2 : s = some cl!"memory"
    · simp [c2]
    by_cases c3 : s = some cl!"zip"
    · simp [c3]
    have e1 : (s == some cl!"file") = false := by simpa using c1
    have e2 : (s == some cl!"memory") = false := by simpa using c2
    have e3 : (s == some cl!"zip") = false := by simpa using c3
    simp [c1, c2, c3, e1, e2, e3]

/-- A class with a scheme but without `uri` ends the import half way: the backend is registered, but URIs of the
    scheme have the class without a backend; the shipped backends after it are missing. -/
theorem C117_half_refuted : loadAll (.loads ⟨cl!"Ssh", some (some cl!"ssh"), none⟩ :: shipped) ⟨[], []⟩ =
    (.error .attributeError, ⟨[(some cl!"ssh", cl!"Ssh")], []⟩) := by decide +kernel

/-- a plugin of another distribution takes over a shipped scheme, if it comes later -/
theorem C117_takeover_refuted : ∃ t, loadAll (shipped ++ [.loads ⟨cl!"Mine", some (some cl!"file"), some cl!"MyUri"⟩]) ⟨[], []⟩ = (.ok (), t) ∧
    t.uriClass cl!"file" = cl!"MyUri" ∧ t.schemes.lookup (some cl!"file") = some cl!"Mine" := ⟨_, rfl, by decide +kernel, by decide +kernel⟩

/-- a plugin that cannot be loaded between the shipped ones, another one that can, and one for the same scheme -/
example : ∃ t, loadAll (shipped ++ [.raises .valueError, .loads ⟨cl!"Ssh", some (some cl!"ssh"), some cl!"SshUri"⟩,
      .loads ⟨cl!"Ssh2", some (some cl!"ssh"), some cl!"Ssh2Uri"⟩]) ⟨[], []⟩ = (.ok (), t) ∧
    t.uris.lookup (some cl!"ssh") = some cl!"Ssh2Uri" ∧ t.schemes.lookup (some cl!"zip") = some cl!"ZipFileSystem" := by
  obtain ⟨t, h1, h2⟩ := C117_last (l := shipped ++ [.raises .valueError, .loads ⟨cl!"Ssh", some (some cl!"ssh"), some cl!"SshUri"⟩,
      .loads ⟨cl!"Ssh2", some (some cl!"ssh"), some cl!"Ssh2Uri"⟩]) (by decide) ⟨[], []⟩
  exact ⟨t, h1, (h2 _).2.trans (by decide +kernel), (h2 _).1.trans (by decide +kernel)⟩

example : ∃ t, loadAll (.raises .valueError :: shipped.reverse) ⟨[], []⟩ = (.ok (), t) ∧ ∀ s, t.uriClass s = className (classOf s) := by
  obtain ⟨t, h1, h2, -⟩ := C117_shipped (l := .raises .valueError :: shipped.reverse) (List.reverse_perm shipped)
  exact ⟨t, h1, h2⟩

example : loadAll ([.raises .valueError] ++ .exits .keyError :: shipped) ⟨[], []⟩ = loadAll ([.raises .valueError] ++ .exits .keyError :: []) ⟨[], []⟩ := by
  obtain ⟨e, -, -, h⟩ := C117_stops (l := [.raises .valueError]) (m := []) (m' := shipped) (x := .exits .keyError) (by decide) (by decide) ⟨[], []⟩
  exact h

end Verif.Props
