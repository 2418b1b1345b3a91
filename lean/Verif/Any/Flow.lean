import Verif.Any.Copy
/-!
# Copying a tree out of something that is only read

`Source` is what the recursive copy asks of the place it reads from, `Sink` is what it does to the place it writes to.
The tree read may be seen through links, or have links in it, or be in another kind of file system.
-/
namespace Verif.Any
open Mem (Meth)
open Verif.Spec Verif.Gen

/-- what can be copied -/
inductive Ent where
  | dir
  | file (d : Bytes)
  | link (t : Str)
deriving DecidableEq

variable {σ : Type}

/-- A tree that is read while the states satisfy `J`: `T` is the tree, `src` the URIs, `ld` are the links that lead to
    directories, `fl` says that links are followed. -/
structure Source (O : Ops σ) (fl : Bool) where
  c : O.Conn
  J : σ → Prop
  T : List Str → Option Ent
  src : List Str → Uri
  ld : List Str → Bool
  names : List Str → List Str
  parent : ∀ {x n}, T (x ++ [n]) ≠ none → T x = some .dir
  sorted : ∀ {x}, (names x).Pairwise strLt
  mem_names : ∀ {x n}, n ∈ names x ↔ T (x ++ [n]) ≠ none
  listdir : ∀ {s x}, J s → T x = some .dir → ∃ l, O.listdir c (src x) s = (.ok l, s) ∧ sortStr l = names x
  div : ∀ {x n}, T (x ++ [n]) ≠ none → (src x).div n = .ok (src (x ++ [n]))
  isdir : ∀ {s x n o}, J s → T (x ++ [n]) = some o →
    O.isdir c (src (x ++ [n])) s = (.ok (match o with | .dir => true | .file _ => false | .link _ => ld (x ++ [n])), s)
  islink : ∀ {s x n o}, J s → T (x ++ [n]) = some o →
    ∃ b, uIslink O (src (x ++ [n])) s = (.ok b, s) ∧ (b && !fl) = (match o with | .link _ => true | _ => false)

theorem Source.nodup {O : Ops σ} {fl : Bool} (S : Source O fl) {x : List Str} : (S.names x).Nodup := S.sorted.imp fun h => h.2

/-- put one thing at one place -/
def put (D : List Str → Option Ent) (p : List Str) (o : Ent) : List Str → Option Ent :=
  fun q => if q = p then some o else D q

theorem put_same {D : List Str → Option Ent} {p : List Str} {o : Ent} : put D p o p = some o := if_pos rfl
theorem put_ne {D : List Str → Option Ent} {p q : List Str} {o : Ent} (h : q ≠ p) : put D p o q = D q := if_neg h

namespace Source
variable {O : Ops σ} {fl : Bool} (S : Source O fl)

/-- what `isdir` says -/
def asDir (x : List Str) : Bool :=
  match S.T x with
  | some .dir => true
  | some (.link _) => S.ld x
  | _ => false

/-- what `walk` gives as directories -/
def dirs (x : List Str) : List Str := (S.names x).filter fun n => S.asDir (x ++ [n])
/-- what `walk` gives as files -/
def files (x : List Str) : List Str := (S.names x).filter fun n => !S.asDir (x ++ [n])

theorem isdir' {s : σ} {x : List Str} {n : Str} (hs : S.J s) (hv : S.T (x ++ [n]) ≠ none) :
    O.isdir S.c (S.src (x ++ [n])) s = (.ok (S.asDir (x ++ [n])), s) := by
  obtain ⟨o, ho⟩ := Option.ne_none_iff_exists'.1 hv
  rw [S.isdir hs ho]
  unfold asDir
  rw [ho]
  cases o <;> rfl

theorem classify {s : σ} (hs : S.J s) {x : List Str} : ∀ l : List Str, (∀ n ∈ l, S.T (x ++ [n]) ≠ none) →
    Any.classify O S.c (S.src x) l s =
      (.ok (l.filter (fun n => S.asDir (x ++ [n])), l.filter (fun n => !S.asDir (x ++ [n]))), s)
  | [], _ => rfl
  | n :: l, h => by
    have hn := h n (by simp)
    unfold Any.classify
    rw [bind_lift (S.div hn), bind_ok (S.isdir' hs hn), bind_ok (classify hs l fun m hm => h m (by simp [hm]))]
    cases hb : S.asDir (x ++ [n]) <;> simp [hb]

/-- the names in a directory are found and sorted out -/
theorem walk_eq {τ : Type} {s : σ} (hs : S.J s) {x : List Str} (hd : S.T x = some .dir) {td : Bool}
    {body : τ → Uri → List Str → List Str → OM σ (τ × List Str)} {depth : Nat} {t : τ} :
    walk O S.c td fl body (depth + 1) (S.src x) t s =
      (if td then do
        let (t, dirs) ← body t (S.src x) (S.dirs x) (S.files x)
        walkDirs O fl (walk O S.c td fl body depth) (S.src x) dirs t
      else do
        let t ← walkDirs O fl (walk O S.c td fl body depth) (S.src x) (S.dirs x) t
        let (t, _) ← body t (S.src x) (S.dirs x) (S.files x)
        pure t) s := by
  obtain ⟨l, h1, h2⟩ := S.listdir hs hd
  conv_lhs => unfold walk
  rw [bind_ok h1, h2, bind_ok (S.classify hs (S.names x) fun n hn => S.mem_names.1 hn)]
  rfl

theorem mem_dirs {x : List Str} {n : Str} : n ∈ S.dirs x ↔ S.T (x ++ [n]) ≠ none ∧ S.asDir (x ++ [n]) = true := by
  unfold dirs; rw [List.mem_filter, S.mem_names]
theorem mem_files {x : List Str} {n : Str} : n ∈ S.files x ↔ S.T (x ++ [n]) ≠ none ∧ S.asDir (x ++ [n]) = false := by
  unfold files; rw [List.mem_filter, S.mem_names]; simp

theorem asDir_dir {x : List Str} (h : S.T x = some .dir) : S.asDir x = true := by unfold asDir; rw [h]

theorem below {x : List Str} (hx : S.T x ≠ some .dir) : ∀ {y : List Str}, y ≠ [] → S.T (x ++ y) = none := by
  intro y
  induction y using List.reverseRecOn with
  | nil => intro h; exact absurd rfl h
  | append_singleton y n ih =>
    intro _
    by_contra hc
    rw [← List.append_assoc] at hc
    have hp := S.parent hc
    by_cases hy : y = []
    · rw [hy, List.append_nil] at hp; exact hx hp
    · rw [ih hy] at hp; simp at hp

/-- a name that is left out is on the way to `p` -/
def Cut (ig p : List Str) : Prop := ∃ a n, a ++ [n] <+: p ∧ n ∈ ig ∧ S.asDir (a ++ [n]) = true

open Classical in
/-- the tree without what is left out -/
noncomputable def kept (ig p : List Str) : Option Ent := if S.Cut ig p then none else S.T p

theorem cut_snoc {ig x : List Str} {n : Str} (h : ¬ S.Cut ig x) : S.Cut ig (x ++ [n]) ↔ n ∈ ig ∧ S.asDir (x ++ [n]) = true := by
  constructor
  · rintro ⟨a, m, h1, h2, h3⟩
    rcases prefix_snoc_iff.1 h1 with h1 | h1
    · exact absurd ⟨a, m, h1, h2, h3⟩ h
    · obtain ⟨rfl, e⟩ := List.append_inj' h1 rfl
      simp only [List.cons.injEq, and_true] at e
      subst e
      exact ⟨h2, h3⟩
  · rintro ⟨h1, h2⟩; exact ⟨x, n, List.prefix_refl _, h1, h2⟩

theorem Cut.mono {S : Source O fl} {ig p q : List Str} (h : S.Cut ig p) (hp : p <+: q) : S.Cut ig q := by
  obtain ⟨a, n, h1, h2, h3⟩ := h
  exact ⟨a, n, h1.trans hp, h2, h3⟩

theorem cut_nil {ig : List Str} : ¬ S.Cut ig [] := by rintro ⟨a, n, h, -⟩; simp at h

/-- what the walk yields for a directory -/
def row (p : List Str) : Uri × List Str × List Str := (S.src p, S.dirs p, S.files p)

/-- `walk` yields every directory once -/
theorem walk_collect (td : Bool) {s : σ} (hs : S.J s) (depth : Nat) : ∀ (x : List Str) (t : List (Uri × List Str × List Str)),
    S.T x = some .dir → (∀ y, S.T (x ++ y) = some .dir → y.length < depth) →
    ∃ ps : List (List Str), walk O S.c td fl Laws.collect depth (S.src x) t s = (.ok (t ++ ps.map S.row), s) ∧
      (∀ p, p ∈ ps ↔ x <+: p ∧ S.T p = some .dir) ∧ ps.Pairwise (Order td) := by
  induction depth with
  | zero =>
    intro x t hd hh
    exact absurd (hh [] (by simpa using hd)) (by simp)
  | succ depth ih =>
    intro x t hd hh
    have loop : ∀ (l : List Str) (t : List (Uri × List Str × List Str)), l.Pairwise strLt → (∀ n ∈ l, n ∈ S.dirs x) →
        ∃ ps : List (List Str), walkDirs O fl (walk O S.c td fl Laws.collect depth) (S.src x) l t s =
            (.ok (t ++ ps.map S.row), s) ∧
          (∀ p, p ∈ ps ↔ (∃ n ∈ l, x ++ [n] <+: p) ∧ S.T p = some .dir) ∧ ps.Pairwise (Order td) := by
      intro l
      induction l with
      | nil => intro t _ _; exact ⟨[], by simp [walkDirs], by simp, .nil⟩
      | cons n l ihl =>
        intro t hnd hl
        obtain ⟨hn1, hn2⟩ := S.mem_dirs.1 (hl n (by simp))
        obtain ⟨o, ho⟩ := Option.ne_none_iff_exists'.1 hn1
        obtain ⟨b, hb1, hb2⟩ := S.islink hs ho
        have hstep : ∀ t', walkDirs O fl (walk O S.c td fl Laws.collect depth) (S.src x) (n :: l) t' s =
            ((if (!b || fl) = true then walk O S.c td fl Laws.collect depth (S.src (x ++ [n])) t' else pure t') >>= fun t'' =>
              walkDirs O fl (walk O S.c td fl Laws.collect depth) (S.src x) l t'') s := by
          intro t'
          conv_lhs => unfold walkDirs
          rw [bind_lift (S.div hn1), bind_ok hb1]
          cases (!b || fl) <;> rfl
        rw [hstep]
        -- one of them
        obtain ⟨ps1, h1, h2, h3⟩ : ∃ ps1 : List (List Str),
            (if (!b || fl) = true then walk O S.c td fl Laws.collect depth (S.src (x ++ [n])) t else pure t) s = (.ok (t ++ ps1.map S.row), s) ∧
            (∀ p, p ∈ ps1 ↔ x ++ [n] <+: p ∧ S.T p = some .dir) ∧ ps1.Pairwise (Order td) := by
          by_cases hdir : S.T (x ++ [n]) = some .dir
          · rw [hdir] at ho
            cases ho
            rw [if_pos (by cases b <;> cases fl <;> simp_all)]
            exact ih (x ++ [n]) t hdir (fun y hy => by
              have := hh (n :: y) (by simpa using hy)
              simp at this; omega)
          · rw [if_neg]
            · refine ⟨[], by simp, fun p => ?_, .nil⟩
              simp only [List.not_mem_nil, false_iff]
              rintro ⟨⟨y, rfl⟩, hp⟩
              by_cases hy : y = []
              · subst hy; rw [List.append_nil] at hp; exact hdir hp
              · rw [S.below hdir hy] at hp; simp at hp
            · cases o with
              | dir => exact absurd ho hdir
              | link t => cases b <;> cases fl <;> simp_all
              | file d => unfold Source.asDir at hn2; rw [ho] at hn2; simp at hn2
        obtain ⟨ps2, k1, k2, k3⟩ := ihl (t ++ ps1.map S.row) (List.pairwise_cons.1 hnd).2 (fun x hx => hl x (by simp [hx]))
        refine ⟨ps1 ++ ps2, ?_, ?_, ?_⟩
        · rw [bind_ok h1, k1]
          simp
        · intro p
          rw [List.mem_append, h2, k2]
          constructor
          · rintro (⟨a, b⟩ | ⟨⟨m, hm, a⟩, b⟩)
            · exact ⟨⟨n, by simp, a⟩, b⟩
            · exact ⟨⟨m, by simp [hm], a⟩, b⟩
          · rintro ⟨⟨m, hm, a⟩, b⟩
            rcases List.mem_cons.1 hm with rfl | hm
            · exact .inl ⟨a, b⟩
            · exact .inr ⟨⟨m, hm, a⟩, b⟩
        · refine List.pairwise_append.2 ⟨h3, k3, ?_⟩
          intro a ha' b hb'
          obtain ⟨ha1, -⟩ := (h2 a).1 ha'
          obtain ⟨⟨m, hm, hb1⟩, -⟩ := (k2 b).1 hb'
          exact order_beside ((List.pairwise_cons.1 hnd).1 m hm) ha1 hb1
    have hnd : (S.dirs x).Pairwise strLt := S.sorted.filter _
    have cover : ∀ p, x <+: p → S.T p = some .dir → p ≠ x → ∃ n ∈ S.dirs x, x ++ [n] <+: p := by
      intro p hp hpd hne
      obtain ⟨y, rfl⟩ := hp
      cases y with
      | nil => simp at hne
      | cons n y =>
        have hdn : S.T (x ++ [n]) = some .dir := by
          by_contra hc
          by_cases hy : y = []
          · subst hy; exact hc hpd
          · have := S.below hc hy
            rw [List.append_assoc, List.singleton_append, hpd] at this; simp at this
        exact ⟨n, S.mem_dirs.2 ⟨by rw [hdn]; simp, S.asDir_dir hdn⟩, ⟨y, by simp⟩⟩
    rw [S.walk_eq hs hd]
    cases td with
    | true =>
      obtain ⟨ps, h1, h2, h3⟩ := loop (S.dirs x) (t ++ [S.row x]) hnd (fun n h => h)
      refine ⟨x :: ps, ?_, ?_, ?_⟩
      · rw [if_pos rfl]
        have h0 : Laws.collect t (S.src x) (S.dirs x) (S.files x) s = (.ok (t ++ [S.row x], S.dirs x), s) := rfl
        rw [bind_ok h0]
        show walkDirs O fl _ (S.src x) (S.dirs x) _ s = _
        rw [h1]; simp
      · intro p
        rw [List.mem_cons, h2]
        constructor
        · rintro (rfl | ⟨⟨n, -, a⟩, b⟩)
          · exact ⟨List.prefix_refl _, hd⟩
          · exact ⟨(List.prefix_append _ _).trans a, b⟩
        · rintro ⟨a, b⟩
          by_cases hp : p = x
          · exact .inl hp
          · exact .inr ⟨cover p a b hp, b⟩
      · refine List.pairwise_cons.2 ⟨fun b hb => ?_, h3⟩
        obtain ⟨⟨n, -, hb1⟩, -⟩ := (h2 b).1 hb
        exact order_down hb1
    | false =>
      obtain ⟨ps, h1, h2, h3⟩ := loop (S.dirs x) t hnd (fun n h => h)
      refine ⟨ps ++ [x], ?_, ?_, ?_⟩
      · rw [if_neg Bool.false_ne_true, bind_ok h1]
        show (Except.ok _, _) = _
        simp [row]
      · intro p
        rw [List.mem_append, h2, List.mem_singleton]
        constructor
        · rintro (⟨⟨n, -, a⟩, b⟩ | rfl)
          · exact ⟨(List.prefix_append _ _).trans a, b⟩
          · exact ⟨List.prefix_refl _, hd⟩
        · rintro ⟨a, b⟩
          by_cases hp : p = x
          · exact .inr hp
          · exact .inl ⟨cover p a b hp, b⟩
      · refine List.pairwise_append.2 ⟨h3, List.pairwise_singleton _ _, ?_⟩
        intro a ha b hb
        obtain ⟨⟨n, -, ha1⟩, -⟩ := (h2 a).1 ha
        rw [List.mem_singleton.1 hb]
        exact order_up ha1

theorem kept_noIgnore (p : List Str) : S.kept [] p = S.T p := by
  unfold kept; rw [if_neg]; rintro ⟨a, n, -, h, -⟩; simp at h

end Source

/-- The place that is written to: `D` is what is there, `dst` are the URIs; the states keep satisfying `J`. -/
structure Sink {O : Ops σ} {fl : Bool} (S : Source O fl) (depth : Nat) where
  D : σ → List Str → Option Ent
  dst : List Str → Uri
  div : ∀ {x n}, S.T (x ++ [n]) ≠ none → (dst x).div n = .ok (dst (x ++ [n]))
  base : ∀ {s x}, S.T x = some .dir →
    (if stripW ((S.src x).path.drop ((S.src []).path.length + 1)) ≠ [] then
        OM.lift ((dst []).div (stripW ((S.src x).path.drop ((S.src []).path.length + 1)))) else pure (dst []) : OM σ Uri) s = (.ok (dst x), s)
  mkdir : ∀ {s x n}, S.J s → S.T (x ++ [n]) = some .dir → D s x = some .dir → D s (x ++ [n]) = none →
    ∃ s', uMakedirs O depth (dst (x ++ [n])) s = (.ok (), s') ∧ S.J s' ∧ D s' = put (D s) (x ++ [n]) .dir
  file : ∀ {s x n d}, S.J s → S.T (x ++ [n]) = some (.file d) → D s x = some .dir → D s (x ++ [n]) = none →
    ∃ s', (do copyContent O (S.src (x ++ [n])) (dst (x ++ [n]))
              if (S.src (x ++ [n])).scheme = (dst (x ++ [n])).scheme then O.copystat S.c (S.src (x ++ [n])) (dst (x ++ [n])) : OM σ Unit) s
        = (.ok (), s') ∧ S.J s' ∧ D s' = put (D s) (x ++ [n]) (.file d)
  link : ∀ {s x n t}, S.J s → S.T (x ++ [n]) = some (.link t) → D s x = some .dir → D s (x ++ [n]) = none →
    ∃ s', copyLink O S.c (S.src (x ++ [n])) (dst (x ++ [n])) s = (.ok (), s') ∧ S.J s' ∧ D s' = put (D s) (x ++ [n]) (.link t)

namespace Sink
variable {O : Ops σ} {fl : Bool} {S : Source O fl} {depth0 : Nat} (K : Sink S depth0)

/-- fs.py:962-971 one file or link -/
theorem one {s : σ} {x : List Str} {n : Str} {o : Ent} (hs : S.J s) (ho : S.T (x ++ [n]) = some o) (hnd : o ≠ .dir)
    (hd : K.D s x = some .dir) (hv : K.D s (x ++ [n]) = none) :
    ∃ s', copyOne O S.c (S.src (x ++ [n])) (K.dst (x ++ [n])) fl s = (.ok (), s') ∧ S.J s' ∧ K.D s' = put (K.D s) (x ++ [n]) o := by
  obtain ⟨b, h1, h2⟩ := S.islink hs ho
  unfold copyOne
  rw [bind_ok h1]
  cases o with
  | dir => exact absurd rfl hnd
  | file d => rw [h2, if_neg Bool.false_ne_true]; exact K.file hs ho hd hv
  | link t => rw [h2, if_pos rfl]; exact K.link hs ho hd hv

/-- fs.py:951-960 one directory, or link to a directory -/
theorem oneDir {s : σ} {x : List Str} {n : Str} {o : Ent} (hs : S.J s) (ho : S.T (x ++ [n]) = some o) (hnd : ∀ d, o ≠ .file d)
    (hd : K.D s x = some .dir) (hv : K.D s (x ++ [n]) = none) :
    ∃ s', (do if (← uIslink O (S.src (x ++ [n]))) && !fl then copyLink O S.c (S.src (x ++ [n])) (K.dst (x ++ [n]))
              else uMakedirs O depth0 (K.dst (x ++ [n])) : OM σ Unit) s = (.ok (), s') ∧ S.J s' ∧ K.D s' = put (K.D s) (x ++ [n]) o := by
  obtain ⟨b, h1, h2⟩ := S.islink hs ho
  rw [bind_ok h1]
  cases o with
  | dir => rw [h2, if_neg Bool.false_ne_true]; exact K.mkdir hs ho hd hv
  | file d => exact absurd rfl (hnd d)
  | link t => rw [h2, if_pos rfl]; exact K.link hs ho hd hv

open Classical in
theorem copyFiles {x : List Str} : ∀ (l : List Str) {s : σ}, S.J s → K.D s x = some .dir → l.Nodup →
    (∀ n ∈ l, K.D s (x ++ [n]) = none ∧ S.T (x ++ [n]) ≠ none ∧ S.asDir (x ++ [n]) = false) →
    ∃ s', Any.copyFiles O S.c fl (S.src x) (K.dst x) l s = (.ok (), s') ∧ S.J s' ∧
      ∀ p, K.D s' p = if ∃ n ∈ l, p = x ++ [n] then S.T p else K.D s p := by
  intro l
  induction l with
  | nil => intro s hs _ _ _; exact ⟨s, rfl, hs, fun p => by simp⟩
  | cons n l ih =>
    intro s hs hd hnd hl
    obtain ⟨h1, h2, h3⟩ := hl n (by simp)
    have hnn := (List.nodup_cons.1 hnd).1
    obtain ⟨o, ho⟩ := Option.ne_none_iff_exists'.1 h2
    obtain ⟨s1, k1, k2, k3⟩ := K.one hs ho (by rintro rfl; rw [S.asDir_dir ho] at h3; simp at h3) hd h1
    obtain ⟨s2, j1, j2, j3⟩ := ih k2 (by rw [k3, put_ne (by simp)]; exact hd) (List.nodup_cons.1 hnd).2 (by
      intro m hm
      obtain ⟨g1, g2, g3⟩ := hl m (by simp [hm])
      refine ⟨?_, g2, g3⟩
      rw [k3, put_ne]
      · exact g1
      · intro e
        simp only [List.append_cancel_left_eq, List.cons.injEq, and_true] at e
        exact hnn (e ▸ hm))
    refine ⟨s2, ?_, j2, fun p => ?_⟩
    · unfold Any.copyFiles
      rw [bind_lift (S.div h2), bind_lift (K.div h2), bind_ok k1]
      exact j1
    · rw [j3]
      by_cases e : ∃ m ∈ l, p = x ++ [m]
      · rw [if_pos e, if_pos]
        obtain ⟨m, hm, e⟩ := e
        exact ⟨m, by simp [hm], e⟩
      · rw [if_neg e, k3]
        by_cases e' : p = x ++ [n]
        · rw [e', put_same, if_pos ⟨n, by simp, rfl⟩, ho]
        · rw [put_ne e', if_neg]
          rintro ⟨m, hm, h⟩
          rcases List.mem_cons.1 hm with rfl | hm
          · exact e' h
          · exact e ⟨m, hm, h⟩

open Classical in
theorem copyDirs {ig x : List Str} : ∀ (l E : List Str) {s : σ}, S.J s → K.D s x = some .dir → l.Nodup → E.Nodup →
    (∀ n ∈ l, K.D s (x ++ [n]) = none ∧ S.T (x ++ [n]) ≠ none ∧ S.asDir (x ++ [n]) = true) →
    ∃ s', Any.copyDirs O depth0 S.c ig fl (S.src x) (K.dst x) l E s = (.ok (E.filter fun n => ¬ (n ∈ l ∧ n ∈ ig)), s') ∧ S.J s' ∧
      ∀ p, K.D s' p = if ∃ n ∈ l, n ∉ ig ∧ p = x ++ [n] then S.T p else K.D s p := by
  intro l
  induction l with
  | nil => intro E s hs _ _ _ _; exact ⟨s, by simp [Any.copyDirs], hs, fun p => by simp⟩
  | cons n l ih =>
    intro E s hs hd hnd hE hl
    obtain ⟨h1, h2, h3⟩ := hl n (by simp)
    have hnn := (List.nodup_cons.1 hnd).1
    by_cases hig : n ∈ ig
    · obtain ⟨s2, k4, k5, k6⟩ := ih (E.erase n) hs hd (List.nodup_cons.1 hnd).2 (hE.erase n) (fun m hm => hl m (by simp [hm]))
      refine ⟨s2, ?_, k5, fun p => ?_⟩
      · unfold Any.copyDirs
        rw [if_pos hig, k4, hE.erase_eq_filter, List.filter_filter]
        congr 2
        apply List.filter_congr
        intro x _
        by_cases hx : x = n
        · subst hx; simp [hig]
        · simp [hx]
      · rw [k6]
        refine if_congr ?_ rfl rfl
        constructor
        · rintro ⟨m, hm, h⟩; exact ⟨m, by simp [hm], h⟩
        · rintro ⟨m, hm, h, h'⟩
          rcases List.mem_cons.1 hm with rfl | hm
          · exact absurd hig h
          · exact ⟨m, hm, h, h'⟩
    · obtain ⟨o, ho⟩ := Option.ne_none_iff_exists'.1 h2
      obtain ⟨s1, k1, k2, k3⟩ := K.oneDir hs ho (by rintro d rfl; unfold Source.asDir at h3; rw [ho] at h3; simp at h3) hd h1
      obtain ⟨s2, j1, j2, j3⟩ := ih E k2 (by rw [k3, put_ne (by simp)]; exact hd) (List.nodup_cons.1 hnd).2 hE (by
        intro m hm
        obtain ⟨g1, g2, g3⟩ := hl m (by simp [hm])
        refine ⟨?_, g2, g3⟩
        rw [k3, put_ne]
        · exact g1
        · intro e
          simp only [List.append_cancel_left_eq, List.cons.injEq, and_true] at e
          exact hnn (e ▸ hm))
      refine ⟨s2, ?_, j2, fun p => ?_⟩
      · unfold Any.copyDirs
        rw [if_neg hig, bind_lift (K.div h2), bind_lift (S.div h2)]
        have hk := bind_ok (f := fun _ => Any.copyDirs O depth0 S.c ig fl (S.src x) (K.dst x) l E) k1
        rw [bind_assoc] at hk
        have hf : E.filter (fun m => decide (¬ (m ∈ n :: l ∧ m ∈ ig))) = E.filter (fun m => decide (¬ (m ∈ l ∧ m ∈ ig))) := by
          apply List.filter_congr
          intro x _
          by_cases hx : x = n
          · subst hx; simp [hig]
          · simp [hx]
        rw [hf, ← j1, ← hk]
        refine congrFun (congrArg (uIslink O (S.src (x ++ [n])) >>= ·) ?_) s
        funext b
        cases (b && !fl) <;> rfl
      · rw [j3]
        by_cases e : ∃ m ∈ l, m ∉ ig ∧ p = x ++ [m]
        · rw [if_pos e, if_pos]
          obtain ⟨m, hm, e⟩ := e
          exact ⟨m, by simp [hm], e⟩
        · rw [if_neg e, k3]
          by_cases e' : p = x ++ [n]
          · rw [e', put_same, if_pos ⟨n, by simp, hig, rfl⟩, ho]
          · rw [put_ne e', if_neg]
            rintro ⟨m, hm, h, h'⟩
            rcases List.mem_cons.1 hm with rfl | hm
            · exact e' h'
            · exact e ⟨m, hm, h, h'⟩

/-- the consumer of the walk in `copy` -/
def copier (ig : List Str) (_ : Unit) (top : Uri) (dirs files : List Str) : OM σ (Unit × List Str) := do
  let dirs' ← copyBody O depth0 S.c ig fl ((S.src []).path.length + 1) (K.dst []) top dirs files
  pure ((), dirs')

open Classical in
/-- the recursive copy: what is below `x` arrives -/
theorem walk {ig : List Str} (depth : Nat) :
    ∀ (x : List Str) {s : σ}, S.J s → S.T x = some .dir → ¬ S.Cut ig x → K.D s x = some .dir → (∀ y, y ≠ [] → K.D s (x ++ y) = none) →
    (∀ y, S.T (x ++ y) = some .dir → y.length < depth) →
    ∃ s', Any.walk O S.c true fl (K.copier ig) depth (S.src x) () s = (.ok (), s') ∧ S.J s' ∧
      ∀ p, K.D s' p = if x <+: p ∧ p ≠ x then S.kept ig p else K.D s p := by
  induction depth with
  | zero =>
    intro x s _ hd _ _ _ hh
    exact absurd (hh [] (by simpa using hd)) (by simp)
  | succ depth ih =>
    intro x s hs hd hcut hdd hemp hh
    have nD : (S.dirs x).Nodup := S.nodup.filter _
    have nF : (S.files x).Nodup := S.nodup.filter _
    obtain ⟨s1, a1, a2, a3⟩ := K.copyDirs (ig := ig) (x := x) (S.dirs x) (S.dirs x) hs hdd nD nD (fun n hn => by
      obtain ⟨h1, h2⟩ := S.mem_dirs.1 hn
      exact ⟨hemp [n] (by simp), h1, h2⟩)
    obtain ⟨s2, b1, b2, b3⟩ := K.copyFiles (x := x) (S.files x) a2 (by
      rw [a3, if_neg (by rintro ⟨n, -, -, h⟩; simpa using congrArg List.length h)]; exact hdd) nF (fun n hn => by
      obtain ⟨h1, h2⟩ := S.mem_files.1 hn
      refine ⟨?_, h1, h2⟩
      rw [a3, if_neg]
      · exact hemp [n] (by simp)
      · rintro ⟨m, hm, -, e⟩
        simp only [List.append_cancel_left_eq, List.cons.injEq, and_true] at e
        rw [e, (S.mem_dirs.1 hm).2] at h2; simp at h2)
    -- one level down
    have lvl : ∀ p, K.D s2 p = if ∃ n, p = x ++ [n] then S.kept ig p else K.D s p := by
      intro p
      by_cases hp : ∃ n, p = x ++ [n]
      · rw [if_pos hp]
        obtain ⟨n, rfl⟩ := hp
        rw [b3, a3]
        unfold Source.kept
        rw [if_congr (S.cut_snoc hcut) rfl rfl]
        by_cases hv : S.T (x ++ [n]) = none
        · rw [if_neg, if_neg, hemp [n] (by simp), hv, ite_self]
          · rintro ⟨m, hm, -, e⟩
            rw [e] at hv; exact (S.mem_dirs.1 hm).1 hv
          · rintro ⟨m, hm, e⟩
            rw [e] at hv; exact (S.mem_files.1 hm).1 hv
        · cases hb : S.asDir (x ++ [n]) with
          | false =>
            rw [if_pos ⟨n, S.mem_files.2 ⟨hv, hb⟩, rfl⟩, if_neg]
            rintro ⟨-, h⟩; simp at h
          | true =>
            rw [if_neg]
            · by_cases hig : n ∈ ig
              · rw [if_neg, if_pos ⟨hig, rfl⟩, hemp [n] (by simp)]
                rintro ⟨m, -, h, e⟩
                simp only [List.append_cancel_left_eq, List.cons.injEq, and_true] at e
                exact h (e ▸ hig)
              · rw [if_pos ⟨n, S.mem_dirs.2 ⟨hv, hb⟩, hig, rfl⟩, if_neg]
                rintro ⟨h, -⟩; exact hig h
            · rintro ⟨m, hm, e⟩
              rw [e, (S.mem_files.1 hm).2] at hb; simp at hb
      · rw [if_neg hp, b3, if_neg, a3, if_neg]
        · rintro ⟨n, -, -, e⟩; exact hp ⟨n, e⟩
        · rintro ⟨n, -, e⟩; exact hp ⟨n, e⟩
    -- the directories that are walked into
    have hDf : (S.dirs x).filter (fun n => decide (¬ (n ∈ S.dirs x ∧ n ∈ ig))) = (S.dirs x).filter (fun n => decide (n ∉ ig)) := by
      apply List.filter_congr
      intro y hy
      simp [hy]
    rw [hDf] at a1
    have loop : ∀ (l : List Str) {s1 : σ}, S.J s1 → l.Nodup →
        (∀ n ∈ l, n ∉ ig ∧ n ∈ S.dirs x ∧ (S.T (x ++ [n]) = some .dir → K.D s1 (x ++ [n]) = some .dir) ∧
          ∀ y, y ≠ [] → K.D s1 (x ++ [n] ++ y) = none) →
        ∃ s', walkDirs O fl (Any.walk O S.c true fl (K.copier ig) depth) (S.src x) l () s1 = (.ok (), s') ∧ S.J s' ∧
          ∀ p, K.D s' p = if ∃ n ∈ l, S.T (x ++ [n]) = some .dir ∧ x ++ [n] <+: p ∧ p ≠ x ++ [n] then S.kept ig p else K.D s1 p := by
      intro l
      induction l with
      | nil => intro s1 h1 _ _; exact ⟨s1, rfl, h1, fun p => by simp⟩
      | cons n l ihl =>
        intro s1 h1 hnd hl
        obtain ⟨g1, g2, g3, g4⟩ := hl n (by simp)
        have hnn := (List.nodup_cons.1 hnd).1
        obtain ⟨hn1, hn2⟩ := S.mem_dirs.1 g2
        obtain ⟨o, ho⟩ := Option.ne_none_iff_exists'.1 hn1
        obtain ⟨b, hb1, hb2⟩ := S.islink h1 ho
        -- one of them
        obtain ⟨s2, c1, c2, c3⟩ : ∃ s2, (if (!b || fl) = true then Any.walk O S.c true fl (K.copier ig) depth (S.src (x ++ [n])) () else pure ()) s1 = (.ok (), s2) ∧
            S.J s2 ∧ ∀ p, K.D s2 p = if S.T (x ++ [n]) = some .dir ∧ x ++ [n] <+: p ∧ p ≠ x ++ [n] then S.kept ig p else K.D s1 p := by
          by_cases hdir : S.T (x ++ [n]) = some .dir
          · rw [hdir] at ho
            cases ho
            obtain ⟨s2, c1, c2, c3⟩ := ih (x ++ [n]) h1 hdir (fun h => g1 ((S.cut_snoc hcut).1 h).1) (g3 hdir) g4 (fun y hy => by
              have := hh (n :: y) (by simpa using hy)
              simp at this; omega)
            refine ⟨s2, ?_, c2, fun p => ?_⟩
            · rw [if_pos]
              · exact c1
              · cases b <;> cases fl <;> simp_all
            · rw [c3]; exact if_congr (by simp [hdir]) rfl rfl
          · refine ⟨s1, ?_, h1, fun p => by rw [if_neg]; rintro ⟨h, -⟩; exact hdir h⟩
            rw [if_neg]
            · rfl
            · cases o with
              | dir => exact absurd ho hdir
              | link t => cases b <;> cases fl <;> simp_all
              | file d => unfold Source.asDir at hn2; rw [ho] at hn2; simp at hn2
        have out : ∀ m ∈ l, ∀ y, K.D s2 (x ++ [m] ++ y) = K.D s1 (x ++ [m] ++ y) := by
          intro m hm y
          rw [c3, if_neg]
          rintro ⟨-, ⟨z, h⟩, -⟩
          simp only [List.append_assoc, List.append_cancel_left_eq, List.singleton_append, List.cons.injEq] at h
          exact hnn (h.1 ▸ hm)
        obtain ⟨s3, j1, j2, j3⟩ := ihl c2 (List.nodup_cons.1 hnd).2 (by
          intro m hm
          obtain ⟨f1, f2, f3, f4⟩ := hl m (by simp [hm])
          refine ⟨f1, f2, fun h => ?_, fun y hy => ?_⟩
          · have := out m hm []
            simp only [List.append_nil] at this
            rw [this]; exact f3 h
          · rw [out m hm]; exact f4 y hy)
        refine ⟨s3, ?_, j2, fun p => ?_⟩
        · unfold walkDirs
          rw [bind_lift (S.div hn1), bind_ok hb1]
          have hk := bind_ok (f := fun t => walkDirs O fl (Any.walk O S.c true fl (K.copier ig) depth) (S.src x) l t) c1
          rw [j1] at hk
          rw [← hk]
          cases (!b || fl) <;> rfl
        · rw [j3]
          by_cases e : ∃ m ∈ l, S.T (x ++ [m]) = some .dir ∧ x ++ [m] <+: p ∧ p ≠ x ++ [m]
          · rw [if_pos e, if_pos]
            obtain ⟨m, hm, e⟩ := e
            exact ⟨m, by simp [hm], e⟩
          · rw [if_neg e, c3]
            refine if_congr ⟨fun h => ⟨n, by simp, h⟩, ?_⟩ rfl rfl
            rintro ⟨m, hm, h⟩
            rcases List.mem_cons.1 hm with rfl | hm
            · exact h
            · exact absurd ⟨m, hm, h⟩ e
    obtain ⟨s3, c1, c2, c3⟩ := loop ((S.dirs x).filter fun n => decide (n ∉ ig)) b2 (nD.filter _) (by
      intro n hn
      obtain ⟨h1, h2⟩ := List.mem_filter.1 hn
      have h2 : n ∉ ig := by simpa using h2
      refine ⟨h2, h1, fun h => ?_, fun y hy => ?_⟩
      · rw [lvl, if_pos ⟨n, rfl⟩]
        unfold Source.kept
        rw [if_neg fun h => h2 ((S.cut_snoc hcut).1 h).1, h]
      · rw [lvl, if_neg, List.append_assoc]
        · exact hemp _ (by simp)
        · rintro ⟨m, h⟩
          simp only [List.append_assoc, List.append_cancel_left_eq, List.singleton_append, List.cons.injEq] at h
          exact hy h.2)
    refine ⟨s3, ?_, c2, fun p => ?_⟩
    · rw [S.walk_eq hs hd, if_pos rfl]
      have : K.copier ig () (S.src x) (S.dirs x) (S.files x) s = (.ok ((), (S.dirs x).filter fun n => decide (n ∉ ig)), s2) := by
        unfold copier copyBody
        rw [bind_ok (a := (S.dirs x).filter fun n => decide (n ∉ ig)) (s' := s2)]
        · rfl
        · have hk := bind_ok (f := fun db => do
            let dirs' ← Any.copyDirs O depth0 S.c ig fl (S.src x) db (S.dirs x) (S.dirs x)
            Any.copyFiles O S.c fl (S.src x) db (S.files x)
            pure dirs') (K.base (s := s) hd)
          rw [bind_ok a1, bind_ok b1] at hk
          rw [← pure_apply, ← hk]
          dsimp only
          split <;> rfl
      rw [bind_ok this]
      exact c1
    · rw [c3, lvl]
      by_cases hp : x <+: p ∧ p ≠ x
      · rw [if_pos hp]
        obtain ⟨⟨y, rfl⟩, hne⟩ := hp
        cases y with
        | nil => simp at hne
        | cons n y =>
          by_cases hy : y = []
          · subst hy
            rw [if_neg, if_pos ⟨n, rfl⟩]
            rintro ⟨m, -, -, h1, h2⟩
            exact h2 (h1.eq_of_length (by simp)).symm
          · rw [if_neg (c := ∃ m, x ++ n :: y = x ++ [m]) (by rintro ⟨m, h⟩; simp only [List.append_cancel_left_eq, List.cons.injEq] at h; exact hy h.2)]
            by_cases hin : n ∉ ig ∧ S.T (x ++ [n]) = some .dir
            · rw [if_pos]
              refine ⟨n, List.mem_filter.2 ⟨S.mem_dirs.2 ⟨by rw [hin.2]; simp, S.asDir_dir hin.2⟩, by simpa using hin.1⟩, hin.2, ⟨y, by simp⟩, ?_⟩
              intro h; simp only [List.append_cancel_left_eq, List.cons.injEq] at h; exact hy h.2
            · rw [if_neg, hemp _ (by simp)]
              · unfold Source.kept
                by_cases hdir : S.T (x ++ [n]) = some .dir
                · have hig : n ∈ ig := by by_contra hc; exact hin ⟨hc, hdir⟩
                  rw [if_pos ⟨x, n, ⟨y, by simp⟩, hig, S.asDir_dir hdir⟩]
                · have := S.below hdir hy
                  rw [List.append_assoc, List.singleton_append] at this
                  rw [this, ite_self]
              · rintro ⟨m, hm, h1, ⟨z, h2⟩, -⟩
                simp only [List.append_assoc, List.append_cancel_left_eq, List.singleton_append, List.cons.injEq] at h2
                obtain ⟨rfl, -⟩ := h2
                exact hin ⟨by simpa using (List.mem_filter.1 hm).2, h1⟩
      · rw [if_neg hp, if_neg, if_neg]
        · rintro ⟨n, rfl⟩; exact hp ⟨List.prefix_append _ _, by simp⟩
        · rintro ⟨n, -, -, ⟨z, rfl⟩, -⟩
          exact hp ⟨⟨n :: z, by simp⟩, by simp⟩

end Sink
end Verif.Any
