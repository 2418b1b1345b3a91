import Verif.Mem.OpLemmas2
import Verif.Gen.Tree
/-!
# Every operation preserves the heap invariant
-/
namespace Verif.Mem
open M Spec

/-- Files stay files, with the path they were created at (memory.py:31), and with their lock until it is looked up
    again for that path (memory.py:36, 44), between the `g`-th and the `g'`-th clearing of the table of locks.
    Directories stay directories, links stay links. -/
def SameType (g g' : Nat) : Node → Node → Prop
  | .file f, .file f' => f'.path = f.path ∧ (f'.lock = f.lock ∨ f'.lock.2 = f.path ∧ g ≤ f'.lock.1 ∧ f'.lock.1 ≤ g')
  | .dir _, .dir _ => True
  | .link _, .link _ => True
  | _, _ => False

theorem SameType.rfl' (g g' : Nat) (n : Node) : SameType g g' n n := by
  cases n with
  | file f => exact ⟨rfl, .inl rfl⟩
  | dir d => trivial
  | link l => trivial

theorem SameType.trans {x y z : Nat} {a b c : Node} (hx : x ≤ y) (hy : y ≤ z) (h : SameType x y a b)
    (h' : SameType y z b c) : SameType x z a c := by
  cases a <;> cases b <;> cases c <;> try contradiction
  · obtain ⟨h1, h2⟩ := h
    obtain ⟨h3, h4⟩ := h'
    refine ⟨h3.trans h1, ?_⟩
    rcases h4 with h4 | ⟨h4, h5, h6⟩
    · rw [h4]
      rcases h2 with h2 | ⟨h2, h7, h8⟩
      · exact .inl h2
      · exact .inr ⟨h2, h7, Nat.le_trans h8 hy⟩
    · exact .inr ⟨h4.trans h1, Nat.le_trans hx h5, h6⟩
  · trivial
  · trivial

theorem sameType_apply (g g' : Nat) (s : SetInfo) (n : Node) : SameType g g' n (n.apply s) := by
  unfold Node.apply
  cases n <;> cases s.mode <;> cases s.mtime <;> simp [Node.setMode, Node.setMtime, SameType]

/-- No object that is there already is put anywhere: new entries and new file systems are for new objects.  No
    object changes its type. -/
structure Stays (w w' : World) : Prop where
  next : w.next ≤ w'.next
  entries : ∀ j n c, (n, c) ∈ w'.entries j → (n, c) ∈ w.entries j ∨ w.next ≤ c
  roots : ∀ k r, (k, r) ∈ w'.conns → (k, r) ∈ w.conns ∨ w.next ≤ r
  gen : w.gen ≤ w'.gen
  type : ∀ i, i < w.next → SameType w.gen w'.gen (w.node i) (w'.node i)

theorem Stays.trans {a b c : World} (h : Stays a b) (h' : Stays b c) : Stays a c := by
  refine ⟨Nat.le_trans h.next h'.next, ?_, ?_, Nat.le_trans h.gen h'.gen, ?_⟩
  · intro j n x hx
    rcases h'.entries j n x hx with h1 | h1
    · exact h.entries j n x h1
    · exact .inr (Nat.le_trans h.next h1)
  · intro k r hr
    rcases h'.roots k r hr with h1 | h1
    · exact h.roots k r h1
    · exact .inr (Nat.le_trans h.next h1)
  · intro i hi
    exact (h.type i hi).trans h.gen h'.gen (h'.type i (Nat.lt_of_lt_of_le hi h.next))

/-- nothing about objects changes but maybe attributes and contents -/
theorem Stays.same {w w' : World} (h1 : w'.next = w.next) (h2 : ∀ j, w'.entries j = w.entries j) (h3 : w'.conns = w.conns)
    (h5 : w'.gen = w.gen) (h4 : ∀ i, SameType w.gen w.gen (w.node i) (w'.node i)) : Stays w w' := by
  refine ⟨Nat.le_of_eq h1.symm, ?_, ?_, Nat.le_of_eq h5.symm, fun i _ => by rw [h5]; exact h4 i⟩
  · intro j n c h; rw [h2] at h; exact .inl h
  · intro k r h; rw [h3] at h; exact .inl h

/-- what never shrinks: registered connections (between cleanups) and the heap -/
structure Ext (w w' : World) : Prop where
  conns : w.conns <+: w'.conns
  clock : w'.clock = w.clock
  stays : Stays w w'

theorem Ext.of_node {w w' : World} (h1 : w'.node = w.node) (h2 : w'.next = w.next) (h3 : w'.conns = w.conns)
    (h4 : w'.clock = w.clock) (h5 : w'.gen = w.gen) : Ext w w' :=
  ⟨by rw [h3]; exact List.prefix_refl _, h4, .same h2 (fun j => by simp [World.entries, h1]) h3 h5 fun i => by
    rw [h1]; exact .rfl' _ _ _⟩

theorem Ext.rfl' (w : World) : Ext w w := .of_node rfl rfl rfl rfl rfl

theorem Ext.trans {a b c : World} (h : Ext a b) (h' : Ext b c) : Ext a c :=
  ⟨h.conns.trans h'.conns, h'.clock.trans h.clock, h.stays.trans h'.stays⟩

theorem Ext.isRoot {w w' : World} (h : Ext w w') {r : Nat} (hr : IsRoot w r) : IsRoot w' r := by
  obtain ⟨k, hk⟩ := hr; exact ⟨k, h.conns.subset hk⟩

/-- `m` preserves the invariant whenever `r` is a root -/
def Keeps (r : Nat) {α : Type} (m : M α) : Prop :=
  ∀ w, Inv w → IsRoot w r → Inv (m w).2 ∧ Ext w (m w).2

/-- `m` preserves the invariant -/
def Pres {α : Type} (m : M α) : Prop := ∀ w, Inv w → Inv (m w).2 ∧ Ext w (m w).2

theorem Pres.keeps {α : Type} {m : M α} (h : Pres m) (r : Nat) : Keeps r m := fun w hw _ => h w hw

theorem Pres.ret {α : Type} (a : α) : Pres (pure a : M α) := fun w hw => ⟨hw, .rfl' w⟩
theorem Pres.raise {α : Type} (e : PyErr) : Pres (raise e : M α) := fun w hw => ⟨hw, .rfl' w⟩
theorem Pres.query {α : Type} (f : World → Except PyErr α) : Pres (query f) := fun w hw => ⟨hw, .rfl' w⟩
theorem Pres.lift {α : Type} (x : Except PyErr α) : Pres (lift x) := fun w hw => ⟨hw, .rfl' w⟩

theorem Pres.bind {α β : Type} {m : M α} {f : α → M β} (h : Pres m) (h' : ∀ a, Pres (f a)) : Pres (m >>= f) := by
  intro w hw
  rw [bind_apply]
  have h1 := h w hw
  cases hm : m w with
  | mk x w1 =>
    rw [hm] at h1
    cases x with
    | error e => exact h1
    | ok a => have := h' a w1 h1.1; exact ⟨this.1, h1.2.trans this.2⟩

theorem Keeps.bind {r : Nat} {α β : Type} {m : M α} {f : α → M β} (h : Keeps r m) (h' : ∀ a, Keeps r (f a)) :
    Keeps r (m >>= f) := by
  intro w hw hr
  rw [bind_apply]
  have h1 := h w hw hr
  cases hm : m w with
  | mk x w1 =>
    rw [hm] at h1
    cases x with
    | error e => exact h1
    | ok a => have := h' a w1 h1.1 (h1.2.isRoot hr); exact ⟨this.1, h1.2.trans this.2⟩

theorem Pres.ite {α : Type} {c : Prop} [Decidable c] {m m' : M α} (h : Pres m) (h' : Pres m') :
    Pres (if c then m else m') := by split <;> assumption
theorem Keeps.ite {r : Nat} {α : Type} {c : Prop} [Decidable c] {m m' : M α} (h : Keeps r m) (h' : Keeps r m') :
    Keeps r (if c then m else m') := by split <;> assumption

theorem Keeps.forM {r : Nat} {α : Type} {f : α → M PUnit} (l : List α) (h : ∀ a, Keeps r (f a)) : Keeps r (l.forM f) := by
  induction l with
  | nil => exact (Pres.ret _).keeps r
  | cons a l ih => exact (h a).bind fun _ => ih

theorem Pres.mapM {α β : Type} {f : α → M β} (l : List α) (h : ∀ a, Pres (f a)) : Pres (l.mapM f) := by
  induction l with
  | nil => rw [List.mapM_nil]; exact .ret _
  | cons a l ih => rw [List.mapM_cons]; exact (h a).bind fun _ => ih.bind fun _ => .ret _

/-! ## Elementary steps -/

theorem Ext.setNode {w : World} {i : Nat} {n : Node} (h : SameShape (w.node i) n) (ht : SameType w.gen w.gen (w.node i) n) : Ext w (w.setNode i n) := by
  refine ⟨List.prefix_refl _, rfl, .same rfl (entries_setNode h) rfl rfl ?_⟩
  intro j
  simp only [World.setNode]
  split
  · rename_i hj; subst hj; exact ht
  · exact .rfl' _ _ _

/-- a file object is replaced -/
theorem Ext.setFile {w : World} {i : Nat} {f f' : FileObj} (h : w.node i = .file f) (hp : SameType w.gen w.gen (.file f) (.file f')) :
    Ext w (w.setNode i (.file f')) :=
  .setNode (by rw [h]; trivial) (by rw [h]; exact hp)

theorem Ext.addChild {w : World} (hw : Inv w) {nd : Nat} {d : DirObj} {x : Str} {n : Node} (hd : w.node nd = .dir d)
    (hn : d.files.lookup x = none) (hl : Leaf n) (hnd : nd < w.next) : Ext w (w.addChild nd d x n) := by
  refine ⟨List.prefix_refl _, rfl, Nat.le_succ _, ?_, fun _ _ h => .inl h, Nat.le_refl _, ?_⟩
  · intro j m c h
    rw [entries_addChild hw hd hn hl hnd] at h
    split at h
    · rename_i hj
      subst hj
      rcases List.mem_append.1 h with h | h
      · exact .inl h
      · simp at h; exact .inr (by omega)
    · exact .inl h
  · intro i hi
    simp only [World.addChild]
    split
    · rename_i hj; subst hj; rw [hd]; trivial
    · rw [if_neg (by omega)]; exact .rfl' _ _ _

theorem Ext.delEntry {w : World} {nd : Nat} {d : DirObj} {x : Str} (hd : w.node nd = .dir d) :
    Ext w (w.delEntry nd d x) := by
  refine ⟨List.prefix_refl _, rfl, Nat.le_refl _, ?_, fun _ _ h => .inl h, Nat.le_refl _, ?_⟩
  · intro j m c h
    rw [entries_delEntry hd] at h
    split at h
    · rename_i hj; subst hj; exact .inl (List.mem_filter.1 h).1
    · exact .inl h
  · intro i _
    simp only [World.delEntry, World.setNode]
    split
    · rename_i hj; subst hj; rw [hd]; trivial
    · exact .rfl' _ _ _

theorem Ext.tick {w w' : World} (h : Ext w w') (n : Nat) : Ext w { w' with tick := n } :=
  h.trans (.of_node rfl rfl rfl rfl rfl)

theorem Ext.resetAt {w : World} {i : Nat} {f : FileObj} (h : w.node i = .file f) : Ext w (w.resetAt i f) :=
  (Ext.setFile h ⟨by rfl, .inr ⟨by rfl, by exact Nat.le_refl _, by exact Nat.le_refl _⟩⟩).tick (w.tick + 1)

theorem lookup_lt {w : World} (hw : Inv w) {i c : Nat} {d : DirObj} {n : Str} (hd : w.node i = .dir d)
    (h : d.files.lookup n = some c) : i < w.next := by
  have := hw.child i n c (by rw [entries_dir hd]; exact lookup_mem h)
  omega

theorem Inv.resetAt {w : World} (hw : Inv w) {i : Nat} {f : FileObj} (h : w.node i = .file f) :
    Inv (w.resetAt i f) :=
  (hw.setFile h (f' := { f with data := [], pos := 0, mtime := w.clock w.tick, ctime := w.clock w.tick, mode := 0, lock := (w.gen, f.path) })).congr rfl rfl rfl

theorem Inv.statFrom {w : World} (hw : Inv w) {s d : Nat} (hd : d < w.next) : Inv (w.statFrom s d) := by
  rw [statFrom_eq]
  exact hw.setNode (sameShape_apply _ _) hd

theorem Ext.statFrom (w : World) (s d : Nat) : Ext w (w.statFrom s d) := by
  rw [statFrom_eq]; exact .setNode (sameShape_apply _ _) (sameType_apply _ _ _ _)

theorem Inv.alloc {w : World} (hw : Inv w) {n : Node} (hl : Leaf n) : Inv (w.alloc n) := by
  have he : ∀ j, (w.alloc n).entries j = w.entries j := by
    intro j
    by_cases h : j = w.next
    · subst h
      have h1 : w.entries w.next = [] := by rw [entries_dir (hw.fresh _ (Nat.le_refl _))]
      rw [h1]
      simp only [World.entries, World.alloc, if_true]
      cases n with
      | file f => rfl
      | link f => rfl
      | dir d => exact hl
    · simp [World.entries, World.alloc, h]
  refine ⟨?_, ?_, ?_, ?_, ?_, hw.roots⟩
  · intro i hi
    have : i ≠ w.next := by simp [World.alloc] at hi; omega
    simp only [World.alloc, if_neg this]
    exact hw.fresh i (by simp [World.alloc] at hi; omega)
  · intro i; rw [he]; exact hw.nodup i
  · intro i m c h; rw [he] at h; have := hw.child i m c h; simp only [World.alloc]; omega
  · intro i m j m' c h h'; rw [he] at h h'; exact hw.uniq i m j m' c h h'
  · intro k r h
    have h1 := hw.root k r h
    refine ⟨by simp only [World.alloc]; omega, ?_, ?_⟩
    · have : r ≠ w.next := by omega
      simpa [World.isDir, World.alloc, this] using h1.2.1
    · intro i m; rw [he]; exact h1.2.2 i m

/-- the state after creating a memory file system -/
def World.connect (w : World) (k : ConnKey) : World :=
  { w.alloc (.dir ⟨[], w.clock w.tick, w.clock w.tick, 0⟩) with
      hooks := fun j => if j = w.next then [] else w.hooks j
      gen := w.gen + 1
      conns := w.conns ++ [(k, w.next)] }

theorem entries_connect {w : World} (hw : Inv w) (k : ConnKey) (j : Nat) : (w.connect k).entries j = w.entries j := by
  by_cases h : j = w.next
  · subst h
    rw [entries_dir (hw.fresh _ (Nat.le_refl _))]
    simp [World.entries, World.connect, World.alloc]
  · simp [World.entries, World.connect, World.alloc, h]

theorem ext_connect {w : World} (hw : Inv w) (k : ConnKey) : Ext w (w.connect k) := by
  refine ⟨⟨_, rfl⟩, rfl, Nat.le_succ _, ?_, ?_, Nat.le_succ _, ?_⟩
  · intro j n c h; rw [entries_connect hw] at h; exact .inl h
  · intro k' r h
    rcases List.mem_append.1 h with h | h
    · exact .inl h
    · simp at h; exact .inr (by omega)
  · intro i hi
    have : i ≠ w.next := by omega
    simp only [World.connect, World.alloc, if_neg this]
    exact .rfl' _ _ _

theorem createConn_host {k : ConnKey} {w : World} (h : truthy k.key.hostname = true) :
    createConn k w = (.error .assertionError, w) := by
  unfold createConn; rw [if_pos h]; rfl

theorem createConn_eq {k : ConnKey} {w : World} (h : ¬ truthy k.key.hostname = true) :
    createConn k w = (.ok w.next, w.connect k) := by
  unfold createConn; rw [if_neg h]; rfl

theorem getConnection_pres (u : Uri) (w : World) (hw : Inv w) :
    Inv (getConnection u w).2 ∧ Ext w (getConnection u w).2 ∧
      ∀ r, (getConnection u w).1 = .ok r → IsRoot (getConnection u w).2 r := by
  unfold getConnection
  split
  · exact ⟨hw, .rfl' w, by simp⟩
  split
  · split
    · rename_i r hr
      refine ⟨hw, .rfl' w, ?_⟩
      intro r' h
      simp at h
      subst h
      unfold World.connOf at hr
      rw [Option.map_eq_some_iff] at hr
      obtain ⟨⟨k, r'⟩, h1, h2⟩ := hr
      simp at h2
      subst h2
      exact ⟨k, List.mem_of_find?_eq_some h1⟩
    · by_cases ht : truthy (connKey u).key.hostname = true
      · rw [createConn_host ht]; exact ⟨hw, .rfl' w, by simp⟩
      · rw [createConn_eq ht]
        have ha := hw.alloc (n := .dir ⟨[], w.clock w.tick, w.clock w.tick, 0⟩) rfl
        refine ⟨?_, ext_connect hw _, ?_⟩
        · obtain ⟨a, b, c, d, e, f⟩ := ha
          refine ⟨a, b, c, d, ?_, ?_⟩
          · intro k r h
            rcases List.mem_append.1 h with h | h
            · exact e k r h
            · simp at h
              obtain ⟨-, rfl⟩ := h
              refine ⟨Nat.lt_succ_self _, ?_, ?_⟩
              · simp [World.isDir, World.connect, World.alloc]
              · intro i m hm
                by_cases hi : i = w.next
                · subst hi; simp [World.entries, World.connect, World.alloc] at hm
                · have h2 : (m, w.next) ∈ w.entries i := by
                    simpa [World.entries, World.connect, World.alloc, hi] using hm
                  have := hw.child i m _ h2
                  omega
          · show ((w.conns ++ [(connKey u, w.next)]).map Prod.snd).Nodup
            rw [List.map_append, List.nodup_append]
            refine ⟨f, by simp, ?_⟩
            rintro x hx y hy rfl
            simp at hy
            subst hy
            obtain ⟨⟨k, r⟩, hk, h2⟩ := List.mem_map.1 hx
            simp at h2
            subst h2
            have := (hw.root k _ hk).1
            omega
        · intro r h
          simp at h
          subst h
          exact ⟨connKey u, by simp [World.connect]⟩
  split
  · exact ⟨hw, .rfl' w, by simp⟩
  · exact ⟨hw, .rfl' w, by simp⟩

theorem preCallHook_pres (r : Nat) (u : Uri) (m : Meth) : Pres (preCallHook r u m) :=
  (Pres.lift _).bind fun _ => .query _

theorem Pres.withConn {α : Type} {u : Uri} {m : Meth} {body : Nat → M α} (h : ∀ r, Keeps r (body r)) :
    Pres (withConn u m body) := by
  intro w hw
  obtain ⟨h1, h2, h3⟩ := getConnection_pres u w hw
  unfold Mem.withConn
  rw [bind_apply]
  cases hg : getConnection u w with
  | mk x w1 =>
    rw [hg] at h1 h2 h3
    cases x with
    | error e => exact ⟨h1, h2⟩
    | ok r =>
      have := ((preCallHook_pres r u m).keeps r).bind (fun _ => h r) w1 h1 (h3 r rfl)
      exact ⟨this.1, h2.trans this.2⟩

theorem pres_query_conn {α : Type} (u : Uri) (m : Meth) (f : Nat → World → Except PyErr α) :
    Pres (withConn u m fun r => query (f r)) := .withConn fun r => (Pres.query _).keeps r

/-! ## File system methods -/

theorem keeps_mkdir (r : Nat) (u : Uri) : Keeps r (mkdir r u) := by
  intro w hw hr
  rcases mkdir_cases hw hr u with ⟨e, h⟩ | ⟨-, h⟩ | ⟨init, n, q, nd, d, -, -, a, b, c, h⟩
  · rw [h]; exact ⟨hw, .rfl' w⟩
  · rw [h]; exact ⟨hw, .rfl' w⟩
  · rw [h]; exact ⟨hw.addChild b c rfl (phys_lt hw hr a), .addChild hw b c rfl (phys_lt hw hr a)⟩

theorem keeps_symlink (r : Nat) (t u : Uri) : Keeps r (symlink r t u) := by
  intro w hw hr
  rcases symlink_cases hw hr t u with ⟨e, h⟩ | ⟨-, h⟩ | ⟨init, n, q, nd, d, -, -, a, b, c, h⟩
  · rw [h]; exact ⟨hw, .rfl' w⟩
  · rw [h]; exact ⟨hw, .rfl' w⟩
  · rw [h]; exact ⟨hw.addChild b c trivial (phys_lt hw hr a), .addChild hw b c trivial (phys_lt hw hr a)⟩

theorem pres_removefile (r : Nat) (u : Uri) : Pres (removefile r u) := by
  intro w hw
  rcases removefile_cases (w := w) (r := r) u with ⟨e, h⟩ | h | ⟨i, d, c, a, b, h⟩
  · rw [h]; exact ⟨hw, .rfl' w⟩
  · rw [h]; exact ⟨hw, .rfl' w⟩
  · rw [h]; exact ⟨hw.delEntry a (lookup_lt hw a b), .delEntry a⟩

theorem pres_removedir (r : Nat) (u : Uri) : Pres (removedir r u) := by
  intro w hw
  rcases removedir_cases (w := w) (r := r) u with ⟨e, h⟩ | h | ⟨i, d, c, a, b, h⟩
  · rw [h]; exact ⟨hw, .rfl' w⟩
  · rw [h]; exact ⟨hw, .rfl' w⟩
  · rw [h]; exact ⟨hw.delEntry a (lookup_lt hw a b), .delEntry a⟩

theorem keeps_setInfo (r : Nat) (u : Uri) (s : SetInfo) (f : Bool) : Keeps r (setInfo r u s f) := by
  intro w hw hr
  rcases setInfo_cases (w := w) (r := r) u s f with ⟨e, h⟩ | ⟨i, a, h⟩
  · rw [h]; exact ⟨hw, .rfl' w⟩
  · rw [h]; exact ⟨hw.setNode (sameShape_apply _ _) (nodeForPath_lt hw hr a), .setNode (sameShape_apply _ _) (sameType_apply _ _ _ _)⟩

theorem keeps_setExec (r : Nat) (u : Uri) (m : Int) : Keeps r (setExec r u m) :=
  ((Pres.query _).keeps r).bind fun _ => keeps_setInfo r u _ true

theorem keeps_copystat (r : Nat) (u v : Uri) : Keeps r (copystat r u v) := by
  intro w hw hr
  rcases copystat_cases (w := w) (r := r) u v with ⟨e, h⟩ | ⟨s, d, -, a, h⟩
  · rw [h]; exact ⟨hw, .rfl' w⟩
  · rw [h]; exact ⟨hw.statFrom (nodeForPath_lt hw hr a), .statFrom _ _ _⟩

theorem keeps_openWrite (r : Nat) (u : Uri) (b : Bool) : Keeps r (openWrite r u b) := by
  intro w hw hr
  rcases openWrite_cases hw hr u b with ⟨e, h⟩ | ⟨i, f, a, h⟩ | ⟨p, init, n, q, nd, d, -, -, -, a, b, c, e, h⟩
  · rw [h]; exact ⟨hw, .rfl' w⟩
  · rw [h]; exact ⟨hw.resetAt a, .resetAt a⟩
  · rw [h]; exact ⟨hw.addChild b e trivial c, .addChild hw b e trivial c⟩

theorem pres_openRead (r : Nat) (u : Uri) (b : Bool) : Pres (openRead r u b) := by
  intro w hw
  rcases openRead_cases (w := w) (r := r) u b with ⟨e, h⟩ | ⟨i, f, a, -, h⟩
  · rw [h]; exact ⟨hw, .rfl' w⟩
  · rw [h]; exact ⟨hw.setFile a, .setFile a ⟨by rfl, .inl (by rfl)⟩⟩

theorem pres_openAppend (r : Nat) (u : Uri) (b : Bool) : Pres (openAppend r u b) := by
  intro w hw
  rcases openAppend_cases (w := w) (r := r) u b with ⟨e, h⟩ | ⟨i, f, a, -, h⟩
  · rw [h]; exact ⟨hw, .rfl' w⟩
  · rw [h]; exact ⟨hw.setFile a, .setFile a ⟨by rfl, .inl (by rfl)⟩⟩

theorem keeps_open (r : Nat) (u : Uri) (o : Option Str) : Keeps r (open_ r u o) := by
  unfold open_
  split
  · exact (pres_openRead r u _).keeps r
  · refine .ite ((pres_openRead r u _).keeps r) (.ite (keeps_openWrite r u _) (.ite ((pres_openAppend r u _).keeps r) ((Pres.raise _).keeps r)))

/-! ## Handles -/

/-- the file behind a handle is replaced -/
theorem pres_withFile {α : Type} {i : Nat} {g : FileObj → M α}
    (h : ∀ w f, Inv w → w.node i = .file f → Inv (g f w).2 ∧ Ext w (g f w).2) : Pres (withFile i g) := by
  intro w hw
  unfold withFile
  cases hn : w.node i with
  | file f => exact h w f hw hn
  | dir f => exact ⟨hw, .rfl' w⟩
  | link f => exact ⟨hw, .rfl' w⟩

theorem Inv.tick {w : World} (hw : Inv w) (n : Nat) : Inv { w with tick := n } := hw.congr rfl rfl rfl

theorem pres_write (h : Handle) (d : PyData) : Pres (h.write d) := by
  refine (Pres.lift _).bind fun b => pres_withFile fun w f hw hf => ?_
  exact ⟨(hw.tick (w.tick + 1)).setFile (f := f) hf, ((Ext.rfl' w).tick (w.tick + 1)).trans (.setFile (f := f) hf ⟨by rfl, .inl (by rfl)⟩)⟩

theorem pres_read (h : Handle) (n : Int) : Pres (h.read n) := by
  unfold Handle.read
  refine .ite ?_ (.raise _)
  refine (pres_withFile fun w f hw hf => ?_).bind fun _ => .lift _
  exact ⟨hw.setFile (f := f) hf, .setFile (f := f) hf ⟨by rfl, .inl (by rfl)⟩⟩

theorem pres_seek (h : Handle) (t wh : Int) : Pres (h.seek t wh) := by
  refine pres_withFile fun w f hw hf => ?_
  rw [bind_apply, lift_apply]
  cases BytesIO.seek f.data f.pos t wh with
  | error e => exact ⟨hw, .rfl' w⟩
  | ok p => exact ⟨hw.setFile (f := f) hf, .setFile (f := f) hf ⟨by rfl, .inl (by rfl)⟩⟩

theorem pres_tell (h : Handle) : Pres h.tell := pres_withFile fun w _ hw _ => ⟨hw, .rfl' w⟩
theorem pres_size (h : Handle) : Pres h.size := pres_withFile fun w _ hw _ => ⟨hw, .rfl' w⟩

theorem pres_truncate (h : Handle) (n : Option Int) : Pres (h.truncate n) := by
  refine pres_withFile fun w f hw hf => ?_
  rw [bind_apply, lift_apply]
  cases BytesIO.truncate f.data f.pos n with
  | error e => exact ⟨hw, .rfl' w⟩
  | ok p => exact ⟨hw.setFile (f := f) hf, .setFile (f := f) hf ⟨by rfl, .inl (by rfl)⟩⟩

theorem pres_close (h : Handle) : Pres h.close :=
  pres_withFile fun _ f hw hf => ⟨hw.setFile (f := f) hf, .setFile (f := f) hf ⟨by rfl, .inl (by rfl)⟩⟩

theorem pres_readline (h : Handle) : Pres h.readline :=
  (pres_withFile fun _ f hw hf => ⟨hw.setFile (f := f) hf, .setFile (f := f) hf ⟨by rfl, .inl (by rfl)⟩⟩).bind fun _ => .lift _

theorem pres_next (h : Handle) : Pres h.next :=
  (pres_withFile fun _ f hw hf => ⟨hw.setFile (f := f) hf, .setFile (f := f) hf ⟨by rfl, .inl (by rfl)⟩⟩).bind fun _ =>
    .ite (.ret _) ((Pres.lift _).bind fun _ => .ret _)

theorem pres_lines (h : Handle) (n : Nat) : Pres (h.lines n) := by
  induction n with
  | zero => exact .raise _
  | succ n ih =>
    rw [Handle.lines]
    refine (pres_next h).bind fun d => ?_
    cases d with
    | none => exact .ret _
    | some d => exact ih.bind fun _ => .ret _

/-! ## API -/

theorem pres_uExists (u : Uri) : Pres (uExists u) := pres_query_conn _ _ _
theorem pres_uIsfile (u : Uri) : Pres (uIsfile u) := pres_query_conn _ _ _
theorem pres_uIsdir (u : Uri) : Pres (uIsdir u) := pres_query_conn _ _ _
theorem pres_uIsexec (u : Uri) (k : Int) : Pres (uIsexec u k) := pres_query_conn u .isexec fun r w => isexec w r u k
theorem pres_uSetExec (u : Uri) (k : Int) : Pres (uSetExec u k) := .withConn fun r => keeps_setExec r u k
theorem pres_uIslink (u : Uri) : Pres (uIslink u) := pres_query_conn _ _ _
theorem pres_uReadlink (u : Uri) : Pres (uReadlink u) := pres_query_conn _ _ _
theorem pres_uSymlink (t u : Uri) : Pres (uSymlink t u) := .withConn fun r => keeps_symlink r t u
theorem pres_uMtime (u : Uri) : Pres (uMtime u) := pres_query_conn _ _ _
theorem pres_uListdir (u : Uri) : Pres (uListdir u) := pres_query_conn _ _ _
theorem pres_uInfo (u : Uri) (f : Bool) : Pres (uInfo u f) := pres_query_conn u .info fun r w => info w r u f
theorem pres_uSetInfo (u : Uri) (s : SetInfo) (f : Bool) : Pres (uSetInfo u s f) :=
  .withConn fun r => keeps_setInfo r u s f
theorem pres_uCopystat (u v : Uri) : Pres (uCopystat u v) := .withConn fun r => keeps_copystat r u v
theorem pres_uOpen (u : Uri) (o : Option Str) : Pres (uOpen u o) := .withConn fun r => keeps_open r u o
theorem pres_uMkdir (u : Uri) : Pres (uMkdir u) := .withConn fun r => keeps_mkdir r u

theorem pres_acquire (l : LockId) : Pres (acquire l) := by
  intro w hw; unfold acquire; split
  · exact ⟨hw, .rfl' w⟩
  · exact ⟨hw.congr rfl rfl rfl, Ext.of_node rfl rfl rfl rfl rfl⟩

theorem pres_release (l : LockId) : Pres (release l) := by
  intro w hw; unfold release; split
  · exact ⟨hw.congr rfl rfl rfl, Ext.of_node rfl rfl rfl rfl rfl⟩
  · exact ⟨hw, .rfl' w⟩

theorem pres_now : Pres now := fun _ hw => ⟨hw.congr rfl rfl rfl, Ext.of_node rfl rfl rfl rfl rfl⟩

theorem pres_tempLock (p : Str) : Pres (tempLock p) := pres_now.bind fun _ => .query _

theorem keeps_manipulate (r : Nat) (u : Uri) (a : Manip) : Keeps r (manipulate r u a) := by
  unfold manipulate
  have hl : ∀ b : Bool, ∀ g : LockId → M PUnit, (∀ l, Pres (g l)) →
      Pres (if b = true then (do let p ← M.lift (stripPath u); let l ← tempLock p; g l) else pure PUnit.unit) := by
    intro b g hg
    exact .ite ((Pres.lift _).bind fun p => (pres_tempLock p).bind fun l => hg l) (.ret _)
  have h3 : Keeps r (match a.mtime with
      | none => pure PUnit.unit
      | some t => setInfo r u { mtime := some t } true) := by
    cases a.mtime with
    | none => exact (Pres.ret _).keeps r
    | some t => exact keeps_setInfo r u _ true
  have h4 : Pres (match a.callback with
      | none => pure PUnit.unit
      | some cb => do
        let p ← M.lift (stripPath u)
        (fun w => (.ok (), { w with hooks := fun j => if j = r then setHook (w.hooks r) p cb else w.hooks j }) : M PUnit)) := by
    cases a.callback with
    | none => exact .ret _
    | some cb =>
      exact (Pres.lift _).bind fun p w hw => ⟨hw.congr rfl rfl rfl, Ext.of_node rfl rfl rfl rfl rfl⟩
  have := ((hl a.lock acquire pres_acquire).keeps r).bind fun _ =>
    ((hl a.unlock release pres_release).keeps r).bind fun _ => h3.bind fun _ => h4.keeps r
  obtain ⟨l, ul, mt, cb⟩ := a
  cases l <;> cases ul <;> cases mt <;> cases cb <;> simpa using this

theorem pres_uManipulate (u : Uri) (a : Manip) : Pres (uManipulate u a) := .withConn fun r => keeps_manipulate r u a

end Verif.Mem

namespace Verif.Gen
open Mem Mem.M

theorem pres_makedirs (n : Nat) (u : Uri) : Pres (makedirs n u) := by
  induction n generalizing u with
  | zero => exact .raise _
  | succ n ih =>
    rw [makedirs]
    refine (pres_uIsdir u).bind fun b => .ite (.ret _) ((Pres.lift _).bind fun x => ?_)
    obtain ⟨pth, tail⟩ := x
    refine (pres_uIsdir pth).bind fun b' => ?_
    cases b' with
    | true => exact Pres.ite (c := tail ≠ []) (pres_uMkdir u) (.ret _)
    | false => exact (ih pth).bind fun _ => Pres.ite (c := tail ≠ []) (pres_uMkdir u) (.ret _)

theorem pres_uMakedirs (n : Nat) (u : Uri) : Pres (uMakedirs n u) :=
  .withConn fun r => (pres_makedirs n u).keeps r

theorem pres_classify (r : Nat) (top : Uri) (l : List Str) : Pres (classify r top l) := by
  induction l with
  | nil => exact .ret _
  | cons x l ih =>
    rw [classify]
    exact (Pres.lift _).bind fun _ => (Pres.query _).bind fun _ => ih.bind fun _ => .ret _

theorem keeps_walkDirs {r : Nat} {σ : Type} {f : Bool} {visit : Uri → σ → M σ} (h : ∀ u s, Keeps r (visit u s))
    (top : Uri) (l : List Str) (s : σ) : Keeps r (walkDirs f visit top l s) := by
  induction l generalizing s with
  | nil => exact (Pres.ret _).keeps r
  | cons x l ih =>
    rw [walkDirs]
    refine ((Pres.lift _).keeps r).bind fun p => ((pres_uIslink p).keeps r).bind fun b => ?_
    exact .ite ((h p s).bind fun s' => ih s') (((Pres.ret s).keeps r).bind fun s' => ih s')

theorem keeps_walk {r q : Nat} {σ : Type} {td f : Bool}
    {body : σ → Uri → List Str → List Str → M (σ × List Str)} (h : ∀ s u d n, Keeps r (body s u d n))
    (n : Nat) (u : Uri) (s : σ) : Keeps r (walk q td f body n u s) := by
  induction n generalizing u s with
  | zero => exact (Pres.raise _).keeps r
  | succ n ih =>
    rw [walk]
    refine ((Pres.query _).keeps r).bind fun names => ((pres_classify q u _).keeps r).bind fun x => ?_
    obtain ⟨dirs, nondirs⟩ := x
    refine .ite ?_ ?_
    · exact (h s u dirs nondirs).bind fun y => keeps_walkDirs ih u _ _
    · exact (keeps_walkDirs ih u _ _).bind fun s' => (h s' u dirs nondirs).bind fun y => (Pres.ret _).keeps r

theorem pres_uWalk (n : Nat) (u : Uri) (td f : Bool) : Pres (uWalk n u td f) :=
  .withConn fun r => keeps_walk (fun _ _ _ _ => (Pres.ret _).keeps r) n u _

theorem pres_uGlob (u : Uri) (m : Str → Bool) : Pres (uGlob u m) :=
  .withConn fun r => ((pres_uListdir u).bind fun _ => Pres.mapM _ fun _ => .lift _).keeps r

theorem pres_removeBody (r : Nat) (top : Uri) (dirs files : List Str) : Keeps r (removeBody r top dirs files) := by
  unfold removeBody
  refine (Keeps.forM files fun f => ((Pres.lift _).bind fun p => pres_removefile r p).keeps r).bind fun _ => ?_
  exact Keeps.forM dirs fun d => ((Pres.lift _).bind fun p => (Pres.query _).bind fun b =>
    .ite (pres_removefile r p) (pres_removedir r p)).keeps r

theorem keeps_removeDirRec (n r : Nat) (u : Uri) : Keeps r (removeDirRec n r u) := by
  unfold removeDirRec
  refine (keeps_walk (fun _ u d f => (pres_removeBody r u d f).bind fun _ => (Pres.ret _).keeps r) n u ()).bind fun _ => ?_
  exact ((Pres.query _).bind fun b => .ite (pres_removefile r u) (pres_removedir r u)).keeps r

theorem pres_uRemove (n : Nat) (u : Uri) (rec : Bool) : Pres (uRemove n u rec) := by
  refine .withConn fun r => ?_
  refine ((Pres.query _).keeps r).bind fun b => .ite ((pres_removefile r u).keeps r) ?_
  refine ((Pres.query _).keeps r).bind fun b => .ite ((Pres.raise _).keeps r) ?_
  refine ((Pres.query _).keeps r).bind fun b => .ite (.ite (keeps_removeDirRec n r u) ((pres_removedir r u).keeps r)) ?_
  exact ((Pres.query _).keeps r).bind fun b => .ite ((pres_removefile r u).keeps r) ((Pres.ret _).keeps r)

theorem pres_copyFileObj (a b : Handle) (n : Nat) : Pres (copyFileObj a b n) := by
  induction n with
  | zero => exact .raise _
  | succ n ih =>
    rw [copyFileObj]
    exact (pres_read a _).bind fun d => .ite (.ret _) ((pres_write b d).bind fun _ => ih)

theorem pres_copyContent (u v : Uri) : Pres (copyContent u v) :=
  (pres_uOpen u _).bind fun a => (pres_uOpen v _).bind fun b => (pres_size a).bind fun _ => pres_copyFileObj a b _

theorem keeps_copyLink (r : Nat) (u v : Uri) : Keeps r (copyLink r u v) := by
  unfold copyLink
  refine ((Pres.query _).keeps r).bind fun b => ?_
  have h2 : Keeps r (do
      if ← uIsfile v then removefile r v
      let t ← M.query fun w => readlink w r u
      symlink r t v) := by
    refine ((pres_uIsfile v).keeps r).bind fun b' => ?_
    have h3 : Keeps r (do
        let t ← M.query fun w => readlink w r u
        symlink r t v) := ((Pres.query _).keeps r).bind fun t => keeps_symlink r t v
    cases b' with
    | false => exact h3
    | true => exact ((pres_removefile r v).keeps r).bind fun _ => h3
  cases b with
  | true => exact h2
  | false => exact ((Pres.raise _).keeps r).bind fun _ => h2

theorem keeps_copyOne (r : Nat) (u v : Uri) (f : Bool) : Keeps r (copyOne r u v f) := by
  unfold copyOne
  refine ((pres_uIslink u).keeps r).bind fun b => .ite (keeps_copyLink r u v) ?_
  exact ((pres_copyContent u v).keeps r).bind fun _ => .ite (keeps_copystat r u v) ((Pres.ret _).keeps r)

theorem keeps_copyDirs (n r : Nat) (ig : List Str) (f : Bool) (u v : Uri) (l m : List Str) :
    Keeps r (copyDirs n r ig f u v l m) := by
  induction l generalizing m with
  | nil => exact (Pres.ret _).keeps r
  | cons x l ih =>
    rw [copyDirs]
    refine .ite (ih _) ?_
    refine ((Pres.lift _).keeps r).bind fun dd => ((Pres.lift _).keeps r).bind fun sp =>
      ((pres_uIslink sp).keeps r).bind fun b => ?_
    refine .ite ((keeps_copyLink r sp dd).bind fun _ => ih _) (((pres_uMakedirs n dd).keeps r).bind fun _ => ih _)

theorem keeps_copyFiles (r : Nat) (f : Bool) (u v : Uri) (l : List Str) : Keeps r (copyFiles r f u v l) := by
  induction l with
  | nil => exact (Pres.ret _).keeps r
  | cons x l ih =>
    rw [copyFiles]
    exact ((Pres.lift _).keeps r).bind fun a => ((Pres.lift _).keeps r).bind fun b =>
      (keeps_copyOne r a b f).bind fun _ => ih

theorem keeps_copyBody (n r : Nat) (ig : List Str) (f : Bool) (k : Nat) (d u : Uri) (l m : List Str) :
    Keeps r (copyBody n r ig f k d u l m) := by
  unfold copyBody
  have h : ∀ b, Keeps r (do
      let dirs' ← copyDirs n r ig f u b l l
      copyFiles r f u b m
      pure dirs') := fun b =>
    (keeps_copyDirs n r ig f u b l l).bind fun _ => (keeps_copyFiles r f u b m).bind fun _ => (Pres.ret _).keeps r
  exact .ite (((Pres.lift _).keeps r).bind h) (((Pres.ret _).keeps r).bind h)

theorem keeps_withConn {α : Type} {q : Nat} {u : Uri} {m : Meth} {body : Nat → M α} (h : ∀ r, Keeps q (body r)) :
    Keeps q (withConn u m body) := by
  intro w hw hq
  obtain ⟨h1, h2, h3⟩ := getConnection_pres u w hw
  unfold withConn
  rw [bind_apply]
  cases hg : getConnection u w with
  | mk x w1 =>
    rw [hg] at h1 h2 h3
    cases x with
    | error e => exact ⟨h1, h2⟩
    | ok r =>
      have := ((preCallHook_pres r u m).keeps q).bind (fun _ => h r) w1 h1 (h2.isRoot hq)
      exact ⟨this.1, h2.trans this.2⟩

theorem keeps_copyWalk (n r : Nat) (ig : List Str) (f : Bool) (u d : Uri) : Keeps r (copyWalk n r ig f u d) :=
  keeps_withConn fun _ => keeps_walk (fun _ u' l m => (keeps_copyBody n r ig f _ d u' l m).bind fun _ =>
    (Pres.ret _).keeps r) n u ()

theorem keeps_copy (n r : Nat) (u v : Uri) (rec : Bool) (ig : List Str) (f : Bool) :
    Keeps r (copy n r u v rec ig f) := by
  unfold copy
  have key : Keeps r (
      if !rec then do
        if !(← uIsfile u) then raise .assertionError
        let dest ← if ← uIsdir v then M.lift (v.div u.last) else pure v
        copyOne r u dest f
      else do
        if !(← uIsdir u) then raise .assertionError
        let droot ← if ← uIsdir v then M.lift (v.div u.last) else pure v
        if (← uIslink u) && !f then copyLink r u droot
        else
          uMakedirs n droot
          copyWalk n r ig f u droot : M Unit) := by
    refine .ite ?_ ?_
    · refine ((pres_uIsfile u).keeps r).bind fun b => ?_
      have h1 : Keeps r (do
          let dest ← if ← uIsdir v then M.lift (v.div u.last) else pure v
          copyOne r u dest f) := by
        refine ((pres_uIsdir v).keeps r).bind fun b => ?_
        exact .ite (((Pres.lift _).keeps r).bind fun d => keeps_copyOne r u d f)
          (((Pres.ret _).keeps r).bind fun d => keeps_copyOne r u d f)
      cases b with
      | true => exact h1
      | false => exact ((Pres.raise _).keeps r).bind fun _ => h1
    · refine ((pres_uIsdir u).keeps r).bind fun b => ?_
      have h1 : Keeps r (do
          let droot ← if ← uIsdir v then M.lift (v.div u.last) else pure v
          if (← uIslink u) && !f then copyLink r u droot
          else
            uMakedirs n droot
            copyWalk n r ig f u droot) := by
        refine ((pres_uIsdir v).keeps r).bind fun b => ?_
        have h2 : ∀ d, Keeps r (do
            if (← uIslink u) && !f then copyLink r u d
            else
              uMakedirs n d
              copyWalk n r ig f u d) := fun d =>
          ((pres_uIslink u).keeps r).bind fun b => .ite (keeps_copyLink r u d)
            (((pres_uMakedirs n d).keeps r).bind fun _ => keeps_copyWalk n r ig f u d)
        exact .ite (((Pres.lift _).keeps r).bind h2) (((Pres.ret _).keeps r).bind h2)
      cases b with
      | true => exact h1
      | false => exact ((Pres.raise _).keeps r).bind fun _ => h1
  refine ((pres_uExists u).keeps r).bind fun b => ?_
  cases b with
  | true => exact key
  | false => exact ((Pres.raise _).keeps r).bind fun _ => key

theorem pres_uCopy (n : Nat) (u v : Uri) (rec : Bool) (ig : List Str) (f : Bool) : Pres (uCopy n u v rec ig f) :=
  .withConn fun r => keeps_copy n r u v rec ig f

theorem pres_move (n : Nat) (u v : Uri) : Pres (move n u v) := by
  unfold move
  refine (pres_uIsfile u).bind fun b => .ite ?_ ?_
  · exact (pres_uCopy n u v _ _ _).bind fun _ => pres_uRemove n u _
  · exact (pres_uCopy n u v _ _ _).bind fun _ => pres_uRemove n u _

theorem pres_uMove (n : Nat) (u v : Uri) : Pres (uMove n u v) := .withConn fun r => (pres_move n u v).keeps r

theorem pres_md5Loop (h : Handle) (n : Nat) : Pres (md5Loop h n) := by
  induction n with
  | zero => exact .raise _
  | succ n ih =>
    rw [md5Loop]
    refine (pres_read h _).bind fun d => ?_
    cases d with
    | bytes b => exact .ite (.ret _) (ih.bind fun _ => .ret _)
    | str s => exact .raise _

theorem pres_uMd5 (u : Uri) : Pres (uMd5 u) :=
  .withConn fun r => ((pres_uOpen u _).bind fun h => (pres_size h).bind fun _ => pres_md5Loop h _).keeps r

theorem pres_tryAcquire (l : LockId) : Pres (tryAcquire l) := by
  intro w hw; unfold tryAcquire; split
  · exact ⟨hw, .rfl' w⟩
  · exact pres_acquire l w hw

theorem pres_uLockEnter (u : Uri) (a b : Bool) : Pres (uLockEnter u a b) := by
  refine .withConn fun r => ?_
  unfold lockEnter
  refine (keeps_open r u _).bind fun h => (Pres.bind (pres_withFile fun w _ hw _ => ⟨hw, .rfl' w⟩) fun l => ?_).keeps r
  cases a with
  | true => exact (pres_tryAcquire l).bind fun _ => .ret _
  | false => exact (pres_acquire l).bind fun _ => .ret _

theorem pres_lockExit (n : Nat) (g : LockGuard) : Pres (lockExit n g) := by
  unfold lockExit
  exact (pres_release g.lock).bind fun _ => .ite (pres_uRemove n g.path false) (.ret _)

end Verif.Gen
