import Verif.Mem.Reach
/-!
# Which objects an operation may change: those of the file systems it works in
-/
namespace Verif.Mem
open M Spec

/-- the object has a place in the file system with root `r` -/
def Within (w : World) (r i : Nat) : Prop := ∃ q, phys w r q = some i

theorem Within.root (w : World) (r : Nat) : Within w r r := ⟨[], rfl⟩

theorem Within.child {w : World} {r i c : Nat} {d : DirObj} {n : Str} (h : Within w r i) (hd : w.node i = .dir d)
    (hl : d.files.lookup n = some c) : Within w r c := by
  obtain ⟨q, hq⟩ := h
  refine ⟨q ++ [n], ?_⟩
  rw [phys_snoc, hq]
  simp [entries_dir hd, hl]

/-- no object belongs to two file systems -/
theorem Within.disjoint {w : World} (hw : Inv w) {r s i : Nat} (hr : IsRoot w r) (hs : IsRoot w s) (hn : r ≠ s)
    (h : Within w r i) : ¬ Within w s i := by
  rintro ⟨q', h'⟩
  obtain ⟨q, h⟩ := h
  exact hn (phys_inj hw hr hs h h').1

theorem Within.lt {w : World} (hw : Inv w) {r i : Nat} (hr : IsRoot w r) (h : Within w r i) : i < w.next := by
  obtain ⟨q, h⟩ := h; exact phys_lt hw hr h

/-! ## Lookup stays within the file system -/

theorem child_within {w : World} {r k j : Nat} {res : Uri → Except PyErr (Option Nat)}
    (hres : ∀ t i, res t = .ok (some i) → Within w r i) (hk : Within w r k) {x : Str} {b : Bool}
    (hch : child w res k x b = .ok (some j)) : Within w r j := by
  unfold child at hch
  cases hn : w.node k with
  | file f => rw [hn] at hch; simp at hch
  | link f => rw [hn] at hch; simp at hch
  | dir d =>
    rw [hn] at hch
    simp only [DirObj.get] at hch
    cases hl : d.files.lookup x with
    | none => rw [hl] at hch; simp at hch
    | some m =>
      have hm := hk.child hn hl
      rw [hl] at hch
      simp only at hch
      cases hnm : w.node m with
      | file f => rw [hnm] at hch; simp at hch; exact hch ▸ hm
      | dir f => rw [hnm] at hch; simp at hch; exact hch ▸ hm
      | link l =>
        rw [hnm] at hch
        simp only at hch
        cases b with
        | false => simp at hch; exact hch ▸ hm
        | true =>
          simp only [if_true] at hch
          cases hrt : res l.target with
          | error e => rw [hrt] at hch; simp at hch
          | ok o =>
            cases o with
            | none => rw [hrt] at hch; simp at hch
            | some j' =>
              rw [hrt] at hch
              simp only at hch
              cases hj' : w.node j' with
              | link l' => rw [hj'] at hch; simp at hch
              | file l' => rw [hj'] at hch; simp at hch; subst hch; exact hres _ _ hrt
              | dir l' => rw [hj'] at hch; simp at hch; subst hch; exact hres _ _ hrt

theorem prevLoop_within {w : World} {r : Nat} {res : Uri → Except PyErr (Option Nat)} {follow throw : Bool}
    {last : Str} (hres : ∀ t i, res t = .ok (some i) → Within w r i) (xs : List Str) :
    ∀ (prev cur p c : Option Nat), (∀ i, prev = some i → Within w r i) → (∀ i, cur = some i → Within w r i) →
      prevLoop w res follow throw last xs prev cur = .ok (p, c) →
      (∀ i, p = some i → Within w r i) ∧ ∀ i, c = some i → Within w r i := by
  induction xs with
  | nil =>
    intro prev cur p c hp hc h
    simp [prevLoop] at h
    rw [← h.1, ← h.2]; exact ⟨hp, hc⟩
  | cons x xs ih =>
    intro prev cur p c _ hc h
    cases cur with
    | none => simp [prevLoop] at h
    | some k =>
      cases hn : w.node k with
      | file f => rw [prevLoop] at h; simp [hn] at h
      | link f => rw [prevLoop] at h; simp [hn] at h
      | dir d =>
        rw [prevLoop_cons_dir hn] at h
        split at h
        · cases hch : child w res k x (if x = last then follow else true) with
          | error e => rw [hch] at h; simp at h
          | ok nxt =>
            rw [hch] at h
            simp only at h
            refine ih (some k) nxt p c hc ?_ h
            rintro j rfl
            exact child_within hres (hc k rfl) hch
        · split at h
          · simp at h
          · simp at h
            rw [← h.1, ← h.2]; simp

theorem nodeForPathWith_within {w : World} {r : Nat} {res : Uri → Except PyErr (Option Nat)} {follow throw : Bool}
    (hres : ∀ t i, res t = .ok (some i) → Within w r i) {u : Uri} {i : Nat}
    (h : nodeForPathWith w r res follow throw u = .ok (some i)) : Within w r i := by
  cases hs : stepsOf u with
  | none => rw [nodeForPathWith_bad hs] at h; simp at h
  | some ts =>
    rw [nodeForPathWith_eq hs] at h
    cases hp : prevLoop w res follow throw (ts.getLastD []) ts none (some r) with
    | error e => rw [hp] at h; simp [Except.map] at h
    | ok x =>
      rw [hp] at h
      obtain ⟨p, c⟩ := x
      simp [Except.map] at h
      exact (prevLoop_within hres ts none (some r) p c (by simp) (by rintro j ⟨rfl⟩; exact .root w r) hp).2 i h

theorem resolveLink_within {w : World} {r : Nat} {throw : Bool} (k : Nat) :
    ∀ t i, resolveLink w r throw k t = .ok (some i) → Within w r i := by
  induction k with
  | zero => intro t i h; simp [resolveLink] at h
  | succ k ih => intro t i h; rw [resolveLink] at h; exact nodeForPathWith_within ih h

theorem nodeForPath_within {w : World} {r : Nat} {follow throw : Bool} {u : Uri} {i : Nat}
    (h : nodeForPath w r follow throw u = .ok (some i)) : Within w r i :=
  nodeForPathWith_within (resolveLink_within 32) h

theorem nodePrev_within {w : World} {r : Nat} {follow throw : Bool} {ts : List Str} {p c : Option Nat}
    (h : nodePrev w r follow throw ts = .ok (p, c)) :
    (∀ i, p = some i → Within w r i) ∧ ∀ i, c = some i → Within w r i :=
  prevLoop_within (resolveLink_within 32) ts none (some r) p c (by simp) (by rintro j ⟨rfl⟩; exact .root w r) h

theorem getNode_within {w : World} {r i : Nat} {ts : List Str} (h : getNode w r ts = .ok (some i)) : Within w r i := by
  unfold getNode at h
  cases hp : nodePrev w r true true ts with
  | error e => rw [hp] at h; simp at h
  | ok x =>
    rw [hp] at h
    obtain ⟨p, c⟩ := x
    simp at h
    exact (nodePrev_within hp).2 i h

theorem parentOf_within {w : World} {r i : Nat} {p n : Str} {b : Bool} (h : parentOf w r p = .ok (i, n, b)) :
    Within w r i := by
  unfold parentOf at h
  cases hg : getNode w r (splitC '/' p).dropLast with
  | error e => rw [hg] at h; simp at h
  | ok x =>
    cases x with
    | none => rw [hg] at h; simp at h
    | some j =>
      rw [hg] at h
      simp only at h
      cases hn : w.node j with
      | file f => rw [hn] at h; simp at h
      | link f => rw [hn] at h; simp at h
      | dir d =>
        rw [hn] at h
        simp at h
        rw [← h.1]
        exact getNode_within hg

/-! ## Sparing a file system -/

/-- no object of the file system `s` is changed -/
def Same (s : Nat) (w w' : World) : Prop := ∀ i, Within w s i → w'.node i = w.node i

theorem Same.rfl' (s : Nat) (w : World) : Same s w w := fun _ _ => rfl

theorem Same.phys {s : Nat} {w w' : World} (h : Same s w w') (q : List Str) : phys w' s q = phys w s q := by
  induction q using List.reverseRecOn with
  | nil => rfl
  | append_singleton q n ih =>
    rw [phys_snoc, phys_snoc, ih]
    cases hp : Spec.phys w s q with
    | none => rfl
    | some i =>
      simp only [Option.bind_some]
      unfold World.entries
      rw [h i ⟨q, hp⟩]

theorem Same.within {s i : Nat} {w w' : World} (h : Same s w w') : Within w' s i ↔ Within w s i := by
  unfold Within; simp only [h.phys]

theorem Same.view {s : Nat} {w w' : World} (h : Same s w w') : view w' s = view w s := by
  funext q
  unfold Spec.view
  rw [h.phys]
  cases hp : Spec.phys w s q with
  | none => rfl
  | some i => simp only [Option.map_some]; rw [h i ⟨q, hp⟩]

theorem Same.trans {s : Nat} {a b c : World} (h : Same s a b) (h' : Same s b c) : Same s a c :=
  fun i hi => (h' i (h.within.2 hi)).trans (h i hi)

theorem Same.setNode {s i : Nat} {w : World} {n : Node} (h : ¬ Within w s i) : Same s w (w.setNode i n) := by
  intro j hj
  have : j ≠ i := by rintro rfl; exact h hj
  simp [World.setNode, this]

theorem Same.of_node {s : Nat} {w w' : World} (h : w'.node = w.node) : Same s w w' := fun i _ => by rw [h]

/-- `m`, working in the file system `r`, spares the file system `s` -/
def SparesAt (r s : Nat) {α : Type} (m : M α) : Prop :=
  ∀ w, Inv w → IsRoot w r → IsRoot w s → Same s w (m w).2

/-- `m` spares the file system `s` as long as no URI of `P` belongs to it -/
def Spares (s : Nat) (P : Uri → Prop) {α : Type} (m : M α) : Prop :=
  ∀ w, Inv w → IsRoot w s → (∀ u, P u → w.connOf (connKey u) ≠ some s) → Same s w (m w).2

theorem SparesAt.ret {r s : Nat} {α : Type} (a : α) : SparesAt r s (pure a : M α) := fun w _ _ _ => .rfl' s w
theorem SparesAt.raise {r s : Nat} {α : Type} (e : PyErr) : SparesAt r s (raise e : M α) := fun w _ _ _ => .rfl' s w
theorem SparesAt.query {r s : Nat} {α : Type} (f : World → Except PyErr α) : SparesAt r s (query f) :=
  fun w _ _ _ => .rfl' s w
theorem SparesAt.lift {r s : Nat} {α : Type} (x : Except PyErr α) : SparesAt r s (lift x) := fun w _ _ _ => .rfl' s w

theorem SparesAt.bind {r s : Nat} {α β : Type} {m : M α} {f : α → M β} (hk : Keeps r m) (h : SparesAt r s m)
    (h' : ∀ a, SparesAt r s (f a)) : SparesAt r s (m >>= f) := by
  intro w hw hr hs
  rw [bind_apply]
  have h0 := hk w hw hr
  have h1 := h w hw hr hs
  cases hm : m w with
  | mk x w1 =>
    rw [hm] at h0 h1
    cases x with
    | error e => exact h1
    | ok a => exact h1.trans (h' a w1 h0.1 (h0.2.isRoot hr) (h0.2.isRoot hs))

theorem SparesAt.ite {r s : Nat} {α : Type} {c : Prop} [Decidable c] {m m' : M α} (h : SparesAt r s m)
    (h' : SparesAt r s m') : SparesAt r s (if c then m else m') := by split <;> assumption

theorem SparesAt.forM {r s : Nat} {α : Type} {f : α → M PUnit} (l : List α) (hk : ∀ a, Keeps r (f a))
    (h : ∀ a, SparesAt r s (f a)) : SparesAt r s (l.forM f) := by
  induction l with
  | nil => exact .ret _
  | cons a l ih => exact .bind (hk a) (h a) fun _ => ih

/-- a URI of another file system stays one -/
theorem avoids_ext {w w' : World} (hw' : Inv w') (he : Ext w w') {s : Nat} (hs : IsRoot w s) {k : ConnKey}
    (h : w.connOf k ≠ some s) : w'.connOf k ≠ some s := by
  obtain ⟨t, ht⟩ := he.conns
  unfold World.connOf at h ⊢
  rw [← ht, List.find?_append]
  cases hf : w.conns.find? fun c => c.1.same k with
  | some c => rw [hf] at h; simpa using h
  | none =>
    simp only [Option.none_or]
    intro hc
    rw [Option.map_eq_some_iff] at hc
    obtain ⟨⟨k', s'⟩, h1, h2⟩ := hc
    simp at h2
    subst h2
    obtain ⟨k2, hk2⟩ := hs
    have h3 := hw'.roots
    rw [← ht, List.map_append, List.nodup_append] at h3
    exact h3.2.2 s' (List.mem_map_of_mem (f := Prod.snd) hk2) s'
      (List.mem_map_of_mem (f := Prod.snd) (List.mem_of_find?_eq_some h1)) rfl

theorem Spares.bind {s : Nat} {P : Uri → Prop} {α β : Type} {m : M α} {f : α → M β} (hk : Pres m) (h : Spares s P m)
    (h' : ∀ a, Spares s P (f a)) : Spares s P (m >>= f) := by
  intro w hw hs hu
  rw [bind_apply]
  have h0 := hk w hw
  have h1 := h w hw hs hu
  cases hm : m w with
  | mk x w1 =>
    rw [hm] at h0 h1
    cases x with
    | error e => exact h1
    | ok a =>
      exact h1.trans (h' a w1 h0.1 (h0.2.isRoot hs) fun u hu' => avoids_ext h0.1 h0.2 hs (hu u hu'))

theorem Spares.raise {s : Nat} {P : Uri → Prop} {α : Type} (e : PyErr) : Spares s P (raise e : M α) :=
  fun w _ _ _ => .rfl' s w
theorem Spares.ret {s : Nat} {P : Uri → Prop} {α : Type} (a : α) : Spares s P (pure a : M α) := fun w _ _ _ => .rfl' s w
theorem Spares.lift {s : Nat} {P : Uri → Prop} {α : Type} (x : Except PyErr α) : Spares s P (lift x) :=
  fun w _ _ _ => .rfl' s w

theorem Spares.ite {s : Nat} {P : Uri → Prop} {α : Type} {c : Prop} [Decidable c] {m m' : M α} (h : Spares s P m)
    (h' : Spares s P m') : Spares s P (if c then m else m') := by split <;> assumption

theorem Spares.mono {s : Nat} {P Q : Uri → Prop} {α : Type} {m : M α} (h : Spares s P m) (hs : ∀ u, P u → Q u) :
    Spares s Q m := fun w hw hr hu => h w hw hr fun u hu' => hu u (hs u hu')

/-- taking a connection changes no object -/
theorem getConnection_same (u : Uri) (w : World) (hw : Inv w) {s : Nat} (hs : IsRoot w s) :
    Same s w (getConnection u w).2 := by
  unfold getConnection
  split
  · exact .rfl' s w
  split
  · split
    · exact .rfl' s w
    · by_cases ht : truthy (connKey u).key.hostname = true
      · rw [createConn_host ht]; exact .rfl' s w
      · rw [createConn_eq ht]
        intro i hi
        have := hi.lt hw hs
        simp only [World.connect, World.alloc]
        rw [if_neg (by omega)]
  split
  · exact .rfl' s w
  · exact .rfl' s w

/-- the connection of a URI that does not belong to `s` -/
theorem getConnection_avoids {u : Uri} {w : World} (hw : Inv w) {s : Nat} (hs : IsRoot w s)
    (h : w.connOf (connKey u) ≠ some s) {r : Nat} (hr : (getConnection u w).1 = .ok r) : r ≠ s := by
  unfold getConnection at hr
  split at hr
  · simp at hr
  split at hr
  · split at hr
    · rename_i r' hr'
      simp at hr
      subst hr
      rintro rfl
      exact h hr'
    · by_cases ht : truthy (connKey u).key.hostname = true
      · rw [createConn_host ht] at hr; simp at hr
      · rw [createConn_eq ht] at hr
        simp at hr
        obtain ⟨k, hk⟩ := hs
        have := (hw.root k s hk).1
        omega
  split at hr
  · simp at hr
  · simp at hr

theorem Spares.withConn {s : Nat} {P : Uri → Prop} {α : Type} {u : Uri} {m : Meth} {body : Nat → M α} (hu : P u)
    (h : ∀ r, r ≠ s → SparesAt r s (body r)) : Spares s P (withConn u m body) := by
  intro w hw hs hav
  obtain ⟨h1, h2, h3⟩ := getConnection_pres u w hw
  have h4 := getConnection_same u w hw hs
  unfold Mem.withConn
  rw [bind_apply]
  cases hg : getConnection u w with
  | mk x w1 =>
    have h5 : ∀ r, x = .ok r → r ≠ s := fun r hx => getConnection_avoids hw hs (hav u hu) (by rw [hg]; exact hx)
    rw [hg] at h1 h2 h3 h4
    cases x with
    | error e => exact h4
    | ok r =>
      refine h4.trans ?_
      refine SparesAt.bind ((preCallHook_pres r u m).keeps r) ?_ (fun _ => h r (h5 r rfl)) w1 h1 (h3 r rfl) (h2.isRoot hs)
      exact .bind ((Pres.lift _).keeps r) (.lift _) fun _ => .query _

/-- the same where the body spares `s` for its own reasons -/
theorem Spares.withConn' {s : Nat} {P : Uri → Prop} {α : Type} {u : Uri} {m : Meth} {body : Nat → M α}
    (h : ∀ r, Spares s P (body r)) : Spares s P (Mem.withConn u m body) := by
  intro w hw hs hav
  obtain ⟨h1, h2, h3⟩ := getConnection_pres u w hw
  have h4 := getConnection_same u w hw hs
  unfold Mem.withConn
  rw [bind_apply]
  cases hg : getConnection u w with
  | mk x w1 =>
    rw [hg] at h1 h2 h3 h4
    cases x with
    | error e => exact h4
    | ok r =>
      refine h4.trans ?_
      refine Spares.bind (P := P) (preCallHook_pres r u m) ?_ (fun _ => h r) w1 h1 (h2.isRoot hs)
        fun v hv => avoids_ext h1 h2 hs (hav v hv)
      exact .bind (.lift _) (.lift _) fun _ w _ _ _ => .rfl' s w

/-- queries spare everything -/
theorem spares_query_conn {s : Nat} {P : Uri → Prop} {α : Type} (u : Uri) (m : Meth) (f : Nat → World → Except PyErr α) :
    Spares s P (withConn u m fun r => query (f r)) := .withConn' fun _ _ _ _ _ => .rfl' s _

/-! ## The methods -/

theorem Same.addChild {w : World} (hw : Inv w) {s nd : Nat} (hs : IsRoot w s) {d : DirObj} {x : Str} {n : Node}
    (h : ¬ Within w s nd) : Same s w (w.addChild nd d x n) := by
  intro i hi
  have := hi.lt hw hs
  simp only [World.addChild]
  rw [if_neg (by rintro rfl; exact h hi), if_neg (by omega)]

section
variable {r s : Nat} (hn : r ≠ s)
include hn

theorem sparesAt_mkdir (u : Uri) : SparesAt r s (mkdir r u) := by
  intro w hw hr hs
  rcases mkdir_cases hw hr u with ⟨e, h⟩ | ⟨-, h⟩ | ⟨init, n, q, nd, d, -, -, a, b, c, h⟩
  · rw [h]; exact .rfl' s w
  · rw [h]; exact .rfl' s w
  · rw [h]; exact .addChild hw hs (Within.disjoint hw hr hs hn ⟨q, a⟩)

theorem sparesAt_symlink (t u : Uri) : SparesAt r s (symlink r t u) := by
  intro w hw hr hs
  rcases symlink_cases hw hr t u with ⟨e, h⟩ | ⟨-, h⟩ | ⟨init, n, q, nd, d, -, -, a, b, c, h⟩
  · rw [h]; exact .rfl' s w
  · rw [h]; exact .rfl' s w
  · rw [h]; exact .addChild hw hs (Within.disjoint hw hr hs hn ⟨q, a⟩)

theorem sparesAt_delChild {w : World} (hw : Inv w) (hr : IsRoot w r) (hs : IsRoot w s) {i : Nat}
    (hi : Within w r i) (n : Str) : Same s w (delChild i n w).2 := by
  rcases delChild_cases (w := w) i n with ⟨e, h⟩ | ⟨d, c, -, -, h⟩
  · rw [h]; exact .rfl' s w
  · rw [h]; exact .setNode (hi.disjoint hw hr hs hn)

theorem sparesAt_removefile (u : Uri) : SparesAt r s (removefile r u) := by
  intro w hw hr hs
  unfold removefile
  simp only [bind_apply, lift_apply, query_apply]
  cases stripPath u with
  | error e => exact .rfl' s w
  | ok p =>
    simp only
    cases hp : nodePrev w r false true (List.filter (fun x => decide (x ≠ [])) (splitC '/' p)) with
    | error e => exact .rfl' s w
    | ok x =>
      obtain ⟨a, b⟩ := x
      cases a with
      | none => exact .rfl' s w
      | some i => exact sparesAt_delChild hn hw hr hs ((nodePrev_within hp).1 i rfl) _

theorem sparesAt_removedir (u : Uri) : SparesAt r s (removedir r u) := by
  intro w hw hr hs
  unfold removedir
  simp only [bind_apply, lift_apply, query_apply]
  cases stripPath u with
  | error e => exact .rfl' s w
  | ok p =>
    simp only
    cases hp : nodePrev w r true true (List.filter (fun x => decide (x ≠ [])) (splitC '/' p)) with
    | error e => exact .rfl' s w
    | ok x =>
      obtain ⟨a, b⟩ := x
      cases a with
      | none => exact .rfl' s w
      | some i =>
        simp only [bind_apply, query_apply]
        cases child w (resolveLink w r true 32) i u.last true with
        | error e => exact .rfl' s w
        | ok y =>
          cases y with
          | none => exact .rfl' s w
          | some k =>
            simp only
            cases w.node k with
            | file f => exact .rfl' s w
            | link f => exact .rfl' s w
            | dir dd =>
              simp only
              split
              · exact sparesAt_delChild hn hw hr hs ((nodePrev_within hp).1 i rfl) _
              · exact .rfl' s w

theorem sparesAt_setInfo (u : Uri) (i : SetInfo) (f : Bool) : SparesAt r s (setInfo r u i f) := by
  intro w hw hr hs
  rcases setInfo_cases (w := w) (r := r) u i f with ⟨e, h⟩ | ⟨i, a, h⟩
  · rw [h]; exact .rfl' s w
  · rw [h]; exact .setNode ((nodeForPath_within a).disjoint hw hr hs hn)

theorem sparesAt_setExec (u : Uri) (m : Int) : SparesAt r s (setExec r u m) :=
  .bind ((Pres.query _).keeps r) (.query _) fun _ => sparesAt_setInfo hn u _ true

theorem sparesAt_copystat (u v : Uri) : SparesAt r s (copystat r u v) := by
  intro w hw hr hs
  rcases copystat_cases (w := w) (r := r) u v with ⟨e, h⟩ | ⟨i, d, -, a, h⟩
  · rw [h]; exact .rfl' s w
  · rw [h, statFrom_eq]; exact .setNode ((nodeForPath_within a).disjoint hw hr hs hn)

theorem sparesAt_openRead (u : Uri) (b : Bool) : SparesAt r s (openRead r u b) := by
  intro w hw hr hs
  rcases openRead_cases (w := w) (r := r) u b with ⟨e, h⟩ | ⟨i, f, -, a, h⟩
  · rw [h]; exact .rfl' s w
  · rw [h]; exact .setNode ((nodeForPath_within a).disjoint hw hr hs hn)

theorem sparesAt_openAppend (u : Uri) (b : Bool) : SparesAt r s (openAppend r u b) := by
  intro w hw hr hs
  rcases openAppend_cases (w := w) (r := r) u b with ⟨e, h⟩ | ⟨i, f, -, a, h⟩
  · rw [h]; exact .rfl' s w
  · rw [h]; exact .setNode ((nodeForPath_within a).disjoint hw hr hs hn)

end

/-- the file opened for writing is one of the file system, or a new one -/
theorem openWrite_within {w : World} {r : Nat} (hw : Inv w) (hr : IsRoot w r) (u : Uri) (b : Bool) :
    (∃ e, openWrite r u b w = (.error e, w)) ∨
    (∃ i f, Within w r i ∧ w.node i = .file f ∧ openWrite r u b w = (.ok ⟨i, false, b⟩, w.resetAt i f)) ∨
    ∃ p n nd d, Within w r nd ∧ w.node nd = .dir d ∧ d.files.lookup n = none ∧
      openWrite r u b w = (.ok ⟨w.next, false, b⟩, w.addChild nd d n (w.freshFile p)) := by
  cases h1 : stripPath u with
  | error e => left; exact ⟨e, by unfold openWrite; simp [bind_apply, h1]⟩
  | ok p =>
    obtain ⟨init, n, hp⟩ : ∃ init n, splitC '/' p = init ++ [n] := by
      rcases List.eq_nil_or_concat (splitC '/' p) with h | ⟨init, n, h⟩
      · exact absurd h splitC_ne_nil
      · exact ⟨init, n, by rw [h, List.concat_eq_append]⟩
    rcases parentOf_cases hw hr hp with ⟨e, he⟩ | ⟨q, nd, d, g, hd, a, b', c, e⟩
    · left; exact ⟨e, by rw [openWrite_eq h1, he]⟩
    · cases hl : d.files.lookup n with
      | none =>
        right; right
        refine ⟨p, n, nd, d, ⟨q, a⟩, b', hl, ?_⟩
        rw [openWrite_eq h1, e]
        simp only [DirObj.has, hl, Option.isSome_none, Bool.false_eq_true, if_false]
        rw [bind_ok (newFile_eq w p), bind_ok (createChild_alloc b' c)]
        rfl
      | some j =>
        rw [openWrite_eq h1, e]
        simp only [DirObj.has, hl, Option.isSome_some, if_true]
        cases hc : child w (resolveLink w r true 32) nd n true with
        | error e => exact .inl ⟨e, rfl⟩
        | ok y =>
          cases y with
          | none => exact .inl ⟨_, rfl⟩
          | some k =>
            simp only
            cases hk : w.node k with
            | dir d => exact .inl ⟨_, rfl⟩
            | link l => exact .inl ⟨_, rfl⟩
            | file f => exact .inr (.inl ⟨k, f, child_within (resolveLink_within 32) ⟨q, a⟩ hc, hk, rfl⟩)

section
variable {r s : Nat} (hn : r ≠ s)
include hn

theorem sparesAt_openWrite (u : Uri) (b : Bool) : SparesAt r s (openWrite r u b) := by
  intro w hw hr hs
  rcases openWrite_within hw hr u b with ⟨e, h⟩ | ⟨i, f, a, -, h⟩ | ⟨p, n, nd, d, a, -, -, h⟩
  · rw [h]; exact .rfl' s w
  · rw [h]
    intro j hj
    have : j ≠ i := by rintro rfl; exact a.disjoint hw hr hs hn hj
    simp [World.resetAt, World.setNode, this]
  · rw [h]; exact .addChild hw hs (a.disjoint hw hr hs hn)

theorem sparesAt_open (u : Uri) (o : Option Str) : SparesAt r s (open_ r u o) := by
  unfold open_
  split
  · exact sparesAt_openRead hn u _
  · exact .ite (sparesAt_openRead hn u _) (.ite (sparesAt_openWrite hn u _) (.ite (sparesAt_openAppend hn u _) (.raise _)))

end

/-! ## Handles -/

/-- an object outside the file system does not get into it -/
theorem not_within_stays {w w' : World} (hw : Inv w) (h : Stays w w') {s i : Nat} (hi : i < w.next)
    (hn : ¬ Within w s i) : ¬ Within w' s i := fun ⟨q, hq⟩ => hn ⟨q, h.phys hw hq hi⟩

/-- `m` changes nothing but the object `i` -/
def Only (i : Nat) {α : Type} (m : M α) : Prop := ∀ w j, j ≠ i → (m w).2.node j = w.node j

theorem Only.bind {i : Nat} {α β : Type} {m : M α} {f : α → M β} (h : Only i m) (h' : ∀ a, Only i (f a)) :
    Only i (m >>= f) := by
  intro w j hj
  rw [bind_apply]
  have := h w j hj
  cases hm : m w with
  | mk x w1 =>
    rw [hm] at this
    cases x with
    | error e => exact this
    | ok a => exact (h' a w1 j hj).trans this

theorem Only.lift {i : Nat} {α : Type} (x : Except PyErr α) : Only i (lift x) := fun _ _ _ => rfl
theorem Only.ret {i : Nat} {α : Type} (x : α) : Only i (pure x : M α) := fun _ _ _ => rfl
theorem Only.raise {i : Nat} {α : Type} (e : PyErr) : Only i (raise e : M α) := fun _ _ _ => rfl
theorem Only.now {i : Nat} : Only i now := fun _ _ _ => rfl
theorem Only.setNode (i : Nat) (n : Node) : Only i (Mem.setNode i n) := fun w j hj => by
  simp [Mem.setNode, World.setNode, hj]

theorem Only.ite {i : Nat} {α : Type} {c : Prop} [Decidable c] {m m' : M α} (h : Only i m) (h' : Only i m') :
    Only i (if c then m else m') := by split <;> assumption

theorem Only.withFile {i : Nat} {α : Type} {g : FileObj → M α} (h : ∀ f, Only i (g f)) : Only i (withFile i g) := by
  intro w j hj
  unfold Mem.withFile
  cases w.node i with
  | file f => exact h f w j hj
  | dir f => rfl
  | link f => rfl

theorem Only.same {i s : Nat} {α : Type} {m : M α} (h : Only i m) {w : World} (hn : ¬ Within w s i) :
    Same s w (m w).2 := fun j hj => h w j (by rintro rfl; exact hn hj)

theorem only_write (h : Handle) (d : PyData) : Only h.id (h.write d) :=
  (Only.lift _).bind fun _ => .withFile fun _ => Only.now.bind fun _ => .setNode _ _
theorem only_read (h : Handle) (n : Int) : Only h.id (h.read n) :=
  .ite ((Only.withFile fun _ => (Only.setNode _ _).bind fun _ => .ret _).bind fun _ => .lift _) (.raise _)
theorem only_seek (h : Handle) (t wh : Int) : Only h.id (h.seek t wh) :=
  .withFile fun _ => (Only.lift _).bind fun _ => .setNode _ _
theorem only_tell (h : Handle) : Only h.id h.tell := .withFile fun _ => .ret _
theorem only_size (h : Handle) : Only h.id h.size := .withFile fun _ => .ret _
theorem only_truncate (h : Handle) (n : Option Int) : Only h.id (h.truncate n) :=
  .withFile fun _ => (Only.lift _).bind fun _ => (Only.setNode _ _).bind fun _ => .ret _
theorem only_close (h : Handle) : Only h.id h.close := .withFile fun _ => .setNode _ _
theorem only_readline (h : Handle) : Only h.id h.readline :=
  (Only.withFile fun _ => (Only.setNode _ _).bind fun _ => .ret _).bind fun _ => .lift _
theorem only_next (h : Handle) : Only h.id h.next :=
  (Only.withFile fun _ => (Only.setNode _ _).bind fun _ => .ret _).bind fun _ =>
    .ite (.ret _) ((Only.lift _).bind fun _ => .ret _)

/-- the object behind a handle just opened lies in the file system it was opened in -/
theorem open_within {w w' : World} {r : Nat} (hw : Inv w) (hr : IsRoot w r) {u : Uri} {o : Option Str} {h : Handle}
    (ho : open_ r u o w = (.ok h, w')) : (Within w r h.id ∨ h.id = w.next) ∧ h.id < w'.next := by
  have hlt : ∀ {i}, Within w r i → ∀ w'' : World, w.next ≤ w''.next → i < w''.next := fun hi w'' hle =>
    Nat.lt_of_lt_of_le (hi.lt hw hr) hle
  have rd : ∀ b, openRead r u b w = (.ok h, w') → (Within w r h.id ∨ h.id = w.next) ∧ h.id < w'.next := by
    intro b ho
    rcases openRead_cases (w := w) (r := r) u b with ⟨e, h1⟩ | ⟨i, f, -, a, h1⟩
    · rw [h1] at ho; simp at ho
    · rw [h1] at ho
      simp at ho
      obtain ⟨rfl, rfl⟩ := ho
      exact ⟨.inl (nodeForPath_within a), hlt (nodeForPath_within a) _ (Nat.le_refl _)⟩
  have ap : ∀ b, openAppend r u b w = (.ok h, w') → (Within w r h.id ∨ h.id = w.next) ∧ h.id < w'.next := by
    intro b ho
    rcases openAppend_cases (w := w) (r := r) u b with ⟨e, h1⟩ | ⟨i, f, -, a, h1⟩
    · rw [h1] at ho; simp at ho
    · rw [h1] at ho
      simp at ho
      obtain ⟨rfl, rfl⟩ := ho
      exact ⟨.inl (nodeForPath_within a), hlt (nodeForPath_within a) _ (Nat.le_refl _)⟩
  have wr : ∀ b, openWrite r u b w = (.ok h, w') → (Within w r h.id ∨ h.id = w.next) ∧ h.id < w'.next := by
    intro b ho
    rcases openWrite_within hw hr u b with ⟨e, h1⟩ | ⟨i, f, a, -, h1⟩ | ⟨p, n, nd, d, a, -, -, h1⟩
    · rw [h1] at ho; simp at ho
    · rw [h1] at ho
      simp at ho
      obtain ⟨rfl, rfl⟩ := ho
      exact ⟨.inl a, hlt a _ (Nat.le_refl _)⟩
    · rw [h1] at ho
      simp at ho
      obtain ⟨rfl, rfl⟩ := ho
      exact ⟨.inr rfl, Nat.lt_succ_self _⟩
  unfold open_ at ho
  split at ho
  · exact rd _ ho
  split at ho
  · exact rd _ ho
  split at ho
  · exact wr _ ho
  split at ho
  · exact ap _ ho
  · simp at ho

/-- the file system spared does not contain it -/
theorem open_not_within {w w' : World} {r s : Nat} (hw : Inv w) (hr : IsRoot w r) (hs : IsRoot w s) (hn : r ≠ s)
    {u : Uri} {o : Option Str} {h : Handle} (ho : open_ r u o w = (.ok h, w')) :
    ¬ Within w' s h.id ∧ h.id < w'.next := by
  obtain ⟨h1, h2⟩ := open_within hw hr ho
  refine ⟨?_, h2⟩
  have h3 := sparesAt_open hn u o w hw hr hs
  rw [ho] at h3
  rw [h3.within]
  rcases h1 with h1 | h1
  · exact h1.disjoint hw hr hs hn
  · intro h4
    have := h4.lt hw hs
    omega

theorem withConn_not_within {s : Nat} {u : Uri} {m : Meth} {body : Nat → M Handle}
    (hb : ∀ r w w' h, Inv w → IsRoot w r → IsRoot w s → r ≠ s → body r w = (.ok h, w') →
      ¬ Within w' s h.id ∧ h.id < w'.next) {w w' : World} (hw : Inv w) (hs : IsRoot w s)
    (hu : w.connOf (connKey u) ≠ some s) {h : Handle} (ho : withConn u m body w = (.ok h, w')) :
    ¬ Within w' s h.id ∧ h.id < w'.next := by
  obtain ⟨h1, h2, h3⟩ := getConnection_pres u w hw
  unfold Mem.withConn at ho
  rw [bind_apply] at ho
  cases hg : getConnection u w with
  | mk x w1 =>
    have h5 : ∀ r, x = .ok r → r ≠ s := fun r hx => getConnection_avoids hw hs hu (by rw [hg]; exact hx)
    rw [hg] at h1 h2 h3 ho
    cases x with
    | error e => simp at ho
    | ok r =>
      simp only [bind_apply] at ho
      have h6 := preCallHook_pres r u m w1 h1
      cases hp : preCallHook r u m w1 with
      | mk y w2 =>
        rw [hp] at ho h6
        cases y with
        | error e => simp at ho
        | ok _ => exact hb r w2 w' h h6.1 (h6.2.isRoot (h3 r rfl)) (h6.2.isRoot (h2.isRoot hs)) (h5 r rfl) ho

theorem uOpen_not_within {s : Nat} {u : Uri} {o : Option Str} {w w' : World} (hw : Inv w) (hs : IsRoot w s)
    (hu : w.connOf (connKey u) ≠ some s) {h : Handle} (ho : uOpen u o w = (.ok h, w')) :
    ¬ Within w' s h.id ∧ h.id < w'.next :=
  withConn_not_within (fun _ _ _ _ hw hr hs hn h => open_not_within hw hr hs hn h) hw hs hu ho

/-! ## `_manipulate` -/

theorem spares_node {s : Nat} {P : Uri → Prop} {α : Type} {m : M α} (h : ∀ w, (m w).2.node = w.node) : Spares s P m :=
  fun w _ _ _ => .of_node (h w)

theorem node_acquire (l : LockId) (w : World) : (acquire l w).2.node = w.node := by
  unfold acquire; split <;> rfl
theorem node_release (l : LockId) (w : World) : (release l w).2.node = w.node := by
  unfold release; split <;> rfl

theorem sparesAt_manipulate {r s : Nat} (hn : r ≠ s) (u : Uri) (a : Manip) : SparesAt r s (manipulate r u a) := by
  unfold manipulate
  have hl : ∀ b : Bool, ∀ g : LockId → M PUnit, (∀ l, Pres (g l)) → (∀ l w, (g l w).2.node = w.node) →
      Pres (if b = true then (do let p ← M.lift (stripPath u); let l ← tempLock p; g l) else pure PUnit.unit) ∧
      SparesAt r s (if b = true then (do let p ← M.lift (stripPath u); let l ← tempLock p; g l) else pure PUnit.unit) := by
    intro b g hg hg'
    refine ⟨.ite ((Pres.lift _).bind fun p => (pres_tempLock p).bind fun l => hg l) (.ret _), ?_⟩
    refine .ite (.bind ((Pres.lift _).keeps r) (.lift _) fun p => .bind ((pres_tempLock p).keeps r) ?_ fun l => ?_) (.ret _)
    · exact fun w _ _ _ => .of_node rfl
    · exact fun w _ _ _ => .of_node (hg' l w)
  obtain ⟨a1, a2⟩ := hl a.lock acquire pres_acquire node_acquire
  obtain ⟨b1, b2⟩ := hl a.unlock release pres_release node_release
  have h3 : Keeps r (match a.mtime with
      | none => pure PUnit.unit
      | some t => setInfo r u { mtime := some t } true) ∧ SparesAt r s (match a.mtime with
      | none => pure PUnit.unit
      | some t => setInfo r u { mtime := some t } true) := by
    cases a.mtime with
    | none => exact ⟨(Pres.ret _).keeps r, .ret _⟩
    | some t => exact ⟨keeps_setInfo r u _ true, sparesAt_setInfo hn u _ true⟩
  have h4 : SparesAt r s (match a.callback with
      | none => pure PUnit.unit
      | some cb => do
        let p ← M.lift (stripPath u)
        (fun w => (.ok (), { w with hooks := fun j => if j = r then setHook (w.hooks r) p cb else w.hooks j }) : M PUnit)) := by
    cases a.callback with
    | none => exact .ret _
    | some cb => exact .bind ((Pres.lift _).keeps r) (.lift _) fun p w _ _ _ => .of_node rfl
  have := SparesAt.bind (a1.keeps r) a2 fun _ => .bind (b1.keeps r) b2 fun _ => .bind h3.1 h3.2 fun _ => h4
  obtain ⟨l, ul, mt, cb⟩ := a
  cases l <;> cases ul <;> cases mt <;> cases cb <;> simpa using this

end Verif.Mem
