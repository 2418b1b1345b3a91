import Verif.Conc.Safe
import Verif.Conc.OpFit
/-!
# Operations on trees keep the heap in order and touch only their own places
-/
namespace Verif.Conc
open Mem Mem.M Spec Prog Gen

theorem connOf_congr {w w' : World} (h : w'.conns = w.conns) (k : ConnKey) : w'.connOf k = w.connOf k := by
  unfold World.connOf; rw [h]

section
variable {L : Prop} {F : Frame} {T : Loc → Prop}

theorem preCallHook_query (r : Nat) (u : Uri) (m : Meth) :
    preCallHook r u m = query fun w => match stripPath u with
      | .ok p => match (w.hooks r).lookup p with
        | some (some cb) => match cb m with
          | some e => .error e
          | none => .ok ()
        | _ => .ok ()
      | .error e => .error e := by
  funext w
  unfold preCallHook
  cases h : stripPath u with
  | ok p => rfl
  | error e => rfl

theorem wp_conn {α : Type} {u : Uri} {m : Meth} {body : Nat → Prog α} {Q : Except PyErr α → Sit → Prop} {s : Sit}
    (he : ∀ e s', Q (.error e) s')
    (hb : ∀ r s', Good L F s' → Rely L Any_ s s' → IsRoot s'.w r → s.w.connOf (connKey u) = some r → Wp L F T (body r) Q s') :
    Wp L F T (cConn u m body) Q s := by
  unfold cConn
  refine Wp.bind (Q := fun r s => IsRoot s.w r ∧ s.w.connOf (connKey u) = some r)
    (wp_query (fun r s s' hs h a ha => ⟨hs.ext.isRoot (h a ha).1, by rw [connOf_congr hs.conns]; exact (h a ha).2⟩) fun s' hg hs a ha => ?_)
    he fun r s1 g1 h1 hr => ?_
  · split at ha
    · simp at ha
    · split at ha
      · cases hc : s'.w.connOf (connKey u) with
        | none => simp only [hc] at ha; split at ha <;> simp at ha
        | some r =>
          simp only [hc, Except.ok.injEq] at ha
          subst ha
          exact ⟨connOf_mem hc, rfl⟩
      · split at ha <;> simp at ha
  · rw [preCallHook_query]
    refine Wp.bind (Q := fun _ _ => True) (wp_query_any.mono fun _ _ _ _ _ => trivial) he fun _ s2 g2 h2 _ => ?_
    exact hb r s2 g2 (h1.trans h2) (h2.ext.isRoot hr.1) (by rw [← connOf_congr h1.conns]; exact hr.2)

end

/-! ## URIs and places -/

theorem strip_steps {u : Uri} {p : Str} {ts : List Str} (h : stepsOf u = some ts) (hp : stripPath u = .ok p) :
    (if p = [] then [] else splitC '/' p) = ts := by
  unfold stripPath at hp
  unfold stepsOf at h
  split at hp
  · rename_i p' he
    rw [he] at h
    simp only [Except.ok.injEq] at hp
    subst hp
    simpa using h
  · simp at hp

theorem owns_of {u : Uri} {ts : List Str} (h1 : ts ≠ []) (h2 : [] ∉ ts) (h3 : stepsOf u = some ts) (h4 : ts.getLast? = some u.last)
    {T : Loc → Prop} {r : Nat} (ht : T (r, ts)) : Owns T r u := by
  intro p hp
  have he := strip_steps h3 hp
  have hs : splitC '/' p = ts := by
    by_cases hn : p = []
    · rw [if_pos hn] at he; exact absurd he.symm h1
    · rw [if_neg hn] at he; exact he
  have hf : ts.filter (fun x => x ≠ []) = ts := by
    rw [List.filter_eq_self]
    intro x hx
    simp only [ne_eq, decide_not, Bool.not_eq_eq_eq_not, Bool.not_true, decide_eq_false_iff_not]
    rintro rfl
    exact h2 hx
  have hl : ts.dropLast ++ [u.last] = ts := by
    rw [List.getLast?_eq_some_getLast h1, Option.some.injEq] at h4
    rw [← h4]
    exact List.dropLast_concat_getLast h1
  rw [he, hs, hf, hl]
  exact ⟨ht, ht, ht, ht⟩

theorem owns_mem {E : Dict} {cs : List Str} (h : Ok cs) (hne : cs ≠ []) {T : Loc → Prop} {r : Nat} (ht : T (r, cs)) : Owns T r (mem E cs) := by
  refine owns_of hne h.nil_not_mem (stepsOf_mem h E) ?_ ht
  rcases List.eq_nil_or_concat cs with rfl | ⟨init, m, rfl⟩
  · exact absurd rfl hne
  · rw [List.concat_eq_append] at *
    rw [mem_last (h.clean m (by simp)) E]; simp

/-! ## Kept directories -/

section
variable {L : Prop} {F : Frame} {T : Loc → Prop}

theorem Good.keep_entry {s : Sit} (g : Good L F s) (hL : ¬ L) {r c j : Nat} {q : List Str} {n : Str} (hc : F.keep r q c) (hj : F.keep r (q ++ [n]) j) :
    (∃ o, s.w.node c = .dir o ∧ o.get n = some j) ∧ ∃ o, s.w.node j = .dir o := by
  obtain ⟨h1, h2, d, h3⟩ := g.keep hL r q c hc
  obtain ⟨-, h5, h6⟩ := g.keep hL r _ j hj
  rw [phys_snoc, h2, Option.bind_some, entries_dir h3] at h5
  exact ⟨⟨d, h3, h5⟩, h6⟩

theorem wp_child_keep {resolve : Uri → Prog (Option Nat)} (hL : ¬ L) {r c j : Nat} {q : List Str} {n : Str} {f : Bool} (hc : F.keep r q c)
    (hj : F.keep r (q ++ [n]) j) {s : Sit} : Wp L F T (cChild resolve c n f) (fun x _ => x = .ok (some j)) s := by
  unfold cChild
  refine Wp.after (wp_query (Q := fun x _ => x = .ok true) (fun _ _ _ _ h => h) fun s' g _ => ?_) fun x s1 g1 _ h => ?_
  · obtain ⟨⟨o, h1, h2⟩, -⟩ := g.keep_entry hL hc hj
    unfold DirObj.get at h2
    simp only [h1, DirObj.has, h2, Option.isSome_some]
  subst h
  refine Wp.after (wp_query (Q := fun x _ => x = .ok j) (fun _ _ _ _ h => h) fun s' g _ => ?_) fun x s2 g2 _ h => ?_
  · obtain ⟨⟨o, h1, h2⟩, -⟩ := g.keep_entry hL hc hj
    simp [h1, h2]
  subst h
  refine Wp.after (wp_query (Q := fun x _ => x = .ok Tag.dir) (fun _ _ _ _ h => h) fun s' g _ => ?_) fun x s2 g2 _ h => ?_
  · obtain ⟨-, o, h1⟩ := g.keep_entry hL hc hj
    simp [h1, tagOf]
  subst h
  exact .pure_ fun _ _ _ => rfl

theorem wp_prevLoop_keep {resolve : Uri → Prog (Option Nat)} (hL : ¬ L) {r : Nat} {f th : Bool} {last : Str} (steps : List Str) :
    ∀ {q : List Str} {prev : Option Nat} {c : Nat} (_ : F.keep r q c) (_ : ∀ p, p <+: q ++ steps → ∃ i, F.keep r p i) {s : Sit},
      Wp L F T (cPrevLoop resolve f th last steps prev (some c)) (fun x _ => ∃ p i, x = .ok (p, some i) ∧ F.keep r (q ++ steps) i) s := by
  induction steps with
  | nil => exact fun hc _ => .pure_ fun _ _ _ => ⟨_, _, rfl, by rw [List.append_nil]; exact hc⟩
  | cons n steps ih =>
    intro q prev c hc hk s
    obtain ⟨j, hj⟩ := hk (q ++ [n]) ⟨steps, by simp⟩
    unfold cPrevLoop
    refine Wp.after (wp_query (Q := fun x _ => x = .ok true) (fun _ _ _ _ h => h) fun s' g _ => ?_) fun x s1 g1 _ h => ?_
    · obtain ⟨⟨o, h1, h2⟩, -⟩ := g.keep_entry hL hc hj
      unfold DirObj.get at h2
      simp only [h1, DirObj.has, h2, Option.isSome_some]
    subst h
    refine Wp.after (wp_child_keep hL hc hj) fun x s2 g2 _ h => ?_
    subst h
    have := ih (q := q ++ [n]) (prev := some c) hj (by rw [List.append_assoc]; exact hk) (s := s2)
    rw [List.append_assoc] at this
    exact this

/-- a kept directory is a directory -/
theorem wp_isdir_keep (hL : ¬ L) {r : Nat} {u : Uri} {q : List Str} (hu : stepsOf u = some q) (hk : ∀ p, p <+: q → ∃ i, F.keep r p i)
    {s : Sit} (hg : Good L F s) (hroot : IsRoot s.w r) : Wp L F T (cIsdir r u) (fun x _ => x = .ok true) s := by
  unfold cIsdir
  obtain ⟨p, hp⟩ : ∃ p, stripPath u = .ok p := by
    unfold stepsOf at hu
    unfold stripPath
    split at hu
    · rename_i p he; exact ⟨p, by rw [he]; rfl⟩
    · simp at hu
  have he := strip_steps hu hp
  rw [hp]
  show Wp L F T (if p ≠ [] then _ else _) _ s
  split
  · rename_i hne
    rw [if_neg hne] at he
    obtain ⟨i0, hi0⟩ := hk [] List.nil_prefix
    have e0 : i0 = r := by
      have := (hg.keep hL r [] i0 hi0).2.1
      simpa [phys] using this.symm
    subst e0
    refine Wp.after (Q := fun x _ => ∃ i, x = .ok (some i) ∧ F.keep i0 q i) ?_ fun x s1 g1 _ h => ?_
    · unfold cForPath cForPathWith
      rw [hp]
      show Wp L F T (if p ≠ [] then _ else _) _ s
      rw [if_pos hne]
      refine Wp.after (wp_prevLoop_keep hL (splitC '/' p) (q := []) hi0 (by rw [List.nil_append, he]; exact hk)) fun x s1 g1 _ h => ?_
      obtain ⟨y, i, rfl, h⟩ := h
      rw [List.nil_append, he] at h
      exact .pure_ fun _ _ _ => ⟨i, rfl, h⟩
    · obtain ⟨i, rfl, h⟩ := h
      refine Wp.after (wp_query (Q := fun x _ => x = .ok Tag.dir) (fun _ _ _ _ h => h) fun s' g _ => ?_) fun x s2 g2 _ h => ?_
      · obtain ⟨-, -, o, h1⟩ := g.keep hL _ _ _ h
        simp [h1, tagOf]
      subst h
      exact .pure_ fun _ _ _ => rfl
  · exact .pure_ fun _ _ _ => rfl

/-- without links nothing is a link -/
theorem wp_islink_no {r : Nat} {u : Uri} {s : Sit} (hroot : IsRoot s.w r) :
    Wp L F T (cIslink r u) (fun x _ => ¬ L → ∀ b, x = .ok b → b = false) s := by
  unfold cIslink
  have hret : ∀ {s}, Wp L F T (pure false : Prog Bool) (fun x _ => ¬ L → ∀ b, x = .ok b → b = false) s :=
    .pure_ fun _ _ _ _ b hb => by simp at hb; exact hb
  refine Wp.bind (Q := fun _ _ => True) (.ret_ fun _ _ _ _ _ => trivial) (fun _ _ _ _ h => by simp at h) fun p s1 g1 h1 _ => ?_
  split
  · refine Wp.bind (Q := fun _ _ => True) ((wp_forPath (h1.ext.isRoot hroot)).mono fun _ _ _ _ _ => trivial)
      (fun _ _ _ _ h => by simp at h) fun o s2 g2 h2 _ => ?_
    split
    · exact hret
    · refine Wp.bind (Q := fun t _ => ¬ L → ∀ u, t ≠ .link u) wp_tag (fun _ _ _ _ h => by simp at h) fun t s3 g3 h3 ht => ?_
      split
      · exact .pure_ fun _ _ _ hL => absurd rfl (ht hL _)
      · exact hret
  · exact hret

/-- the names listed are fine if all names are -/
theorem wp_listdir_fine {r : Nat} {u : Uri} {s : Sit} (hroot : IsRoot s.w r) (hf : ¬ L → ∀ r q n, F.fine (r, q ++ [n]) → Fine n) :
    Wp L F T (cListdir r u) (fun x _ => ¬ L → ∀ l, x = .ok l → FineAll l) s := by
  unfold cListdir
  refine Wp.bind (Q := fun _ _ => True) (.ret_ fun _ _ _ _ _ => trivial) (fun _ _ _ _ h => by simp at h) fun p s1 g1 h1 _ => ?_
  have hr1 := h1.ext.isRoot hroot
  refine Wp.bind (Q := fun o s => ∀ i, o = some i → At L s i (r, _)) (wp_node g1 hr1) (fun _ _ _ _ h => by simp at h) fun o s2 g2 h2 ho => ?_
  cases o with
  | none => exact .raise_ fun _ _ _ _ _ h => by simp at h
  | some i =>
    have hr2 := h2.ext.isRoot hr1
    refine Wp.bind (p := call (aKeys i)) (Q := fun l _ => ¬ L → FineAll l) (wp_query (fun _ _ _ _ h => h) fun s3 g3 h3 l hl hL n hn => ?_)
      (fun _ _ _ _ h => by simp at h) fun l s3 g3 h3 hl => .pure_ fun _ _ _ hL l' hl' n hn => ?_
    · cases hd : s3.w.node i with
      | file f => rw [hd] at hl; simp at hl
      | link f => rw [hd] at hl; simp at hl
      | dir o =>
        rw [hd] at hl
        simp only [Except.ok.injEq] at hl
        subst hl
        obtain ⟨j, hj⟩ : ∃ j, (n, j) ∈ s3.w.entries i := by
          rw [entries_dir hd]
          simp only [DirObj.keys, List.mem_map] at hn
          obtain ⟨⟨a, b⟩, h, rfl⟩ := hn
          exact ⟨b, h⟩
        have ha := ((ho i rfl).stable h3).2 hL
        have := g3.fine hL i n j hj (by rw [ha]; exact h3.ext.isRoot hr2)
        rw [ha] at this
        exact hf hL _ _ _ this
    · simp only [Except.ok.injEq] at hl'
      subst hl'
      exact hl hL n (mem_sortStr.1 hn)

/-! ## Contents -/

theorem wp_pump {inf outf : Handle} (n : Nat) : ∀ {s : Sit}, OwnH L T s inf → OwnH L T s outf → Wp L F T (cPump inf outf n) (fun _ _ => True) s := by
  induction n with
  | zero => exact fun _ _ => .raise_ fun _ _ _ => trivial
  | succ n ih =>
    intro s h1 h2
    unfold cPump
    refine Wp.seq (wp_read h1) fun b s1 g1 e1 => ?_
    split
    · exact .pure_ fun _ _ _ => trivial
    · exact Wp.seq (wp_write (h2.stable e1)) fun _ s2 g2 e2 => ih (h1.stable (e1.trans e2)) (h2.stable (e1.trans e2))

theorem wp_blocks {h : Handle} (n : Nat) : ∀ {s : Sit}, OwnH L T s h → Wp L F T (cBlocks h n) (fun _ _ => True) s := by
  induction n with
  | zero => exact fun _ => .raise_ fun _ _ _ => trivial
  | succ n ih =>
    intro s h1
    unfold cBlocks
    refine Wp.seq (wp_read h1) fun b s1 g1 e1 => ?_
    cases b with
    | bytes b =>
      dsimp only
      split
      · exact .pure_ fun _ _ _ => trivial
      · exact Wp.seq (ih (h1.stable e1)) fun _ s2 g2 e2 => .pure_ fun _ _ _ => trivial
    | str t => exact .raise_ fun _ _ _ => trivial

/-- opening a file of the thread -/
theorem wp_openUri [Sub T F] {u : Uri} {o : Option Str} {s : Sit} (hu : ¬ L → ∀ r, s.w.connOf (connKey u) = some r → Owns T r u) :
    Wp L F T (cConn u .open_ fun r => cOpen r u o) (fun x s => ∀ h, x = .ok h → OwnH L T s h) s :=
  wp_conn (fun _ _ _ h => by simp at h) fun r _ _ _ hr hk => wp_open hr fun hL => hu hL r hk

theorem wp_content [Sub T F] {u v : Uri} {s : Sit} (hu : ¬ L → ∀ r, s.w.connOf (connKey u) = some r → Owns T r u)
    (hv : ¬ L → ∀ r, s.w.connOf (connKey v) = some r → Owns T r v) : Wp L F T (cContent u v) (fun _ _ => True) s := by
  unfold cContent
  refine Wp.bind (Q := fun h s => OwnH L T s h) (wp_openUri hu) (fun _ _ => trivial) fun inf s1 g1 e1 h1 => ?_
  refine Wp.bind (Q := fun h s => OwnH L T s h) (wp_openUri fun hL r hr => hv hL r (by rw [← connOf_congr e1.conns]; exact hr))
    (fun _ _ => trivial) fun outf s2 g2 e2 h2 => ?_
  have h1 := h1.stable e2
  exact Wp.seq (wp_size h1) fun n s3 g3 e3 => wp_pump _ (h1.stable e3) (h2.stable e3)

theorem wp_md5 [Sub T F] {u : Uri} {s : Sit} (hu : ¬ L → ∀ r, s.w.connOf (connKey u) = some r → Owns T r u) :
    Wp L F T (cMd5 u) (fun _ _ => True) s := by
  unfold cMd5
  refine wp_conn (fun _ _ => trivial) fun r s0 g0 e0 hr hk => ?_
  refine Wp.bind (Q := fun h s => OwnH L T s h) (wp_openUri fun hL r hr => hu hL r (by rw [← connOf_congr e0.conns]; exact hr))
    (fun _ _ => trivial) fun h s1 g1 e1 h1 => ?_
  exact Wp.seq (wp_size h1) fun n s2 g2 e2 => wp_blocks _ (h1.stable e2)

/-! ## Operations -/

/-- what makes a ground one: it has the connections of the state, and without links its places are the thread's, all
    names are fine, and the way to the home directory is kept -/
structure Ground.Holds (G : Ground) (L : Prop) (F : Frame) (T : Loc → Prop) (w : World) : Prop where
  conn : ∀ k, w.connOf k = G.conn k
  own : ¬ L → ∀ cs, FineAll cs → G.home <+: cs → T (G.root, cs)
  fine : ¬ L → ∀ r q n, F.fine (r, q ++ [n]) → Fine n
  keep : ¬ L → ∀ q, q <+: G.base → ∃ i, F.keep G.root q i

theorem Ground.Holds.congr {G : Ground} {w w' : World} (h : w'.conns = w.conns) (hG : G.Holds L F T w) : G.Holds L F T w' :=
  ⟨fun k => by rw [connOf_congr h]; exact hG.conn k, hG.own, hG.fine, hG.keep⟩

variable {G : Ground}

theorem Ground.Inn.owns {w : World} (hG : G.Holds L F T w) (hL : ¬ L) {u : Uri} (hu : G.Inn u) : Owns T G.root u := by
  obtain ⟨E, cs, rfl, h1, h2, h3, h4⟩ := hu
  exact owns_mem h1 (Ground.home_ne h3) (hG.own hL cs h2 h3)

theorem Ground.Inn.owns' {w : World} (hG : G.Holds L F T w) (hL : ¬ L) {u : Uri} (hu : G.Inn u) {r : Nat} (hr : w.connOf (connKey u) = some r) :
    Owns T r u := by
  rw [hG.conn] at hr
  rw [hu.root hr]
  exact hu.owns hG hL

theorem Ground.Rt.isRoot {w : World} (hG : G.Holds L F T w) {r : Nat} (h : G.Rt r) : IsRoot w r := by
  obtain ⟨k, hk⟩ := h
  rw [← hG.conn] at hk
  exact connOf_mem hk

theorem wp_prim [Sub T F] {β : Type} {p : Prim β} (hp : p.Fit L G) {s : Sit} (hG : G.Holds L F T s.w) :
    Wp L F T p.prog (fun x _ => p.Says L G x) s := by
  have own : ∀ {r : Nat} {u : Uri}, (¬ L → r = G.root ∧ G.Inn u) → ¬ L → Owns T r u := fun h hL => by
    rw [(h hL).1]; exact (h hL).2.owns hG hL
  cases p with
  | conn u m =>
    refine wp_conn (fun e s' r h => by simp at h) fun r s1 g1 h1 hr hc => .pure_ fun _ _ _ r' hr' => ?_
    simp only [Except.ok.injEq] at hr'
    rw [← hr', ← hG.conn]
    exact hc
  | exists_ r u => exact wp_exists (hp.1.isRoot hG)
  | isfile r u => exact wp_isfile (hp.1.isRoot hG)
  | isdir r u =>
    by_cases hb : ¬ L ∧ G.Base u
    · obtain ⟨hL, E, rfl, h1, h2⟩ := hb
      refine .of fun s' g' h' => (wp_isdir_keep hL (stepsOf_mem h1 E) (fun q hq => ?_) g' (h'.ext.isRoot (hp.1.isRoot hG))).mono fun x _ h _ _ => h
      rw [(hp.2 hL).1]
      exact hG.keep hL q hq
    · exact (wp_isdir (hp.1.isRoot hG)).mono fun _ _ _ hL hB => absurd ⟨hL, hB⟩ hb
  | islink r u => exact wp_islink_no (hp.1.isRoot hG)
  | readlink r u => exact wp_readlink (hp.1.isRoot hG)
  | listdir r u => exact wp_listdir_fine (hp.1.isRoot hG) hG.fine
  | mkdir r u => exact wp_mkdir (hp.1.isRoot hG) (own hp.2)
  | symlink r t u => exact wp_symlink hp.2 (hp.1.isRoot hG)
  | removefile r u => exact wp_removefile (hp.1.isRoot hG) (own hp.2)
  | removedir r u => exact wp_removedir (hp.1.isRoot hG) (own hp.2)
  | copystat r u v => exact wp_copystat (hp.1.isRoot hG) (own fun hL => ⟨(hp.2 hL).1, (hp.2 hL).2.2⟩)
  | content u v => exact wp_content (fun hL r hr => (hp hL).1.owns' hG hL hr) (fun hL r hr => (hp hL).2.owns' hG hL hr)
  | md5 u => exact wp_md5 fun hL r hr => (hp hL).owns' hG hL hr

theorem wp_op [Sub T F] {α : Type} {op : Op α} {Q : α → Prop} (ho : op.Ok L G Q) : ∀ {s : Sit}, G.Holds L F T s.w →
    Wp L F T op.prog (fun x _ => ∀ a, x = .ok a → Q a) s := by
  induction op with
  | ret r =>
    intro s _
    refine .ret_ fun _ _ _ a ha => ?_
    subst ha
    exact ho
  | ask p k ih =>
    intro s hG
    exact Wp.after (wp_prim ho.1 hG) fun x s1 g1 h1 hx => ih x (ho.2 x hx) (hG.congr h1.conns)

end

end Verif.Conc
