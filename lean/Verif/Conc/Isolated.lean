import Verif.Conc.Alone
/-!
# Taking away the steps of threads that work elsewhere changes nothing for a thread
-/
namespace Verif.Conc
open Mem Mem.M Spec Prog Gen

/-- the URIs of a call other than one on a whole tree; the first one says which file system is used -/
def Call.uris : Call → List Uri
  | .exists_ u => [u] | .isfile u => [u] | .isdir u => [u] | .islink u => [u] | .readlink u => [u] | .listdir u => [u]
  | .info u _ => [u] | .mtime u => [u] | .isexec u _ => [u]
  | .setExec u _ => [u] | .setInfo u _ _ => [u] | .copystat u v => [u, v]
  | .mkdir u => [u] | .symlink u v => [u, v] | .remove u => [u] | .open_ u _ => [u]
  | _ => []

/-- the call makes no link, does not ask for times, and all its URIs lie at or below `q0` in the file system `r0`; a call on a
    whole tree has its ground there -/
structure Call.Private (w : World) (F : Frame) (r0 : Nat) (q0 : List Str) (c : Call) : Prop where
  noLink : ∀ u v, c ≠ .symlink u v
  noInfo : ∀ u f, c ≠ .info u f
  noMtime : ∀ u, c ≠ .mtime u
  own : ∀ u us, c.uris = u :: us → ∀ r, w.connOf (connKey u) = some r → ∀ v ∈ u :: us, Owns (Below r0 q0) r v
  tree : ∀ t, c = .tree t → ∃ (G : Ground) (T : Loc → Prop), Sub T F ∧ G.Holds False F T w ∧ G.root = r0 ∧ G.home = q0 ∧ ∀ u ∈ t.uris, G.Inn u

theorem Call.Private.congr {w w' : World} (h : w'.conns = w.conns) {F : Frame} {r0 : Nat} {q0 : List Str} {c : Call} (hc : c.Private w F r0 q0) :
    c.Private w' F r0 q0 where
  noLink := hc.noLink
  noInfo := hc.noInfo
  noMtime := hc.noMtime
  own u us hu r hr := hc.own u us hu r (by rw [← connOf_congr h]; exact hr)
  tree t ht := by
    obtain ⟨G, T, h1, h2, h3⟩ := hc.tree t ht
    exact ⟨G, T, h1, h2.congr h, h3⟩

theorem Call.Private.within {w : World} {F : Frame} {r0 : Nat} {q0 : List Str} {c : Call} (hc : c.Private w F r0 q0) : c.Within w F (Below r0 q0) where
  noLink := hc.noLink
  own uv h r hr := by
    have h4 := hc.own
    cases c <;> simp only [Call.touch, reduceCtorEq, Option.some.injEq] at h <;> subst h
    all_goals exact h4 _ _ rfl r hr _ (by simp)
  tree t ht := by
    obtain ⟨G, T, -, h2, h3, h4, h5⟩ := hc.tree t ht
    exact ⟨G, ⟨h2.conn, fun _ cs _ h => ⟨h3, h4 ▸ h⟩, h2.fine, h2.keep⟩, h5⟩

variable {F : Frame} {r0 : Nat} {q0 : List Str}

theorem rel_conn_ {α β : Type} {R : α → β → Ctx → Prop} {C : Ctx} (h0 : Sim F r0 q0 C) {u : Uri} {m : Meth} {b : Nat → Prog α} {b' : Nat → Prog β}
    (hu : ∀ r, C.s.w.connOf (connKey u) = some r → ∀ p, stripPath u = .ok p → r = r0)
    (hb : ∀ C', Sim F r0 q0 C' → Le C C' → IsRoot C'.s.w r0 → C.s.w.connOf (connKey u) = some r0 → Rel F r0 q0 (b r0) (b' r0) (Same R) C') :
    Rel F r0 q0 (cConn u m b) (cConn u m b') (Same R) C := by
  unfold cConn
  refine Rel.bind (R := fun r r' C' => r' = r ∧ IsRoot C'.s.w r ∧ C'.s.w.connOf (connKey u) = some r) h0
    (rel_query (fun r r' D D' hl h => ⟨h.1, hl.rely.ext.isRoot h.2.1, by rw [connOf_congr hl.rely.conns]; exact h.2.2⟩) fun D hs hl => ?_) ?_
  · have hc : D.v.connOf (connKey u) = D.s.w.connOf (connKey u) := connOf_congr hs.conns _
    rw [hc]
    split
    · rfl
    · split
      · cases hk : D.s.w.connOf (connKey u) with
        | none =>
          dsimp only
          split <;> rfl
        | some r => exact ⟨rfl, connOf_mem hk, hk⟩
      · split <;> rfl
  · rintro _ r C1 s1 l1 ⟨rfl, hr, hk⟩
    have hk0 : C.s.w.connOf (connKey u) = some r := by rw [← connOf_congr l1.rely.conns]; exact hk
    rw [preCallHook_query]
    cases hp : stripPath u with
    | error e =>
      refine Rel.bind (R := fun _ _ _ => False) s1 (rel_query (fun _ _ _ _ _ h => h) fun D hs hl => rfl) fun _ _ _ _ _ h => h.elim
    | ok p =>
      have hr0 : r = r0 := hu r hk0 p hp
      subst hr0
      refine Rel.bind (R := Eq_) s1 (rel_query (fun _ _ _ _ _ h => h) fun D hs hl => ?_) fun _ _ C2 s2 l2 _ => hb C2 s2 (l1.trans l2) (l2.rely.ext.isRoot hr) hk0
      simp only
      rw [hs.hooks]
      split
      · split <;> rfl
      · rfl

theorem rel_conn {α β : Type} {R : α → β → Ctx → Prop} {C : Ctx} (h0 : Sim F r0 q0 C) {u : Uri} {m : Meth} {b : Nat → Prog α} {b' : Nat → Prog β}
    (hu : ∀ r, C.s.w.connOf (connKey u) = some r → Owns (Below r0 q0) r u)
    (hb : ∀ C', Sim F r0 q0 C' → Le C C' → IsRoot C'.s.w r0 → C.s.w.connOf (connKey u) = some r0 → Rel F r0 q0 (b r0) (b' r0) (Same R) C') :
    Rel F r0 q0 (cConn u m b) (cConn u m b') (Same R) C :=
  rel_conn_ h0 (fun r hr p hp => (hu r hr p hp).1.1) hb

/-- the thread's file objects correspond -/
abbrev HsRel (hs hs' : List Handle) (C : Ctx) : Prop := List.Forall₂ (fun h h' => HRel h h' C) hs hs'

theorem HsRel.stable {hs hs' : List Handle} {C C' : Ctx} (hl : Le C C') (h : HsRel hs hs' C) : HsRel hs hs' C' :=
  List.Forall₂.imp (fun _ _ x => x.stable hl) h

/-- the same answer, with corresponding file objects -/
abbrev AnsRel (x x' : Ans × List Handle) (C : Ctx) : Prop := x'.1 = x.1 ∧ HsRel x.2 x'.2 C

theorem rel_ans {α : Type} {hs hs' : List Handle} {f : α → Ans} {p p' : Prog α} {C : Ctx} (h0 : Sim F r0 q0 C) (hh : HsRel hs hs' C)
    (hp : Rel F r0 q0 p p' (Same Eq_) C) : Rel F r0 q0 (ans hs f p) (ans hs' f p') (Same AnsRel) C := by
  unfold ans
  refine Rel.bind h0 hp ?_
  rintro _ a C1 s1 l1 rfl
  exact .pure_ fun D _ l => ⟨rfl, HsRel.stable (l1.trans l) hh⟩

theorem hs_get {hs hs' : List Handle} {C : Ctx} (hh : HsRel hs hs' C) (k : Nat) : OptRel (fun h h' => HRel h h' C) hs[k]? hs'[k]? := by
  induction hh generalizing k with
  | nil => trivial
  | cons h1 _ ih =>
    cases k with
    | zero => exact h1
    | succ k => exact ih k

theorem rel_onFd {α : Type} {hs hs' : List Handle} {k : Nat} {f : α → Ans} {p : Handle → Prog α} {C : Ctx} (h0 : Sim F r0 q0 C) (hh : HsRel hs hs' C)
    (hp : ∀ h h', HRel h h' C → Rel F r0 q0 (p h) (p h') (Same Eq_) C) : Rel F r0 q0 (onFd hs k f p) (onFd hs' k f p) (Same AnsRel) C := by
  unfold onFd
  have := hs_get hh k
  cases e1 : hs[k]? <;> cases e2 : hs'[k]? <;> rw [e1, e2] at this
  · exact .raise_
  · exact this.elim
  · exact this.elim
  · exact rel_ans h0 hh (hp _ _ this)

theorem rel_remove {C : Ctx} (h0 : Sim F r0 q0 C) {u : Uri} (hu : ∀ r, C.s.w.connOf (connKey u) = some r → Owns (Below r0 q0) r u) :
    Rel F r0 q0 (cRemove u) (cRemove u) (Same Eq_) C := by
  refine rel_conn h0 hu fun C1 s1 l1 hr hk => ?_
  have hu := hu r0 hk
  refine Rel.bind s1 (rel_islink s1 hr hu) ?_
  rintro _ b C2 s2 l2 rfl
  have hr2 := l2.rely.ext.isRoot hr
  split
  · exact rel_removefile s2 hr2 hu
  · refine Rel.bind s2 (rel_exists s2 hr2 hu) ?_
    rintro _ b C3 s3 l3 rfl
    have hr3 := l3.rely.ext.isRoot hr2
    split
    · exact .raise_
    · refine Rel.bind s3 (rel_isdir s3 hr3 hu) ?_
      rintro _ b C4 s4 l4 rfl
      have hr4 := l4.rely.ext.isRoot hr3
      split
      · exact rel_removedir s4 hr4 hu
      · refine Rel.bind s4 (rel_isfile s4 hr4 hu) ?_
        rintro _ b C5 s5 l5 rfl
        split
        · exact rel_removefile s5 (l5.rely.ext.isRoot hr4) hu
        · exact .pure_ fun _ _ _ => rfl

/-! ## Operations on whole trees -/

theorem rel_pump (n : Nat) : ∀ {C : Ctx} (_ : Sim F r0 q0 C) {a a' b b' : Handle}, HRel a a' C → HRel b b' C →
    Rel F r0 q0 (cPump a b n) (cPump a' b' n) (Same Eq_) C := by
  induction n with
  | zero => intro _ _ _ _ _ _ _ _; exact .raise_
  | succ n ih =>
    intro C h0 a a' b b' ha hb
    unfold cPump
    refine Rel.bind h0 (rel_read h0 ha) ?_
    rintro _ d C1 s1 l1 rfl
    split
    · exact .pure_ fun _ _ _ => rfl
    · exact Rel.bind s1 (rel_write s1 (hb.stable l1)) fun _ _ C2 s2 l2 _ => ih s2 (ha.stable (l1.trans l2)) (hb.stable (l1.trans l2))

theorem rel_blocks (n : Nat) : ∀ {C : Ctx} (_ : Sim F r0 q0 C) {a a' : Handle}, HRel a a' C →
    Rel F r0 q0 (cBlocks a n) (cBlocks a' n) (Same Eq_) C := by
  induction n with
  | zero => intro _ _ _ _ _; exact .raise_
  | succ n ih =>
    intro C h0 a a' ha
    unfold cBlocks
    refine Rel.bind h0 (rel_read h0 ha) ?_
    rintro _ d C1 s1 l1 rfl
    cases d with
    | str t => exact .raise_
    | bytes b =>
      dsimp only
      split
      · exact .pure_ fun _ _ _ => rfl
      · refine Rel.bind s1 (ih s1 (ha.stable l1)) ?_
        rintro _ r C2 s2 l2 rfl
        exact .pure_ fun _ _ _ => rfl

theorem rel_openUri {C : Ctx} (h0 : Sim F r0 q0 C) {u : Uri} {o : Option Str} (hu : ∀ r, C.s.w.connOf (connKey u) = some r → Own r0 q0 u ∧ r = r0) :
    Rel F r0 q0 (cConn u .open_ fun r => cOpen r u o) (cConn u .open_ fun r => cOpen r u o) (Same HRel) C :=
  rel_conn_ h0 (fun r hr _ _ => (hu r hr).2) fun _ s1 _ hr hk => rel_open s1 hr (hu _ hk).1

theorem rel_content {C : Ctx} (h0 : Sim F r0 q0 C) {u v : Uri} (hu : ∀ r, C.s.w.connOf (connKey u) = some r → Own r0 q0 u ∧ r = r0)
    (hv : ∀ r, C.s.w.connOf (connKey v) = some r → Own r0 q0 v ∧ r = r0) : Rel F r0 q0 (cContent u v) (cContent u v) (Same Eq_) C := by
  unfold cContent
  refine Rel.bind h0 (rel_openUri h0 hu) fun a a' C1 s1 l1 ha => ?_
  refine Rel.bind s1 (rel_openUri s1 fun r hr => hv r (by rw [← connOf_congr l1.rely.conns]; exact hr)) fun b b' C2 s2 l2 hb => ?_
  have ha := ha.stable l2
  refine Rel.bind s2 (rel_size ha) ?_
  rintro _ n C3 s3 l3 rfl
  exact rel_pump _ s3 (ha.stable l3) (hb.stable l3)

theorem rel_md5 {C : Ctx} (h0 : Sim F r0 q0 C) {u : Uri} (hu : ∀ r, C.s.w.connOf (connKey u) = some r → Own r0 q0 u ∧ r = r0) :
    Rel F r0 q0 (cMd5 u) (cMd5 u) (Same Eq_) C := by
  unfold cMd5
  refine rel_conn_ h0 (fun r hr _ _ => (hu r hr).2) fun C1 s1 l1 _ _ => ?_
  refine Rel.bind s1 (rel_openUri s1 fun r hr => hu r (by rw [← connOf_congr l1.rely.conns]; exact hr)) fun a a' C2 s2 l2 ha => ?_
  refine Rel.bind s2 (rel_size ha) ?_
  rintro _ n C3 s3 l3 rfl
  exact rel_blocks _ s3 (ha.stable l3)

theorem Ground.Inn.own {G : Ground} (h4 : G.home = q0) {u : Uri} (hu : G.Inn u) : Own r0 q0 u := by
  obtain ⟨E, cs, rfl, h1, -, h5, -⟩ := hu
  exact owns_mem h1 (Ground.home_ne h5) ⟨rfl, h4 ▸ h5⟩

theorem rel_prim {G : Ground} {T : Loc → Prop} {C : Ctx} (h0 : Sim F r0 q0 C) (hG : G.Holds False F T C.s.w) (h3 : G.root = r0) (h4 : G.home = q0)
    {β : Type} {p : Prim β} (hp : p.Fit False G) : Rel F r0 q0 p.prog p.prog (Same Eq_) C := by
  have nf : ¬ False := id
  have own : ∀ {u : Uri}, G.Inn u → Own r0 q0 u := fun h => h.own h4
  have own' : ∀ {u : Uri}, G.Inn u → ∀ r, C.s.w.connOf (connKey u) = some r → Own r0 q0 u ∧ r = r0 := fun h r hr => by
    rw [hG.conn] at hr
    exact ⟨own h, (h.root hr).trans h3⟩
  have root : ∀ {r : Nat}, G.Rt r → r = G.root → IsRoot C.s.w r0 := fun h e => by rw [← h3, ← e]; exact h.isRoot hG
  cases p with
  | conn u m =>
    refine rel_conn_ h0 (fun r hr p _ => ?_) fun C1 s1 l1 hr hk => .pure_ fun _ _ _ => rfl
    rw [hG.conn] at hr
    rcases hp nf with h | h
    · exact (h.root hr).trans h3
    · exact (h.root hr).trans h3
  | isdir r u =>
    obtain ⟨h1, h2⟩ := hp
    obtain ⟨e, h2⟩ := h2 nf
    have hr := root h1 e
    rw [e, h3]
    rcases h2 with h2 | ⟨E, rfl, h5, h6⟩
    · exact rel_isdir h0 hr (own h2)
    · refine rel_isdir_ h0 hr fun p hp hne => .inl ?_
      have := strip_steps (stepsOf_mem h5 E) hp
      rw [if_neg hne] at this
      rw [this, ← h4]
      exact List.prefix_append _ _
  | exists_ r u => have hr := root hp.1 (hp.2 nf).1; show Rel _ _ _ (cExists r u) (cExists r u) _ _; rw [(hp.2 nf).1, h3]; exact rel_exists h0 hr (own (hp.2 nf).2)
  | isfile r u => have hr := root hp.1 (hp.2 nf).1; show Rel _ _ _ (cIsfile r u) (cIsfile r u) _ _; rw [(hp.2 nf).1, h3]; exact rel_isfile h0 hr (own (hp.2 nf).2)
  | islink r u => have hr := root hp.1 (hp.2 nf).1; show Rel _ _ _ (cIslink r u) (cIslink r u) _ _; rw [(hp.2 nf).1, h3]; exact rel_islink h0 hr (own (hp.2 nf).2)
  | readlink r u => have hr := root hp.1 (hp.2 nf).1; show Rel _ _ _ (cReadlink r u) (cReadlink r u) _ _; rw [(hp.2 nf).1, h3]; exact rel_readlink h0 hr (own (hp.2 nf).2)
  | listdir r u => have hr := root hp.1 (hp.2 nf).1; show Rel _ _ _ (cListdir r u) (cListdir r u) _ _; rw [(hp.2 nf).1, h3]; exact rel_listdir h0 hr (own (hp.2 nf).2)
  | mkdir r u => have hr := root hp.1 (hp.2 nf).1; show Rel _ _ _ (cMkdir r u) (cMkdir r u) _ _; rw [(hp.2 nf).1, h3]; exact rel_mkdir h0 hr (own (hp.2 nf).2)
  | symlink r t u => exact hp.2.elim
  | removefile r u =>
    have hr := root hp.1 (hp.2 nf).1; show Rel _ _ _ (cRemovefile r u) (cRemovefile r u) _ _; rw [(hp.2 nf).1, h3]; exact rel_removefile h0 hr (own (hp.2 nf).2)
  | removedir r u =>
    have hr := root hp.1 (hp.2 nf).1; show Rel _ _ _ (cRemovedir r u) (cRemovedir r u) _ _; rw [(hp.2 nf).1, h3]; exact rel_removedir h0 hr (own (hp.2 nf).2)
  | copystat r u v =>
    have hr := root hp.1 (hp.2 nf).1; show Rel _ _ _ (cCopystat r u v) (cCopystat r u v) _ _
    rw [(hp.2 nf).1, h3]; exact rel_copystat h0 hr (own (hp.2 nf).2.1) (own (hp.2 nf).2.2)
  | content u v => exact rel_content h0 (own' (hp nf).1) (own' (hp nf).2)
  | md5 u => exact rel_md5 h0 (own' (hp nf))

theorem rel_op {G : Ground} {T : Loc → Prop} [Sub T F] (h3 : G.root = r0) (h4 : G.home = q0) {α : Type} {op : Op α} {Q : α → Prop}
    (ho : op.Ok False G Q) : ∀ {C : Ctx}, Sim F r0 q0 C → G.Holds False F T C.s.w → Rel F r0 q0 op.prog op.prog (Same Eq_) C := by
  induction op with
  | ret r => exact fun _ _ => .lift_
  | ask p k ih =>
    intro C h0 hG
    refine Rel.after h0 (Rel.wp (wp_prim (F := F) ho.1 hG) (rel_prim h0 hG h3 h4 ho.1)) fun x x' C1 s1 l1 hx => ?_
    obtain ⟨h5, h6⟩ := hx
    have e : x' = x := by
      cases x <;> cases x'
      · exact congrArg _ (Eq.symm h6)
      · exact h6.elim
      · exact h6.elim
      · exact congrArg _ h6
    subst e
    exact ih _ (ho.2 _ h5) s1 (hG.congr l1.rely.conns)

theorem rel_call_ {C : Ctx} (h0 : Sim F r0 q0 C) {c : Call} (hc : c.Private C.s.w F r0 q0) {hs hs' : List Handle} (hh : HsRel hs hs' C) :
    Rel F r0 q0 (c.prog hs) (c.prog hs') (Same AnsRel) C := by
  cases c with
  | exists_ u =>
    have hu := fun r hr => hc.own u [] rfl r hr u (by simp)
    exact rel_ans h0 hh (rel_conn h0 hu fun C1 s1 _ hr hk => rel_exists s1 hr (hu _ hk))
  | isfile u =>
    have hu := fun r hr => hc.own u [] rfl r hr u (by simp)
    exact rel_ans h0 hh (rel_conn h0 hu fun C1 s1 _ hr hk => rel_isfile s1 hr (hu _ hk))
  | isdir u =>
    have hu := fun r hr => hc.own u [] rfl r hr u (by simp)
    exact rel_ans h0 hh (rel_conn h0 hu fun C1 s1 _ hr hk => rel_isdir s1 hr (hu _ hk))
  | islink u =>
    have hu := fun r hr => hc.own u [] rfl r hr u (by simp)
    exact rel_ans h0 hh (rel_conn h0 hu fun C1 s1 _ hr hk => rel_islink s1 hr (hu _ hk))
  | readlink u =>
    have hu := fun r hr => hc.own u [] rfl r hr u (by simp)
    exact rel_ans h0 hh (rel_conn h0 hu fun C1 s1 _ hr hk => rel_readlink s1 hr (hu _ hk))
  | listdir u =>
    have hu := fun r hr => hc.own u [] rfl r hr u (by simp)
    exact rel_ans h0 hh (rel_conn h0 hu fun C1 s1 _ hr hk => rel_listdir s1 hr (hu _ hk))
  | info u f => exact absurd rfl (hc.noInfo u f)
  | mtime u => exact absurd rfl (hc.noMtime u)
  | isexec u k =>
    have hu := fun r hr => hc.own u [] rfl r hr u (by simp)
    exact rel_ans h0 hh (rel_conn h0 hu fun C1 s1 _ hr hk => rel_isexec s1 hr (hu _ hk))
  | setExec u m =>
    have hu := fun r hr => hc.own u [] rfl r hr u (by simp)
    exact rel_ans h0 hh (rel_conn h0 hu fun C1 s1 _ hr hk => rel_setExec s1 hr (hu _ hk))
  | setInfo u i f =>
    have hu := fun r hr => hc.own u [] rfl r hr u (by simp)
    exact rel_ans h0 hh (rel_conn h0 hu fun C1 s1 _ hr hk => rel_setInfo s1 hr (hu _ hk))
  | copystat u v =>
    have hu := fun r hr => hc.own u [v] rfl r hr u (by simp)
    have hv := fun r hr => hc.own u [v] rfl r hr v (by simp)
    exact rel_ans h0 hh (rel_conn h0 hu fun C1 s1 _ hr hk => rel_copystat s1 hr (hu _ hk) (hv _ hk))
  | mkdir u =>
    have hu := fun r hr => hc.own u [] rfl r hr u (by simp)
    exact rel_ans h0 hh (rel_conn h0 hu fun C1 s1 _ hr hk => rel_mkdir s1 hr (hu _ hk))
  | symlink u v => exact absurd rfl (hc.noLink u v)
  | remove u => exact rel_ans h0 hh (rel_remove h0 fun r hr => hc.own u [] rfl r hr u (by simp))
  | open_ u o =>
    have hu := fun r hr => hc.own u [] rfl r hr u (by simp)
    refine Rel.bind h0 (rel_conn h0 hu fun C1 s1 _ hr hk => rel_open s1 hr (hu _ hk)) fun h h' C1 s1 l1 hx => ?_
    refine .pure_ fun D _ l => ⟨?_, List.rel_append (HsRel.stable (l1.trans l) hh) (.cons (hx.stable l) .nil)⟩
    show Ans.fd hs'.length = Ans.fd hs.length
    rw [hh.length_eq]
  | tree tc =>
    obtain ⟨G, T, hT, hG, h3, h4, h5⟩ := hc.tree tc rfl
    exact rel_ans h0 hh (rel_op (T := T) h3 h4 (ok_tree fun _ => h5) h0 hG)
  | write k d => exact rel_onFd h0 hh fun h h' hx => rel_write h0 hx
  | read k d => exact rel_onFd h0 hh fun h h' hx => rel_read h0 hx
  | seek k t wh => exact rel_onFd h0 hh fun h h' hx => rel_seek hx
  | tell k => exact rel_onFd h0 hh fun h h' hx => rel_tell hx
  | size k => exact rel_onFd h0 hh fun h h' hx => rel_size hx
  | truncate k n => exact rel_onFd h0 hh fun h h' hx => rel_truncate hx
  | close k => exact rel_onFd h0 hh fun h h' hx => rel_close hx
  | readline k => exact rel_onFd h0 hh fun h h' hx => rel_readline h0 hx

theorem rel_script {sc : Script} : ∀ {C : Ctx} (_ : Sim F r0 q0 C) {hs hs' : List Handle} {log : Log},
    (∀ c, sc.Makes c → c.Private C.s.w F r0 q0) → HsRel hs hs' C → Rel F r0 q0 (sc.prog hs log) (sc.prog hs' log) (Same Eq_) C := by
  induction sc with
  | done => intro C h0 hs hs' log hc hh; exact .pure_ fun _ _ _ => rfl
  | call c k ih =>
    intro C h0 hs hs' log hc hh
    rw [Script.prog, Script.prog]
    refine Rel.after h0 (rel_call_ h0 (hc c .here) hh) fun r r' C1 s1 l1 hr => ?_
    have hk : ∀ x, ∀ c, (k x).Makes c → c.Private C1.s.w F r0 q0 := fun x c' hm => (hc c' (.later x hm)).congr l1.rely.conns
    cases r with
    | ok x =>
      cases r' with
      | error e => exact hr.elim
      | ok x' =>
        obtain ⟨a, hx⟩ := x
        obtain ⟨a', hx'⟩ := x'
        have hr : a' = a ∧ HsRel hx hx' C1 := hr
        obtain ⟨rfl, h2⟩ := hr
        exact ih _ s1 (hk _) h2
    | error e =>
      cases r' with
      | ok x => exact hr.elim
      | error e' =>
        have hr : e = e' := hr
        subst hr
        exact ih _ s1 (hk _) (HsRel.stable l1 hh)

/-! ## Two pools -/

/-- one pool with all threads, one in which only thread `t` makes steps -/
structure Duo (F : Frame) (r0 : Nat) (q0 : List Str) (T : Nat → Loc → Prop) (t : Nat) (p p' : Pool) (C : Ctx) : Prop where
  world : C.s.w = p.world
  alone : C.v = p'.world
  sim : Sim F r0 q0 C
  wp : ∀ i, Wp False F (T i) (p.prog i) (fun _ _ => True) C.s
  rel : Rel F r0 q0 (p.prog t) (p'.prog t) (Same Eq_) C

theorem Duo.mine {T : Nat → Loc → Prop} {t : Nat} {p p' : Pool} {C : Ctx} (h : Duo F r0 q0 T t p p' C) :
    ∃ C', Duo F r0 q0 T t (p.step t) (p'.step t) C' := by
  obtain ⟨h1, h2, h3, h4, h5⟩ := h
  have hw := h4 t
  unfold Pool.step
  cases e : p.prog t with
  | ret r =>
    cases e' : p'.prog t with
    | ret r' => exact ⟨C, h1, h2, h3, h4, h5⟩
    | act a' k' => rw [e, e'] at h5; exact h5.elim
  | act a k =>
    cases e' : p'.prog t with
    | ret r' => rw [e, e'] at h5; exact h5.elim
    | act a' k' =>
      rw [e] at hw
      rw [e, e'] at h5
      obtain ⟨g1, g2, g3⟩ := hw C.s h3.good (.rfl' _ _ _)
      obtain ⟨ρ', s1, l1, r1⟩ := h5 C h3 (.rfl' _) g1 g2.any
      rw [← h1, ← h2]
      refine ⟨⟨C.s.after a, (a' C.v).2, ρ'⟩, rfl, rfl, s1, fun i => ?_, ?_⟩
      · by_cases hi : i = t
        · subst hi; simp only [if_true]; exact g3
        · simp only [if_neg hi]; exact (h4 i).stable g2.any
      · simp only [if_true]; exact r1

theorem Duo.other {T : Nat → Loc → Prop} {t : Nat} {p p' : Pool} {C : Ctx} (h : Duo F r0 q0 T t p p' C) {i : Nat} (hi : i ≠ t)
    (hT : ∀ l, T i l → l.1 = r0 → ¬ Cmp q0 l.2) : ∃ C', Duo F r0 q0 T t (p.step i) p' C' := by
  obtain ⟨h1, h2, h3, h4, h5⟩ := h
  have hw := h4 i
  unfold Pool.step
  cases e : p.prog i with
  | ret r => exact ⟨C, h1, h2, h3, h4, h5⟩
  | act a k =>
    rw [e] at hw
    obtain ⟨g1, g2, g3⟩ := hw C.s h3.good (.rfl' _ _ _)
    obtain ⟨s1, l1⟩ := h3.others hT g1 g2.toRely
    rw [← h1]
    refine ⟨⟨C.s.after a, C.v, C.ρ⟩, rfl, h2, s1, fun j => ?_, ?_⟩
    · by_cases hj : j = i
      · subst hj; simp only [if_true]; exact g3
      · simp only [if_neg hj]; exact (h4 j).stable g2.any
    · simp only [if_neg (Ne.symm hi)]
      exact h5.stable l1

theorem Duo.run {T : Nat → Loc → Prop} {t : Nat} (hT : ∀ i, i ≠ t → ∀ l, T i l → l.1 = r0 → ¬ Cmp q0 l.2) (sched : List Nat) :
    ∀ {p p' : Pool} {C : Ctx}, Duo F r0 q0 T t p p' C → ∃ C', Duo F r0 q0 T t (p.run sched) (p'.run (sched.filter (· = t))) C' := by
  induction sched with
  | nil => exact fun h => ⟨_, h⟩
  | cons i sched ih =>
    intro p p' C h
    by_cases hi : i = t
    · subst hi
      obtain ⟨C1, h1⟩ := h.mine
      rw [List.filter_cons_of_pos (by simp)]
      exact ih h1
    · obtain ⟨C1, h1⟩ := h.other hi (hT i hi)
      rw [List.filter_cons_of_neg (by simpa using hi)]
      exact ih h1

theorem Duo.log {T : Nat → Loc → Prop} {t : Nat} {p p' : Pool} {C : Ctx} (h : Duo F r0 q0 T t p p' C) : p.log t = p'.log t := by
  have h5 := h.rel
  unfold Pool.log
  cases e : p.prog t with
  | act a k =>
    cases e' : p'.prog t with
    | act a' k' => rfl
    | ret r' => rw [e, e'] at h5; exact h5.elim
  | ret r =>
    cases e' : p'.prog t with
    | act a' k' => rw [e, e'] at h5; exact h5.elim
    | ret r' =>
      rw [e, e'] at h5
      have := h5 C h.sim (.rfl' _)
      cases r <;> cases r'
      · rfl
      · exact this.elim
      · exact this.elim
      · rw [show _ = _ from this]

/-- the same object, up to times -/
def SameObj : Option Obj → Option Obj → Prop
  | some (.file b m _), some (.file b' m' _) => b' = b ∧ m' = m
  | some (.dir m _), some (.dir m' _) => m' = m
  | none, none => True
  | _, _ => False

theorem Sim.view {C : Ctx} (h : Sim F r0 q0 C) (hr : IsRoot C.s.w r0) {q : List Str} (hq : Cmp q0 q) :
    SameObj (view C.s.w r0 q) (view C.v r0 q) := by
  have key : ∀ (q2 q1 : List Str) (i i' : Nat), Cmp q0 (q1 ++ q2) → Pr r0 C i i' q1 →
      SameObj ((phys C.s.w i q2).map fun i => objOf (C.s.w.node i)) ((phys C.v i' q2).map fun i => objOf (C.v.node i)) := by
    intro q2
    induction q2 with
    | nil =>
      intro q1 i i' hq hi
      simp only [phys, Option.map_some]
      rcases h.kinds hi.1 with ⟨f, f', h1, h2, h3⟩ | ⟨d, d', h1, h2, h3, -⟩
      · rw [h1, h2]; exact ⟨h3.1, h3.2.2.1⟩
      · rw [h1, h2]; exact h3
    | cons n q2 ih =>
      intro q1 i i' hq hi
      have e : q1 ++ n :: q2 = (q1 ++ [n]) ++ q2 := by simp
      rw [e] at hq
      rcases h.kinds hi.1 with ⟨f, f', h1, h2, h3⟩ | ⟨d, d', h1, h2, h3, h4, h5⟩
      · simp only [phys, h1, h2]; trivial
      · rw [hi.2.1] at h4 h5
        have hl := h.look h4 h5 (hq.prefix (List.prefix_append _ _))
        simp only [phys, h1, h2]
        cases e1 : d.files.lookup n with
        | none =>
          cases e2 : d'.files.lookup n with
          | none => trivial
          | some j => rw [e1, e2] at hl; exact hl.elim
        | some j =>
          cases e2 : d'.files.lookup n with
          | none => rw [e1, e2] at hl; exact hl.elim
          | some j' =>
            rw [e1, e2] at hl
            have hm : (n, j) ∈ C.s.w.entries i := by rw [entries_dir h1]; exact lookup_mem e1
            exact ih (q1 ++ [n]) j j' hq ⟨hl, by rw [h.good.entry _ _ _ hm, hi.2.1]; rfl, (h.good.inv.child _ _ _ hm).2⟩
  have h0 := h.root hr
  exact key q [] r0 r0 hq ⟨h0, h.good.root r0 hr, (h.dom _ _ h0).1⟩

/-- both runs start the same -/
theorem sim_start {w : World} (hw : Inv w) (hl : ∀ i o, w.node i ≠ .link o) (hg : Good False F ⟨w, placeOf w⟩) :
    Sim F r0 q0 ⟨⟨w, placeOf w⟩, w, fun i i' => i = i' ∧ i < w.next ∧ (placeOf w i).1 = r0 ∧ Cmp q0 (placeOf w i).2⟩ := by
  refine ⟨hg, rfl, rfl, rfl, ?_, ?_, ?_, ?_, ?_⟩
  · rintro i i' ⟨rfl, h, -⟩; exact ⟨h, h⟩
  · rintro i i' j j' ⟨rfl, -⟩ ⟨rfl, -⟩; exact Iff.rfl
  · rintro ⟨k, hk⟩
    have := hg.root r0 ⟨k, hk⟩
    refine ⟨rfl, (hw.root k r0 hk).1, ?_, ?_⟩
    · rw [show placeOf w r0 = _ from this]
    · rw [show placeOf w r0 = _ from this]; exact .inl List.nil_prefix
  · rintro i i' ⟨rfl, -, h⟩; exact h
  · rintro i i' ⟨rfl, hi, h1, h2⟩
    show NodeRel q0 _ (placeOf w i).2 (w.node i) (w.node i)
    have hent : ∀ n j, (n, j) ∈ w.entries i → Cmp q0 ((placeOf w i).2 ++ [n]) →
        j = j ∧ j < w.next ∧ (placeOf w j).1 = r0 ∧ Cmp q0 (placeOf w j).2 := by
      intro n j hm hc
      have he : placeOf w j = (placeOf w i).snoc n := hg.entry i n j hm
      exact ⟨rfl, (hw.child _ _ _ hm).2, by rw [he]; exact h1, by rw [he]; exact hc⟩
    cases hn : w.node i with
    | link o => exact absurd hn (hl i o)
    | file f => exact ⟨rfl, rfl, rfl, rfl, rfl⟩
    | dir d =>
      rw [entries_dir hn] at hent
      refine ⟨rfl, fun hq => ?_, fun n hq => ?_⟩
      · rw [List.forall₂_same]
        exact fun e he => ⟨rfl, hent e.1 e.2 he (.inr (hq.trans (List.prefix_append _ _)))⟩
      · cases hlk : d.files.lookup n with
        | none => trivial
        | some j => exact hent n j (lookup_mem hlk) (.inl hq)

/-- both pools start the same -/
theorem duo_start {w : World} (hw : Inv w) (hl : ∀ i o, w.node i ≠ .link o)
    (hf : ∀ r q n i, IsRoot w r → phys w r (q ++ [n]) = some i → F.fine (r, q ++ [n]))
    (hk : ∀ r q i, F.keep r q i → IsRoot w r ∧ phys w r q = some i ∧ ∃ d, w.node i = .dir d) {scripts : Nat → Script}
    {T : Nat → Loc → Prop} [∀ i, Sub (T i) F]
    {t : Nat} (hs : ∀ i c, (scripts i).Makes c → c.Within w F (T i)) (ht : ∀ c, (scripts t).Makes c → c.Private w F r0 q0) :
    ∃ C, Duo F r0 q0 T t (Pool.start w scripts) (Pool.start w scripts) C := by
  have hg : Good False F ⟨w, placeOf w⟩ := good_start hw (fun _ => hl) (fun _ => hf) fun _ => hk
  have hs0 := sim_start (F := F) (r0 := r0) (q0 := q0) hw hl hg
  refine ⟨_, rfl, rfl, hs0, fun i => ?_, ?_⟩
  · exact wp_script (s := ⟨w, placeOf w⟩) (fun _ c hm => hs i c hm) fun h hh => by simp at hh
  · exact rel_script hs0 (fun c hm => ht c hm) .nil

/-- the steps of the other threads may be taken away -/
theorem isolated {w : World} (hw : Inv w) (hl : ∀ i o, w.node i ≠ .link o)
    (hf : ∀ r q n i, IsRoot w r → phys w r (q ++ [n]) = some i → F.fine (r, q ++ [n]))
    (hk : ∀ r q i, F.keep r q i → IsRoot w r ∧ phys w r q = some i ∧ ∃ d, w.node i = .dir d)
    (hr : IsRoot w r0) {scripts : Nat → Script} {T : Nat → Loc → Prop} [∀ i, Sub (T i) F] {t : Nat}
    (hs : ∀ i c, (scripts i).Makes c → c.Within w F (T i)) (ht : ∀ c, (scripts t).Makes c → c.Private w F r0 q0)
    (ho : ∀ i, i ≠ t → ∀ l, T i l → l.1 = r0 → ¬ Cmp q0 l.2) (sched : List Nat) :
    ((Pool.start w scripts).run sched).log t = ((Pool.start w scripts).run (sched.filter (· = t))).log t ∧
      ∀ q, q0 <+: q → SameObj (view ((Pool.start w scripts).run sched).world r0 q)
        (view ((Pool.start w scripts).run (sched.filter (· = t))).world r0 q) := by
  obtain ⟨C0, h0⟩ := duo_start (F := F) (r0 := r0) (q0 := q0) (t := t) hw hl hf hk hs ht
  obtain ⟨C, h⟩ := h0.run ho sched
  refine ⟨h.log, fun q hq => ?_⟩
  rw [← h.world, ← h.alone]
  refine h.sim.view ?_ (.inr hq)
  obtain ⟨at', -, h2⟩ := start_run (L := False) (F := F) hw (fun _ => hl) (fun _ => hf) (fun _ => hk) (fun _ => hs) sched
  rw [h.world]
  exact h2.ext.isRoot hr

/-- as `isolated`, when nothing is asked of names and nothing is kept -/
theorem isolated_any {w : World} (hw : Inv w) (hl : ∀ i o, w.node i ≠ .link o) (hr : IsRoot w r0) {scripts : Nat → Script} {t : Nat}
    (ht : ∀ c, (scripts t).Makes c → c.Private w .any r0 q0)
    (ho : ∀ i, i ≠ t → ∀ c, (scripts i).Makes c → c.Within w .any fun l => l.1 = r0 → ¬ Cmp q0 l.2) (sched : List Nat) :
    ((Pool.start w scripts).run sched).log t = ((Pool.start w scripts).run (sched.filter (· = t))).log t ∧
      ∀ q, q0 <+: q → SameObj (view ((Pool.start w scripts).run sched).world r0 q)
        (view ((Pool.start w scripts).run (sched.filter (· = t))).world r0 q) := by
  refine isolated (F := .any) (T := fun i => if i = t then Below r0 q0 else fun l => l.1 = r0 → ¬ Cmp q0 l.2) hw hl (fun _ _ _ _ _ _ => trivial)
    (fun _ _ _ h => h.elim) hr (fun i c hm => ?_) ht (fun i hi l hx => by simpa [if_neg hi] using hx) sched
  by_cases hi : i = t
  · subst hi; simp only [if_true]; exact (ht c hm).within
  · simp only [if_neg hi]; exact ho i hi c hm

end Verif.Conc
