import Verif.Conc.OpWp
/-!
# Threads keep the heap in order and touch only their own places
-/
namespace Verif.Conc
open Mem Mem.M Spec Prog

/-- the file system a call uses and the URI whose place it may touch -/
def Call.touch : Call → Option (Uri × Uri)
  | .setExec u _ => some (u, u)
  | .setInfo u _ _ => some (u, u)
  | .copystat u v => some (u, v)
  | .mkdir u => some (u, u)
  | .remove u => some (u, u)
  | .open_ u _ => some (u, u)
  | _ => none

/-- the call makes no link, and touches places in `T` only -/
structure Call.Within (w : World) (F : Frame) (T : Loc → Prop) (c : Call) : Prop where
  noLink : ∀ u v, c ≠ .symlink u v
  own : ∀ uv, c.touch = some uv → ∀ r, w.connOf (connKey uv.1) = some r → Owns T r uv.2
  tree : ∀ t, c = .tree t → ∃ G : Ground, G.Holds False F T w ∧ ∀ u ∈ t.uris, G.Inn u

theorem Call.Within.congr {w w' : World} (h : w'.conns = w.conns) {F : Frame} {T : Loc → Prop} {c : Call} (hc : c.Within w F T) : c.Within w' F T :=
  ⟨hc.1, fun uv ht r hr => hc.2 uv ht r (by rw [← connOf_congr h]; exact hr), fun t ht => by
    obtain ⟨G, h1, h2⟩ := hc.tree t ht
    exact ⟨G, h1.congr h, h2⟩⟩

/-- what the operations need when links are allowed: nothing -/
def anyGround (w : World) : Ground := ⟨w.connOf, 0, [], []⟩

theorem anyGround_holds {L : Prop} (hL : L) (w : World) {F : Frame} {T : Loc → Prop} : (anyGround w).Holds L F T w :=
  ⟨fun _ => rfl, fun h => absurd hL h, fun h => absurd hL h, fun h => absurd hL h⟩

theorem Ground.Holds.of {L : Prop} {G : Ground} {w : World} {F : Frame} {T : Loc → Prop} (h : G.Holds False F T w) : G.Holds L F T w :=
  ⟨h.conn, fun _ => h.own id, fun _ => h.fine id, fun _ => h.keep id⟩

section
variable {L : Prop} {F : Frame} {T : Loc → Prop}

/-- what a call leaves the thread with -/
def Held (L : Prop) (T : Loc → Prop) (hs : List Handle) (s : Sit) : Prop := ∀ h ∈ hs, OwnH L T s h

theorem Held.stable {T' : Loc → Prop} {s s' : Sit} {hs : List Handle} (h : Rely L T' s s') (hh : Held L T hs s) : Held L T hs s' :=
  fun x hx => (hh x hx).stable h

theorem wp_ans {α : Type} {hs : List Handle} {f : α → Ans} {p : Prog α} {s : Sit} (hh : Held L T hs s) (hp : Wp L F T p (fun _ _ => True) s) :
    Wp L F T (ans hs f p) (fun x s => ∀ y, x = .ok y → Held L T y.2 s) s := by
  unfold ans
  refine Wp.bind (Q := fun _ _ => True) (hp.mono fun _ _ _ _ _ => trivial) (fun _ _ _ h => by simp at h) fun a s1 g1 h1 _ => ?_
  refine .pure_ fun s2 _ h2 y hy => ?_
  simp only [Except.ok.injEq] at hy
  rw [← hy]
  exact hh.stable (h1.trans h2)

theorem wp_onFd {α : Type} {hs : List Handle} {k : Nat} {f : α → Ans} {p : Handle → Prog α} {s : Sit} (hh : Held L T hs s)
    (hp : ∀ h, OwnH L T s h → Wp L F T (p h) (fun _ _ => True) s) :
    Wp L F T (onFd hs k f p) (fun x s => ∀ y, x = .ok y → Held L T y.2 s) s := by
  unfold onFd
  split
  · rename_i h he
    exact wp_ans hh (hp h (hh h (List.mem_of_getElem? he)))
  · exact .raise_ fun _ _ _ _ h => by simp at h

theorem wp_remove [Sub T F] {u : Uri} {s : Sit} (ho : ¬ L → ∀ r, s.w.connOf (connKey u) = some r → Owns T r u) :
    Wp L F T (cRemove u) (fun _ _ => True) s := by
  refine wp_conn (fun _ _ => trivial) fun r s1 g1 h1 hr hc => ?_
  refine Wp.seq (wp_islink hr) fun b s2 g2 h2 => ?_
  have hr2 := h2.ext.isRoot hr
  split
  · exact wp_removefile hr2 fun hL => ho hL r hc
  · refine Wp.seq (wp_exists hr2) fun b s3 g3 h3 => ?_
    have hr3 := h3.ext.isRoot hr2
    split
    · exact .raise_ fun _ _ _ => trivial
    · refine Wp.seq (wp_isdir hr3) fun b s4 g4 h4 => ?_
      have hr4 := h4.ext.isRoot hr3
      split
      · exact wp_removedir hr4 fun hL => ho hL r hc
      · refine Wp.seq (wp_isfile hr4) fun b s5 g5 h5 => ?_
        split
        · exact wp_removefile (h5.ext.isRoot hr4) fun hL => ho hL r hc
        · exact .pure_ fun _ _ _ => trivial

theorem wp_call_ [Sub T F] {c : Call} {hs : List Handle} {s : Sit} (hc : ¬ L → c.Within s.w F T) (hh : Held L T hs s) :
    Wp L F T (c.prog hs) (fun x s => ∀ y, x = .ok y → Held L T y.2 s) s := by
  cases c with
  | exists_ u => exact wp_ans hh (wp_conn (fun _ _ => trivial) fun r s1 g1 h1 hr _ => wp_exists hr)
  | isfile u => exact wp_ans hh (wp_conn (fun _ _ => trivial) fun r s1 g1 h1 hr _ => wp_isfile hr)
  | isdir u => exact wp_ans hh (wp_conn (fun _ _ => trivial) fun r s1 g1 h1 hr _ => wp_isdir hr)
  | islink u => exact wp_ans hh (wp_conn (fun _ _ => trivial) fun r s1 g1 h1 hr _ => wp_islink hr)
  | readlink u => exact wp_ans hh (wp_conn (fun _ _ => trivial) fun r s1 g1 h1 hr _ => wp_readlink hr)
  | listdir u => exact wp_ans hh (wp_conn (fun _ _ => trivial) fun r s1 g1 h1 hr _ => wp_listdir hr)
  | info u f => exact wp_ans hh (wp_conn (fun _ _ => trivial) fun r s1 g1 h1 hr _ => wp_info hr)
  | mtime u => exact wp_ans hh (wp_conn (fun _ _ => trivial) fun r s1 g1 h1 hr _ => wp_mtime hr)
  | isexec u k => exact wp_ans hh (wp_conn (fun _ _ => trivial) fun r s1 g1 h1 hr _ => wp_isexec hr)
  | setExec u m => exact wp_ans hh (wp_conn (fun _ _ => trivial) fun r s1 g1 h1 hr hk => wp_setExec hr fun hL => (hc hL).2 _ rfl r hk)
  | setInfo u i f => exact wp_ans hh (wp_conn (fun _ _ => trivial) fun r s1 g1 h1 hr hk => wp_setInfo hr fun hL => (hc hL).2 _ rfl r hk)
  | copystat u v => exact wp_ans hh (wp_conn (fun _ _ => trivial) fun r s1 g1 h1 hr hk => wp_copystat hr fun hL => (hc hL).2 _ rfl r hk)
  | mkdir u => exact wp_ans hh (wp_conn (fun _ _ => trivial) fun r s1 g1 h1 hr hk => wp_mkdir hr fun hL => (hc hL).2 _ rfl r hk)
  | symlink u v =>
    have hL : L := by
      by_contra h
      exact (hc h).1 u v rfl
    exact wp_ans hh (wp_conn (fun _ _ => trivial) fun r s1 g1 h1 hr hk => wp_symlink hL hr)
  | remove u => exact wp_ans hh (wp_remove fun hL r hk => (hc hL).2 _ rfl r hk)
  | open_ u o =>
    refine Wp.bind (Q := fun h s => OwnH L T s h)
      (wp_conn (fun _ _ _ h => by simp at h) fun r s1 g1 h1 hr hk => wp_open hr fun hL => (hc hL).2 _ rfl r hk)
      (fun _ _ _ h => by simp at h) fun h s1 g1 h1 ho => .pure_ fun s2 _ h2 y hy => ?_
    simp only [Except.ok.injEq] at hy
    rw [← hy]
    intro x hx
    rcases List.mem_append.1 hx with hx | hx
    · exact (hh x hx).stable (h1.trans h2)
    · rw [List.mem_singleton.1 hx]; exact ho.stable h2
  | write k d => exact wp_onFd hh fun h ho => wp_write ho
  | read k d => exact wp_onFd hh fun h ho => wp_read ho
  | seek k t wh => exact wp_onFd hh fun h ho => wp_seek ho
  | tell k => exact wp_onFd hh fun h ho => wp_tell ho
  | size k => exact wp_onFd hh fun h ho => wp_size ho
  | truncate k n => exact wp_onFd hh fun h ho => wp_truncate ho
  | close k => exact wp_onFd hh fun h ho => wp_close ho
  | readline k => exact wp_onFd hh fun h ho => wp_readline ho
  | tree t =>
    obtain ⟨G, h1, h2⟩ : ∃ G : Ground, G.Holds L F T s.w ∧ (¬ L → ∀ u ∈ t.uris, G.Inn u) := by
      by_cases hL : L
      · exact ⟨anyGround s.w, anyGround_holds hL s.w, fun h => absurd hL h⟩
      · obtain ⟨G, h1, h2⟩ := (hc hL).tree t rfl
        exact ⟨G, h1.of, fun _ => h2⟩
    exact wp_ans hh (wp_op (ok_tree h2) h1).any

theorem wp_script [Sub T F] {sc : Script} : ∀ {hs : List Handle} {log : Log} {s : Sit}, (¬ L → ∀ c, sc.Makes c → c.Within s.w F T) → Held L T hs s →
    Wp L F T (sc.prog hs log) (fun _ _ => True) s := by
  induction sc with
  | done => exact fun _ _ => .pure_ fun _ _ _ => trivial
  | call c k ih =>
    intro hs log s hc hh
    rw [Script.prog]
    refine Wp.after (wp_call_ (fun hL => hc hL c .here) hh) fun r s1 g1 h1 hr => ?_
    have hk : ∀ x, ¬ L → ∀ c, (k x).Makes c → c.Within s1.w F T := fun x hL c' hm => (hc hL c' (.later x hm)).congr h1.conns
    cases r with
    | ok x => exact ih _ (hk _) (hr x rfl)
    | error e => exact ih _ (hk _) (hh.stable h1)

end

/-! ## All threads together -/

theorem pool_step {L : Prop} {F : Frame} {T : Nat → Loc → Prop} {p : Pool} {at_ : Nat → Loc} (hg : Good L F ⟨p.world, at_⟩)
    (hw : ∀ t, Wp L F (T t) (p.prog t) (fun _ _ => True) ⟨p.world, at_⟩) (t : Nat) :
    ∃ at', Good L F ⟨(p.step t).world, at'⟩ ∧ Rely L (T t) ⟨p.world, at_⟩ ⟨(p.step t).world, at'⟩ ∧
      ∀ i, Wp L F (T i) ((p.step t).prog i) (fun _ _ => True) ⟨(p.step t).world, at'⟩ := by
  have ht := hw t
  unfold Pool.step
  cases hp : p.prog t with
  | ret r => exact ⟨at_, hg, .rfl' _ _ _, hw⟩
  | act a k =>
    rw [hp] at ht
    obtain ⟨h1, h2, h3⟩ := ht _ hg (.rfl' _ _ _)
    refine ⟨_, h1, h2.toRely, fun i => ?_⟩
    by_cases hi : i = t
    · subst hi
      simp only [if_true]
      exact h3
    · simp only [if_neg hi]
      exact (hw i).stable h2.any

theorem pool_run {L : Prop} {F : Frame} {T : Nat → Loc → Prop} (sched : List Nat) : ∀ {p : Pool} {at_ : Nat → Loc}, Good L F ⟨p.world, at_⟩ →
    (∀ t, Wp L F (T t) (p.prog t) (fun _ _ => True) ⟨p.world, at_⟩) →
    ∃ at', Good L F ⟨(p.run sched).world, at'⟩ ∧ Rely L (fun l => ∃ t ∈ sched, T t l) ⟨p.world, at_⟩ ⟨(p.run sched).world, at'⟩ := by
  induction sched with
  | nil => exact fun hg _ => ⟨_, hg, .rfl' _ _ _⟩
  | cons t sched ih =>
    intro p at_ hg hw
    obtain ⟨a1, g1, r1, w1⟩ := pool_step hg hw t
    obtain ⟨a2, g2, r2⟩ := ih g1 w1
    exact ⟨a2, g2, (r1.mono fun l h => ⟨t, by simp, h⟩).trans (r2.mono fun l ⟨i, hi, h⟩ => ⟨i, by simp [hi], h⟩)⟩

/-! ## The places at the beginning -/

open Classical in
/-- the place an object has by its entry -/
noncomputable def placeOf (w : World) (i : Nat) : Loc :=
  if h : ∃ j, j < i ∧ ∃ n, (n, i) ∈ w.entries j then
    (placeOf w h.choose).snoc h.choose_spec.2.choose
  else (i, [])
termination_by i
decreasing_by exact h.choose_spec.1

theorem placeOf_entry {w : World} (hw : Inv w) {j i : Nat} {n : Str} (hm : (n, i) ∈ w.entries j) : placeOf w i = (placeOf w j).snoc n := by
  have hx : ∃ j, j < i ∧ ∃ n, (n, i) ∈ w.entries j := ⟨j, (hw.child j n i hm).1, n, hm⟩
  rw [placeOf, dif_pos hx]
  have := hw.uniq _ _ _ _ _ hx.choose_spec.2.choose_spec hm
  exact congrArg₂ (fun a b => (placeOf w a).snoc b) this.1 this.2

/-- an object whose place is in a file system is found there -/
theorem placeOf_phys {w : World} (hw : Inv w) (i : Nat) : phys w (placeOf w i).1 (placeOf w i).2 = some i := by
  induction i using Nat.strongRecOn with
  | ind i ih =>
    by_cases hx : ∃ j, j < i ∧ ∃ n, (n, i) ∈ w.entries j
    · obtain ⟨j, hj, n, hm⟩ := hx
      rw [placeOf_entry hw hm]
      show phys w (placeOf w j).1 ((placeOf w j).2 ++ [n]) = some i
      rw [phys_snoc, ih j hj]
      exact mem_lookup (hw.nodup j) hm
    · rw [placeOf, dif_neg hx]
      rfl

theorem good_start {L : Prop} {F : Frame} {w : World} (hw : Inv w) (hl : ¬ L → ∀ i o, w.node i ≠ .link o)
    (hf : ¬ L → ∀ r q n i, IsRoot w r → phys w r (q ++ [n]) = some i → F.fine (r, q ++ [n]))
    (hk : ¬ L → ∀ r q i, F.keep r q i → IsRoot w r ∧ phys w r q = some i ∧ ∃ d, w.node i = .dir d) : Good L F ⟨w, placeOf w⟩ := by
  refine ⟨hw, hl, ?_, fun j n i hm => placeOf_entry hw hm, ?_, hk⟩
  · rintro r ⟨k, hk⟩
    show placeOf w r = _
    rw [placeOf, dif_neg]
    rintro ⟨j, -, n, h⟩
    exact (hw.root k r hk).2.2 j n h
  · intro hL j n i hm hr
    refine hf hL _ _ n i hr ?_
    have h := placeOf_phys hw i
    rw [placeOf_entry hw hm] at h
    exact h

/-- scripts, each with the places its calls may touch, from a state in order -/
theorem start_run {L : Prop} {F : Frame} {w : World} (hw : Inv w) (hl : ¬ L → ∀ i o, w.node i ≠ .link o)
    (hf : ¬ L → ∀ r q n i, IsRoot w r → phys w r (q ++ [n]) = some i → F.fine (r, q ++ [n]))
    (hk : ¬ L → ∀ r q i, F.keep r q i → IsRoot w r ∧ phys w r q = some i ∧ ∃ d, w.node i = .dir d) {scripts : Nat → Script} {T : Nat → Loc → Prop}
    [∀ t, Sub (T t) F] (hs : ¬ L → ∀ t c, (scripts t).Makes c → c.Within w F (T t)) (sched : List Nat) :
    ∃ at', Good L F ⟨((Pool.start w scripts).run sched).world, at'⟩ ∧
      Rely L (fun l => ∃ t ∈ sched, T t l) ⟨w, placeOf w⟩ ⟨((Pool.start w scripts).run sched).world, at'⟩ :=
  pool_run sched (p := Pool.start w scripts) (good_start hw hl hf hk)
    fun t => wp_script (s := ⟨w, placeOf w⟩) (fun hL c hm => hs hL t c hm) fun h hh => by simp at hh

/-- no name on the way to `q` is touched, nor what is there -/
theorem Rely.view {F : Frame} {T : Loc → Prop} {s s' : Sit} (hg : Good False F s) (h : Rely False T s s') {r : Nat} (hr : IsRoot s.w r) {q : List Str}
    (hq : ¬ T (r, q)) (hp : ∀ p n, p ++ [n] <+: q → ¬ T (r, p ++ [n])) : view s'.w r q = view s.w r q := by
  have key : ∀ (q2 q1 : List Str) (i : Nat), q1 ++ q2 = q → i < s.w.next → s.at_ i = (r, q1) →
      (phys s'.w i q2).map (fun i => objOf (s'.w.node i)) = (phys s.w i q2).map fun i => objOf (s.w.node i) := by
    intro q2
    induction q2 with
    | nil =>
      intro q1 i e hi ha
      rw [List.append_nil] at e
      subst e
      have hn := h.node (by simp) i hi (by rw [ha]; exact hq)
      simp only [phys, Option.map_some]
      cases h1 : s.w.node i <;> cases h2 : s'.w.node i <;> rw [h1, h2] at hn <;> simp [NodeSim] at hn
      · rw [hn]
      · rw [objOf, objOf, hn.1, hn.2.2]
      · rw [hn]
    | cons n q2 ih =>
      intro q1 i e hi ha
      have e' : (q1 ++ [n]) ++ q2 = q := by rw [← e]; simp
      rw [phys_cons, phys_cons, h.entry (by simp) i n hi (by rw [ha]; exact hp q1 n ⟨q2, e'⟩)]
      cases hl : (s.w.entries i).lookup n with
      | none => rfl
      | some c =>
        have hm := lookup_mem hl
        have := hg.inv.child _ _ _ hm
        simp only [Option.bind_some]
        exact ih (q1 ++ [n]) c e' this.2 (by rw [hg.entry _ _ _ hm, ha]; rfl)
  obtain ⟨k, hk⟩ := hr
  exact key q [] r rfl (hg.inv.root k r hk).1 (hg.root r ⟨k, hk⟩)

end Verif.Conc
