import Verif.Conc.Rely
/-!
# Every program of `Verif/Conc/Fs` keeps the heap in order and touches only its own places
-/
namespace Verif.Conc
open Mem Mem.M Spec Prog

/-- the places a call on the path of `u` may touch, in the file system `r` -/
def Owns (T : Loc → Prop) (r : Nat) (u : Uri) : Prop :=
  ∀ p, stripPath u = .ok p → T (r, if p = [] then [] else splitC '/' p) ∧ T (r, splitC '/' p) ∧
    T (r, ((splitC '/' p).filter fun x => x ≠ []).dropLast ++ [u.last]) ∧ T (r, (splitC '/' p).filter fun x => x ≠ [])

section
variable {L : Prop} {F : Frame} {T : Loc → Prop}

/-! ## Accesses -/

theorem wp_query {α : Type} {f : World → Except PyErr α} {Q : Except PyErr α → Sit → Prop} {s : Sit}
    (hst : ∀ r s s', Rely L Any_ s s' → Q r s → Q r s') (h : ∀ s', Good L F s' → Rely L Any_ s s' → Q (f s'.w) s') :
    Wp L F T (call (query f)) Q s := by
  refine .call_ hst fun s' hg hs => ?_
  have h1 := query_step (T := T) (f := f) hg
  exact ⟨h1.1, h1.2, hst _ _ _ h1.2.any (h s' hg hs)⟩

theorem wp_query_any {α : Type} {f : World → Except PyErr α} {s : Sit} : Wp L F T (call (query f)) (fun _ _ => True) s :=
  wp_query (fun _ _ _ _ _ => trivial) fun _ _ _ => trivial

theorem wp_now {s : Sit} : Wp L F T (call now) (fun _ _ => True) s :=
  .call_ (fun _ _ _ _ _ => trivial) fun _ hg _ => ⟨(tick_step (T := T) hg).1, (tick_step hg).2, trivial⟩

/-- the entry under a name -/
theorem wp_get {s : Sit} {d : Nat} {n : Str} {l : Loc} (hd : At L s d l) :
    Wp L F T (call (aGet d n)) (fun r s => ∀ i, r = .ok i → At L s i (l.snoc n)) s := by
  refine wp_query (fun r s s' hs h i hi => (h i hi).stable hs) fun s' hg hs i hi => ?_
  cases hn : s'.w.node d with
  | file f => rw [hn] at hi; simp at hi
  | link f => rw [hn] at hi; simp at hi
  | dir o =>
    rw [hn] at hi
    cases hl : o.get n with
    | none => simp [hl] at hi
    | some j =>
      simp only [hl, Except.ok.injEq] at hi
      subst hi
      have hm : (n, j) ∈ s'.w.entries d := by rw [entries_dir hn]; exact lookup_mem hl
      refine ⟨(hg.inv.child _ _ _ hm).2, fun hL => ?_⟩
      rw [hg.entry _ _ _ hm, (hd.stable hs).2 hL]

theorem wp_tag {s : Sit} {i : Nat} :
    Wp L F T (call (aTag i)) (fun r _ => ∀ t, r = .ok t → ¬ L → ∀ u, t ≠ .link u) s := by
  refine wp_query (fun r s s' hs h => h) fun s' hg hs t ht hL u => ?_
  simp only [Except.ok.injEq] at ht
  subst ht
  cases hn : s'.w.node i with
  | link o => exact absurd hn (hg.noLink hL i o)
  | file f => simp [tagOf]
  | dir d => simp [tagOf]

/-- a file is changed, and stays a file with its path -/
theorem wp_file {α : Type} {g : FileObj → Except PyErr (α × FileObj)} {s : Sit} {i : Nat} {l : Loc} (hi : At L s i l) (hT : ¬ L → T l)
    (hg : ∀ s', Good L F s' → Rely L Any_ s s' → ∀ f a f', g f = .ok (a, f') → SameType s'.w.gen s'.w.gen (.file f) (.file f')) :
    Wp L F T (call (aFile i g)) (fun _ _ => True) s := by
  refine .call_ (fun _ _ _ _ _ => trivial) fun s' hgd hs => ?_
  have hcases : (∃ f a f', s'.w.node i = .file f ∧ g f = .ok (a, f') ∧ aFile i g s'.w = (.ok a, s'.w.setNode i (.file f'))) ∨
      ∃ e, aFile i g s'.w = (.error e, s'.w) := by
    cases hn : s'.w.node i with
    | dir d => exact .inr ⟨.attributeError, by rw [run_aFile, hn]⟩
    | link d => exact .inr ⟨.attributeError, by rw [run_aFile, hn]⟩
    | file f =>
      cases he : g f with
      | error e => exact .inr ⟨e, by rw [run_aFile, hn]; simp only [he]⟩
      | ok x => exact .inl ⟨f, x.1, x.2, rfl, he, aFile_ok hn he⟩
  unfold Sit.after
  rcases hcases with ⟨f, a, f', h1, h2, h3⟩ | ⟨e, h3⟩
  · rw [h3]
    have := setNode_step (T := T) hgd (hi.stable hs) hT (n := .file f') (by rw [h1]; trivial) (by rw [h1]; exact hg s' hgd hs f a f' h2)
    exact ⟨this.1, this.2, trivial⟩
  · rw [h3]
    have := query_step (T := T) (f := fun _ => (.ok () : Except PyErr Unit)) hgd
    exact ⟨this.1, this.2, trivial⟩

/-- as `wp_file`, when neither path nor lock change -/
theorem wp_file' {α : Type} {g : FileObj → Except PyErr (α × FileObj)} {s : Sit} {i : Nat} {l : Loc} (hi : At L s i l) (hT : ¬ L → T l)
    (hg : ∀ f a f', g f = .ok (a, f') → f'.path = f.path ∧ f'.lock = f.lock) : Wp L F T (call (aFile i g)) (fun _ _ => True) s :=
  wp_file hi hT fun _ _ _ f a f' h => ⟨(hg f a f' h).1, .inl (hg f a f' h).2⟩

/-- an object is made and stored -/
theorem wp_new_ [Sub T F] {P : Sit → Nat → Prop} (hP : ∀ s s' i, Rely L Any_ s s' → i < s.w.next → P s i → P s' i) {s : Sit} {d : Nat} {m : Str} {l : Loc}
    {a : M Nat} {n : World → Node} (ha : ∀ w, a w = (.ok w.next, w.alloc (n w)))
    (hl : ∀ w, Leaf (n w)) (hn : ¬ L → ∀ w o, n w ≠ .link o) (hd : At L s d l) (hT : ¬ L → T (l.snoc m))
    (h0 : ∀ (w : World) o at_, d < w.next → P ⟨w.addChild d o m (n w), at_⟩ w.next) :
    Wp L F T (call (do let i ← a; createChild d m i; pure i)) (fun r s => ∀ i, r = .ok i → At L s i (l.snoc m) ∧ P s i) s := by
  refine .call_ (fun r s s' hs h i hi => ⟨(h i hi).1.stable hs, hP s s' i hs (h i hi).1.1 (h i hi).2⟩) fun s' hg hs => ?_
  have hd' := hd.stable hs
  have hx : (do let i ← a; createChild d m i; pure i : M Nat) s'.w =
      match s'.w.node d with
      | .dir o => (.ok s'.w.next, s'.w.addChild d o m (n s'.w))
      | _ => (.error .attributeError, s'.w.alloc (n s'.w)) := by
    rw [bind_ok (ha s'.w)]
    cases ho : s'.w.node d with
    | dir o => rw [bind_ok (createChild_alloc ho hd'.1)]; rfl
    | file f =>
      refine bind_error (e := .attributeError) ?_
      unfold createChild
      simp only [World.alloc, if_neg (Nat.ne_of_lt hd'.1), ho]
    | link f =>
      refine bind_error (e := .attributeError) ?_
      unfold createChild
      simp only [World.alloc, if_neg (Nat.ne_of_lt hd'.1), ho]
  unfold Sit.after
  rw [hx]
  cases ho : s'.w.node d with
  | dir o =>
    have := put_step (T := T) hg hd' ho hT (hl s'.w) (fun hL => hn hL s'.w)
    refine ⟨this.1, this.2.1, ?_⟩
    rintro i h
    simp only [Except.ok.injEq] at h
    subst h
    exact ⟨this.2.2, h0 _ _ _ hd'.1⟩
  | file f =>
    have := alloc_step (T := T) hg (hl s'.w) (fun hL => hn hL s'.w)
    exact ⟨this.1, this.2, by simp⟩
  | link f =>
    have := alloc_step (T := T) hg (hl s'.w) (fun hL => hn hL s'.w)
    exact ⟨this.1, this.2, by simp⟩

theorem wp_new [Sub T F] {s : Sit} {d : Nat} {m : Str} {l : Loc} {a : M Nat} {n : World → Node} (ha : ∀ w, a w = (.ok w.next, w.alloc (n w)))
    (hl : ∀ w, Leaf (n w)) (hn : ¬ L → ∀ w o, n w ≠ .link o) (hd : At L s d l) (hT : ¬ L → T (l.snoc m)) :
    Wp L F T (call (do let i ← a; createChild d m i; pure i)) (fun r s => ∀ i, r = .ok i → At L s i (l.snoc m)) s :=
  (wp_new_ (P := fun _ _ => True) (fun _ _ _ _ _ _ => trivial) ha hl hn hd hT fun _ _ _ _ => trivial).mono fun _ _ h i hi => (h i hi).1

/-- the lock of the file `i` is the one its path has now -/
def Carries (s : Sit) (i : Nat) : Prop := ∃ f, s.w.node i = .file f ∧ f.lock = (s.w.gen, f.path)

theorem Carries.stable {T' : Loc → Prop} {s s' : Sit} {i : Nat} (hs : Rely L T' s s') (hi : i < s.w.next) (h : Carries s i) : Carries s' i := by
  obtain ⟨f, h1, h2⟩ := h
  have := hs.ext.stays.type i hi
  rw [h1] at this
  cases hn : s'.w.node i with
  | dir d => rw [hn] at this; exact this.elim
  | link d => rw [hn] at this; exact this.elim
  | file f' =>
    rw [hn] at this
    refine ⟨f', hn, ?_⟩
    rw [hs.gen, this.1]
    rcases this.2 with e | ⟨e1, e2, e3⟩
    · rw [e, h2]
    · rw [hs.gen] at e3
      exact Prod.ext (by omega) e1

theorem wp_newFile_ [Sub T F] {s : Sit} {d : Nat} {m p : Str} {l : Loc} (hd : At L s d l) (hT : ¬ L → T (l.snoc m)) :
    Wp L F T (call (aNewFile d m p)) (fun r s => ∀ i, r = .ok i → At L s i (l.snoc m) ∧ Carries s i) s :=
  wp_new_ (P := Carries) (fun _ _ _ hs hi h => h.stable hs hi) (fun w => newFile_eq w p) (fun _ => trivial) (fun _ _ _ h => by simp at h) hd hT
    fun w o at_ hw => ⟨_, by
      show (if w.next = d then _ else if w.next = w.next then _ else _) = _
      rw [if_neg (by omega), if_pos rfl], rfl⟩

/-- the lock is set to the one the path has now -/
theorem wp_setLock {s : Sit} {i : Nat} {l : Loc} (hi : At L s i l) (hT : ¬ L → T l) {g : Nat} (hg : g = s.w.gen) :
    Wp L F T (call (aFile i fun f => .ok ((), { f with lock := (g, f.path) }))) (fun r s => ∀ x, r = .ok x → Carries s i ∧ i < s.w.next) s := by
  refine .call_ (fun r s s' hs h x hx => ⟨(h x hx).1.stable hs (h x hx).2, Nat.lt_of_lt_of_le (h x hx).2 hs.next⟩) fun s' hgd hs => ?_
  have hg' : g = s'.w.gen := hg.trans hs.gen.symm
  have hi' := hi.stable hs
  unfold Sit.after
  cases hn : s'.w.node i with
  | dir d =>
    have e : aFile i (fun f => .ok ((), { f with lock := (g, f.path) })) s'.w = (.error .attributeError, s'.w) := by rw [run_aFile, hn]
    rw [e]
    have := query_step (T := T) (f := fun _ => (.ok () : Except PyErr Unit)) hgd
    exact ⟨this.1, this.2, fun _ h => by simp at h⟩
  | link d =>
    have e : aFile i (fun f => .ok ((), { f with lock := (g, f.path) })) s'.w = (.error .attributeError, s'.w) := by rw [run_aFile, hn]
    rw [e]
    have := query_step (T := T) (f := fun _ => (.ok () : Except PyErr Unit)) hgd
    exact ⟨this.1, this.2, fun _ h => by simp at h⟩
  | file f =>
    have e : aFile i (fun f => .ok ((), { f with lock := (g, f.path) })) s'.w = (.ok (), s'.w.setNode i (.file { f with lock := (g, f.path) })) :=
      aFile_ok hn rfl
    rw [e]
    have := setNode_step (T := T) hgd hi' hT (n := .file { f with lock := (g, f.path) }) (by rw [hn]; trivial)
      (by rw [hn]; exact ⟨rfl, .inr ⟨rfl, by show _ ≤ g; omega, by show g ≤ _; omega⟩⟩)
    refine ⟨this.1, this.2, fun _ _ => ⟨⟨{ f with lock := (g, f.path) }, ?_, by rw [hg']; rfl⟩, hi'.1⟩⟩
    show (if i = i then _ else _) = _
    rw [if_pos rfl]

theorem wp_newFile [Sub T F] {s : Sit} {d : Nat} {m p : Str} {l : Loc} (hd : At L s d l) (hT : ¬ L → T (l.snoc m)) :
    Wp L F T (call (aNewFile d m p)) (fun r s => ∀ i, r = .ok i → At L s i (l.snoc m)) s :=
  wp_new (fun w => newFile_eq w p) (fun _ => trivial) (fun _ _ _ h => by simp at h) hd hT

/-- the same access, whose outcome does not tell the object -/
theorem wp_forget {α : Type} {a b : M α} {Q : Except PyErr α → Sit → Prop} {s : Sit} (h : ∀ w, (a w).2 = (b w).2) (hb : Wp L F T (call b) Q s) :
    Wp L F T (call a) (fun _ _ => True) s := by
  intro s' hg hs
  obtain ⟨h1, h2, -⟩ := hb s' hg hs
  have e : s'.after a = s'.after b := by unfold Sit.after; rw [h]
  rw [e]
  exact ⟨h1, h2, fun _ _ _ => trivial⟩

theorem wp_newDir [Sub T F] {s : Sit} {d : Nat} {m : Str} {l : Loc} (hd : At L s d l) (hT : ¬ L → T (l.snoc m)) :
    Wp L F T (call (aNewDir d m)) (fun _ _ => True) s := by
  have := wp_new (F := F) (T := T) (a := newDir) (m := m) newDir_eq (fun _ => rfl) (fun _ _ _ h => by simp at h) hd hT
  intro s' hg hs
  obtain ⟨h1, h2, -⟩ := this s' hg hs
  have e : s'.after (aNewDir d m) = s'.after (do let i ← newDir; createChild d m i; pure i) := by
    have : (aNewDir d m s'.w).2 = ((do let i ← newDir; createChild d m i; pure i : M Nat) s'.w).2 := by
      unfold aNewDir
      rw [bind_ok (newDir_eq _), bind_ok (newDir_eq _), bind_apply]
      cases createChild d m s'.w.next _ with
      | mk x w => cases x <;> rfl
    unfold Sit.after
    rw [this]
  rw [e]
  exact ⟨h1, h2, fun _ _ _ => trivial⟩

theorem wp_newLink [Sub T F] {s : Sit} {d : Nat} {m : Str} {t : Uri} {l : Loc} (hL : L) (hd : At L s d l) :
    Wp L F T (call (aNewLink d m t)) (fun _ _ => True) s := by
  have := wp_new (F := F) (T := T) (a := newLink t) (m := m) (fun w => newLink_eq w t) (fun _ => trivial) (fun h => absurd hL h) hd (fun h => absurd hL h)
  intro s' hg hs
  obtain ⟨h1, h2, -⟩ := this s' hg hs
  have e : s'.after (aNewLink d m t) = s'.after (do let i ← newLink t; createChild d m i; pure i) := by
    have : (aNewLink d m t s'.w).2 = ((do let i ← newLink t; createChild d m i; pure i : M Nat) s'.w).2 := by
      unfold aNewLink
      rw [bind_ok (newLink_eq _ _), bind_ok (newLink_eq _ _), bind_apply]
      cases createChild d m s'.w.next _ with
      | mk x w => cases x <;> rfl
    unfold Sit.after
    rw [this]
  rw [e]
  exact ⟨h1, h2, fun _ _ _ => trivial⟩

theorem wp_del [Sub T F] {s : Sit} {d : Nat} {m : Str} {l : Loc} (hd : At L s d l) (hT : ¬ L → T (l.snoc m)) :
    Wp L F T (call (delChild d m)) (fun _ _ => True) s := by
  refine .call_ (fun _ _ _ _ _ => trivial) fun s' hg hs => ?_
  have hq := query_step (T := T) (f := fun _ => (.ok () : Except PyErr Unit)) hg
  unfold Sit.after delChild
  cases ho : s'.w.node d with
  | dir o =>
    simp only
    split
    · have := del_step (T := T) hg (hd.stable hs) ho hT
      exact ⟨this.1, this.2, trivial⟩
    · exact ⟨hq.1, hq.2, trivial⟩
  | file f => exact ⟨hq.1, hq.2, trivial⟩
  | link f => exact ⟨hq.1, hq.2, trivial⟩

theorem wp_setMtime {s : Sit} {i : Nat} {l : Loc} {t : Int} (hi : At L s i l) (hT : ¬ L → T l) :
    Wp L F T (call (aSetMtime i t)) (fun _ _ => True) s := by
  refine .call_ (fun _ _ _ _ _ => trivial) fun s' hg hs => ?_
  have := setNode_step (T := T) hg (hi.stable hs) hT (n := (s'.w.node i).setMtime t)
    (by cases s'.w.node i <;> simp [Node.setMtime, SameShape]) (by cases s'.w.node i <;> simp [Node.setMtime, SameType])
  exact ⟨this.1, this.2, trivial⟩

theorem wp_setMode {s : Sit} {i : Nat} {l : Loc} {m : Int} (hi : At L s i l) (hT : ¬ L → T l) :
    Wp L F T (call (aSetMode i m)) (fun _ _ => True) s := by
  refine .call_ (fun _ _ _ _ _ => trivial) fun s' hg hs => ?_
  have := setNode_step (T := T) hg (hi.stable hs) hT (n := (s'.w.node i).setMode m)
    (by cases s'.w.node i <;> simp [Node.setMode, SameShape]) (by cases s'.w.node i <;> simp [Node.setMode, SameType])
  exact ⟨this.1, this.2, trivial⟩

/-! ## Looking up -/

/-- sequencing when nothing is claimed of the end -/
theorem Wp.seq {α β : Type} {p : Prog α} {f : α → Prog β} {s : Sit} (h : Wp L F T p (fun _ _ => True) s)
    (hf : ∀ a s', Good L F s' → Rely L Any_ s s' → Wp L F T (f a) (fun _ _ => True) s') : Wp L F T (p >>= f) (fun _ _ => True) s :=
  Wp.bind (Q := fun _ _ => True) (h.mono fun _ _ _ _ _ => trivial) (fun _ _ => trivial) fun a s' hg hs _ => hf a s' hg hs

theorem Wp.any {α : Type} {p : Prog α} {Q : Except PyErr α → Sit → Prop} {s : Sit} (h : Wp L F T p Q s) : Wp L F T p (fun _ _ => True) s :=
  h.mono fun _ _ _ => trivial

/-- the outcome of looking up, if any -/
def AtO (L : Prop) (l : Loc) (r : Except PyErr (Option Nat)) (s : Sit) : Prop := ∀ o, r = .ok o → ∀ i, o = some i → At L s i l

/-- where links lead does not matter unless they are allowed -/
def Res (L : Prop) (F : Frame) (T : Loc → Prop) (resolve : Uri → Prog (Option Nat)) (r : Nat) : Prop :=
  ∀ t s, IsRoot s.w r → Wp L F T (resolve t) (fun r s => ∀ o, r = .ok o → ∀ i, o = some i → L → i < s.w.next) s

theorem wp_child {resolve : Uri → Prog (Option Nat)} {r : Nat} (hr : Res L F T resolve r) {s : Sit} (hroot : IsRoot s.w r)
    {c : Nat} {n : Str} {f : Bool} {l : Loc} (hc : At L s c l) : Wp L F T (cChild resolve c n f) (AtO L (l.snoc n)) s := by
  unfold cChild
  refine Wp.bind (Q := fun _ _ => True) (wp_query_any.mono fun _ _ _ _ _ => trivial) (fun e s' o h => by simp at h) fun b s1 g1 h1 _ => ?_
  split
  · refine Wp.bind (Q := fun i s => At L s i (l.snoc n)) (wp_get (hc.stable h1)) (fun e s' o h => by simp at h) fun i s2 g2 h2 hi => ?_
    have hdone : ∀ s3, Rely L Any_ s2 s3 → Wp L F T (pure (some i) : Prog (Option Nat)) (AtO L (l.snoc n)) s3 := by
      intro s3 h3
      refine .pure_ fun s4 _ h4 o ho j hj => ?_
      simp only [Except.ok.injEq] at ho
      rw [← ho] at hj
      cases hj
      exact hi.stable (h3.trans h4)
    refine Wp.bind (Q := fun t _ => ¬ L → ∀ u, t ≠ .link u) wp_tag (fun e s' o h => by simp at h) fun t s3 g3 h3 ht => ?_
    split
    · rename_i u
      have hL : L := by
        by_contra h
        exact ht h u rfl
      split
      · refine Wp.bind (Q := fun o s => ∀ i, o = some i → L → i < s.w.next)
          (hr u s3 (((h1.trans h2).trans h3).ext.isRoot hroot)) (fun e s' o h => by simp at h) fun o s4 g4 h4 ho => ?_
        split
        · exact .pure_ fun _ _ _ o ho j hj => by simp at ho; rw [← ho] at hj; cases hj
        · rename_i j
          refine Wp.bind (Q := fun _ _ => True) (wp_query_any.mono fun _ _ _ _ _ => trivial) (fun e s' o h => by simp at h) fun t' s5 g5 h5 _ => ?_
          split
          · exact .raise_ fun _ _ _ o ho => by simp at ho
          · refine .pure_ fun s6 _ h6 o' ho' k hk => ?_
            simp only [Except.ok.injEq] at ho'
            rw [← ho'] at hk
            cases hk
            exact ⟨Nat.lt_of_lt_of_le (ho j rfl hL) (h5.trans h6).next, fun h => absurd hL h⟩
      · exact hdone s3 h3
    · exact hdone s3 h3
  · exact .pure_ fun _ _ _ o ho j hj => by simp at ho; rw [← ho] at hj; cases hj

theorem wp_prevLoop {resolve : Uri → Prog (Option Nat)} {r : Nat} (hr : Res L F T resolve r) {f th : Bool} {last : Str} (steps : List Str) :
    ∀ {s : Sit} (_ : IsRoot s.w r) {q : List Str} {prev cur : Option Nat} (_ : ∀ i, prev = some i → At L s i (r, q.dropLast))
      (_ : ∀ i, cur = some i → At L s i (r, q)),
      Wp L F T (cPrevLoop resolve f th last steps prev cur) (fun x s => ∀ y, x = .ok y →
        (∀ i, y.1 = some i → At L s i (r, (q ++ steps).dropLast)) ∧ (∀ i, y.2 = some i → At L s i (r, q ++ steps))) s := by
  induction steps with
  | nil =>
    intro s hroot q prev cur hp hc
    refine .pure_ fun s' _ hs y hy => ?_
    simp only [Except.ok.injEq] at hy
    rw [← hy, List.append_nil]
    exact ⟨fun i hi => (hp i hi).stable hs, fun i hi => (hc i hi).stable hs⟩
  | cons part rest ih =>
    intro s hroot q prev cur hp hc
    unfold cPrevLoop
    cases cur with
    | none => exact .raise_ fun _ _ _ y hy => by simp at hy
    | some c =>
      refine Wp.bind (Q := fun _ _ => True) (wp_query_any.mono fun _ _ _ _ _ => trivial) (fun e s' y h => by simp at h) fun b s1 g1 h1 _ => ?_
      split
      · refine Wp.bind (Q := fun o s => ∀ i, o = some i → At L s i (r, q ++ [part]))
          (wp_child hr (h1.ext.isRoot hroot) ((hc c rfl).stable h1)) (fun e s' y h => by simp at h) fun o s2 g2 h2 ho => ?_
        have := ih ((h1.trans h2).ext.isRoot hroot) (q := q ++ [part]) (prev := some c) (cur := o)
          (fun i hi => by cases hi; rw [List.dropLast_concat]; exact (hc c rfl).stable (h1.trans h2)) ho
        rw [List.append_assoc] at this
        exact this
      · split
        · exact .raise_ fun _ _ _ y hy => by simp at hy
        · refine .pure_ fun _ _ _ y hy => ?_
          simp only [Except.ok.injEq] at hy
          rw [← hy]
          exact ⟨fun i hi => by simp at hi, fun i hi => by simp at hi⟩

theorem wp_forPathWith {resolve : Uri → Prog (Option Nat)} {r : Nat} (hr : Res L F T resolve r) {f th : Bool} {u : Uri} {s : Sit}
    (hroot : IsRoot s.w r) :
    Wp L F T (cForPathWith r resolve f th u) (fun x s => ∀ o, x = .ok o → ∀ i, o = some i →
      ∃ p, stripPath u = .ok p ∧ At L s i (r, if p = [] then [] else splitC '/' p)) s := by
  unfold cForPathWith
  refine Wp.bind (Q := fun p _ => stripPath u = .ok p) (.ret_ fun _ _ _ p hp => hp) (fun e s' y h => by simp at h) fun p s1 g1 h1 hp => ?_
  split
  · rename_i hne
    refine Wp.bind (Q := fun (y : Option Nat × Option Nat) s => (∀ i, y.1 = some i → At L s i (r, (([] : List Str) ++ splitC '/' p).dropLast)) ∧
        (∀ i, y.2 = some i → At L s i (r, ([] : List Str) ++ splitC '/' p)))
      (show Wp L F T (cPrevLoop resolve f th _ _ none (some r)) _ s1 from wp_prevLoop hr _ (h1.ext.isRoot hroot) (q := []) (prev := none) (cur := some r) (fun i hi => by simp at hi)
        (fun i hi => by cases hi; exact g1.at_root (h1.ext.isRoot hroot)))
      (fun e s' y h => by simp at h) fun y s2 g2 h2 hy => ?_
    refine .pure_ fun s3 _ h3 o ho i hi => ⟨p, hp, ?_⟩
    simp only [Except.ok.injEq] at ho
    rw [← ho] at hi
    rw [if_neg hne]
    exact (hy.2 i hi).stable h3
  · rename_i hne
    refine .pure_ fun s3 g3 h3 o ho i hi => ⟨p, hp, ?_⟩
    simp only [Except.ok.injEq] at ho
    rw [← ho] at hi
    cases hi
    rw [if_pos (by simpa using hne)]
    exact g3.at_root ((h1.trans h3).ext.isRoot hroot)

theorem res_resolve (r : Nat) (th : Bool) (k : Nat) : Res L F T (cResolve r th k) r := by
  induction k with
  | zero => exact fun t s _ => .raise_ fun _ _ _ o ho => by simp at ho
  | succ k ih =>
    intro t s hroot
    refine (wp_forPathWith ih hroot).mono fun x s' h o ho i hi _ => ?_
    obtain ⟨p, -, h2⟩ := h o ho i hi
    exact h2.1

theorem wp_forPath {r : Nat} {f th : Bool} {u : Uri} {s : Sit} (hroot : IsRoot s.w r) :
    Wp L F T (cForPath r f th u) (fun x s => ∀ o, x = .ok o → ∀ i, o = some i →
      ∃ p, stripPath u = .ok p ∧ At L s i (r, if p = [] then [] else splitC '/' p)) s :=
  wp_forPathWith (res_resolve r th 32) hroot

/-- as used by the methods: the object found, if it is used -/
theorem wp_forPath_own {r : Nat} {f th : Bool} {u : Uri} {s : Sit} (hroot : IsRoot s.w r) (ho : ¬ L → Owns T r u) :
    Wp L F T (cForPath r f th u) (fun x s => ∀ o, x = .ok o → ∀ i, o = some i → ∃ l, (¬ L → T l) ∧ At L s i l) s :=
  (wp_forPath hroot).mono fun _ _ h o hx i hi => by
    obtain ⟨p, h1, h2⟩ := h o hx i hi
    exact ⟨_, fun hL => (ho hL p h1).1, h2⟩

theorem wp_some_own {s : Sit} {o : Option Nat} (h : ∀ i, o = some i → ∃ l, (¬ L → T l) ∧ At L s i l) :
    Wp L F T (cSome o) (fun x s => ∀ i, x = .ok i → ∃ l, (¬ L → T l) ∧ At L s i l) s := by
  cases o with
  | none => exact .raise_ fun _ _ _ i hi => by simp at hi
  | some j =>
    refine .pure_ fun s' _ hs i hi => ?_
    simp only [Except.ok.injEq] at hi
    subst hi
    obtain ⟨l, h1, h2⟩ := h j rfl
    exact ⟨l, h1, h2.stable hs⟩

theorem wp_some_any {s : Sit} {o : Option Nat} : Wp L F T (cSome o) (fun _ _ => True) s := by
  cases o
  · exact .raise_ fun _ _ _ => trivial
  · exact .pure_ fun _ _ _ => trivial

theorem wp_prev {r : Nat} {f th : Bool} {steps : List Str} {s : Sit} (g : Good L F s) (hroot : IsRoot s.w r) :
    Wp L F T (cPrev r f th steps) (fun x s => ∀ y, x = .ok y →
      (∀ i, y.1 = some i → At L s i (r, steps.dropLast)) ∧ (∀ i, y.2 = some i → At L s i (r, steps))) s :=
  wp_prevLoop (res_resolve r th 32) steps hroot (q := []) (fun i hi => by simp at hi) (fun i hi => by cases hi; exact g.at_root hroot)

theorem wp_node {r : Nat} {steps : List Str} {s : Sit} (g : Good L F s) (hroot : IsRoot s.w r) :
    Wp L F T (cNode r steps) (fun x s => ∀ o, x = .ok o → ∀ i, o = some i → At L s i (r, steps)) s := by
  unfold cNode
  refine Wp.bind (Q := fun y s => ∀ i, y.2 = some i → At L s i (r, steps)) ((wp_prev g hroot).mono fun _ _ h y hy => (h y hy).2)
    (fun e s' y h => by simp at h) fun y s1 g1 h1 hy => .pure_ fun s2 _ h2 o ho i hi => ?_
  simp only [Except.ok.injEq] at ho
  rw [← ho] at hi
  exact (hy i hi).stable h2

theorem wp_parent {r : Nat} {p : Str} {s : Sit} (g : Good L F s) (hroot : IsRoot s.w r) :
    Wp L F T (cParent r p) (fun x s => ∀ y, x = .ok y → At L s y.1 (r, (splitC '/' p).dropLast) ∧ y.2.1 = (splitC '/' p).getLastD []) s := by
  unfold cParent
  refine Wp.bind (Q := fun o s => ∀ i, o = some i → At L s i (r, (splitC '/' p).dropLast)) (wp_node g hroot) (fun e s' y h => by simp at h)
    fun o s1 g1 h1 ho => ?_
  refine Wp.bind (Q := fun i s => At L s i (r, (splitC '/' p).dropLast)) ?_ (fun e s' y h => by simp at h) fun i s2 g2 h2 hi => ?_
  · cases o with
    | none => exact .raise_ fun _ _ _ i hi => by simp at hi
    | some j =>
      refine .pure_ fun s' _ hs i hi => ?_
      simp only [Except.ok.injEq] at hi
      subst hi
      exact (ho j rfl).stable hs
  · refine Wp.bind (Q := fun _ _ => True) (wp_query_any.mono fun _ _ _ _ _ => trivial) (fun e s' y h => by simp at h) fun b s3 g3 h3 _ => ?_
    refine .pure_ fun s4 _ h4 y hy => ?_
    simp only [Except.ok.injEq] at hy
    rw [← hy]
    exact ⟨hi.stable (h3.trans h4), rfl⟩

/-! ## Methods that change nothing -/

theorem wp_isdir {r : Nat} {u : Uri} {s : Sit} (hroot : IsRoot s.w r) : Wp L F T (cIsdir r u) (fun _ _ => True) s := by
  unfold cIsdir
  refine Wp.seq (.ret_ fun _ _ _ => trivial) fun p s1 g1 h1 => ?_
  split
  · refine Wp.after (wp_forPath (h1.ext.isRoot hroot)) fun x s2 g2 h2 _ => ?_
    split
    · exact .pure_ fun _ _ _ => trivial
    · refine Wp.seq wp_query_any fun t s3 g3 h3 => ?_
      split <;> exact .pure_ fun _ _ _ => trivial
    · exact .pure_ fun _ _ _ => trivial
    · exact .pure_ fun _ _ _ => trivial
    · exact .raise_ fun _ _ _ => trivial
  · exact .pure_ fun _ _ _ => trivial

theorem wp_isfile {r : Nat} {u : Uri} {s : Sit} (hroot : IsRoot s.w r) : Wp L F T (cIsfile r u) (fun _ _ => True) s := by
  unfold cIsfile
  refine Wp.seq (.ret_ fun _ _ _ => trivial) fun p s1 g1 h1 => ?_
  split
  · refine Wp.after (wp_forPath (h1.ext.isRoot hroot)) fun x s2 g2 h2 _ => ?_
    split
    · exact .pure_ fun _ _ _ => trivial
    · refine Wp.seq wp_query_any fun t s3 g3 h3 => ?_
      split <;> exact .pure_ fun _ _ _ => trivial
    · exact .pure_ fun _ _ _ => trivial
    · exact .raise_ fun _ _ _ => trivial
  · exact .pure_ fun _ _ _ => trivial

theorem wp_exists {r : Nat} {u : Uri} {s : Sit} (hroot : IsRoot s.w r) : Wp L F T (cExists r u) (fun _ _ => True) s := by
  unfold cExists
  refine Wp.seq (.ret_ fun _ _ _ => trivial) fun p s1 g1 h1 => ?_
  split
  · refine Wp.after (wp_forPath (h1.ext.isRoot hroot)) fun x s2 g2 h2 _ => ?_
    split
    · exact .pure_ fun _ _ _ => trivial
    · exact .pure_ fun _ _ _ => trivial
    · exact .pure_ fun _ _ _ => trivial
    · exact .pure_ fun _ _ _ => trivial
    · exact .raise_ fun _ _ _ => trivial
  · exact .pure_ fun _ _ _ => trivial

theorem wp_islink {r : Nat} {u : Uri} {s : Sit} (hroot : IsRoot s.w r) : Wp L F T (cIslink r u) (fun _ _ => True) s := by
  unfold cIslink
  refine Wp.seq (.ret_ fun _ _ _ => trivial) fun p s1 g1 h1 => ?_
  split
  · refine Wp.seq (wp_forPath (h1.ext.isRoot hroot)).any fun o s2 g2 h2 => ?_
    split
    · exact .pure_ fun _ _ _ => trivial
    · refine Wp.seq wp_query_any fun t s3 g3 h3 => ?_
      split <;> exact .pure_ fun _ _ _ => trivial
  · exact .pure_ fun _ _ _ => trivial

theorem wp_readlink {r : Nat} {u : Uri} {s : Sit} (hroot : IsRoot s.w r) : Wp L F T (cReadlink r u) (fun _ _ => True) s := by
  unfold cReadlink
  refine Wp.seq (.ret_ fun _ _ _ => trivial) fun p s1 g1 h1 => ?_
  split
  · refine Wp.seq (wp_forPath (h1.ext.isRoot hroot)).any fun o s2 g2 h2 => ?_
    refine Wp.seq wp_some_any fun i s3 g3 h3 => ?_
    refine Wp.seq wp_query_any fun t s4 g4 h4 => ?_
    split
    · exact .pure_ fun _ _ _ => trivial
    · exact .raise_ fun _ _ _ => trivial
  · exact .raise_ fun _ _ _ => trivial

theorem wp_listdir {r : Nat} {u : Uri} {s : Sit} (hroot : IsRoot s.w r) : Wp L F T (cListdir r u) (fun _ _ => True) s := by
  unfold cListdir
  refine Wp.seq (.ret_ fun _ _ _ => trivial) fun p s1 g1 h1 => ?_
  refine Wp.seq (wp_node g1 (h1.ext.isRoot hroot)).any fun o s2 g2 h2 => ?_
  refine Wp.seq wp_some_any fun i s3 g3 h3 => ?_
  refine Wp.seq wp_query_any fun l s4 g4 h4 => ?_
  exact .pure_ fun _ _ _ => trivial

theorem wp_info {r : Nat} {u : Uri} {f : Bool} {s : Sit} (hroot : IsRoot s.w r) : Wp L F T (cInfo r u f) (fun _ _ => True) s := by
  unfold cInfo
  refine Wp.seq (wp_forPath hroot).any fun o s2 g2 h2 => ?_
  refine Wp.seq wp_some_any fun i s3 g3 h3 => ?_
  refine Wp.seq wp_query_any fun a s4 g4 h4 => ?_
  refine Wp.seq wp_query_any fun b s4 g4 h4 => ?_
  refine Wp.seq wp_query_any fun c s4 g4 h4 => ?_
  exact .pure_ fun _ _ _ => trivial

theorem wp_mtime {r : Nat} {u : Uri} {s : Sit} (hroot : IsRoot s.w r) : Wp L F T (cMtime r u) (fun _ _ => True) s := by
  unfold cMtime
  refine Wp.seq (wp_forPath hroot).any fun o s2 g2 h2 => ?_
  refine Wp.seq wp_some_any fun i s3 g3 h3 => ?_
  refine Wp.seq wp_query_any fun a s4 g4 h4 => ?_
  exact .pure_ fun _ _ _ => trivial

theorem wp_isexec {r : Nat} {u : Uri} {k : Int} {s : Sit} (hroot : IsRoot s.w r) : Wp L F T (cIsexec r u k) (fun _ _ => True) s := by
  unfold cIsexec
  refine Wp.seq (wp_info hroot) fun x s1 g1 h1 => ?_
  exact .pure_ fun _ _ _ => trivial

/-! ## Methods that change something -/

theorem wp_setInfo {r : Nat} {u : Uri} {i : SetInfo} {f : Bool} {s : Sit} (hroot : IsRoot s.w r) (ho : ¬ L → Owns T r u) :
    Wp L F T (cSetInfo r u i f) (fun _ _ => True) s := by
  unfold cSetInfo
  refine Wp.bind (wp_forPath_own hroot ho) (fun _ _ => trivial) fun o s1 g1 h1 h => ?_
  refine Wp.bind (Q := fun i s => ∃ l, (¬ L → T l) ∧ At L s i l) (wp_some_own h) (fun _ _ => trivial) fun j s2 g2 h2 hj => ?_
  obtain ⟨l, hT, hl⟩ := hj
  split <;> (simp only; split)
  · exact Wp.seq (wp_setMode hl hT) fun _ s3 g3 h3 => wp_setMtime (hl.stable h3) hT
  · exact wp_setMtime hl hT
  · exact Wp.seq (wp_setMode hl hT) fun _ s3 g3 h3 => .pure_ fun _ _ _ => trivial
  · exact .pure_ fun _ _ _ => trivial

theorem wp_setExec {r : Nat} {u : Uri} {m : Int} {s : Sit} (hroot : IsRoot s.w r) (ho : ¬ L → Owns T r u) :
    Wp L F T (cSetExec r u m) (fun _ _ => True) s := by
  unfold cSetExec
  exact Wp.seq (wp_info hroot) fun x s1 g1 h1 => wp_setInfo (h1.ext.isRoot hroot) ho

theorem wp_copystat {r : Nat} {u v : Uri} {s : Sit} (hroot : IsRoot s.w r) (ho : ¬ L → Owns T r v) :
    Wp L F T (cCopystat r u v) (fun _ _ => True) s := by
  unfold cCopystat
  refine Wp.seq (wp_forPath hroot).any fun a s1 g1 h1 => ?_
  refine Wp.bind (wp_forPath_own (h1.ext.isRoot hroot) ho) (fun _ _ => trivial) fun b s2 g2 h2 h => ?_
  refine Wp.seq wp_some_any fun x s3 g3 h3 => ?_
  refine Wp.bind (Q := fun i s => ∃ l, (¬ L → T l) ∧ At L s i l)
    (wp_some_own fun i hi => by obtain ⟨l, h4, h5⟩ := h i hi; exact ⟨l, h4, h5.stable h3⟩) (fun _ _ => trivial) fun j s4 g4 h4 hj => ?_
  obtain ⟨l, hT, hl⟩ := hj
  refine Wp.seq wp_query_any fun a s5 g5 h5 => ?_
  refine Wp.seq (wp_setMtime (hl.stable h5) hT) fun _ s6 g6 h6 => ?_
  refine Wp.seq wp_query_any fun b s7 g7 h7 => ?_
  exact wp_setMode (hl.stable ((h5.trans h6).trans h7)) hT

theorem split_last (p : Str) : (splitC '/' p).dropLast ++ [(splitC '/' p).getLastD []] = splitC '/' p := by
  have h : splitC '/' p ≠ [] := splitC_ne_nil
  rw [List.getLastD_eq_getLast?, List.getLast?_eq_some_getLast h]
  exact List.dropLast_concat_getLast h

theorem wp_mkdir [Sub T F] {r : Nat} {u : Uri} {s : Sit} (hroot : IsRoot s.w r) (ho : ¬ L → Owns T r u) :
    Wp L F T (cMkdir r u) (fun _ _ => True) s := by
  unfold cMkdir
  refine Wp.bind (Q := fun p _ => stripPath u = .ok p) (.ret_ fun _ _ _ p hp => hp) (fun _ _ => trivial) fun p s1 g1 h1 hp => ?_
  split
  · refine Wp.bind (Q := fun y s => At L s y.1 (r, (splitC '/' p).dropLast) ∧ y.2.1 = (splitC '/' p).getLastD [])
      (wp_parent g1 (h1.ext.isRoot hroot)) (fun _ _ => trivial) fun y s2 g2 h2 hy => ?_
    split
    · exact .raise_ fun _ _ _ => trivial
    · refine wp_newDir hy.1 fun hL => ?_
      have := (ho hL p hp).2.1
      rw [hy.2]
      unfold Loc.snoc
      rw [split_last]
      exact this
  · exact .pure_ fun _ _ _ => trivial

theorem wp_symlink [Sub T F] {r : Nat} {t u : Uri} {s : Sit} (hL : L) (hroot : IsRoot s.w r) : Wp L F T (cSymlink r t u) (fun _ _ => True) s := by
  unfold cSymlink
  refine Wp.bind (Q := fun p _ => stripPath u = .ok p) (.ret_ fun _ _ _ p hp => hp) (fun _ _ => trivial) fun p s1 g1 h1 hp => ?_
  split
  · refine Wp.bind (Q := fun y s => At L s y.1 (r, (splitC '/' p).dropLast) ∧ y.2.1 = (splitC '/' p).getLastD [])
      (wp_parent g1 (h1.ext.isRoot hroot)) (fun _ _ => trivial) fun y s2 g2 h2 hy => ?_
    split
    · exact .raise_ fun _ _ _ => trivial
    · exact wp_newLink hL hy.1
  · exact .pure_ fun _ _ _ => trivial

theorem wp_removefile [Sub T F] {r : Nat} {u : Uri} {s : Sit} (hroot : IsRoot s.w r) (ho : ¬ L → Owns T r u) :
    Wp L F T (cRemovefile r u) (fun _ _ => True) s := by
  unfold cRemovefile
  refine Wp.bind (Q := fun p _ => stripPath u = .ok p) (.ret_ fun _ _ _ p hp => hp) (fun _ _ => trivial) fun p s1 g1 h1 hp => ?_
  refine Wp.bind (Q := fun (y : Option Nat × Option Nat) s => (∀ i, y.1 = some i → At L s i (r, ((splitC '/' p).filter fun x => x ≠ []).dropLast)) ∧
      (∀ i, y.2 = some i → At L s i (r, (splitC '/' p).filter fun x => x ≠ [])))
    (wp_prev g1 (h1.ext.isRoot hroot)) (fun _ _ => trivial) fun y s2 g2 h2 hy => ?_
  split
  · exact .pure_ fun _ _ _ => trivial
  · rename_i i hi
    exact wp_del (hy.1 i hi) fun hL => (ho hL p hp).2.2.1

theorem wp_removedir [Sub T F] {r : Nat} {u : Uri} {s : Sit} (hroot : IsRoot s.w r) (ho : ¬ L → Owns T r u) :
    Wp L F T (cRemovedir r u) (fun _ _ => True) s := by
  unfold cRemovedir
  refine Wp.bind (Q := fun p _ => stripPath u = .ok p) (.ret_ fun _ _ _ p hp => hp) (fun _ _ => trivial) fun p s1 g1 h1 hp => ?_
  refine Wp.bind (Q := fun (y : Option Nat × Option Nat) s => (∀ i, y.1 = some i → At L s i (r, ((splitC '/' p).filter fun x => x ≠ []).dropLast)) ∧
      (∀ i, y.2 = some i → At L s i (r, (splitC '/' p).filter fun x => x ≠ [])))
    (wp_prev g1 (h1.ext.isRoot hroot)) (fun _ _ => trivial) fun y s2 g2 h2 hy => ?_
  split
  · exact .pure_ fun _ _ _ => trivial
  · rename_i i hi
    refine Wp.seq (wp_child (res_resolve r true 32) ((h1.trans h2).ext.isRoot hroot) (hy.1 i hi)).any fun o s3 g3 h3 => ?_
    refine Wp.seq wp_some_any fun c s4 g4 h4 => ?_
    refine Wp.seq wp_query_any fun b s5 g5 h5 => ?_
    split
    · exact wp_del ((hy.1 i hi).stable ((h3.trans h4).trans h5)) fun hL => (ho hL p hp).2.2.1
    · exact .raise_ fun _ _ _ => trivial

/-- a file object whose place the thread may touch -/
def OwnH (L : Prop) (T : Loc → Prop) (s : Sit) (h : Handle) : Prop := ∃ l, (¬ L → T l) ∧ At L s h.id l

theorem OwnH.stable {T' : Loc → Prop} {s s' : Sit} {h : Handle} (hs : Rely L T' s s') (ho : OwnH L T s h) : OwnH L T s' h := by
  obtain ⟨l, h1, h2⟩ := ho
  exact ⟨l, h1, h2.stable hs⟩

theorem wp_openRead {r : Nat} {u : Uri} {b : Bool} {s : Sit} (hroot : IsRoot s.w r) (ho : ¬ L → Owns T r u) :
    Wp L F T (cOpenRead r u b) (fun x s => ∀ h, x = .ok h → OwnH L T s h) s := by
  unfold cOpenRead
  refine Wp.bind (wp_forPath_own hroot ho) (fun _ _ _ h => by simp at h) fun o s1 g1 h1 h => ?_
  refine Wp.bind (Q := fun i s => ∃ l, (¬ L → T l) ∧ At L s i l) (wp_some_own h) (fun _ _ _ h => by simp at h) fun j s2 g2 h2 hj => ?_
  obtain ⟨l, hT, hl⟩ := hj
  refine Wp.bind (Q := fun _ _ => True) ((wp_file' hl hT fun f a f' h => by simp at h; rw [← h]; exact ⟨rfl, rfl⟩).mono fun _ _ _ _ _ => trivial)
    (fun _ _ _ h => by simp at h) fun _ s3 g3 h3 _ => .pure_ fun s4 _ h4 h he => ?_
  simp only [Except.ok.injEq] at he
  rw [← he]
  exact ⟨l, hT, hl.stable (h3.trans h4)⟩

theorem wp_reset {i : Nat} {l : Loc} {s : Sit} (hl : At L s i l) (hT : ¬ L → T l) :
    Wp L F T (cReset i) (fun r s => ∀ x, r = .ok x → Carries s i ∧ i < s.w.next) s := by
  have he : ∀ (e : PyErr) (s : Sit), ∀ x, (Except.error e : Except PyErr Unit) = .ok x → Carries s i ∧ i < s.w.next := fun _ _ _ h => by simp at h
  unfold cReset
  refine Wp.bind (Q := fun _ _ => True) ((wp_file' hl hT fun f a f' h => by simp at h; rw [← h]; exact ⟨rfl, rfl⟩).mono fun _ _ _ _ _ => trivial) he fun _ s1 g1 h1 _ => ?_
  refine Wp.bind (Q := fun _ _ => True) (wp_now.mono fun _ _ _ _ _ => trivial) he fun t s2 g2 h2 _ => ?_
  have e2 := h1.trans h2
  refine Wp.bind (Q := fun _ _ => True) ((wp_file' (hl.stable e2) hT fun f a f' h => by simp at h; rw [← h]; exact ⟨rfl, rfl⟩).mono fun _ _ _ _ _ => trivial) he fun _ s3 g3 h3 _ => ?_
  have e3 := e2.trans h3
  refine Wp.bind (Q := fun _ _ => True) ((wp_file' (hl.stable e3) hT fun f a f' h => by simp at h; rw [← h]; exact ⟨rfl, rfl⟩).mono fun _ _ _ _ _ => trivial) he fun _ s4 g4 h4 _ => ?_
  have e4 := e3.trans h4
  refine Wp.bind (Q := fun g s => g = s.w.gen) (wp_query (fun r s s' hs h a ha => (h a ha).trans hs.gen.symm) fun s' _ _ a ha => ?_)
    he fun g s5 g5 h5 hg => ?_
  · simp only [Except.ok.injEq] at ha; exact ha.symm
  · exact wp_setLock (hl.stable (e4.trans h5)) hT hg

theorem wp_openWrite_ [Sub T F] {r : Nat} {u : Uri} {b : Bool} {s : Sit} (hroot : IsRoot s.w r) (ho : ¬ L → Owns T r u) :
    Wp L F T (cOpenWrite r u b) (fun x s => ∀ h, x = .ok h → OwnH L T s h ∧ Carries s h.id) s := by
  unfold cOpenWrite
  refine Wp.bind (Q := fun p _ => stripPath u = .ok p) (.ret_ fun _ _ _ p hp => hp) (fun _ _ _ h => by simp at h) fun p s1 g1 h1 hp => ?_
  refine Wp.bind (Q := fun y s => At L s y.1 (r, (splitC '/' p).dropLast) ∧ y.2.1 = (splitC '/' p).getLastD [])
    (wp_parent g1 (h1.ext.isRoot hroot)) (fun _ _ _ h => by simp at h) fun y s2 g2 h2 hy => ?_
  have hT : ¬ L → T (Loc.snoc (r, (splitC '/' p).dropLast) y.2.1) := by
    intro hL
    rw [hy.2]
    unfold Loc.snoc
    rw [split_last]
    exact (ho hL p hp).2.1
  split
  · refine Wp.bind (Q := fun o s => ∀ i, o = some i → At L s i _)
      (wp_child (res_resolve r true 32) ((h1.trans h2).ext.isRoot hroot) hy.1) (fun _ _ _ h => by simp at h) fun o s3 g3 h3 h => ?_
    split
    · exact .raise_ fun _ _ _ _ h => by simp at h
    · rename_i c
      refine Wp.bind (Q := fun _ _ => True) (wp_query_any.mono fun _ _ _ _ _ => trivial) (fun _ _ _ h => by simp at h) fun t s4 g4 h4 _ => ?_
      have hc := (h c rfl).stable h4
      split
      · exact .raise_ fun _ _ _ _ h => by simp at h
      · refine Wp.bind (Q := fun _ s => Carries s c ∧ c < s.w.next) (wp_reset hc hT) (fun _ _ _ h => by simp at h)
          fun _ s5 g5 h5 hl => .pure_ fun s6 _ h6 h he => ?_
        simp only [Except.ok.injEq] at he
        rw [← he]
        exact ⟨⟨_, hT, hc.stable (h5.trans h6)⟩, hl.1.stable h6 hl.2⟩
      · exact .raise_ fun _ _ _ _ h => by simp at h
  · refine Wp.bind (Q := fun i s => At L s i _ ∧ Carries s i) (wp_newFile_ hy.1 hT) (fun _ _ _ h => by simp at h) fun i s3 g3 h3 hi => .pure_ fun s4 _ h4 h he => ?_
    simp only [Except.ok.injEq] at he
    rw [← he]
    exact ⟨⟨_, hT, hi.1.stable h4⟩, hi.2.stable h4 hi.1.1⟩

theorem wp_openWrite [Sub T F] {r : Nat} {u : Uri} {b : Bool} {s : Sit} (hroot : IsRoot s.w r) (ho : ¬ L → Owns T r u) :
    Wp L F T (cOpenWrite r u b) (fun x s => ∀ h, x = .ok h → OwnH L T s h) s :=
  (wp_openWrite_ hroot ho).mono fun _ _ h x hx => (h x hx).1

theorem wp_seek_ {i : Nat} {l : Loc} {s : Sit} (hl : At L s i l) (hT : ¬ L → T l) (t wh : Int) :
    Wp L F T (call (aFile i fun f => (BytesIO.seek f.data f.pos t wh).map fun p => ((), { f with pos := p }))) (fun _ _ => True) s := by
  refine wp_file' hl hT fun f a f' h => ?_
  cases hs : BytesIO.seek f.data f.pos t wh with
  | error e => simp [hs, Except.map] at h
  | ok x => simp [hs, Except.map] at h; rw [← h]; exact ⟨rfl, rfl⟩

theorem wp_len {i : Nat} {l : Loc} {s : Sit} (hl : At L s i l) (hT : ¬ L → T l) : Wp L F T (cLen i) (fun _ _ => True) s := by
  unfold cLen
  refine Wp.seq (wp_file' hl hT fun f a f' h => by simp at h; rw [← h.2]; exact ⟨rfl, rfl⟩) fun _ s1 g1 h1 => ?_
  refine Wp.seq (wp_seek_ (hl.stable h1) hT _ _) fun _ s2 g2 h2 => ?_
  have e2 := h1.trans h2
  refine Wp.seq (wp_file' (hl.stable e2) hT fun f a f' h => by simp at h; rw [← h.2]; exact ⟨rfl, rfl⟩) fun _ s3 g3 h3 => ?_
  have e3 := e2.trans h3
  refine Wp.seq (wp_file' (hl.stable e3) hT fun f a f' h => by simp at h; rw [← h]; exact ⟨rfl, rfl⟩) fun _ s4 g4 h4 => ?_
  exact .pure_ fun _ _ _ => trivial

theorem wp_openAppend {r : Nat} {u : Uri} {b : Bool} {s : Sit} (hroot : IsRoot s.w r) (ho : ¬ L → Owns T r u) :
    Wp L F T (cOpenAppend r u b) (fun x s => ∀ h, x = .ok h → OwnH L T s h) s := by
  unfold cOpenAppend
  refine Wp.bind (wp_forPath_own hroot ho) (fun _ _ _ h => by simp at h) fun o s1 g1 h1 h => ?_
  refine Wp.bind (Q := fun i s => ∃ l, (¬ L → T l) ∧ At L s i l) (wp_some_own h) (fun _ _ _ h => by simp at h) fun j s2 g2 h2 hj => ?_
  obtain ⟨l, hT, hl⟩ := hj
  refine Wp.bind (Q := fun _ _ => True) ((wp_len hl hT).mono fun _ _ _ _ _ => trivial) (fun _ _ _ h => by simp at h) fun n s3 g3 h3 _ => ?_
  refine Wp.bind (Q := fun _ _ => True)
    ((wp_file' (hl.stable h3) hT fun f a f' h => by simp at h; rw [← h]; exact ⟨rfl, rfl⟩).mono fun _ _ _ _ _ => trivial)
    (fun _ _ _ h => by simp at h) fun _ s4 g4 h4 _ => .pure_ fun s5 _ h5 h he => ?_
  simp only [Except.ok.injEq] at he
  rw [← he]
  exact ⟨l, hT, hl.stable ((h3.trans h4).trans h5)⟩

theorem wp_open [Sub T F] {r : Nat} {u : Uri} {o : Option Str} {s : Sit} (hroot : IsRoot s.w r) (ho : ¬ L → Owns T r u) :
    Wp L F T (cOpen r u o) (fun x s => ∀ h, x = .ok h → OwnH L T s h) s := by
  unfold cOpen
  split
  · exact wp_openRead hroot ho
  · simp only
    split
    · exact wp_openRead hroot ho
    split
    · exact wp_openWrite hroot ho
    split
    · exact wp_openAppend hroot ho
    · exact .raise_ fun _ _ _ _ h => by simp at h

theorem wp_write {h : Handle} {d : PyData} {s : Sit} (ho : OwnH L T s h) : Wp L F T (cWrite h d) (fun _ _ => True) s := by
  obtain ⟨l, hT, hl⟩ := ho
  unfold cWrite
  refine Wp.seq (.ret_ fun _ _ _ => trivial) fun b s1 g1 h1 => ?_
  refine Wp.seq (wp_file' (hl.stable h1) hT fun f a f' h => by simp at h; rw [← h]; exact ⟨rfl, rfl⟩) fun _ s2 g2 h2 => ?_
  refine Wp.seq wp_now fun t s3 g3 h3 => ?_
  exact wp_file' (hl.stable ((h1.trans h2).trans h3)) hT fun f a f' h => by simp at h; rw [← h]; exact ⟨rfl, rfl⟩

theorem wp_read {h : Handle} {n : Int} {s : Sit} (ho : OwnH L T s h) : Wp L F T (cRead h n) (fun _ _ => True) s := by
  obtain ⟨l, hT, hl⟩ := ho
  unfold cRead
  split
  · refine Wp.seq (wp_file' hl hT fun f a f' h => by simp at h; rw [← h.2]; exact ⟨rfl, rfl⟩) fun b s2 g2 h2 => ?_
    exact .ret_ fun _ _ _ => trivial
  · exact .raise_ fun _ _ _ => trivial

theorem wp_seek {h : Handle} {t wh : Int} {s : Sit} (ho : OwnH L T s h) : Wp L F T (cSeek h t wh) (fun _ _ => True) s := by
  obtain ⟨l, hT, hl⟩ := ho
  exact wp_seek_ hl hT t wh

theorem wp_tell {h : Handle} {s : Sit} (ho : OwnH L T s h) : Wp L F T (cTell h) (fun _ _ => True) s := by
  obtain ⟨l, hT, hl⟩ := ho
  exact wp_file' hl hT fun f a f' h => by simp at h; rw [← h.2]; exact ⟨rfl, rfl⟩

theorem wp_size {h : Handle} {s : Sit} (ho : OwnH L T s h) : Wp L F T (cSize h) (fun _ _ => True) s := by
  obtain ⟨l, hT, hl⟩ := ho
  exact wp_file' hl hT fun f a f' h => by simp at h; rw [← h.2]; exact ⟨rfl, rfl⟩

theorem wp_truncate {h : Handle} {n : Option Int} {s : Sit} (ho : OwnH L T s h) : Wp L F T (cTruncate h n) (fun _ _ => True) s := by
  obtain ⟨l, hT, hl⟩ := ho
  refine wp_file' hl hT fun f a f' h => ?_
  cases hs : BytesIO.truncate f.data f.pos n with
  | error e => simp [hs, Except.map] at h
  | ok x => simp [hs, Except.map] at h; rw [← h.2]; exact ⟨rfl, rfl⟩

theorem wp_close {h : Handle} {s : Sit} (ho : OwnH L T s h) : Wp L F T (cClose h) (fun _ _ => True) s := by
  obtain ⟨l, hT, hl⟩ := ho
  exact wp_file' hl hT fun f a f' h => by simp at h; rw [← h]; exact ⟨rfl, rfl⟩

theorem wp_readline {h : Handle} {s : Sit} (ho : OwnH L T s h) : Wp L F T (cReadline h) (fun _ _ => True) s := by
  obtain ⟨l, hT, hl⟩ := ho
  unfold cReadline
  refine Wp.seq (wp_file' hl hT fun f a f' h => by simp at h; rw [← h.2]; exact ⟨rfl, rfl⟩) fun b s2 g2 h2 => ?_
  exact .ret_ fun _ _ _ => trivial

end

end Verif.Conc
