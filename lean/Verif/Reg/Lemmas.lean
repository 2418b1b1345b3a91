import Verif.Reg.Model
/-! # Lemmas about the registry: the dictionary, and what every operation keeps -/
namespace Verif.Reg

theorem lookup_cons' (e : Key × Nat) (d : List (Key × Nat)) (k : Key) :
    List.lookup k (e :: d) = if e.1 = k then some e.2 else d.lookup k := by
  obtain ⟨a, b⟩ := e
  rw [List.lookup_cons]
  by_cases h : k = a
  · subst h; simp
  · have : (k == a) = false := by simpa using h
    rw [this, if_neg (Ne.symm h)]

theorem lookup_mem {d : List (Key × Nat)} {k : Key} {c : Nat} (h : d.lookup k = some c) : (k, c) ∈ d := by
  induction d with
  | nil => simp at h
  | cons e d ih =>
    rw [lookup_cons'] at h
    split at h
    · rename_i he; cases h; subst he; exact List.mem_cons_self
    · exact List.mem_cons_of_mem _ (ih h)

theorem lookup_of_mem {d : List (Key × Nat)} {k : Key} {c : Nat} (hn : (d.map Prod.fst).Nodup) (h : (k, c) ∈ d) :
    d.lookup k = some c := by
  induction d with
  | nil => simp at h
  | cons e d ih =>
    rw [List.map_cons, List.nodup_cons] at hn
    rw [lookup_cons']
    rcases List.mem_cons.1 h with rfl | h
    · simp
    · rw [if_neg, ih hn.2 h]
      rintro rfl
      exact hn.1 (List.mem_map.2 ⟨_, h, rfl⟩)

theorem lookup_dictSet (d : List (Key × Nat)) (k : Key) (v : Nat) (x : Key) :
    (dictSet d k v).lookup x = if x = k then some v else d.lookup x := by
  induction d with
  | nil =>
    rw [dictSet, lookup_cons']
    by_cases h : x = k
    · simp [h]
    · simp [h, Ne.symm h]
  | cons e d ih =>
    obtain ⟨a, b⟩ := e
    rw [dictSet]
    split
    · rename_i h; subst h
      rw [lookup_cons', lookup_cons']
      by_cases h : a = x
      · simp [h]
      · simp [h, Ne.symm h]
    · rename_i h
      rw [lookup_cons', lookup_cons', ih]
      by_cases h1 : a = x
      · subst h1; simp [h]
      · simp [h1]

theorem mem_dictSet {d : List (Key × Nat)} {k : Key} {v : Nat} {e : Key × Nat} (h : e ∈ dictSet d k v) :
    e = (k, v) ∨ e ∈ d := by
  induction d with
  | nil => rw [dictSet] at h; simpa using h
  | cons x d ih =>
    obtain ⟨a, b⟩ := x
    rw [dictSet] at h
    split at h
    · rcases List.mem_cons.1 h with h | h
      · exact .inl h
      · exact .inr (List.mem_cons_of_mem _ h)
    · rcases List.mem_cons.1 h with h | h
      · exact .inr (h ▸ List.mem_cons_self)
      · exact (ih h).imp_right (List.mem_cons_of_mem _)

theorem keys_dictSet (d : List (Key × Nat)) (k : Key) (v : Nat) (x : Key) :
    x ∈ (dictSet d k v).map Prod.fst ↔ x = k ∨ x ∈ d.map Prod.fst := by
  induction d with
  | nil => simp [dictSet]
  | cons e d ih =>
    obtain ⟨a, b⟩ := e
    rw [dictSet]
    split
    · rename_i h; subst h; simp
    · rw [List.map_cons, List.mem_cons, ih, List.map_cons, List.mem_cons]; tauto

theorem nodup_dictSet {d : List (Key × Nat)} (h : (d.map Prod.fst).Nodup) (k : Key) (v : Nat) :
    ((dictSet d k v).map Prod.fst).Nodup := by
  induction d with
  | nil => simp [dictSet]
  | cons e d ih =>
    obtain ⟨a, b⟩ := e
    rw [List.map_cons, List.nodup_cons] at h
    rw [dictSet]
    split
    · rename_i he; subst he; simpa using h
    · rename_i he
      rw [List.map_cons, List.nodup_cons]
      refine ⟨?_, ih h.2⟩
      rw [keys_dictSet]
      rintro (h' | h')
      · exact he h'
      · exact h.1 h'

/-- What holds in every registry. -/
structure Inv (s : Registry) : Prop where
  nodup : (s.connections.map Prod.fst).Nodup
  old : ∀ k c, (k, c) ∈ s.connections → c < s.next
  key : ∀ k c, (k, c) ∈ s.connections → (s.conn c).key = k
  opened : ∀ k c, (k, c) ∈ s.connections → (s.conn c).closed = 0
  once : ∀ c, c < s.next → (s.conn c).closed ≤ 1
  known : ∀ k c, (k, c) ∈ s.connections → k.base.scheme ∈ s.schemes

theorem inv_init (t : Int) (junk : Nat → Conn) : Inv (init t junk) :=
  ⟨by simp [init], by simp [init], by simp [init], by simp [init], by simp [init], by simp [init]⟩

/-- What every operation keeps: connections are never reused for another key, and are closed only. -/
structure Keeps (s s' : Registry) : Prop where
  next : s.next ≤ s'.next
  key : ∀ c, c < s.next → (s'.conn c).key = (s.conn c).key
  schemes : ∀ x, x ∈ s.schemes → x ∈ s'.schemes
  timeout : s'.timeout = s.timeout

theorem Keeps.rfl' (s : Registry) : Keeps s s := ⟨Nat.le_refl _, fun _ _ => rfl, fun _ h => h, rfl⟩

theorem Keeps.trans {a b c : Registry} (h : Keeps a b) (h' : Keeps b c) : Keeps a c :=
  ⟨Nat.le_trans h.next h'.next, fun i hi => (h'.key i (Nat.lt_of_lt_of_le hi h.next)).trans (h.key i hi),
   fun x hx => h'.schemes x (h.schemes x hx), h'.timeout.trans h.timeout⟩

theorem inv_create {s : Registry} (h : Inv s) {k : Key} (hk : k.base.scheme ∈ s.schemes) (now : Int) :
    Inv { s.make k now with connections := dictSet s.connections k s.next } := by
  have hold : ∀ k' c, (k', c) ∈ s.connections → (s.make k now).conn c = s.conn c := by
    intro k' c hc
    have := h.old k' c hc
    simp [Registry.make, Nat.ne_of_lt this]
  have hnew : (s.make k now).conn s.next = ⟨k, now, 0⟩ := by simp [Registry.make]
  refine ⟨nodup_dictSet h.nodup _ _, ?_, ?_, ?_, ?_, ?_⟩
  · intro k' c hc
    show c < s.next + 1
    rcases mem_dictSet hc with hc | hc
    · cases hc; omega
    · have := h.old _ _ hc; omega
  · intro k' c hc
    rcases mem_dictSet hc with hc | hc
    · cases hc; exact congrArg Conn.key hnew
    · exact (congrArg Conn.key (hold _ _ hc)).trans (h.key _ _ hc)
  · intro k' c hc
    rcases mem_dictSet hc with hc | hc
    · cases hc; exact congrArg Conn.closed hnew
    · exact (congrArg Conn.closed (hold _ _ hc)).trans (h.opened _ _ hc)
  · intro c hc
    have hc : c < s.next + 1 := hc
    by_cases hx : c = s.next
    · subst hx; exact (congrArg Conn.closed hnew).trans_le (Nat.zero_le _)
    · refine (congrArg Conn.closed (?_ : (s.make k now).conn c = s.conn c)).trans_le (h.once c (by omega))
      simp [Registry.make, hx]
  · intro k' c hc
    rcases mem_dictSet hc with hc | hc
    · cases hc; exact hk
    · exact h.known _ _ hc

theorem keeps_make (s : Registry) (k : Key) (now : Int) (d : List (Key × Nat)) :
    Keeps s { s.make k now with connections := d } := by
  refine ⟨Nat.le_succ _, ?_, fun _ h => h, rfl⟩
  intro c hc
  simp [Registry.make, Nat.ne_of_lt hc]

/-- the cases of `get_connection` -/
theorem getConnection_known {s : Registry} {k : Key} {c : Nat} (hk : k.base.scheme ∈ s.schemes)
    (h : s.connections.lookup k = some c) (now : Int) (out : Option PyErr) :
    getConnection k now out s = (.ok c, s) := by
  unfold getConnection
  rw [if_neg (by simpa using hk)]
  simp [h]

theorem getConnection_raises {s : Registry} {k : Key} (hk : k.base.scheme ∈ s.schemes)
    (h : s.connections.lookup k = none) (now : Int) (e : PyErr) :
    getConnection k now (some e) s = (.error e, s) := by
  unfold getConnection
  rw [if_neg (by simpa using hk)]
  simp [h, create]

theorem getConnection_fresh {s : Registry} {k : Key} (hk : k.base.scheme ∈ s.schemes)
    (h : s.connections.lookup k = none) (now : Int) :
    getConnection k now none s =
      (.ok s.next, { s.make k now with connections := dictSet s.connections k s.next }) := by
  unfold getConnection
  rw [if_neg (by simpa using hk)]
  simp [h, create, lookup_dictSet]

theorem getConnection_unknown {s : Registry} {k : Key} (hk : k.base.scheme ∉ s.schemes)
    (now : Int) (out : Option PyErr) : getConnection k now out s = (.error .noScheme, s) := by
  unfold getConnection; rw [if_pos hk]

/-- closing a connection -/
theorem close_snd (c : Nat) (fails : Nat → Option PyErr) (s : Registry) :
    (close c fails s).2 =
      { s with conn := fun i => if i = c then { s.conn c with closed := (s.conn c).closed + 1 } else s.conn i } := rfl

theorem cleanupLoop_cons (now : Int) (force : Bool) (fails : Nat → Option PyErr) (k : Key) (c : Nat)
    (rest : List (Key × Nat)) (s : Registry) :
    cleanupLoop now force fails ((k, c) :: rest) s =
      if s.tooOld now force c then
        match dictDel (close c fails s).2.connections k with
        | none => (.error .keyError, (close c fails s).2)
        | some d => cleanupLoop now force fails rest { (close c fails s).2 with connections := d }
      else cleanupLoop now force fails rest s := by
  rw [cleanupLoop]
  unfold close
  cases fails c <;> rfl

theorem mem_del {d : List (Key × Nat)} {k : Key} {e : Key × Nat} :
    e ∈ d.filter (fun e => e.1 ≠ k) ↔ e ∈ d ∧ e.1 ≠ k := by simp

/-- the loop of `cleanup`, when its list is part of the dictionary -/
theorem cleanupLoop_eq (now : Int) (force : Bool) (fails : Nat → Option PyErr) (l : List (Key × Nat)) (s : Registry)
    (hs : Inv s) (hl : ∀ e ∈ l, e ∈ s.connections) (hn : (l.map Prod.fst).Nodup) :
    cleanupLoop now force fails l s =
      (.ok (), { s with
        connections := s.connections.filter fun e => decide (e ∉ l) || !s.tooOld now force e.2
        conn := fun i => if l.any (fun e => decide (e.2 = i) && s.tooOld now force i)
          then { s.conn i with closed := (s.conn i).closed + 1 } else s.conn i }) := by
  induction l generalizing s with
  | nil => simp [cleanupLoop]
  | cons e rest ih =>
    obtain ⟨k, c⟩ := e
    rw [List.map_cons, List.nodup_cons] at hn
    have hkc : (k, c) ∈ s.connections := hl _ List.mem_cons_self
    have inj : ∀ k' , (k', c) ∈ s.connections → k' = k := fun k' h => (hs.key _ _ h).symm.trans (hs.key _ _ hkc)
    have keyinj : ∀ c', (k, c') ∈ s.connections → c' = c := by
      intro c' h
      have h1 := lookup_of_mem hs.nodup h
      have h2 := lookup_of_mem hs.nodup hkc
      rw [h1] at h2; exact Option.some.inj h2
    have hcrest : ∀ e ∈ rest, e.2 ≠ c := by
      rintro ⟨k', c'⟩ he rfl
      have := inj k' (hl _ (List.mem_cons_of_mem _ he))
      subst this
      exact hn.1 (List.mem_map.2 ⟨_, he, rfl⟩)
    rw [cleanupLoop_cons]
    by_cases ho : s.tooOld now force c = true
    · rw [if_pos ho]
      have hd : dictDel (close c fails s).2.connections k = some (s.connections.filter fun e => e.1 ≠ k) := by
        show dictDel s.connections k = _
        rw [dictDel, lookup_of_mem hs.nodup hkc]; rfl
      rw [hd]
      simp only
      have hcn : ∀ i, i ≠ c → ((close c fails s).2).conn i = s.conn i := by
        intro i hi; simp [close, hi]
      rw [ih]
      · congr 1
        have hto : ∀ i, i ≠ c → (Registry.tooOld { (close c fails s).2 with connections := s.connections.filter fun e => e.1 ≠ k } now force i) = s.tooOld now force i := by
          intro i hi
          simp only [Registry.tooOld, hcn i hi]
          rfl
        have e1 : (s.connections.filter fun e => e.1 ≠ k).filter (fun e => decide (e ∉ rest) ||
              !(Registry.tooOld { (close c fails s).2 with connections := s.connections.filter fun e => e.1 ≠ k } now force e.2))
            = s.connections.filter fun e => decide (e ∉ (k, c) :: rest) || !s.tooOld now force e.2 := by
          rw [List.filter_filter]
          apply List.filter_congr
          rintro ⟨k', c'⟩ he
          by_cases hk : k' = k
          · subst hk
            have := keyinj _ he
            subst this
            simp [ho]
          · have hc' : c' ≠ c := by rintro rfl; exact hk (inj _ he)
            rw [hto _ hc']
            simp [hk]
        have e2 : (fun i => if rest.any (fun e => decide (e.2 = i) &&
              Registry.tooOld { (close c fails s).2 with connections := s.connections.filter fun e => e.1 ≠ k } now force i)
              then { (close c fails s).2.conn i with closed := ((close c fails s).2.conn i).closed + 1 } else (close c fails s).2.conn i)
            = fun i => if ((k, c) :: rest).any (fun e => decide (e.2 = i) && s.tooOld now force i)
              then { s.conn i with closed := (s.conn i).closed + 1 } else s.conn i := by
          funext i
          by_cases hi : i = c
          · subst hi
            have : ¬ rest.any (fun e => decide (e.2 = i) &&
              Registry.tooOld { (close i fails s).2 with connections := s.connections.filter fun e => e.1 ≠ k } now force i) = true := by
              rw [List.any_eq_true]
              rintro ⟨e, he, h⟩
              simp only [Bool.and_eq_true, decide_eq_true_eq] at h
              exact hcrest e he h.1
            rw [if_neg this, if_pos]
            · simp [close]
            · simp [ho]
          · rw [hto _ hi, hcn _ hi, List.any_cons, show decide (c = i) = false by simpa using Ne.symm hi,
              Bool.false_and, Bool.false_or]
        exact congrArg₂ (fun a b => ({ s with connections := a, conn := b } : Registry)) e1 e2
      · refine ⟨?_, ?_, ?_, ?_, ?_, ?_⟩
        · exact (List.filter_sublist.map _).nodup hs.nodup
        · intro k' c' h; exact hs.old _ _ (List.mem_of_mem_filter h)
        · intro k' c' h
          have h' := mem_del.1 h
          have : c' ≠ c := by rintro rfl; exact h'.2 (inj _ h'.1)
          exact (congrArg Conn.key (hcn c' this)).trans (hs.key _ _ h'.1)
        · intro k' c' h
          have h' := mem_del.1 h
          have : c' ≠ c := by rintro rfl; exact h'.2 (inj _ h'.1)
          exact (congrArg Conn.closed (hcn c' this)).trans (hs.opened _ _ h'.1)
        · intro i hi
          by_cases h : i = c
          · subst h
            have := hs.opened _ _ hkc
            simp [close, this]
          · exact (congrArg Conn.closed (hcn i h)).trans_le (hs.once i hi)
        · intro k' c' h; exact hs.known _ _ (List.mem_of_mem_filter h)
      · intro e he
        refine mem_del.2 ⟨hl e (List.mem_cons_of_mem _ he), ?_⟩
        intro h
        exact hn.1 (List.mem_map.2 ⟨_, he, h⟩)
      · exact hn.2
    · rw [if_neg ho, ih s hs (fun e he => hl e (List.mem_cons_of_mem _ he)) hn.2]
      have ho' : s.tooOld now force c = false := by simpa using ho
      have e1 : s.connections.filter (fun e => decide (e ∉ rest) || !s.tooOld now force e.2)
            = s.connections.filter fun e => decide (e ∉ (k, c) :: rest) || !s.tooOld now force e.2 := by
        apply List.filter_congr
        rintro ⟨k', c'⟩ he
        by_cases hk : (k', c') = (k, c)
        · cases hk; simp [ho']
        · simp only [List.mem_cons, hk, false_or]
      have e2 : (fun i => if rest.any (fun e => decide (e.2 = i) && s.tooOld now force i)
              then { s.conn i with closed := (s.conn i).closed + 1 } else s.conn i)
            = fun i => if ((k, c) :: rest).any (fun e => decide (e.2 = i) && s.tooOld now force i)
              then { s.conn i with closed := (s.conn i).closed + 1 } else s.conn i := by
        funext i
        by_cases hi : c = i
        · subst hi; rw [List.any_cons, ho', Bool.and_false, Bool.false_or]
        · rw [List.any_cons, show decide (c = i) = false by simpa using hi, Bool.false_and, Bool.false_or]
      exact congrArg (Prod.mk _) (congrArg₂ (fun a b => ({ s with connections := a, conn := b } : Registry)) e1 e2)

/-- `cleanup` in one equation -/
theorem cleanup_eq {s : Registry} (hs : Inv s) (now : Int) (force : Bool) (fails : Nat → Option PyErr) :
    cleanup now force fails s = (.ok (), { s with
        connections := s.connections.filter fun e => !s.tooOld now force e.2
        conn := fun i => if s.connections.any (fun e => decide (e.2 = i)) && s.tooOld now force i
          then { s.conn i with closed := (s.conn i).closed + 1 } else s.conn i }) := by
  rw [cleanup, cleanupLoop_eq now force fails _ s hs (fun _ h => h) hs.nodup]
  have e1 : s.connections.filter (fun e => decide (e ∉ s.connections) || !s.tooOld now force e.2)
      = s.connections.filter fun e => !s.tooOld now force e.2 := by
    apply List.filter_congr
    intro e he
    simp [he]
  have e2 : (fun i => if s.connections.any (fun e => decide (e.2 = i) && s.tooOld now force i)
              then { s.conn i with closed := (s.conn i).closed + 1 } else s.conn i)
            = fun i => if s.connections.any (fun e => decide (e.2 = i)) && s.tooOld now force i
              then { s.conn i with closed := (s.conn i).closed + 1 } else s.conn i := by
    funext i
    have : s.connections.any (fun e => decide (e.2 = i) && s.tooOld now force i)
        = (s.connections.any (fun e => decide (e.2 = i)) && s.tooOld now force i) := by
      cases s.tooOld now force i
      · simp
      · simp only [Bool.and_true]
    rw [this]
  exact congrArg (Prod.mk _) (congrArg₂ (fun a b => ({ s with connections := a, conn := b } : Registry)) e1 e2)

theorem inv_cleanup {s : Registry} (hs : Inv s) (now : Int) (force : Bool) (fails : Nat → Option PyErr) :
    Inv (cleanup now force fails s).2 := by
  rw [cleanup_eq hs]
  have live : ∀ k c, (k, c) ∈ s.connections.filter (fun e => !s.tooOld now force e.2) →
      (if s.connections.any (fun e => decide (e.2 = c)) && s.tooOld now force c
          then { s.conn c with closed := (s.conn c).closed + 1 } else s.conn c) = s.conn c := by
    intro k c h
    have := (List.mem_filter.1 h).2
    rw [if_neg]; simp at this; simp [this]
  refine ⟨(List.filter_sublist.map _).nodup hs.nodup, ?_, ?_, ?_, ?_, ?_⟩
  · intro k c h; exact hs.old _ _ (List.mem_of_mem_filter h)
  · intro k c h; exact (congrArg Conn.key (live k c h)).trans (hs.key _ _ (List.mem_of_mem_filter h))
  · intro k c h; exact (congrArg Conn.closed (live k c h)).trans (hs.opened _ _ (List.mem_of_mem_filter h))
  · intro c hc
    simp only
    split
    · rename_i h
      simp only [Bool.and_eq_true, List.any_eq_true, decide_eq_true_eq] at h
      obtain ⟨⟨⟨k, c'⟩, h1, h2⟩, -⟩ := h
      simp only at h2
      subst h2
      have := hs.opened _ _ h1
      simp [this]
    · exact hs.once c hc
  · intro k c h; exact hs.known _ _ (List.mem_of_mem_filter h)

theorem Op.keeps (o : Op) {s : Registry} (hs : Inv s) : Keeps s (o.run s) := by
  cases o with
  | register x => exact ⟨Nat.le_refl _, fun _ _ => rfl, fun _ h => List.mem_cons_of_mem _ h, rfl⟩
  | touch c now =>
    refine ⟨Nat.le_refl _, fun i _ => ?_, fun _ h => h, rfl⟩
    by_cases h : i = c <;> simp [Op.run, Reg.touch, h]
  | get k now out =>
    by_cases hk : k.base.scheme ∈ s.schemes
    · cases hl : s.connections.lookup k with
      | some c => simp only [Op.run, getConnection_known hk hl]; exact .rfl' s
      | none =>
        cases out with
        | some e => simp only [Op.run, getConnection_raises hk hl]; exact .rfl' s
        | none => simp only [Op.run, getConnection_fresh hk hl]; exact keeps_make s k now _
    · simp only [Op.run, getConnection_unknown hk]; exact .rfl' s
  | cleanup now force fails =>
    simp only [Op.run]; rw [cleanup_eq hs]
    refine ⟨Nat.le_refl _, fun i _ => ?_, fun _ h => h, rfl⟩
    simp only
    split <;> rfl

theorem Op.inv (o : Op) {s : Registry} (hs : Inv s) : Inv (o.run s) := by
  cases o with
  | register x =>
    exact ⟨hs.nodup, hs.old, hs.key, hs.opened, hs.once, fun k c h => List.mem_cons_of_mem _ (hs.known k c h)⟩
  | touch c now =>
    have hk : ∀ i, ((Reg.touch c now s).conn i).key = (s.conn i).key := by
      intro i; by_cases h : i = c <;> simp [Reg.touch, h]
    have hc : ∀ i, ((Reg.touch c now s).conn i).closed = (s.conn i).closed := by
      intro i; by_cases h : i = c <;> simp [Reg.touch, h]
    exact ⟨hs.nodup, hs.old, fun k i h => (hk i).trans (hs.key k i h), fun k i h => (hc i).trans (hs.opened k i h),
      fun i h => (hc i).trans_le (hs.once i h), hs.known⟩
  | get k now out =>
    by_cases hk : k.base.scheme ∈ s.schemes
    · cases hl : s.connections.lookup k with
      | some c => simp only [Op.run, getConnection_known hk hl]; exact hs
      | none =>
        cases out with
        | some e => simp only [Op.run, getConnection_raises hk hl]; exact hs
        | none => simp only [Op.run, getConnection_fresh hk hl]; exact inv_create hs hk now
    · simp only [Op.run, getConnection_unknown hk]; exact hs
  | cleanup now force fails => exact inv_cleanup hs now force fails

theorem runAll_inv (os : List Op) {s : Registry} (hs : Inv s) : Inv (runAll os s) ∧ Keeps s (runAll os s) := by
  induction os generalizing s with
  | nil => exact ⟨hs, .rfl' s⟩
  | cons o os ih =>
    have := ih (o.inv hs)
    exact ⟨this.1, (o.keeps hs).trans this.2⟩

theorem Reachable.inv {s : Registry} (h : Reachable s) : Inv s := by
  obtain ⟨os, t, junk, rfl⟩ := h
  exact (runAll_inv os (inv_init t junk)).1

/-- the result of a successful `get_connection` -/
theorem getConnection_ok {s s' : Registry} {k : Key} {now : Int} {out : Option PyErr} {c : Nat} (hs : Inv s)
    (h : getConnection k now out s = (.ok c, s')) :
    s'.connections.lookup k = some c ∧ (s'.conn c).key = k ∧ c < s'.next ∧ k.base.scheme ∈ s'.schemes := by
  have hi : Inv s' := by have := Op.inv (.get k now out) hs; simpa [Op.run, h] using this
  have hl : s'.connections.lookup k = some c := by
    by_cases hk : k.base.scheme ∈ s.schemes
    · cases hl : s.connections.lookup k with
      | some c' => rw [getConnection_known hk hl] at h; cases h; exact hl
      | none =>
        cases out with
        | some e => rw [getConnection_raises hk hl] at h; cases h
        | none => rw [getConnection_fresh hk hl] at h; cases h; simp [lookup_dictSet]
    · rw [getConnection_unknown hk] at h; cases h
  have hm := lookup_mem hl
  exact ⟨hl, hi.key _ _ hm, hi.old _ _ hm, hi.known _ _ hm⟩

end Verif.Reg
