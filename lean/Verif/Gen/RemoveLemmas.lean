import Verif.Gen.WalkLemmas
/-! # Recursive removal of a physical directory -/
namespace Verif.Gen
open Verif.Spec Verif.Mem Verif.Mem.M

/-- `ns'` is `ns` with some of the locations below `q` gone -/
def Less (q : List Str) (ns ns' : NS) : Prop := ∀ p, ns' p = ns p ∨ (ns' p = none ∧ q <+: p ∧ p ≠ q)

/-- asking `isdir` about links below `q` does not raise, even after some of what lies below `q` was removed -/
def Steady (ns : NS) (q : List Str) : Prop := ∀ ns', Less q ns ns' → Answers ns' q

theorem Less.rfl' (q : List Str) (ns : NS) : Less q ns ns := fun _ => .inl rfl

theorem Less.trans {q s : List Str} {a b c : NS} (h : Less q a b) (h' : Less (q ++ s) b c) : Less q a c := by
  intro p
  rcases h' p with h1 | ⟨h1, h2, h3⟩
  · rcases h p with h4 | h4
    · exact .inl (h1.trans h4)
    · exact .inr ⟨h1.trans h4.1, h4.2⟩
  · refine .inr ⟨h1, (List.prefix_append _ _).trans h2, ?_⟩
    rintro rfl
    have := h2.length_le
    simp only [List.length_append] at this
    have : s = [] := List.length_eq_zero_iff.1 (by omega)
    subst this
    simp at h3

theorem Steady.answers {ns : NS} {q : List Str} (h : Steady ns q) : Answers ns q := h ns (Less.rfl' q ns)

theorem Steady.below {a b : NS} {q s : List Str} (h : Steady a q) (hl : Less q a b) : Steady b (q ++ s) :=
  fun _ hc => (h _ (hl.trans hc)).below s

theorem Less.some {q p : List Str} {a b : NS} {o : Obj} (h : Less q a b) (hp : b p = some o) : a p = some o := by
  rcases h p with h | h
  · rw [← h, hp]
  · rw [h.1] at hp; simp at hp

theorem Less.ne_none {q p : List Str} {a b : NS} (h : Less q a b) (hp : b p ≠ none) : a p ≠ none := by
  obtain ⟨o, ho⟩ := Option.ne_none_iff_exists'.1 hp
  rw [h.some ho]; simp

theorem Less.isDir {q p : List Str} {a b : NS} (h : Less q a b) (hp : b.isDir p) : a.isDir p := by
  obtain ⟨m, t, e⟩ := hp; exact ⟨m, t, h.some e⟩

theorem Writable.less {a b : NS} {q s : List Str} (h : Writable a q) (hl : Less q a b) : Writable b (q ++ s) := by
  intro t ht
  rw [List.append_assoc]
  exact h (s ++ t) (by rw [← List.append_assoc]; exact hl.ne_none ht)

/-- everything strictly below `q` is gone -/
def strip (ns : NS) (q : List Str) : NS := fun p => if q <+: p ∧ p ≠ q then none else ns p

/-- everything strictly below the `q ++ [n]` is gone -/
def stripL (ns : NS) (q l : List Str) : NS := fun p => if ∃ n ∈ l, q ++ [n] <+: p ∧ p ≠ q ++ [n] then none else ns p

/-- the `q ++ [n]` and everything below is gone -/
def delL (ns : NS) (q l : List Str) : NS := fun p => if ∃ n ∈ l, q ++ [n] <+: p then none else ns p

theorem stripL_nil (ns : NS) (q : List Str) : stripL ns q [] = ns := by funext p; simp [stripL]
theorem delL_nil (ns : NS) (q : List Str) : delL ns q [] = ns := by funext p; simp [delL]

theorem stripL_cons (ns : NS) (q : List Str) (n : Str) (l : List Str) :
    stripL (strip ns (q ++ [n])) q l = stripL ns q (n :: l) := by
  funext p
  unfold stripL strip
  by_cases h : ∃ m ∈ l, q ++ [m] <+: p ∧ p ≠ q ++ [m]
  · rw [if_pos h, if_pos]
    obtain ⟨m, hm, h⟩ := h
    exact ⟨m, by simp [hm], h⟩
  · rw [if_neg h]
    by_cases h' : q ++ [n] <+: p ∧ p ≠ q ++ [n]
    · rw [if_pos h', if_pos ⟨n, by simp, h'⟩]
    · rw [if_neg h', if_neg]
      rintro ⟨m, hm, h2⟩
      rcases List.mem_cons.1 hm with rfl | hm
      · exact h' h2
      · exact h ⟨m, hm, h2⟩

theorem delL_cons (ns : NS) (q : List Str) (n : Str) (l : List Str) :
    delL (ns.del (q ++ [n])) q l = delL ns q (n :: l) := by
  funext p
  unfold delL NS.del
  by_cases h : ∃ m ∈ l, q ++ [m] <+: p
  · rw [if_pos h, if_pos]
    obtain ⟨m, hm, h⟩ := h
    exact ⟨m, by simp [hm], h⟩
  · rw [if_neg h]
    by_cases h' : q ++ [n] <+: p
    · rw [if_pos h', if_pos ⟨n, by simp, h'⟩]
    · rw [if_neg h', if_neg]
      rintro ⟨m, hm, h2⟩
      rcases List.mem_cons.1 hm with rfl | hm
      · exact h' h2
      · exact h ⟨m, hm, h2⟩

theorem less_strip (ns : NS) (q s : List Str) : Less q ns (strip ns (q ++ s)) := by
  refine (Less.rfl' q ns).trans (s := s) ?_
  intro p
  unfold strip
  by_cases h : q ++ s <+: p ∧ p ≠ q ++ s
  · rw [if_pos h]; exact .inr ⟨rfl, h⟩
  · rw [if_neg h]; exact .inl rfl

theorem less_stripL (ns : NS) (q l : List Str) : Less q ns (stripL ns q l) := by
  intro p
  unfold stripL
  by_cases h : ∃ n ∈ l, q ++ [n] <+: p ∧ p ≠ q ++ [n]
  · rw [if_pos h]
    obtain ⟨n, -, h1, -⟩ := h
    refine .inr ⟨rfl, (List.prefix_append _ _).trans h1, ?_⟩
    rintro rfl
    have := h1.length_le
    simp at this
    omega
  · rw [if_neg h]; exact .inl rfl

theorem del_isDir {ns : NS} {q : List Str} {n : Str} (h : ns.isDir q) : (ns.del (q ++ [n])).isDir q := by
  obtain ⟨m, t, e⟩ := h
  refine ⟨m, t, ?_⟩
  unfold NS.del
  rw [if_neg, e]
  intro h
  have := h.length_le
  simp at this
  omega

theorem del_other {ns : NS} {q : List Str} {n m : Str} (h : m ≠ n) : (ns.del (q ++ [n])) (q ++ [m]) = ns (q ++ [m]) := by
  unfold NS.del
  rw [if_neg]
  intro h'
  exact h (prefix_snoc_inj (List.prefix_refl (q ++ [m])) h')

theorem del_other' {ns : NS} {q s : List Str} {n m : Str} (h : m ≠ n) :
    (ns.del (q ++ [n])) (q ++ [m] ++ s) = ns (q ++ [m] ++ s) := by
  unfold NS.del
  rw [if_neg]
  intro h'
  exact h (prefix_snoc_inj (List.prefix_append (q ++ [m]) s) h')

section
variable {E : Dict} {r : Nat}

/-- fs.py:203-204 the loop over the files -/
theorem removeFiles_eq {q : List Str} (hq : Ok q) : ∀ (l : List Str) {w : World}, Inv w → Fs w E r → (view w r).isDir q →
    l.Nodup → (∀ n ∈ l, Ok (q ++ [n]) ∧ view w r (q ++ [n]) ≠ none) →
    ∃ w', (l.forM fun f => do
        let p ← lift ((mem E q).div f)
        removefile r p : M Unit) w = (.ok (), w') ∧ Becomes w w' r (delL (view w r) q l) := by
  intro l
  induction l with
  | nil => intro w hw _ _ _ _; exact ⟨w, rfl, by rw [delL_nil]; exact .refl hw r⟩
  | cons n l ih =>
    intro w hw hf hd hnd hl
    obtain ⟨h1, h2⟩ := hl n (by simp)
    obtain ⟨o, ho⟩ := Option.ne_none_iff_exists'.1 h2
    obtain ⟨w1, k1, k2⟩ := removefile_at hw hf.isRoot (stepsOf_mem h1 E) (filter_clean h1.nil_not_mem)
      (mem_last (h1.clean n (by simp)) E) (isDir_goes hd) (.inr (plain_snoc hd n)) ho
    obtain ⟨w2, k3, k4⟩ := ih k2.inv (hf.becomes k2) (by rw [k2.view]; exact del_isDir hd) (List.nodup_cons.1 hnd).2 (by
      intro m hm
      have hne : m ≠ n := by rintro rfl; exact (List.nodup_cons.1 hnd).1 hm
      rw [k2.view, del_other hne]
      exact hl m (by simp [hm]))
    refine ⟨w2, ?_, (k2.trans k4).congr (by rw [k2.view, delL_cons])⟩
    show ((do let p ← lift ((mem E q).div n); removefile r p : M Unit) >>= fun _ => _) w = _
    rw [bind_ok (by rw [bind_lift (mem_div hq.clean (h1.clean n (by simp)) E)]; exact k1)]
    exact k3

/-- fs.py:205-209 the loop over the directories, which are links or empty by now -/
theorem removeDirs_eq {q : List Str} (hq : Ok q) : ∀ (l : List Str) {w : World}, Inv w → Fs w E r → (view w r).isDir q →
    l.Nodup → (∀ n ∈ l, Ok (q ++ [n]) ∧ ((view w r).isLink (q ++ [n]) ∨
      ((view w r).isDir (q ++ [n]) ∧ ∀ m, view w r (q ++ [n] ++ [m]) = none))) →
    ∃ w', (l.forM fun d => do
        let p ← lift ((mem E q).div d)
        if ← query fun w => islink w r p then removefile r p else removedir r p : M Unit) w = (.ok (), w') ∧
      Becomes w w' r (delL (view w r) q l) := by
  intro l
  induction l with
  | nil => intro w hw _ _ _ _; exact ⟨w, rfl, by rw [delL_nil]; exact .refl hw r⟩
  | cons n l ih =>
    intro w hw hf hd hnd hl
    obtain ⟨h1, h2⟩ := hl n (by simp)
    have step : ∃ w1, (do
        let p ← lift ((mem E q).div n)
        if ← query fun w => islink w r p then removefile r p else removedir r p : M Unit) w = (.ok (), w1) ∧
        Becomes w w1 r ((view w r).del (q ++ [n])) := by
      rw [bind_lift (mem_div hq.clean (h1.clean n (by simp)) E)]
      rw [bind_query (islink_at hw hf h1 hd)]
      rcases h2 with h2 | ⟨h2, h3⟩
      · rw [any_isLink.2 h2]
        obtain ⟨u, m, t, e⟩ := h2
        exact removefile_at hw hf.isRoot (stepsOf_mem h1 E) (filter_clean h1.nil_not_mem)
          (mem_last (h1.clean n (by simp)) E) (isDir_goes hd) (.inr (plain_snoc hd n)) e
      · have : (view w r (q ++ [n])).any Obj.isLink = false := by
          obtain ⟨m, t, e⟩ := h2; rw [e]; rfl
        rw [this]
        obtain ⟨w1, k1, k2⟩ := (removedir_at hw hf.isRoot (stepsOf_mem h1 E) (filter_clean h1.nil_not_mem)
          (mem_last (h1.clean n (by simp)) E) (isDir_goes hd) h2).1 h3
        exact ⟨w1, k1, k2.congr (del_leaf h3).symm⟩
    obtain ⟨w1, k1, k2⟩ := step
    obtain ⟨w2, k3, k4⟩ := ih k2.inv (hf.becomes k2) (by rw [k2.view]; exact del_isDir hd) (List.nodup_cons.1 hnd).2 (by
      intro m hm
      have hne : m ≠ n := by rintro rfl; exact (List.nodup_cons.1 hnd).1 hm
      obtain ⟨h5, h6⟩ := hl m (by simp [hm])
      refine ⟨h5, ?_⟩
      rw [k2.view]
      unfold NS.isLink NS.isDir
      rw [del_other hne]
      simp only [del_other' hne]
      exact h6)
    refine ⟨w2, ?_, (k2.trans k4).congr (by rw [k2.view, delL_cons])⟩
    show ((do
        let p ← lift ((mem E q).div n)
        if ← query fun w => islink w r p then removefile r p else removedir r p : M Unit) >>= fun _ => _) w = _
    rw [bind_ok k1]
    exact k3

/-- fs.py:198-209 as the walk's consumer -/
def remover (root : Nat) (_ : Unit) (top : Uri) (dirs files : List Str) : M (Unit × List Str) := do
  removeBody root top dirs files
  pure ((), dirs)

theorem remove_walk (depth : Nat) : ∀ (q : List Str) {w : World}, Inv w → Fs w E r → Writable (view w r) q →
    Steady (view w r) q → (view w r).isDir q → (∀ t, (view w r).isDir (q ++ t) → t.length < depth) →
    ∃ w', walk r false false (remover r) depth (mem E q) () w = (.ok (), w') ∧ Becomes w w' r (strip (view w r) q) := by
  induction depth with
  | zero =>
    intro q w _ _ _ _ hd hh
    exact absurd (hh [] (by simpa using hd)) (by simp)
  | succ depth ih =>
    intro q w hw hf hok ha hd hh
    have hq : Ok q := by
      have := hok [] (by obtain ⟨m, t, h⟩ := hd; simp [h])
      simpa using this
    have loop : ∀ (l : List Str) {w1 : World}, Inv w1 → Fs w1 E r → Less q (view w r) (view w1 r) →
        (view w1 r).isDir q → l.Nodup →
        (∀ n ∈ l, view w1 r (q ++ [n]) = view w r (q ++ [n]) ∧ n ∈ dirNames w r q) →
        ∃ w', walkDirs false (walk r false false (remover r) depth) (mem E q) l () w1 = (.ok (), w') ∧
          Becomes w1 w' r (stripL (view w1 r) q (l.filter fun n => !(view w r (q ++ [n])).any Obj.isLink)) := by
      intro l
      induction l with
      | nil => intro w1 hw1 _ _ _ _ _; exact ⟨w1, rfl, by simp only [List.filter_nil, stripL_nil]; exact .refl hw1 r⟩
      | cons n l ihl =>
        intro w1 hw1 hf1 hless hd1 hnd hl
        obtain ⟨hsame, hin⟩ := hl n (by simp)
        obtain ⟨hin1, hin2⟩ := List.mem_filter.1 hin
        have hex := mem_names.1 hin1
        rw [walkDirs_cons hw1 hf1 hq (hok [n] hex) hd1, hsame]
        cases hlink : (view w r (q ++ [n])).any Obj.isLink with
        | true =>
          simp only [Bool.not_true, Bool.or_false, Bool.false_eq_true, if_false, List.filter_cons, hlink]
          exact ihl hw1 hf1 hless hd1 (List.nodup_cons.1 hnd).2 (fun m hm => hl m (by simp [hm]))
        | false =>
          have hnl : ¬ (view w r).isLink (q ++ [n]) := fun h => by rw [any_isLink.2 h] at hlink; simp at hlink
          have hdn : (view w r).isDir (q ++ [n]) := (isD_iff hnl hex).1 hin2
          have hdn1 : (view w1 r).isDir (q ++ [n]) := by unfold NS.isDir; rw [hsame]; exact hdn
          obtain ⟨w2, h1, h2⟩ := ih (q ++ [n]) hw1 hf1 (hok.less hless) (ha.below hless) hdn1 (by
            intro t ht
            have := hh (n :: t) (by have := hless.isDir ht; simpa using this)
            simp at this; omega)
          have hless2 : Less q (view w1 r) (view w2 r) := by rw [h2.view]; exact less_strip _ q [n]
          obtain ⟨w3, k1, k2⟩ := ihl h2.inv (hf1.becomes h2) (by
              have := Less.trans (s := []) hless (by rw [List.append_nil]; exact hless2)
              exact this) (by
              obtain ⟨m, t, e⟩ := hd1
              refine ⟨m, t, ?_⟩
              rw [h2.view, strip, if_neg, e]
              rintro ⟨h3, -⟩
              have := h3.length_le
              simp at this; omega) (List.nodup_cons.1 hnd).2 (by
              intro m hm
              have hne : m ≠ n := by rintro rfl; exact (List.nodup_cons.1 hnd).1 hm
              refine ⟨?_, (hl m (by simp [hm])).2⟩
              rw [h2.view, strip, if_neg]
              · exact (hl m (by simp [hm])).1
              · rintro ⟨h3, -⟩
                exact hne (prefix_snoc_inj (List.prefix_refl (q ++ [m])) h3))
          refine ⟨w3, ?_, (h2.trans k2).congr ?_⟩
          · simp only [Bool.not_false, Bool.true_or, if_true]
            rw [bind_ok h1]
            exact k1
          · rw [h2.view, stripL_cons]
            simp only [List.filter_cons, hlink, Bool.not_false, if_true]
    have hnd : (dirNames w r q).Nodup := (names_nodup hw).filter _
    have hndf : (fileNames w r q).Nodup := (names_nodup hw).filter _
    obtain ⟨w1, h1, h2⟩ := loop (dirNames w r q) hw hf (Less.rfl' _ _) hd hnd (fun n hn => ⟨rfl, hn⟩)
    have hf1 := hf.becomes h2
    have keep : ∀ n, view w1 r (q ++ [n]) = view w r (q ++ [n]) := by
      intro n
      rw [h2.view, stripL, if_neg]
      rintro ⟨m, -, h3, h4⟩
      have := prefix_snoc_inj (List.prefix_refl (q ++ [n])) h3
      subst this
      exact h4 rfl
    have hless : Less q (view w r) (view w1 r) := by rw [h2.view]; exact less_stripL _ _ _
    have hd1 : (view w1 r).isDir q := by
      obtain ⟨m, t, e⟩ := hd
      refine ⟨m, t, ?_⟩
      rcases hless q with h | h
      · rw [h, e]
      · exact absurd rfl h.2.2
    obtain ⟨w2, h3, h4⟩ := removeFiles_eq hq (fileNames w r q) h2.inv hf1 hd1 hndf (by
      intro n hn
      have := mem_names.1 (List.mem_filter.1 hn).1
      exact ⟨hok [n] this, by rw [keep]; exact this⟩)
    have keep2 : ∀ n s, n ∈ dirNames w r q → view w2 r (q ++ [n] ++ s) = view w1 r (q ++ [n] ++ s) := by
      intro n s hn
      rw [h4.view, delL, if_neg]
      rintro ⟨m, hm, h5⟩
      have := prefix_snoc_inj (List.prefix_append (q ++ [n]) s) h5
      subst this
      have a := (List.mem_filter.1 hm).2
      have b := (List.mem_filter.1 hn).2
      simp only [b] at a
      simp at a
    have hd2 : (view w2 r).isDir q := by
      obtain ⟨m, t, e⟩ := hd1
      refine ⟨m, t, ?_⟩
      rw [h4.view, delL, if_neg, e]
      rintro ⟨n, -, h5⟩
      have := h5.length_le
      simp at this; omega
    have hf2 := hf1.becomes h4
    obtain ⟨w3, h5, h6⟩ := removeDirs_eq hq (dirNames w r q) h4.inv hf2 hd2 hnd (by
      intro n hn
      obtain ⟨a, b⟩ := List.mem_filter.1 hn
      have hex := mem_names.1 a
      refine ⟨hok [n] hex, ?_⟩
      have e0 : view w2 r (q ++ [n]) = view w r (q ++ [n]) := by
        have := keep2 n [] hn
        simp only [List.append_nil] at this
        rw [this, keep]
      by_cases hl : (view w r).isLink (q ++ [n])
      · left; unfold NS.isLink; rw [e0]; exact hl
      · right
        refine ⟨by unfold NS.isDir; rw [e0]; exact (isD_iff hl hex).1 b, ?_⟩
        intro m
        rw [keep2 n [m] hn, h2.view, stripL, if_pos]
        refine ⟨n, List.mem_filter.2 ⟨hn, ?_⟩, List.prefix_append _ _, by simp⟩
        cases hx : (view w r (q ++ [n])).any Obj.isLink with
        | false => rfl
        | true => exact absurd (any_isLink.1 hx) hl)
    refine ⟨w3, ?_, (h2.trans (h4.trans h6)).congr ?_⟩
    · rw [walk_dir hw hf hok ha.answers hd]
      simp only [Bool.false_eq_true, if_false]
      rw [bind_ok h1]
      unfold remover removeBody
      simp only [bind_assoc]
      rw [bind_ok h3, bind_ok h5]
      rfl
    · funext p
      unfold strip
      by_cases hp : q <+: p ∧ p ≠ q
      · rw [if_pos hp]
        obtain ⟨⟨s, rfl⟩, hne⟩ := hp
        cases s with
        | nil => simp at hne
        | cons n s =>
          have e1 : q ++ n :: s = q ++ [n] ++ s := by simp
          rw [e1]
          by_cases hin : view w r (q ++ [n]) = none
          · -- nothing is there to begin with
            have : view w r (q ++ [n] ++ s) = none := by
              cases hv : view w r (q ++ [n] ++ s) with
              | none => rfl
              | some o => obtain ⟨o', ho'⟩ := view_prefix hv; rw [hin] at ho'; simp at ho'
            unfold delL
            split
            · rfl
            · rw [h4.view, delL]
              split
              · rfl
              · rcases hless (q ++ [n] ++ s) with h | h
                · rw [h, this]
                · exact h.1
          · have hnm := mem_names.2 hin
            by_cases hb : isD (view w r) (q ++ [n]) = true
            · unfold delL
              rw [if_pos ⟨n, List.mem_filter.2 ⟨hnm, hb⟩, List.prefix_append _ _⟩]
            · unfold delL
              split
              · rfl
              · rw [h4.view, delL, if_pos ⟨n, List.mem_filter.2 ⟨hnm, by simpa using hb⟩, List.prefix_append _ _⟩]
      · rw [if_neg hp]
        have no : ∀ n, ¬ q ++ [n] <+: p := by
          intro n hn
          refine hp ⟨(List.prefix_append _ _).trans hn, ?_⟩
          rintro rfl
          have := hn.length_le
          simp at this; omega
        rw [delL, if_neg (by rintro ⟨n, -, h⟩; exact no n h), h4.view, delL, if_neg (by rintro ⟨n, -, h⟩; exact no n h),
          h2.view, stripL, if_neg (by rintro ⟨n, -, h, -⟩; exact no n h)]

/-- fs.py:198-214 -/
theorem removeDirRec_eq {w : World} {init : List Str} {n : Str} (hw : Inv w) (hf : Fs w E r)
    (hok : Writable (view w r) (init ++ [n])) (ha : Steady (view w r) (init ++ [n]))
    (hd : (view w r).isDir (init ++ [n])) {depth : Nat}
    (hh : ∀ t, (view w r).isDir (init ++ [n] ++ t) → t.length < depth) :
    ∃ w', removeDirRec depth r (mem E (init ++ [n])) w = (.ok (), w') ∧
      Becomes w w' r ((view w r).del (init ++ [n])) := by
  have hq : Ok (init ++ [n]) := by
    have := hok [] (by obtain ⟨m, t, h⟩ := hd; simp [h])
    simpa using this
  obtain ⟨w1, h1, h2⟩ := remove_walk depth (init ++ [n]) hw hf hok ha hd hh
  have hf1 := hf.becomes h2
  have e0 : ∀ p, p <+: init ++ [n] → view w1 r p = view w r p := by
    intro p hp
    rw [h2.view, strip, if_neg]
    rintro ⟨h3, h4⟩
    exact h4 (h3.eq_of_length_le hp.length_le).symm
  have hd1 : (view w1 r).isDir (init ++ [n]) := by
    unfold NS.isDir; rw [e0 _ (List.prefix_refl _)]; exact hd
  have hi1 : (view w1 r).isDir init := isDir_prefix hd1
  obtain ⟨w2, h3, h4⟩ := (removedir_at h2.inv hf1.isRoot (stepsOf_mem hq E) (filter_clean hq.nil_not_mem)
    (mem_last (hq.clean n (by simp)) E) (isDir_goes hi1) hd1).1 (by
      intro m
      rw [h2.view, strip, if_pos]
      exact ⟨List.prefix_append _ _, by simp⟩)
  refine ⟨w2, ?_, (h2.trans h4).congr ?_⟩
  · unfold removeDirRec
    refine (bind_ok h1).trans ?_
    rw [bind_query (islink_at h2.inv hf1 hq hi1)]
    have : (view w1 r (init ++ [n])).any Obj.isLink = false := by
      obtain ⟨m, t, e⟩ := hd1; rw [e]; rfl
    rw [this]
    exact h3
  · rw [h2.view]
    funext p
    unfold NS.erase strip NS.del
    by_cases hp : p = init ++ [n]
    · subst hp; simp
    · rw [if_neg hp]; simp [hp]

end
end Verif.Gen
