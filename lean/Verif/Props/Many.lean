import Verif.Any.ManyLemmas
import Verif.Props.Same
import Verif.Props.Merge
/-!
# C115 Programs that work in several file systems

C112 for any number of memory file systems and the local files at once, with calls that copy and move between a memory
file system and the local files: every program gets the answers, exceptions and trees of several plain file systems
(Verif/Any/Many.lean).
-/
namespace Verif.Props
open Verif.Spec Verif.Gen Verif.Any
open Mem (World)

section
variable {ι κ : Type} {E : ι → Dict} {r : ι → Nat} {site : κ → Option ι} {F : Option ι → List Str → Option Any.Kind} {s : Sys} {T : κ → Tree}

/-- the place `site k` holds the tree `T k`, all other places what `F` says -/
structure Rels (E : ι → Dict) (r : ι → Nat) (site : κ → Option ι) (F : Option ι → List Str → Option Any.Kind) (T : κ → Tree) (s : Sys) :
    Prop where
  ok : SysOk E r s
  here : ∀ k, Holds r s (site k) (T k)
  there : ∀ j, (∀ k, site k ≠ j) → siteV r s j = F j

/-- the outcomes are the same, unless there is no expectation -/
inductive Outs (E : ι → Dict) (r : ι → Nat) (site : κ → Option ι) (F : Option ι → List Str → Option Any.Kind) {α : Type} :
    Except PyErr α × (κ → Tree) → Except PyErr α × Sys → Prop
  | out (T : κ → Tree) (y) : Outs E r site F (.error .outside, T) y
  | same {x : Except PyErr α} {T s} : Rels E r site F T s → Outs E r site F (x, T) (x, s)

theorem Outs.unit {x : Except PyErr Unit × (κ → Tree)} {y : Except PyErr Unit × Sys} {m : OM (κ → Tree) Unit} {m' : OM Sys Unit}
    (hx : m T = x) (hy : m' s = y) (h : Outs E r site F x y) :
    Outs E r site F ((do m; pure Ans.unit : OM (κ → Tree) Ans) T) ((do m'; pure Ans.unit : OM Sys Ans) s) := by
  subst hx hy
  show Outs E r site F (OM.bnd m _ T) (OM.bnd m' _ s)
  unfold OM.bnd
  revert h
  generalize m T = x
  generalize m' s = y
  intro h
  cases h with
  | out => exact .out _ _
  | @same x T s hr => cases x <;> exact .same hr

theorem left_iff {t : Tree} {ig p x : List Str} : Ignored t.get ig p x ↔ t.Left ig p x := by
  constructor
  · rintro ⟨a, n, b, rfl, h1, h2⟩
    exact ⟨a ++ [n], (List.mem_inits _ _).2 ⟨b, by simp⟩, by simp, by simpa using h1, by simpa using h2⟩
  · rintro ⟨a, h1, h2, h3, h4⟩
    obtain ⟨b, rfl⟩ := (List.mem_inits _ _).1 h1
    rcases List.eq_nil_or_concat a with rfl | ⟨a, n, rfl⟩
    · exact absurd rfl h2
    · rw [List.concat_eq_append] at *
      exact ⟨a, n, b, by simp, by simpa using h3, by simpa using h4⟩

theorem Holds.get {k : Option ι} {t : Tree} (h : Holds r s k t) : siteV r s k = t.get := funext h.here

theorem Holds.fits {k : Option ι} {t : Tree} (h : Holds r s k t) {p : List Str} (hp : t.get p ≠ none) : Fit p :=
  h.fit p (by rw [h.here]; exact hp)

theorem Holds.noOther {k : Option ι} {t : Tree} (h : Holds r s k t) (p : List Str) : t.get p ≠ some .other := by
  rw [← h.here]; exact h.noLink p

/-- a place that stayed as it was -/
theorem Holds.stays {k : Option ι} {t : Tree} {s' : Sys} (h : Holds r s k t) (e : ∀ p, siteV r s' k p = siteV r s k p) : Holds r s' k t := by
  have e' : siteV r s' k = siteV r s k := funext e
  exact ⟨by rw [e']; exact h.here, h.keys, by rw [e']; exact h.fit, by rw [e']; exact h.noLink⟩

/-- what is in a tree of objects that fit -/
theorem holds_of {k : Option ι} {t : Tree} (h1 : ∀ p, siteV r s k p = t.get p) (h2 : (t.map (·.1)).Nodup) (h3 : ∀ p, t.get p ≠ none → Fit p)
    (h4 : ∀ p, t.get p ≠ some .other) : Holds r s k t :=
  ⟨h1, h2, fun p hp => h3 p (by rw [← h1]; exact hp), fun p => by rw [h1]; exact h4 p⟩

theorem holds_clear (hok : SysOk E r s) {k : Option ι} {t : Tree} (h : Holds r s k t) {p : List Str} (hw : t.Way p) : Clear (siteV r s k) p :=
  (h.rel hok).clear hw

/-- the tree of one place, and its target -/
theorem over_facts {k k' : Option ι} {t t' : Tree} (h : Holds r s k t) (h' : Holds r s k' t') {depth : Nat} {a ig q : List Str} {n : Str}
    (hq : Fit q) (hqn : Fit (q ++ [n])) (hd : t.get (a ++ [n]) = some .dir)
    (hO : t.Over depth ig (a ++ [n]) t' (t'.dest (a ++ [n]) q)) :
    ∃ e, t'.dest (a ++ [n]) q = e ∧ Laws.Copyable (siteV r s k) (a ++ [n]) ∧ Fit e ∧ e ≠ [] ∧ Target (siteV r s k') q n e ∧
      (∀ p, p <+: e → siteV r s k' p = some .dir ∨ siteV r s k' p = none) ∧ Merges (siteV r s k) (siteV r s k') ig (a ++ [n]) e ∧
      e.length < depth ∧ ∀ x, siteV r s k (a ++ [n] ++ x) = some .dir → x.length < depth := by
  obtain ⟨h1, h2, h3, h4⟩ := hO
  rw [h.get, h'.get]
  have hH : Laws.Copyable t.get (a ++ [n]) :=
    ⟨⟨fun x hx => (h.fits hx).nm, fun x => h.noOther _⟩, by simp, hd, fun x m hm => by
      rw [List.append_assoc] at hm
      exact (h.fits (by rw [hm]; simp)).trim m (by simp)⟩
  have hM : ∀ e, (∀ x ∈ t.below ig (a ++ [n]), t'.get (e ++ x.1) = none ∨ isF (t'.get (e ++ x.1)) = isF (some x.2)) →
      Merges t.get t'.get ig (a ++ [n]) e := by
    intro e h4 x hx hi
    have hb : ∀ o, t.get (a ++ [n] ++ x) = some o → t'.get (e ++ x) = none ∨ isF (t'.get (e ++ x)) = isF (some o) := by
      intro o ho
      rw [Tree.get_ne (by simp)] at ho
      exact h4 (x, o) ((lookup_nodup (Tree.nodup_below h.keys _ _)).1 ((Tree.lookup_below h.keys).2 ⟨hx, fun c => hi (left_iff.2 c), ho⟩))
    refine ⟨fun ho => ?_, fun d ho => ?_⟩
    · cases hg : t'.get (e ++ x) with
      | none => exact .inl rfl
      | some y => cases y with
        | dir => exact .inr rfl
        | file d => rcases hb _ ho with c | c <;> rw [hg] at c <;> cases c
        | other => exact absurd hg (h'.noOther _)
    · exact (hb _ ho).imp id fun c => c
  have hh : ∀ x, t.get (a ++ [n] ++ x) = some .dir → x.length < depth := by
    intro x hx
    rw [Tree.get_ne (by simp)] at hx
    obtain ⟨y, hy, hyx⟩ := (lookup_isSome t _).2 (by rw [hx]; simp : t.lookup (a ++ [n] ++ x) ≠ none)
    have := h2 y hy (by rw [hyx]; exact List.prefix_append _ _)
    rw [hyx] at this
    simp only [List.length_append] at this
    omega
  refine ⟨_, rfl, hH, ?_, ?_, ?_, fun p hp' => h3 p ((List.mem_inits _ _).2 hp'), hM _ h4, h1, hh⟩
  all_goals unfold Tree.dest at h3 ⊢
  · split
    · simpa using hqn
    · exact hq
  · split
    · simp
    · rename_i c; rintro rfl; exact c rfl
  · split
    · rename_i c; simpa using Target.into c
    · rename_i c
      rw [if_neg c] at h3
      rcases h3 q ((List.mem_inits _ _).2 (List.prefix_refl _)) with d | d
      · exact absurd d c
      · exact .new d

/-- the names in the tree laid over -/
theorem over_holds {k k' : Option ι} {t t' : Tree} {s' : Sys} (h : Holds r s k t) (h' : Holds r s k' t') {a ig e : List Str} {n : Str}
    (he : Fit e) (he0 : e ≠ [])
    (h1 : ∀ p, p <+: e → siteV r s' k' p = some .dir)
    (h2 : ∀ x, x ≠ [] → ¬ Ignored (siteV r s k) ig (a ++ [n]) x → siteV r s k (a ++ [n] ++ x) ≠ none →
      siteV r s' k' (e ++ x) = siteV r s k (a ++ [n] ++ x))
    (h3 : ∀ x, x ≠ [] → Ignored (siteV r s k) ig (a ++ [n]) x ∨ siteV r s k (a ++ [n] ++ x) = none → siteV r s' k' (e ++ x) = siteV r s k' (e ++ x))
    (h4 : ∀ p, ¬ (p <+: e ∨ e <+: p) → siteV r s' k' p = siteV r s k' p) : Holds r s' k' (t.over ig (a ++ [n]) t' e) := by
  rw [h.get] at h2 h3
  rw [h'.get] at h3 h4
  have cases4 : ∀ p : List Str, p <+: e ∨ (∃ x, x ≠ [] ∧ p = e ++ x) ∨ (¬ p <+: e ∧ ¬ e <+: p) := by
    intro p
    by_cases c : p <+: e
    · exact .inl c
    · by_cases d : e <+: p
      · obtain ⟨x, rfl⟩ := d
        exact .inr (.inl ⟨x, by rintro rfl; exact c (by simp), rfl⟩)
      · exact .inr (.inr ⟨c, d⟩)
  refine holds_of (fun p => ?_) (Tree.nodup_over h'.keys _ _ _) (fun p => ?_) (fun p => ?_)
  · rcases cases4 p with c | ⟨x, hx, rfl⟩ | ⟨c, d⟩
    · rw [h1 p c, Tree.over_way h.keys c]
    · by_cases hl : t.Left ig (a ++ [n]) x
      · rw [h3 x hx (.inl (left_iff.2 hl)), Tree.over_keep h.keys hx (.inl hl)]
      · by_cases hv : t.get (a ++ [n] ++ x) = none
        · rw [h3 x hx (.inr hv), Tree.over_keep h.keys hx (.inr hv)]
        · rw [h2 x hx (fun c => hl (left_iff.1 c)) hv, Tree.over_in h.keys hx hl hv]
    · rw [h4 p (by simp [c, d]), Tree.over_far h.keys c d]
  · rcases cases4 p with c | ⟨x, hx, rfl⟩ | ⟨c, d⟩
    · intro _
      obtain ⟨y, rfl⟩ := c
      exact he.of_prefix
    · by_cases hl : t.Left ig (a ++ [n]) x
      · rw [Tree.over_keep h.keys hx (.inl hl)]; exact h'.fits
      · by_cases hv : t.get (a ++ [n] ++ x) = none
        · rw [Tree.over_keep h.keys hx (.inr hv)]; exact h'.fits
        · intro _
          exact he.append he0 (h.fits hv)
    · rw [Tree.over_far h.keys c d]; exact h'.fits
  · rcases cases4 p with c | ⟨x, hx, rfl⟩ | ⟨c, d⟩
    · rw [Tree.over_way h.keys c]; simp
    · by_cases hl : t.Left ig (a ++ [n]) x
      · rw [Tree.over_keep h.keys hx (.inl hl)]; exact h'.noOther _
      · by_cases hv : t.get (a ++ [n] ++ x) = none
        · rw [Tree.over_keep h.keys hx (.inr hv)]; exact h'.noOther _
        · rw [Tree.over_in h.keys hx hl hv]; exact h.noOther _
    · rw [Tree.over_far h.keys c d]; exact h'.noOther _

/-- a file can be put there -/
theorem room_facts {k' : Option ι} {t' : Tree} (h' : Holds r s k' t') {a q : List Str} {n : Str} (hq : Fit q) (hqn : Fit (q ++ [n]))
    (hR : t'.Room (t'.dest (a ++ [n]) q)) :
    ∃ e m, t'.dest (a ++ [n]) q = e ++ [m] ∧ Fit (e ++ [m]) ∧ FileTarget (siteV r s k') q n (e ++ [m]) ∧ siteV r s k' e = some .dir ∧
      (siteV r s k' (e ++ [m]) = none ∨ isF (siteV r s k' (e ++ [m])) = true) := by
  rw [h'.get]
  obtain ⟨h1, h2⟩ := hR
  have h3 : Fit (t'.dest (a ++ [n]) q) ∧ t'.dest (a ++ [n]) q ≠ [] ∧ FileTarget t'.get q n (t'.dest (a ++ [n]) q) := by
    unfold Tree.dest
    split
    · rename_i c; exact ⟨by simpa using hqn, by simp, by simpa using FileTarget.into c⟩
    · rename_i c; exact ⟨hq, by rintro rfl; exact c rfl, .at_ c⟩
  revert h1 h2 h3
  generalize t'.dest (a ++ [n]) q = x
  intro h1 h2 ⟨h3, h4, h5⟩
  rcases List.eq_nil_or_concat x with rfl | ⟨e, m, rfl⟩
  · exact absurd rfl h4
  rw [List.concat_eq_append] at *
  rw [List.dropLast_concat] at h1
  exact ⟨e, m, rfl, h3, h5, h1, h2⟩

theorem set_holds {k : Option ι} {t : Tree} {s' : Sys} {p : List Str} {d : Bytes} (h : Holds r s k t) (hp : Fit p) (hp0 : p ≠ [])
    (h1 : siteV r s' k p = some (.file d)) (h2 : ∀ x, x ≠ p → siteV r s' k x = siteV r s k x) : Holds r s' k (t.set p (.file d)) := by
  refine holds_of (fun x => ?_) (Tree.nodup_set h.keys _ _) (fun x => ?_) (fun x => ?_) <;> rw [Tree.get_set hp0] <;> by_cases c : x = p
  · rw [c, h1, if_pos rfl]
  · rw [h2 x c, if_neg c, h.here]
  · exact fun _ => c ▸ hp
  · rw [if_neg c]; exact h.fits
  · rw [if_pos c]; simp
  · rw [if_neg c]; exact h.noOther _

theorem del_holds {k : Option ι} {t : Tree} {s' : Sys} {p : List Str} (h : Holds r s k t) (hp0 : p ≠ [])
    (h1 : siteV r s' k p = none) (h2 : ∀ x, x ≠ p → siteV r s' k x = siteV r s k x) : Holds r s' k (t.del p) := by
  refine holds_of (fun x => ?_) (Tree.nodup_del h.keys _) (fun x => ?_) (fun x => ?_) <;> rw [Tree.get_del hp0] <;> by_cases c : x = p
  · rw [c, h1, if_pos rfl]
  · rw [h2 x c, if_neg c, h.here]
  · rw [if_pos c]; exact fun e => absurd rfl e
  · rw [if_neg c]; exact h.fits
  · rw [if_pos c]; simp
  · rw [if_neg c]; exact h.noOther _

theorem cut_holds {k : Option ι} {t : Tree} {s' : Sys} {p : List Str} (h : Holds r s k t) (hp0 : p ≠ [])
    (h1 : ∀ x, siteV r s' k (p ++ x) = none) (h2 : ∀ x, ¬ p <+: x → siteV r s' k x = siteV r s k x) : Holds r s' k (t.cut p) := by
  refine holds_of (fun x => ?_) (Tree.nodup_cut h.keys _) (fun x => ?_) (fun x => ?_) <;> rw [Tree.get_cut h.keys hp0] <;> by_cases c : p <+: x
  · rw [if_pos c]; obtain ⟨y, rfl⟩ := c; exact h1 y
  · rw [h2 x c, if_neg c, h.here]
  · rw [if_pos c]; exact fun e => absurd rfl e
  · rw [if_neg c]; exact h.fits
  · rw [if_pos c]; simp
  · rw [if_neg c]; exact h.noOther _

/-- moving what is not there, to or from a memory file system -/
theorem move_missing (h : SysOk E r s) {k k' : Option ι} (hkk : k ≠ none ∨ k' ≠ none) {cs : List Str} (hn : Nm cs) (hc : Clear (siteV r s k) cs)
    (hv : siteV r s k cs = none) (ds : List Str) (depth : Nat) :
    uMove sysOps depth (siteAt E k cs) (siteAt E k' ds) s = (.error .fileDoesNotExist, s) := by
  have e' : uIsfile sysOps (siteAt E k cs) s = (.ok false, s) :=
    (site_wc h hn _ _).trans ((site_isfile h hn hc).trans (by rw [hv]; rfl))
  refine (site_wc h hn _ _).trans ?_
  rw [noMoveSelf hkk]
  dsimp only
  unfold Any.move
  rw [bind_ok e']
  exact bind_error (C87_copy_missing h hn hc hv _ depth true [] true)

variable [DecidableEq κ]

/-- one tree became another -/
theorem Rels.at_ (h : Rels E r site F T s) (hs : Function.Injective site) {k : κ} {t : Tree} {s' : Sys} (hok : SysOk E r s')
    (h1 : Holds r s' (site k) t) (h2 : ∀ j p, j ≠ site k → siteV r s' j p = siteV r s j p) : Rels E r site F (setAt T k t) s' := by
  refine ⟨hok, fun j => ?_, fun j hj => ?_⟩
  · unfold setAt
    split
    · rename_i c; rw [c]; exact h1
    · rename_i c; exact (h.here j).stays fun p => h2 _ p fun e => c (hs e)
  · rw [show siteV r s' j = siteV r s j from funext fun p => h2 j p (hj k ·.symm)]; exact h.there j hj

/-- two trees became others -/
theorem Rels.at2 (h : Rels E r site F T s) (hs : Function.Injective site) {k k' : κ} {t t' : Tree} {s' : Sys} (hok : SysOk E r s')
    (h1 : Holds r s' (site k) t) (h1' : Holds r s' (site k') t')
    (h2 : ∀ j p, j ≠ site k → j ≠ site k' → siteV r s' j p = siteV r s j p) : Rels E r site F (setAt (setAt T k' t') k t) s' := by
  refine ⟨hok, fun j => ?_, fun j hj => ?_⟩
  · unfold setAt
    split
    · rename_i c; rw [c]; exact h1
    · rename_i c
      split
      · rename_i c'; rw [c']; exact h1'
      · rename_i c'; exact (h.here j).stays fun p => h2 _ p (fun e => c (hs e)) fun e => c' (hs e)
  · rw [show siteV r s' j = siteV r s j from funext fun p => h2 j p (hj k ·.symm) (hj k' ·.symm)]; exact h.there j hj

/-- copying from one place to another -/
theorem outs_copy (hr : Function.Injective r) (hs : Function.Injective site) (h : Rels E r site F T s) {k k' : κ} (hne : k ≠ k')
    (hm : May (site k) (site k')) {a q : List Str} {n : Str} (hp : Fit (a ++ [n])) (hq : Fit q) (hqn : Fit (q ++ [n])) (depth : Nat)
    (b : Bool) (ig : List Str) (fl : Bool) :
    Outs E r site F (xCopy depth k (a ++ [n]) k' q b ig T)
      (uCopy sysOps depth (siteAt E (site k) (a ++ [n])) (siteAt E (site k') q) b ig fl s) := by
  have hK := h.here k
  have hK' := h.here k'
  have hne' : site k ≠ site k' := fun c => hne (hs c)
  unfold xCopy
  dsimp only
  split
  · exact .out _ _
  rename_i hw
  rw [not_not] at hw
  have hc := holds_clear h.ok hK hw
  split
  · rename_i hg
    rw [C87_copy_missing h.ok hp.nm hc (by rw [hK.here]; exact hg)]
    exact .same h
  · rename_i d hg
    rw [← hK.here] at hg
    split
    · rename_i hb
      subst hb
      rw [C87_copy_file h.ok hp.nm hc hg]
      exact .same h
    · rename_i hb
      rw [Bool.not_eq_true] at hb
      subst hb
      split
      · rename_i hR
        obtain ⟨e, m, h1, h2, h3, h4, h5⟩ := room_facts hK' hq hqn hR
        rw [h1]
        obtain ⟨s', g1, g2, g3, g4⟩ := C77_file hr h.ok hm hp.nm hg hq.nm h2.nm h3 h4 h5 (fun c => hne' c.1) depth ig fl
        rw [g1]
        exact .same (h.at_ hs g2 (set_holds hK' h2 (by simp) g3 fun x hx => g4 _ x fun c => hx c.2) fun j p hj => g4 j p fun c => hj c.1)
      · exact .out _ _
  · rename_i hg
    split
    · rename_i hb
      rw [Bool.not_eq_true'] at hb
      subst hb
      rw [C87_copy_dir h.ok hp.nm hc (by rw [hK.here]; exact hg)]
      exact .same h
    · rename_i hb
      have hb : b = true := by simpa using hb
      subst hb
      split
      · rename_i hO
        obtain ⟨e, h1, h2, h3, h4, h5, h6, h7, h8, h9⟩ := over_facts hK hK' hq hqn hg hO
        rw [h1]
        obtain ⟨s', g1, g2, g3, g4, g5, g6⟩ := C88_copy hr h.ok hm h2 hq.nm h3.nm h4 h5 h6 h7 (fun c => hne' c.1) h8 h9 fl
        rw [g1]
        exact .same (h.at_ hs g2 (over_holds hK hK' h3 h4 g3 g4 g5 fun p hp' => g6 _ p fun c => hp' c.2) fun j p hj => g6 j p fun c => hj c.1)
      · exact .out _ _
  · exact .out _ _

/-- moving from one place to another -/
theorem outs_move (hr : Function.Injective r) (hs : Function.Injective site) (h : Rels E r site F T s) {k k' : κ} (hne : k ≠ k')
    (hm : May (site k) (site k')) {a q : List Str} {n : Str} (hp : Fit (a ++ [n])) (hq : Fit q) (hqn : Fit (q ++ [n])) (depth : Nat) :
    Outs E r site F (xMove depth k (a ++ [n]) k' q T)
      (uMove sysOps depth (siteAt E (site k) (a ++ [n])) (siteAt E (site k') q) s) := by
  have hK := h.here k
  have hK' := h.here k'
  have hne' : site k ≠ site k' := fun c => hne (hs c)
  have hkk : site k ≠ none ∨ site k' ≠ none := by
    by_contra c
    rw [not_or, not_not, not_not] at c
    exact hne' (c.1.trans c.2.symm)
  unfold xMove
  dsimp only
  split
  · rename_i d hg
    rw [← hK.here] at hg
    split
    · rename_i hR
      obtain ⟨e, m, h1, h2, h3, h4, h5⟩ := room_facts hK' hq hqn hR
      rw [h1]
      obtain ⟨s', g1, g2, g3, g4, g5⟩ := C79_file hr h.ok hm hkk hp.nm hg hq.nm h2.nm h3 h4 h5 (fun c => hne' c.1) depth
      rw [g1]
      exact .same (h.at2 hs g2 (del_holds hK (by simp) g4 fun x hx => g5 _ x (fun c => hne' c.1) fun c => hx c.2)
        (set_holds hK' h2 (by simp) g3 fun x hx => g5 _ x (fun c => hx c.2) fun c => hne' c.1.symm)
        fun j p hj hj' => g5 j p (fun c => hj' c.1) fun c => hj c.1)
    · exact .out _ _
  · rename_i hg
    split
    · rename_i hO
      obtain ⟨e, h1, h2, h3, h4, h5, h6, h7, h8, h9⟩ := over_facts hK hK' hq hqn hg hO
      rw [h1]
      obtain ⟨s', g1, g2, g3, g4, g5, g6, g7⟩ := C88_move hr h.ok hm hkk h2 hq.nm h3.nm h4 h5 h6 h7 (fun c => hne' c.1) h8 h9
      rw [g1]
      have hi : ∀ x, ¬ Ignored (siteV r s (site k)) [] (a ++ [n]) x := by
        rintro x ⟨_, _, _, _, c, _⟩; simp at c
      exact .same (h.at2 hs g2 (cut_holds hK (by simp) g4 fun x hx => g7 _ x (fun c => hne' c.1) fun c => hx c.2)
        (over_holds hK hK' h3 h4 g3 (fun x hx _ hv => g5 x hx hv) (fun x hx hv => g6 x hx (hv.resolve_left (hi x)))
          fun p hp' => g7 _ p (fun c => hp' c.2) fun c => hne' c.1.symm)
        fun j p hj hj' => g7 j p (fun c => hj' c.1) fun c => hj c.1)
    · exact .out _ _
  · rename_i hg
    split
    · rename_i hw
      rw [move_missing h.ok hkk hp.nm (holds_clear h.ok hK hw) (by rw [hK.here]; exact hg)]
      exact .same h
    · exact .out _ _
  · exact .out _ _

/-- one call -/
theorem outs_act (hr : Function.Injective r) (hs : Function.Injective site) {may : κ → κ → Bool}
    (hmay : ∀ k k', may k k' = true → May (site k) (site k')) (depth : Nat) (a : Acts κ) (h : Rels E r site F T s) :
    Outs E r site F (a.plain may depth T) (a.run E site depth s) := by
  cases a with
  | one k a =>
    have h1 := alike_act hr depth a (T k) s ((h.here k).rel h.ok)
    unfold Acts.plain Acts.run oneAt
    dsimp only
    revert h1
    generalize a.plain depth (T k) = x
    generalize a.run E (site k) depth s = y
    intro h1
    have key : ∀ {t s'}, Rel E r (site k) (siteV r s) t s' → Rels E r site F (setAt T k t) s' := fun hrel =>
      h.at_ hs hrel.ok (holds_of_rel hrel) fun j p hj => by rw [hrel.there j hj]
    cases h1 with
    | out => exact .out _ _
    | ok hab hrel => cases hab; exact .same (key hrel)
    | err hrel => exact .same (key hrel)
  | copy k p k' q b ig fl =>
    by_cases hc : k ≠ k' ∧ may k k' ∧ (Act.move p q).Fit
    · rw [show Acts.plain may depth (.copy k p k' q b ig fl) = (do xCopy depth k p k' q b ig; pure Ans.unit) from if_pos hc]
      unfold Acts.run
      obtain ⟨h1, h2, h3, h4, h5, h6⟩ := hc
      rcases List.eq_nil_or_concat p with rfl | ⟨a, n, rfl⟩
      · exact absurd rfl h3
      rw [List.concat_eq_append] at *
      exact .unit rfl rfl (outs_copy hr hs h h1 (hmay _ _ h2) h4 h5 (by simpa using h6) depth b ig fl)
    · rw [show Acts.plain may depth (.copy k p k' q b ig fl) = OM.raise .outside from if_neg hc]
      exact .out _ _
  | move k p k' q =>
    by_cases hc : k ≠ k' ∧ may k k' ∧ (Act.move p q).Fit
    · rw [show Acts.plain may depth (.move k p k' q) = (do xMove depth k p k' q; pure Ans.unit) from if_pos hc]
      unfold Acts.run
      obtain ⟨h1, h2, h3, h4, h5, h6⟩ := hc
      rcases List.eq_nil_or_concat p with rfl | ⟨a, n, rfl⟩
      · exact absurd rfl h3
      rw [List.concat_eq_append] at *
      exact .unit rfl rfl (outs_move hr hs h h1 (hmay _ _ h2) h4 h5 (by simpa using h6) depth)
    · rw [show Acts.plain may depth (.move k p k' q) = OM.raise .outside from if_neg hc]
      exact .out _ _

theorem execs_rel (hr : Function.Injective r) (hs : Function.Injective site) {may : κ → κ → Bool}
    (hmay : ∀ k k', may k k' = true → May (site k) (site k')) (depth : Nat) (pr : Prg (Acts κ)) : ∀ (n : Nat) {T : κ → Tree} {s : Sys},
    Rels E r site F T s → (∀ x ∈ (pr.exec (Acts.plain may depth) n T).1, x ≠ .error .outside) →
    (pr.exec (Acts.run E site depth) n s).1 = (pr.exec (Acts.plain may depth) n T).1 ∧
      Rels E r site F (pr.exec (Acts.plain may depth) n T).2 (pr.exec (Acts.run E site depth) n s).2
  | 0, _, _, h, _ => ⟨rfl, h⟩
  | n + 1, T, s, h, hq => by
    cases hp : pr (pr.exec (Acts.plain may depth) n T).1 with
    | none =>
      rw [exec_none hp] at hq ⊢
      obtain ⟨h1, h2⟩ := execs_rel hr hs hmay depth pr n h hq
      rw [exec_none (by rw [h1, hp])]
      exact ⟨h1, h2⟩
    | some a =>
      rw [exec_some hp] at hq ⊢
      obtain ⟨h1, h2⟩ := execs_rel hr hs hmay depth pr n h fun x hx => hq x (by simp [hx])
      rw [exec_some (by rw [h1, hp])]
      have h3 := outs_act hr hs hmay depth a h2
      have h4 := hq _ (List.mem_append_right _ (List.mem_singleton.2 rfl))
      dsimp only
      revert h3 h4
      generalize a.plain may depth (pr.exec (Acts.plain may depth) n T).2 = x
      generalize a.run E site depth (pr.exec (Acts.run E site depth) n s).2 = y
      intro h3 h4
      cases h3 with
      | out => exact absurd rfl h4
      | same hrel => exact ⟨by rw [h1], hrel⟩

/-- a program that works in several memory file systems and on local files, and copies and moves between them, gets the
    answers and the trees of several plain file systems, and what is in other places stays -/
theorem C115_plain (hr : Function.Injective r) (hs : Function.Injective site) {may : κ → κ → Bool}
    (hmay : ∀ k k', may k k' = true → May (site k) (site k')) (hok : SysOk E r s) (h : ∀ k, Holds r s (site k) (T k)) (depth : Nat)
    (pr : Prg (Acts κ)) (n : Nat) (hq : ∀ x ∈ (pr.exec (Acts.plain may depth) n T).1, x ≠ .error .outside) :
    (pr.exec (Acts.run E site depth) n s).1 = (pr.exec (Acts.plain may depth) n T).1 ∧
    (∀ k, Holds r (pr.exec (Acts.run E site depth) n s).2 (site k) ((pr.exec (Acts.plain may depth) n T).2 k)) ∧
    SysOk E r (pr.exec (Acts.run E site depth) n s).2 ∧
    ∀ j, (∀ k, site k ≠ j) → siteV r (pr.exec (Acts.run E site depth) n s).2 j = siteV r s j := by
  obtain ⟨h1, h2⟩ := execs_rel hr hs hmay depth pr n ⟨hok, h, fun _ _ => rfl⟩ hq
  exact ⟨h1, h2.here, h2.ok, h2.there⟩

/-- it does not matter which memory file systems they are, which of the places is the local one, and what else is there:
    the same answers, the same exceptions, the same trees -/
theorem C115_same {ι' : Type} {E' : ι' → Dict} {r' : ι' → Nat} {site' : κ → Option ι'} {s' : Sys} (hr : Function.Injective r)
    (hr' : Function.Injective r') (hs : Function.Injective site) (hs' : Function.Injective site') {may : κ → κ → Bool}
    (hmay : ∀ k k', may k k' = true → May (site k) (site k') ∧ May (site' k) (site' k')) (hok : SysOk E r s) (hok' : SysOk E' r' s')
    (h : ∀ k, Holds r s (site k) (T k)) (hv : ∀ k, siteV r' s' (site' k) = siteV r s (site k)) (depth : Nat) (pr : Prg (Acts κ)) (n : Nat)
    (hq : ∀ x ∈ (pr.exec (Acts.plain may depth) n T).1, x ≠ .error .outside) :
    (pr.exec (Acts.run E' site' depth) n s').1 = (pr.exec (Acts.run E site depth) n s).1 ∧
    ∀ k, siteV r' (pr.exec (Acts.run E' site' depth) n s').2 (site' k) = siteV r (pr.exec (Acts.run E site depth) n s).2 (site k) := by
  have h' : ∀ k, Holds r' s' (site' k) (T k) := fun k => ⟨fun p => by rw [hv]; exact (h k).here p, (h k).keys,
    fun p => by rw [hv]; exact (h k).fit p, fun p => by rw [hv]; exact (h k).noLink p⟩
  obtain ⟨a1, a2, -, -⟩ := C115_plain hr hs (fun k k' c => (hmay k k' c).1) hok h depth pr n hq
  obtain ⟨b1, b2, -, -⟩ := C115_plain hr' hs' (fun k k' c => (hmay k k' c).2) hok' h' depth pr n hq
  exact ⟨by rw [b1, a1], fun k => funext fun p => by rw [(b2 k).here, (a2 k).here]⟩

end

/-! ## A concrete case: the twin places of C112, and copying and moving between them -/

/-- the local files (`false`) and the memory file system (`true`), or the other way round (`sw`) -/
def twinSite (sw : Bool) (b : Bool) : Option Unit := if b = sw then none else some ()

theorem twinSite_inj (sw : Bool) : Function.Injective (twinSite sw) := by
  intro a b h
  revert a b sw
  decide

/-- calls one after the other, whatever they answer -/
def listPrgs {κ : Type} (l : List (Acts κ)) : Prg (Acts κ) := fun xs => l[xs.length]?

/-- a tree goes over, something is added, it comes back over what was there, a file is moved, and what is not there is not
    copied -/
def crossPrg : Prg (Acts Bool) := listPrgs [.copy true [cl!"a"] false [cl!"b"] true [] true, .one false (.write [cl!"b", cl!"g"] [[7]]),
  .one false (.mkdir [cl!"b", cl!"i"]), .one false (.write [cl!"b", cl!"i", cl!"h"] [[8]]),
  .one false (.write [cl!"b", cl!"f"] [[9]]),
  .copy false [cl!"b"] true [cl!"b"] true [cl!"i"] true, .move true [cl!"b", cl!"g"] false [cl!"a"], .move false [cl!"b"] true [cl!"b"],
  .one true (.walk [] true true), .one false (.walk [] true true), .one true (.read [cl!"b", cl!"b", cl!"f"]), .one false (.read [cl!"a", cl!"g"]),
  .copy true [cl!"n"] false [cl!"a"] false [] true, .move true [cl!"n"] false [cl!"a"], .copy true [cl!"a"] false [cl!"a"] false [] true,
  .copy true [cl!"a", cl!"f"] false [cl!"a"] true [] true]

/-- up to the recursion limit, directories are copied with what is in them -/
theorem cross_limit : (Acts.plain (fun _ _ => true) 2 (.copy true [cl!"a"] false [cl!"b"] true [] true) fun _ : Bool => twinTree).1 = .ok .unit ∧
    (Acts.plain (fun _ _ => true) 2 (.move true [cl!"a"] false [cl!"b"]) fun _ : Bool => twinTree).1 = .ok .unit := by
  decide +kernel

theorem cross_plain : (crossPrg.exec (Acts.plain (fun _ _ => true) 50) 20 (fun _ => twinTree)).1 =
    [.ok .unit, .ok .unit, .ok .unit, .ok .unit, .ok .unit, .ok .unit, .ok .unit, .ok .unit,
     .ok (.rows [(cl!"/", [cl!"a", cl!"b"], []), (cl!"/a", [], [cl!"f"]), (cl!"/b", [cl!"b"], [cl!"f"]), (cl!"/b/b", [cl!"i"], [cl!"f", cl!"g"]),
       (cl!"/b/b/i", [], [cl!"h"])]),
     .ok (.rows [(cl!"/", [cl!"a"], []), (cl!"/a", [], [cl!"f", cl!"g"])]), .ok (.bytes [9]), .ok (.bytes [7]),
     .error .fileDoesNotExist, .error .fileDoesNotExist, .error .assertionError, .error .assertionError] := by
  decide +kernel

/-- whichever of the two places is the local one -/
example (sw : Bool) : (crossPrg.exec (Acts.run (fun _ : Unit => []) (twinSite sw) 50) 20 twinSys).1 =
    [.ok .unit, .ok .unit, .ok .unit, .ok .unit, .ok .unit, .ok .unit, .ok .unit, .ok .unit,
     .ok (.rows [(cl!"/", [cl!"a", cl!"b"], []), (cl!"/a", [], [cl!"f"]), (cl!"/b", [cl!"b"], [cl!"f"]), (cl!"/b/b", [cl!"i"], [cl!"f", cl!"g"]),
       (cl!"/b/b/i", [], [cl!"h"])]),
     .ok (.rows [(cl!"/", [cl!"a"], []), (cl!"/a", [], [cl!"f", cl!"g"])]), .ok (.bytes [9]), .ok (.bytes [7]),
     .error .fileDoesNotExist, .error .fileDoesNotExist, .error .assertionError, .error .assertionError] :=
  (C115_plain unit_inj (twinSite_inj sw) (may := fun _ _ => true) (by revert sw; unfold May; decide) twin_ok (fun k => twin_holds _) 50 crossPrg 20
    (by rw [cross_plain]; decide)).1.trans cross_plain

/-- turning the places round changes nothing -/
example : (crossPrg.exec (Acts.run (fun _ : Unit => []) (twinSite true) 50) 20 twinSys).1 =
    (crossPrg.exec (Acts.run (fun _ : Unit => []) (twinSite false) 50) 20 twinSys).1 :=
  (C115_same (T := fun _ => twinTree) unit_inj unit_inj (twinSite_inj false) (twinSite_inj true) (may := fun _ _ => true) (by unfold May; decide) twin_ok twin_ok
    (fun k => twin_holds _) (fun k => funext fun p => by rw [(twin_holds _).here, (twin_holds _).here]) 50 crossPrg 20
    (by rw [cross_plain]; decide)).1

end Verif.Props
