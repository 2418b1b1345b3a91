import Verif.Zip.Model
import Verif.Py.StrLemmas
import Verif.Py.SortLemmas
import Verif.Uri.JoinLemmas
/-! # Paths of members, and what holds in every reachable state of the zip backend -/
namespace Verif.Zip

theorem joinS_append {c : Char} {l m : List Str} (hl : l ≠ []) (hm : m ≠ []) :
    joinS [c] (l ++ m) = joinS [c] l ++ c :: joinS [c] m := by
  induction l with
  | nil => exact absurd rfl hl
  | cons x l ih =>
    cases l with
    | nil =>
      cases m with
      | nil => exact absurd rfl hm
      | cons y m => simp [joinS]
    | cons y l => simpa [joinS] using ih (by simp)

theorem splitC_inj {c : Char} {a b : Str} (h : splitC c a = splitC c b) : a = b := by
  rw [← joinS_splitC (c := c) (s := a), h, joinS_splitC]

/-- the components of `n` go on after those of `p` iff `n` is `p`, '/' and more -/
theorem splitC_prefix {p n : Str} {t : List Str} (h : splitC '/' n = splitC '/' p ++ t) (ht : t ≠ []) :
    ∃ rest, n = p ++ '/' :: rest ∧ splitC '/' rest = t := by
  have hn : n = p ++ '/' :: joinS ['/'] t := by
    rw [← joinS_splitC (c := '/') (s := n), h, joinS_append splitC_ne_nil ht, joinS_splitC]
  refine ⟨_, hn, ?_⟩
  rw [hn, splitC_append_sep] at h
  exact List.append_cancel_left h

theorem length_split_pos {c : Char} {s : Str} : 0 < (splitC c s).length :=
  List.length_pos_iff.mpr splitC_ne_nil

theorem compareParts_isdir {p n : Str} :
    compareParts (splitC '/' p) (splitC '/' n) = .isdir ↔ ∃ rest, n = p ++ '/' :: rest := by
  unfold compareParts
  constructor
  · intro h
    split at h
    · cases h
    · rename_i h1
      split at h
      · rename_i h2
        have h1 := of_not_not h1
        obtain ⟨rest, h3, _⟩ := splitC_prefix (p := p) (n := n) (t := (splitC '/' n).drop (splitC '/' p).length)
          (by conv_lhs => rw [← List.take_append_drop (splitC '/' p).length (splitC '/' n), h1])
          (by rw [← List.length_pos_iff, List.length_drop]; omega)
        exact ⟨rest, h3⟩
      · cases h
  · rintro ⟨rest, rfl⟩
    rw [splitC_append_sep, if_neg (by simp), if_pos]
    have := length_split_pos (c := '/') (s := rest)
    simp only [List.length_append]; omega

theorem comparePathStrings_isfile {p n : Str} : comparePathStrings p n = .isfile ↔ n = p := by
  unfold comparePathStrings
  constructor
  · intro h
    split at h
    · cases h
    split at h
    · rename_i h1; exact h1.symm
    · rename_i h1
      dsimp only at h
      split at h
      · cases h
      · rename_i h2
        unfold compareParts at h
        split at h
        · cases h
        · rename_i h3
          split at h
          · cases h
          · rename_i h4
            have h3 := of_not_not h3
            rw [List.take_of_length_le (by omega)] at h3
            exact splitC_inj h3
  · rintro rfl
    simp

theorem comparePathStrings_isdir {p n : Str} :
    comparePathStrings p n = .isdir ↔ ∃ rest, n = p ++ '/' :: rest := by
  unfold comparePathStrings
  constructor
  · intro h
    split at h
    · cases h
    split at h
    · cases h
    dsimp only at h
    split at h
    · cases h
    exact compareParts_isdir.mp h
  · rintro ⟨rest, rfl⟩
    rw [if_neg (by simp), if_neg, if_neg (by rw [splitC_append_sep]; simp), compareParts_isdir]
    · exact ⟨rest, rfl⟩
    · intro h
      have := congrArg List.length h
      simp at this

theorem split_head {c : Char} {s x : Str} {l : List Str} (h : splitC c s = x :: l) :
    c ∉ x ∧ ∃ t, s = x ++ t ∧ (t = [] ∨ ∃ r, t = c :: r) := by
  refine ⟨splitC_mem_not_mem (s := s) (by rw [h]; simp), ?_⟩
  have hj := joinS_splitC (c := c) (s := s)
  rw [h] at hj
  cases l with
  | nil => exact ⟨[], by simpa [joinS] using hj.symm, .inl rfl⟩
  | cons y l => exact ⟨c :: joinS [c] (y :: l), by simpa [joinS] using hj.symm, .inr ⟨_, rfl⟩⟩

theorem getD_split {c : Char} {x t : Str} (hx : c ∉ x) (ht : t = [] ∨ ∃ r, t = c :: r) :
    (splitC c (x ++ t)).getD 0 [] = x := by
  rcases ht with rfl | ⟨r, rfl⟩
  · simp [splitC_of_not_mem hx]
  · rw [splitC_append hx]; rfl

theorem getD_split_iff {c : Char} {s x : Str} (hx : x ≠ []) :
    (splitC c s).getD 0 [] = x ↔ c ∉ x ∧ ∃ t, s = x ++ t ∧ (t = [] ∨ ∃ r, t = c :: r) := by
  constructor
  · intro h
    cases hs : splitC c s with
    | nil => exact absurd hs splitC_ne_nil
    | cons y l =>
      rw [hs] at h
      obtain rfl : y = x := by simpa using h
      exact split_head hs
  · rintro ⟨h1, t, rfl, h2⟩
    exact getD_split h1 h2

/-- `c` is the component after `p` in the member name `n`; '/' is the directory of the names that begin with '/' -/
def Next (p c n : Str) : Prop :=
  ∃ t, n = (if p = ['/'] then [] else p) ++ '/' :: (c ++ t) ∧ (t = [] ∨ ∃ r, t = '/' :: r)

theorem contentItem_iff {p n x : Str} (hx : x ≠ []) (hn : p = ['/'] → ∃ r, n = '/' :: r) :
    contentItem p n = x ↔ '/' ∉ x ∧ Next p x n := by
  unfold contentItem Next
  by_cases hp : p = ['/']
  · subst hp
    obtain ⟨r, rfl⟩ := hn rfl
    have hs : splitC '/' ('/' :: r) = [] :: splitC '/' r := by simp [splitC]
    have := length_split_pos (c := '/') (s := r)
    rw [if_pos ⟨rfl, by rw [hs]; simp only [List.length_cons]; omega⟩, hs]
    simp only [List.getD_cons_succ, if_true, List.nil_append, List.cons.injEq, true_and]
    exact getD_split_iff hx
  · rw [if_neg (fun h => hp h.1)]
    simp only [if_neg hp]
    by_cases hd : ∃ rest, n = p ++ '/' :: rest
    · obtain ⟨rest, rfl⟩ := hd
      have := length_split_pos (c := '/') (s := rest)
      rw [splitC_append_sep, if_neg (by simp only [List.length_append]; omega), if_neg (by simp),
        List.getD_eq_getElem?_getD, List.getElem?_append_right (Nat.le_refl _), Nat.sub_self,
        ← List.getD_eq_getElem?_getD, getD_split_iff hx]
      simp
    · constructor
      · intro h
        split at h
        · exact absurd h.symm hx
        · rename_i h1
          split at h
          · exact absurd h.symm hx
          · rename_i h2
            refine absurd (compareParts_isdir.mp ?_) hd
            unfold compareParts
            rw [if_neg h2, if_pos (by omega)]
      · rintro ⟨_, t, h, _⟩
        exact absurd ⟨_, h⟩ hd

/-- what holds of the handle: what is in it is what is in the file; or the statement of a new archive is open -/
def Ok (s : St) : Prop :=
  ∀ h, s.handle = some h →
    (h.dirty = false ∧ s.file = .archive h.entries) ∨
    (h.dirty = true ∧ h.entries = [] ∧ h.closed = false ∧ h.mode ≠ .r ∧ s.file = .raw)

/-- the archive as it is when the handle is closed -/
def stored (s : St) : List Entry :=
  match s.file with
  | .archive es => es
  | _ => []

theorem Ok.closeZip {s : St} (h : Ok s) : Ok (closeZip s) := by
  intro h' hh
  unfold Zip.closeZip at hh ⊢
  cases hs : s.handle with
  | none => rw [hs] at hh; simp [hs] at hh
  | some g =>
    rw [hs] at hh
    simp only at hh ⊢
    split at hh
    · rename_i hc
      rw [if_pos hc]
      exact h h' hh
    · rename_i hc
      rw [if_neg hc]
      obtain rfl : _ = h' := by simpa using hh
      rcases h g hs with h1 | h1
      · exact .inl ⟨rfl, by simp [h1.1, h1.2]⟩
      · exact .inl ⟨rfl, by simp [h1.1]⟩

theorem openZip_ok {s : St} (h : Ok s) (o : Option Str) : Ok (openZip o s).2 := by
  have h1 := h.closeZip
  unfold openZip
  generalize closeZip s = s' at h1
  dsimp only
  split
  · split
    · intro g hg; obtain rfl : _ = g := by simpa using hg
      rename_i hf
      exact .inl ⟨rfl, hf⟩
    all_goals exact h1
  split
  · split
    · intro g hg; obtain rfl : _ = g := by simpa using hg
      rename_i hf
      exact .inl ⟨rfl, hf⟩
    · intro g hg; obtain rfl : _ = g := by simpa using hg
      rename_i hf
      exact .inr ⟨rfl, rfl, rfl, by simp, hf⟩
    · intro g hg; obtain rfl : _ = g := by simpa using hg
      exact .inr ⟨rfl, rfl, rfl, by simp, rfl⟩
    · exact h1
  split
  · split <;> exact h1
  · exact h1

theorem openForReading_same (p : Str) (s : St) : (openForReading p s).2 = s := by
  unfold openForReading; split <;> [rfl; (split <;> rfl)]

theorem open_ok {s : St} (h : Ok s) (p : Str) (o : Option Str) : Ok (open_ p o s).2 := by
  have h1 := openZip_ok h o
  unfold open_
  split
  · rename_i e; rw [e] at h1; exact h1
  · rename_i e; rw [e] at h1
    split
    · rw [openForReading_same]; exact h1
    · exact h1

/-- storing one more entry -/
theorem closeZip_add {s : St} {h : ZHandle} (hc : h.closed = false) (e : Entry) :
    closeZip { s with handle := some { h with entries := h.entries ++ [e], dirty := true } } =
      ⟨.archive (h.entries ++ [e]), some ⟨h.mode, h.entries ++ [e], false, true⟩⟩ := by
  simp [closeZip, hc]

theorem closeZip_closed {f : Container} {m : ZMode} {es : List Entry} {d : Bool} :
    closeZip ⟨f, some ⟨m, es, d, true⟩⟩ = ⟨f, some ⟨m, es, d, true⟩⟩ := by simp [closeZip]

theorem exitWriting_ok {s : St} (h : Ok s) (p : Str) (d : Bytes) : Ok (exitWriting p d s).2 := by
  unfold exitWriting
  split
  · exact h
  · rename_i g hg
    split
    · exact h
    rename_i hc
    split
    · exact h
    split
    · exact h
    · rw [closeZip_add (by simpa using hc)]
      apply openZip_ok
      intro g' hg'
      obtain rfl : _ = g' := by simpa using hg'
      exact .inl ⟨rfl, rfl⟩

theorem ispart_same (p : Str) (e : List Cmp) (s : St) : (ispart p e s).2 = s := by
  unfold ispart; split <;> [rfl; (split <;> rfl)]

theorem listdirOpen_same (p : Str) (s : St) : (listdirOpen p s).2 = s := by
  unfold listdirOpen isdir
  have h := ispart_same p [.isdir] s
  split
  · split <;> rfl
  · split <;> rename_i e <;> rw [e] at h <;> exact h

theorem listdir_ok {s : St} (h : Ok s) (p : Str) : Ok (listdir p s).2 := by
  have h1 := openZip_ok h none
  unfold listdir
  split
  · exact h
  split
  · split
    · rename_i e; rw [e] at h1; exact h1
    · rename_i e; rw [e] at h1; rw [listdirOpen_same]; exact h1
  · rw [listdirOpen_same]; exact h

theorem Op.run_ok {s : St} (h : Ok s) (o : Op) : Ok (o.run s) := by
  cases o <;> simp only [Op.run]
  · exact open_ok h _ _
  · exact exitWriting_ok h _ _
  all_goals first | exact listdir_ok h _ | (simp only [Zip.exists_, Zip.isdir, Zip.isfile, ispart_same]; exact h)

theorem Reachable.ok {s : St} (h : Reachable s) : Ok s := by
  obtain ⟨c, ops, rfl⟩ := h
  have : ∀ ops s, Ok s → Ok (runAll ops s) := by
    intro ops
    induction ops with
    | nil => exact fun s h => h
    | cons o ops ih => exact fun s h => ih _ (Op.run_ok h o)
  exact this ops _ (by intro h hh; cases hh)

/-- opening for reading and closing: what is in the file when the handle is closed -/
theorem closeZip_file {s : St} (h : Ok s) :
    (closeZip s).file = .archive (stored s) ∨ (s.handle = none ∧ closeZip s = s) := by
  cases hh : s.handle with
  | none => exact .inr ⟨rfl, by simp [closeZip, hh]⟩
  | some g =>
    refine .inl ?_
    rcases h g hh with h1 | h1
    · simp only [closeZip, hh, stored, h1.2]
      split
      · exact h1.2
      · simp [h1.1]
    · simp [closeZip, hh, h1, stored]

end Verif.Zip
