import Verif.Spec.Uri
/-! # Parsing facts: how the model of the parser treats well-formed URI strings -/
namespace Verif
open Spec

theorem findInner_none {s : Str} (h : hasSub cl!"((" s = false) : findInner s = none := by
  fun_induction findInner s with
  | case1 r b t h' => simp [hasSub, List.isPrefixOf] at h
  | case2 r h' ih => simp [hasSub, List.isPrefixOf] at h
  | case3 c r hn ih =>
    simp only [hasSub, Bool.or_eq_false_iff] at h
    simp [ih h.2]
  | case4 => rfl

theorem findInner_skip {a s : Str} (h : '(' ∉ a) :
    findInner (a ++ s) = (findInner s).map fun (x, m, t) => (a ++ x, m, t) := by
  induction a with
  | nil => simp
  | cons c a ih =>
    have hc : c ≠ '(' := fun h' => h (by simp [h'])
    have ih' := ih (fun h' => h (by simp [h']))
    rw [List.cons_append, findInner]
    · rw [ih']; cases findInner s <;> simp
    · intro r h1 _; exact hc h1

/-- the lazy scan stops at the first `))` -/
theorem closeInner_append {x r : Str} (hn : '\n' ∉ x) (hd : hasSub cl!"))" x = false)
    (hl : ∀ y, x ≠ y ++ [')']) : closeInner (x ++ ')' :: ')' :: r) = some (x, r) := by
  induction x with
  | nil => rfl
  | cons c x ih =>
    have hc : c ≠ '\n' := fun h' => hn (by simp [h'])
    have ih' := ih (fun h' => hn (by simp [h']))
      (by simp only [hasSub, Bool.or_eq_false_iff] at hd; exact hd.2)
      (fun y hy => hl (c :: y) (by simp [hy]))
    rw [List.cons_append, closeInner]
    · simp [hc, ih']
    · intro r' h1 h2
      cases x with
      | nil => exact hl [] (by simp [h1])
      | cons d x =>
        simp at h2
        simp [hasSub, List.isPrefixOf, h1, h2.1] at hd

theorem closeInner_append' {x r : Str} (hn : '\n' ∉ x) (hd : hasSub cl!"))" (x ++ [')']) = false) :
    closeInner (x ++ ')' :: ')' :: ')' :: r) = some (x, ')' :: r) := by
  apply closeInner_append hn
  · cases h : hasSub cl!"))" x with
    | false => rfl
    | true => rw [hasSub_append_left h] at hd; simp at hd
  · rintro y rfl
    have : hasSub cl!"))" (y ++ (cl!"))" ++ [])) = true := hasSub_mid
    simp at this hd
    rw [this] at hd; simp at hd

theorem reMatch_clean {s A P : Str} {q : Option Str} (hs : s ≠ [])
    (hsc : NoneOf cl!":/?#" s) (hA : NoneOf cl!"/?#" A) (hP : NoneOf cl!"?#" P)
    (hP' : ∀ c r, P = c :: r → c = '/') (hq : ∀ x, q = some x → NoneOf cl!"#" x) :
    reMatch (s ++ cl!"://" ++ A ++ P ++ qs q) = ⟨some s, some A, P, q, none⟩ := by
  have e1 : reScheme (s ++ cl!"://" ++ A ++ P ++ qs q) = (some s, cl!"//" ++ A ++ P ++ qs q) := by
    have h1 : ∀ c ∈ s, (!(c == ':' || c == '/' || c == '?' || c == '#')) = true := by
      intro c hc; have := hsc c hc; simp at this; simp [this]
    have h2 : ∀ c r, (cl!"://" ++ A ++ P ++ qs q) = c :: r →
        (!(c == ':' || c == '/' || c == '?' || c == '#')) = false := by
      intro c r h; simp at h; simp [← h.1]
    have e : s ++ cl!"://" ++ A ++ P ++ qs q = s ++ (cl!"://" ++ A ++ P ++ qs q) := by simp
    rw [e]
    simp only [reScheme, takeWhile_stop h1 h2, dropWhile_stop h1 h2]
    simp [hs]
  have tail : ∀ c r, P ++ qs q = c :: r → c = '/' ∨ c = '?' := by
    intro c r h
    cases P with
    | nil => cases q <;> simp [qs] at h; simp [← h.1]
    | cons d P => simp at h; exact .inl (h.1 ▸ hP' _ _ rfl)
  have e2 : reAuthority (cl!"//" ++ A ++ P ++ qs q) = (some A, P ++ qs q) := by
    have h1 : ∀ c ∈ A, (!(c == '/' || c == '?' || c == '#')) = true := by
      intro c hc; have := hA c hc; simp at this; simp [this]
    have h2 : ∀ c r, P ++ qs q = c :: r → (!(c == '/' || c == '?' || c == '#')) = false := by
      intro c r h; rcases tail c r h with h | h <;> simp [h]
    have e : cl!"//" ++ A ++ P ++ qs q = '/' :: '/' :: (A ++ (P ++ qs q)) := by simp
    rw [e]
    simp only [reAuthority, takeWhile_stop h1 h2, dropWhile_stop h1 h2]
  have e3 : rePath (P ++ qs q) = (P, qs q) := by
    have h1 : ∀ c ∈ P, (!(c == '?' || c == '#')) = true := by
      intro c hc; have := hP c hc; simp at this; simp [this]
    have h2 : ∀ c r, qs q = c :: r → (!(c == '?' || c == '#')) = false := by
      intro c r h; cases q <;> simp [qs] at h; simp [← h.1]
    simp only [rePath, takeWhile_stop h1 h2, dropWhile_stop h1 h2]
  have e4 : reQuery (qs q) = (q, []) := by
    cases q with
    | none => rfl
    | some x =>
      have h1 : ∀ c ∈ x, (!(c == '#')) = true := by
        intro c hc; have := hq x rfl c hc; simp at this; simp [this]
      have h2 : ∀ c r, ([] : Str) = c :: r → (!(c == '#')) = false := by simp
      have t1 := takeWhile_stop h1 h2
      have t2 := dropWhile_stop h1 h2
      simp only [List.append_nil] at t1 t2
      simp only [qs, List.cons_append, List.nil_append, reQuery, t1, t2]
  simp only [reMatch, e1, e2, e3, e4, reFragment]

theorem urisplitPost_plain {inner A P s : Str} {q : Option Str} (hi : hasSub INNER A = false)
    (hd : A ≠ cl!".") :
    urisplitPost inner ⟨some s, some A, P, q, none⟩ = .ok ⟨some s, some A, P, q, none⟩ := by
  simp only [urisplitPost, replaceS_of_no_sub hi, if_neg hd]
  split <;> rfl

/-- `urisplit` on `scheme://netloc/path?query` (uriparse.py:60-89) -/
theorem urisplit_clean {b : Base} {P : Str} {q : Option Str} (hb : b.Ok)
    (hP : NoneOf cl!"?#" P) (hP' : ∀ c r, P = c :: r → c = '/')
    (hPi : hasSub cl!"((" P = false)
    (hq : ∀ x, q = some x → NoneOf cl!"#" x ∧ hasSub cl!"((" x = false) :
    urisplit (b.str ++ P ++ qs q) = .ok ⟨some b.scheme, some b.netloc.str, P, q, none⟩ := by
  obtain ⟨hlen, hch, hnl, hfile⟩ := hb
  obtain ⟨s, nl⟩ := b
  simp only [Base.str] at *
  have hs : s ≠ [] := by intro h; simp [h] at hlen
  have hsc : NoneOf cl!":/?#" s := fun c hc => by
    have := hch c hc; simp at this ⊢; tauto
  have hsp : '(' ∉ s := hch.not_mem (by simp)
  have hsp2 : '(' ∉ s ++ cl!"://" := by simp [hsp]
  have hdq : hasSub cl!"((" (qs q) = false := by
    cases q with
    | none => rfl
    | some x => simp only [qs, List.cons_append, List.nil_append]; rw [hasDbl_cons (by decide)]; exact (hq x rfl).2
  have hdp : hasSub cl!"((" (P ++ qs q) = false := by
    cases q with
    | none => simpa [qs] using hPi
    | some x =>
      simp only [qs, List.cons_append, List.nil_append]
      rw [hasDbl_append (by decide), hPi, (hq x rfl).2]; rfl
  cases nl with
  | plain a =>
    obtain ⟨h1, h2, h3, h4, -⟩ := hnl
    have hA : NoneOf cl!"/?#" a := fun c hc => by
      have := h1 c hc; simp at this ⊢; tauto
    have hno : hasSub cl!"((" (s ++ cl!"://" ++ a ++ P ++ qs q) = false := by
      rw [List.append_assoc, List.append_assoc (s ++ cl!"://"), hasDbl_append_of_not_mem hsp2]
      cases hPq : P ++ qs q with
      | nil => simpa using h2
      | cons c r =>
        have hc : c ≠ '(' := by
          cases P with
          | nil => cases q <;> simp [qs] at hPq; simp [← hPq.1]
          | cons d P => simp at hPq; rw [← hPq.1, hP' _ _ rfl]; decide
        rw [hasDbl_append hc, h2]
        rw [hPq, hasDbl_cons hc] at hdp
        simpa using hdp
    simp only [Netloc.str, urisplit, findInner_none hno]
    rw [reMatch_clean hs hsc hA hP hP' (fun x hx => (hq x hx).1)]
    exact urisplitPost_plain h3 h4
  | vpath x =>
    obtain ⟨hx0, hx1, hx2⟩ := hnl
    have hxn : '\n' ∉ x := hx1.not_mem (by simp)
    have key : ∀ (y t : Str), findInner (s ++ cl!"://" ++ (cl!"((" ++ x ++ cl!"))") ++ P ++ qs q)
          = some (s ++ cl!"://", cl!"((" ++ y ++ cl!"))", t ++ P ++ qs q) →
        NoneOf cl!"/?#" t → replaceS INNER (cl!"((" ++ y ++ cl!"))") (INNER ++ t)
          = cl!"((" ++ x ++ cl!"))" →
        urisplit (s ++ cl!"://" ++ (cl!"((" ++ x ++ cl!"))") ++ P ++ qs q)
          = .ok ⟨some s, some (cl!"((" ++ x ++ cl!"))"), P, q, none⟩ := by
      intro y t hf ht hr
      simp only [urisplit, hf]
      have e : s ++ cl!"://" ++ INNER ++ (t ++ P ++ qs q)
          = s ++ cl!"://" ++ (INNER ++ t) ++ P ++ qs q := by simp
      rw [e, reMatch_clean hs hsc (NoneOf.append.2 ⟨by decide, ht⟩) hP hP' (fun x hx => (hq x hx).1)]
      simp only [urisplitPost, hr]
      rw [if_neg (by simp : ¬ (cl!"((" ++ x ++ cl!"))" = cl!"."))]
      simp only
      split <;> rfl
    simp only [Netloc.str]
    by_cases hl : ∃ y, x = y ++ [')']
    · obtain ⟨y, rfl⟩ := hl
      apply key y [')']
      · rw [show s ++ cl!"://" ++ (cl!"((" ++ (y ++ [')']) ++ cl!"))") ++ P ++ qs q
            = (s ++ cl!"://") ++ ('(' :: '(' :: (y ++ ')' :: ')' :: ')' :: (P ++ qs q))) by simp]
        rw [findInner_skip hsp2, findInner]
        rw [closeInner_append' (fun h => hxn (by simp [h])) hx2]
        simp
      · intro c hc; simp at hc; simp [hc]
      · simp [replaceS, INNER, replaceAux, List.isPrefixOf]
    · apply key x []
      · rw [show s ++ cl!"://" ++ (cl!"((" ++ x ++ cl!"))") ++ P ++ qs q
            = (s ++ cl!"://") ++ ('(' :: '(' :: (x ++ ')' :: ')' :: (P ++ qs q))) by simp]
        rw [findInner_skip hsp2, findInner]
        rw [closeInner_append hxn hx2 (fun y hy => hl ⟨y, hy⟩)]
        simp
      · exact NoneOf.nil
      · simp [replaceS, INNER, replaceAux, List.isPrefixOf]

end Verif
