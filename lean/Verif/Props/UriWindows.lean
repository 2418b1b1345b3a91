import Verif.Props.UriMisc
/-!
# C14: Windows paths without a drive
-/
namespace Verif.Props
open Verif.Spec

/-- a local URI with a backslash as separator, from its parts -/
theorem win_uri {w r A : Str} (hA : A = [] ∨ A = cl!".") (hs : sniffScheme w = cl!"file") (hn : normInput w = cl!"file" ++ cl!"://" ++ A ++ ('/' :: r) ++ qs none)
    (hr : NoneOf cl!"?#" r) (hi : hasSub cl!"((" r = false) :
    ∃ u, URI w '\\' = .ok u ∧ u.path = denormalizePath (A ++ '/' :: r) '\\' ∧ u.uri = cl!"file://" ++ A ++ '/' :: r := by
  have hin : hasSub cl!"((" (cl!"file" ++ cl!"://" ++ A ++ ('/' :: r) ++ qs none) = false := by
    have := hasDbl_append_of_not_mem (d := '(') (a := cl!"file://" ++ A ++ cl!"/") (b := r) (by rcases hA with rfl | rfl <;> decide)
    simp [qs]; simp at this; rw [this]; exact hi
  have hm := reMatch_clean (s := cl!"file") (A := A) (P := '/' :: r) (q := none) (by decide) (by decide)
    (by rcases hA with rfl | rfl <;> decide) (NoneOf.cons.2 ⟨by decide, hr⟩)
    (by intro c t h; simp at h; exact h.1.symm) (by simp)
  rw [URI, hs, Uri.mk']
  unfold Uri.finish UriParse.init
  rcases hA with rfl | rfl
  · have hsp : urisplit (normInput w) = .ok ⟨some cl!"file", some [], '/' :: r, none, none⟩ := by
      rw [hn, urisplit_raw hin, hm]
      rfl
    rw [hsp]
    refine ⟨_, rfl, ?_, ?_⟩
    · simp only [Uri.path]
      simp only [show classOf cl!"file" = .localfs by decide]
      simp
    · simp [hn, qs]
  · have hsp : urisplit (normInput w) = .ok ⟨some cl!"file", none, cl!"./" ++ r, none, none⟩ := by
      rw [hn, urisplit_raw hin, hm]
      rfl
    rw [hsp]
    refine ⟨_, rfl, ?_, ?_⟩
    · simp only [Uri.path]
      simp only [show classOf cl!"file" = .localfs by decide]
      simp
    · simp [hn, qs]

theorem joinS_repl {a b : Char} : ∀ {l : List Str}, (∀ c ∈ l, a ∉ c) → replaceC a b (joinS [a] l) = joinS [b] l
  | [], _ => rfl
  | [x], h => by simpa [joinS] using replaceC_of_not_mem (d := b) (h x (by simp))
  | x :: y :: l, h => by
    have hx := replaceC_of_not_mem (d := b) (h x (by simp))
    have ih := joinS_repl (b := b) (l := y :: l) (fun c hc => h c (by simp [hc]))
    simp only [joinS, replaceC, List.map_append] at hx ih ⊢
    rw [hx, ih]; simp

section
variable {cs : List Str} (hc : ∀ c ∈ cs, CleanName c)
include hc

theorem win_fwd : replaceC '\\' '/' (joinS cl!"\\" cs) = joinS cl!"/" cs := joinS_repl fun c h => (hc c h).chars.not_mem (by simp)
theorem win_back : replaceC '/' '\\' (joinS cl!"/" cs) = joinS cl!"\\" cs := joinS_repl fun c h => (hc c h).chars.not_mem (by simp)

theorem win_chars : NoneOf cl!"?#" (joinS cl!"/" cs) := by
  apply joinS_chars (p := fun c => c ∉ cl!"?#")
  · decide
  · intro s hs c hcs
    have := (hc s hs).chars c hcs
    simp at this ⊢; tauto

theorem win_slash : '/' :: joinS cl!"/" cs = (if cs = [] then cl!"/" else slash cs) := by
  split
  · rename_i h; subst h; rfl
  · rename_i h
    induction cs with
    | nil => exact absurd rfl h
    | cons x l ih =>
      cases l with
      | nil => simp [joinS, slash]
      | cons y l =>
        have := ih (fun c h => hc c (by simp [h])) (by simp)
        rw [slash_cons, ← this]; simp [joinS]

theorem win_inner : hasSub cl!"((" (joinS cl!"/" cs) = false := by
  have : hasSub cl!"((" ('/' :: joinS cl!"/" cs) = false := by
    rw [win_slash hc]
    split
    · decide
    · exact slash_noInner hc
  rwa [hasSub_cons_ne (by decide)] at this

theorem win_dbl : hasSub cl!"://" ('/' :: joinS cl!"/" cs) = false := by
  rw [win_slash hc]
  split
  · decide
  · have := slash_noDbl hc
    cases hh : hasSub cl!"://" (slash cs) with
    | false => rfl
    | true =>
      exfalso
      obtain ⟨a, b, hab⟩ := hasSub_iff.1 hh
      have : hasSub cl!"//" (slash cs) = true := hasSub_iff.2 ⟨a ++ cl!":", b, by rw [← hab]; simp⟩
      simp_all
end

/-- C14: a path from the root of the current drive: the first name has more than one letter, or is the only one, and
    does not begin with a colon. -/
theorem C14_windows_rooted {n : Str} {cs : List Str} (hc : ∀ c ∈ n :: cs, CleanName c) (h1 : n.length ≠ 1 ∨ cs = []) (h2 : ∀ t, n ≠ ':' :: t) :
    ∃ u, URI ('\\' :: joinS cl!"\\" (n :: cs)) '\\' = .ok u ∧ u.path = '\\' :: joinS cl!"\\" (n :: cs) ∧
      u.uri = cl!"file:///" ++ joinS cl!"/" (n :: cs) := by
  obtain ⟨a, n', rfl⟩ := List.exists_cons_of_ne_nil (hc n (by simp)).ne
  have ha : a ≠ '/' := fun e => (hc (a :: n') (by simp)).chars.not_mem (c := '/') (by simp) (by simp [e])
  have hw : replaceC '\\' '/' ('\\' :: joinS cl!"\\" ((a :: n') :: cs)) = '/' :: joinS cl!"/" ((a :: n') :: cs) := by
    rw [← win_fwd hc]; simp [replaceC]
  obtain ⟨R, hR⟩ : ∃ R, joinS cl!"/" ((a :: n') :: cs) = a :: R := by cases cs <;> exact ⟨_, rfl⟩
  have hn : normInput ('\\' :: joinS cl!"\\" ((a :: n') :: cs)) = cl!"file" ++ cl!"://" ++ [] ++ ('/' :: joinS cl!"/" ((a :: n') :: cs)) ++ qs none := by
    have e1 : startsWith ('\\' :: joinS cl!"\\" ((a :: n') :: cs)) cl!"file://" = false := by simp [startsWith, List.isPrefixOf]
    have e2 : normalizeUri ('\\' :: joinS cl!"\\" ((a :: n') :: cs)) '\\' = '/' :: joinS cl!"/" ((a :: n') :: cs) := by
      have hcol : a ≠ ':' := fun e => h2 n' (by rw [e])
      simp only [normalizeUri, hw, hR]
      split
      · split
        · rename_i heq; simp at heq; exact absurd heq.2.1 hcol
        · rfl
      · rename_i h; simp at h
    have e3 : startsWith ('/' :: joinS cl!"/" ((a :: n') :: cs)) cl!"/" = true := by simp [startsWith]
    unfold normInput
    rw [e1]
    simp only [Bool.false_eq_true, if_false, e2, e3, win_dbl hc]
    simp [win_dbl hc, qs]
  have hs : sniffScheme ('\\' :: joinS cl!"\\" ((a :: n') :: cs)) = cl!"file" := by
    simp [sniffScheme, show schemeChar '\\' = false by decide]
  obtain ⟨u, g1, g2, g3⟩ := win_uri (.inl rfl) hs hn (win_chars hc) (win_inner hc)
  refine ⟨u, g1, ?_, by simpa using g3⟩
  rw [g2, ← win_back hc, List.nil_append]
  have key : ∀ b R', R = b :: R' → b ≠ '/' := by
    rintro b R' rfl rfl
    cases n' with
    | nil =>
      rcases h1 with h1 | h1
      · simp at h1
      · subst h1; simp [joinS] at hR
    | cons x n' =>
      have hx : x ≠ '/' := fun e => (hc (a :: x :: n') (by simp)).chars.not_mem (c := '/') (by simp) (by simp [e])
      cases cs <;> simp [joinS] at hR <;> exact hx hR.1
  rw [hR]
  cases R with
  | nil => simp [denormalizePath, replaceC]
  | cons b R' =>
    simp only [denormalizePath]
    rw [if_neg (fun h => key b R' rfl h.2)]
    simp [replaceC]

/-- C14: a relative path with a dot in front. -/
theorem C14_windows_dot {cs : List Str} (hc : ∀ c ∈ cs, CleanName c) (hne : cs ≠ []) :
    ∃ u, URI (cl!".\\" ++ joinS cl!"\\" cs) '\\' = .ok u ∧ u.path = cl!".\\" ++ joinS cl!"\\" cs ∧
      u.uri = cl!"file://./" ++ joinS cl!"/" cs := by
  have hw : replaceC '\\' '/' (cl!".\\" ++ joinS cl!"\\" cs) = '.' :: '/' :: joinS cl!"/" cs := by
    rw [← win_fwd hc]; simp [replaceC]
  have hn : normInput (cl!".\\" ++ joinS cl!"\\" cs) = cl!"file" ++ cl!"://" ++ cl!"." ++ ('/' :: joinS cl!"/" cs) ++ qs none := by
    have e1 : startsWith (cl!".\\" ++ joinS cl!"\\" cs) cl!"file://" = false := by simp [startsWith, List.isPrefixOf]
    have e2 : normalizeUri (cl!".\\" ++ joinS cl!"\\" cs) '\\' = '.' :: '/' :: joinS cl!"/" cs := by
      simp only [normalizeUri, hw]
      simp
    have e3 : startsWith ('.' :: '/' :: joinS cl!"/" cs) cl!"." = true := by simp [startsWith]
    have e4 : hasSub cl!"://" ('.' :: '/' :: joinS cl!"/" cs) = false := by
      rw [hasSub_cons_ne (by decide)]; exact win_dbl hc
    unfold normInput
    rw [e1]
    simp only [Bool.false_eq_true, if_false, e2, e3, e4]
    simp [e4, qs]
  have hs : sniffScheme (cl!".\\" ++ joinS cl!"\\" cs) = cl!"file" := by
    simp [sniffScheme, show schemeChar '.' = false by decide]
  obtain ⟨u, g1, g2, g3⟩ := win_uri (.inr rfl) hs hn (win_chars hc) (win_inner hc)
  refine ⟨u, g1, ?_, by simpa using g3⟩
  rw [g2, ← win_back hc]
  obtain ⟨x, l, rfl⟩ := List.exists_cons_of_ne_nil hne
  obtain ⟨a, n', rfl⟩ := List.exists_cons_of_ne_nil (hc x (by simp)).ne
  have ha : a ≠ '/' := fun e => (hc (a :: n') (by simp)).chars.not_mem (c := '/') (by simp) (by simp [e])
  obtain ⟨R, hR⟩ : ∃ R, joinS cl!"/" ((a :: n') :: l) = a :: R := by cases l <;> exact ⟨_, rfl⟩
  rw [hR]
  simp only [List.cons_append, List.nil_append, denormalizePath]
  rw [if_neg (fun h => ha h.2)]
  simp [replaceC]

/-- C14: a relative path: a dot is put in front. -/
theorem C14_windows_relative {n : Str} {cs : List Str} (hc : ∀ c ∈ n :: cs, CleanName c) (h1 : ∀ t, n ≠ '.' :: t) (h2 : ∀ a t, n ≠ a :: ':' :: t) :
    ∃ u, URI (joinS cl!"\\" (n :: cs)) '\\' = .ok u ∧ u.path = cl!".\\" ++ joinS cl!"\\" (n :: cs) ∧
      u.uri = cl!"file://./" ++ joinS cl!"/" (n :: cs) := by
  obtain ⟨a, n', rfl⟩ := List.exists_cons_of_ne_nil (hc n (by simp)).ne
  have ha : a ≠ '/' := fun e => (hc (a :: n') (by simp)).chars.not_mem (c := '/') (by simp) (by simp [e])
  have hab : a ≠ '\\' := fun e => (hc (a :: n') (by simp)).chars.not_mem (c := '\\') (by simp) (by simp [e])
  have hdot : a ≠ '.' := fun e => h1 n' (by rw [e])
  have hnosl : '/' ∉ joinS cl!"\\" ((a :: n') :: cs) := by
    have := joinS_chars (p := fun c => c ≠ '/') (sep := cl!"\\") (l := (a :: n') :: cs) (by decide) (fun s hs c hcs => by
      have := (hc s hs).chars c hcs
      simp at this; tauto)
    intro hm; exact this _ hm rfl
  obtain ⟨R, hR⟩ : ∃ R, joinS cl!"/" ((a :: n') :: cs) = a :: R := by cases cs <;> exact ⟨_, rfl⟩
  have hcol : ∀ R', R ≠ ':' :: R' := by
    rintro R' rfl
    cases n' with
    | nil => cases cs <;> simp [joinS] at hR
    | cons x n' =>
      have hx : x ≠ ':' := fun e => h2 a n' (by rw [e])
      cases cs <;> simp [joinS] at hR <;> exact hx hR.1
  have hdbl : hasSub cl!"://" (joinS cl!"/" ((a :: n') :: cs)) = false := by
    have := win_dbl hc
    rwa [hasSub_cons_ne (by decide)] at this
  have hn : normInput (joinS cl!"\\" ((a :: n') :: cs)) = cl!"file" ++ cl!"://" ++ cl!"." ++ ('/' :: joinS cl!"/" ((a :: n') :: cs)) ++ qs none := by
    have e1 : startsWith (joinS cl!"\\" ((a :: n') :: cs)) cl!"file://" = false := by
      cases hs : startsWith (joinS cl!"\\" ((a :: n') :: cs)) cl!"file://" with
      | false => rfl
      | true =>
        obtain ⟨t, ht⟩ := startsWith_iff.1 hs
        rw [ht] at hnosl; simp at hnosl
    have e2 : normalizeUri (joinS cl!"\\" ((a :: n') :: cs)) '\\' = joinS cl!"/" ((a :: n') :: cs) := by
      simp only [normalizeUri, win_fwd hc, hR]
      split
      · split
        · rename_i heq; simp at heq; exact absurd heq.2 (hcol _)
        · rfl
      · rename_i h; simp at h
    have e3 : (startsWith (joinS cl!"/" ((a :: n') :: cs)) cl!"/" || startsWith (joinS cl!"/" ((a :: n') :: cs)) cl!".") = false := by
      rw [hR]; simp [startsWith, List.isPrefixOf, Ne.symm ha, Ne.symm hdot]
    have e4 : hasSub cl!"://" (cl!"./" ++ joinS cl!"/" ((a :: n') :: cs)) = false := by
      simp only [List.cons_append, List.nil_append]
      rw [hasSub_cons_ne (by decide), hasSub_cons_ne (by decide)]; exact hdbl
    unfold normInput
    rw [e1]
    simp only [Bool.false_eq_true, if_false, e2, e3, hdbl]
    simp only [Bool.not_false, Bool.and_self, if_true, e4]
    simp [qs]
  have hs : sniffScheme (joinS cl!"\\" ((a :: n') :: cs)) = cl!"file" := by
    unfold sniffScheme
    simp only
    split
    · rename_i hh
      exfalso
      obtain ⟨t, ht⟩ := startsWith_iff.1 hh.2
      have e := List.takeWhile_append_dropWhile (p := schemeChar) (l := joinS cl!"\\" ((a :: n') :: cs))
      rw [ht] at e
      rw [← e] at hnosl
      simp at hnosl
    · rfl
  obtain ⟨u, g1, g2, g3⟩ := win_uri (.inr rfl) hs hn (win_chars hc) (win_inner hc)
  refine ⟨u, g1, ?_, by simpa using g3⟩
  rw [g2, ← win_back hc, hR]
  simp only [List.cons_append, List.nil_append, denormalizePath]
  rw [if_neg (fun h => ha h.2)]
  simp [replaceC]

example : ∃ u, URI cl!"\\Users\\x.y" '\\' = .ok u ∧ u.path = cl!"\\Users\\x.y" := by
  obtain ⟨u, h1, h2, -⟩ := C14_windows_rooted (n := cl!"Users") (cs := [cl!"x.y"]) (by decide) (by decide) (by simp)
  exact ⟨u, h1, h2⟩

example : ∃ u, URI cl!".\\.git\\x" '\\' = .ok u ∧ u.path = cl!".\\.git\\x" := by
  obtain ⟨u, h1, h2, -⟩ := C14_windows_dot (cs := [cl!".git", cl!"x"]) (by decide) (by decide)
  exact ⟨u, h1, h2⟩

example : ∃ u, URI cl!"a\\b" '\\' = .ok u ∧ u.path = cl!".\\a\\b" := by
  obtain ⟨u, h1, h2, -⟩ := C14_windows_relative (n := cl!"a") (cs := [cl!"b"]) (by decide) (by simp) (by simp)
  exact ⟨u, h1, h2⟩

/-- C14 (refuted): a directory with a name of one letter at the root of the current drive is taken for a drive. -/
theorem C14_one_letter_refuted : (URI cl!"\\a\\c" '\\').map Uri.path = .ok cl!"a:\\c" := by decide

end Verif.Props
