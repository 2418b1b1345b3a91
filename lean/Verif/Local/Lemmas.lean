import Verif.Local.Model
import Verif.Py.StrLemmas
import Verif.Uri.JoinLemmas
/-! # Paths of local files, and `os.rename` -/
namespace Verif.Local
open Spec

/-- names a component of a path may have here -/
structure Name (c : Str) : Prop where
  clean : CleanName c
  dot : c ≠ cl!"."
  dots : c ≠ cl!".."

instance (c : Str) : Decidable (Name c) :=
  decidable_of_iff (CleanName c ∧ c ≠ cl!"." ∧ c ≠ cl!"..") ⟨fun ⟨a, b, d⟩ => ⟨a, b, d⟩, fun ⟨a, b, d⟩ => ⟨a, b, d⟩⟩

/-- an absolute path that `URI` leaves alone (C01): the first component begins neither with '.' nor with ':' -/
structure Path (cs : List Str) : Prop where
  names : ∀ c ∈ cs, Name c
  nodot : ∀ r, cs.head? ≠ some ('.' :: r)
  nocolon : ∀ r, cs.head? ≠ some (':' :: r)

theorem Path.clean {cs : List Str} (h : Path cs) : ∀ c ∈ cs, CleanName c := fun c hc => (h.names c hc).clean

theorem Path.init {cs : List Str} {c : Str} (h : Path (cs ++ [c])) : Path cs := by
  refine ⟨fun x hx => h.names x (by simp [hx]), fun r hr => h.nodot r ?_, fun r hr => h.nocolon r ?_⟩
  all_goals
    cases cs with
    | nil => simp at hr
    | cons a cs => simpa using hr

theorem splitC_slash {cs : List Str} (h : ∀ c ∈ cs, '/' ∉ c) : splitC '/' (slash cs) = [] :: cs := by
  have : slash cs = joinS ['/'] ([] :: cs) := by rw [joinS_snoc_map]; simp
  rw [this, splitC_joinS (by simp)]
  intro s hs
  rcases List.mem_cons.mp hs with rfl | hs
  · simp
  · exact h s hs

theorem resolve_pathOf {cs : List Str} (w : Os) (h : ∀ c ∈ cs, '/' ∉ c ∧ c ≠ [] ∧ c ≠ cl!".") :
    resolve w (pathOf cs) = cs := by
  obtain ⟨r, hr⟩ := pathOf_head cs
  have hs : startsWith (pathOf cs) cl!"/" = true := by rw [hr]; simp [startsWith]
  rw [resolve, if_pos hs, List.nil_append]
  by_cases hc : cs = []
  · subst hc; decide +kernel
  · rw [pathOf_ne hc, splitC_slash fun c hc => (h c hc).1, List.filter_cons_of_neg (by simp),
      List.filter_eq_self]
    intro c hc
    simpa using ⟨(h c hc).2.1, (h c hc).2.2⟩

theorem Path.resolve {cs : List Str} (h : Path cs) (w : Os) : resolve w (pathOf cs) = cs :=
  resolve_pathOf w fun c hc =>
    ⟨(h.names c hc).clean.chars.not_mem (by simp), (h.names c hc).clean.ne, (h.names c hc).dot⟩

theorem shBasename_pathOf {cs : List Str} {n : Str} (h : ∀ c ∈ cs ++ [n], CleanName c) :
    shBasename (pathOf (cs ++ [n])) = n := by
  rw [shBasename, rstrip_pathOf h, splitC_slash fun c hc => (h c hc).chars.not_mem (by simp)]
  rw [show ([] : Str) :: (cs ++ [n]) = ([] :: cs) ++ [n] from rfl, List.getLast?_concat]
  rfl

theorem rstripC_length (r : Str) : (rstripC '/' r).length ≤ r.length := by
  induction r with
  | nil => simp [rstripC]
  | cons x r ih =>
    rw [rstripC]
    split
    · split <;> simp
    · simpa using ih

theorem osJoin_pathOf {cs : List Str} {n : Str} (h : ∀ c ∈ cs, CleanName c) :
    osJoin (pathOf cs) n = pathOf (cs ++ [n]) := by
  unfold osJoin
  by_cases hc : cs = []
  · subst hc
    rw [if_pos (.inl (by decide +kernel))]
    simp [pathOf, slash]
  · rw [if_neg, pathOf_ne hc, pathOf_snoc]
    · simp
    · rintro (h1 | h1)
      · obtain ⟨r, hr⟩ := endsWith_iff.mp h1
        have h2 := rstrip_pathOf h
        rw [hr, rstripC_append_self] at h2
        rw [pathOf_ne hc] at hr
        rw [hr] at h2
        have h3 := congrArg List.length h2
        have h4 := rstripC_length r
        simp only [List.length_append, List.length_cons, List.length_nil] at h3
        omega
      · obtain ⟨r, hr⟩ := pathOf_head cs
        rw [hr] at h1; cases h1

/-- the root is a directory, and what has a name is in a directory -/
structure Ok (w : Os) : Prop where
  root : isDirO (w.tree []) = true
  parent : ∀ q c, (w.tree (q ++ [c])).isSome → isDirO (w.tree q) = true

theorem Ok.above {w : Os} (h : Ok w) {q r : List Str} (hr : r ≠ []) (hq : (w.tree (q ++ r)).isSome) :
    isDirO (w.tree q) = true := by
  induction r generalizing q with
  | nil => exact absurd rfl hr
  | cons c r ih =>
    apply h.parent q c
    by_cases hn : r = []
    · subst hn; exact hq
    · have h1 := ih (q := q ++ [c]) hn (by simpa using hq)
      cases e : w.tree (q ++ [c]) with
      | none => rw [e] at h1; cases h1
      | some o => rfl

theorem Ok.not_occupied {w : Os} (h : Ok w) {t : List Str} (ht : isDirO (w.tree t) = false) :
    ¬ Occupied w.tree t := by
  rintro ⟨c, hc⟩
  rw [h.parent _ _ hc] at ht; cases ht

/-- what it means that the object at `s`, with all below it, is now at `t`, and nothing else has changed -/
structure Moved (old new : List Str → Option Obj) (s t : List Str) : Prop where
  there : ∀ r, new (t ++ r) = old (s ++ r)
  gone : ∀ q, s <+: q → ¬ t <+: q → new q = none
  rest : ∀ q, ¬ s <+: q → ¬ t <+: q → new q = old q

theorem moved_spec (old : List Str → Option Obj) (s t : List Str) : Moved old (moved old s t) s t := by
  refine ⟨fun r => ?_, fun q h1 h2 => ?_, fun q h1 h2 => ?_⟩
  · simp [moved]
  · simp [moved, h1, h2]
  · simp [moved, h1, h2]

/-- renaming to a name that is free, or to a file by a file -/
theorem osRename_ok {w : Os} {s t : List Str} (hw : Ok w) (hs : (w.tree s).isSome)
    (hp : isDirO (w.tree t.dropLast) = true) (hn : ¬ s <+: t)
    (ht : w.tree t = none ∨ (isFileO (w.tree s) = true ∧ isFileO (w.tree t) = true)) :
    osRename s t w = (.ok (), { w with tree := moved w.tree s t }) := by
  have hne : s ≠ t := fun h => hn (h ▸ List.prefix_refl _)
  have h2 : w.tree t.dropLast ≠ none := by intro h; rw [h] at hp; cases hp
  have h1 : w.tree s ≠ none := by intro h; rw [h] at hs; cases hs
  have hd : isDirO (w.tree t) = false := by
    rcases ht with h | ⟨_, h⟩
    · rw [h]; rfl
    · cases e : w.tree t with
      | none => rfl
      | some o => cases o <;> simp_all [isFileO, isDirO]
  have h4 : ¬ (isDirO (w.tree s) = true ∧ isFileO (w.tree t) = true) := by
    rintro ⟨h5, h6⟩
    rcases ht with h | ⟨h, _⟩
    · rw [h] at h6; cases h6
    · cases e : w.tree s with
      | none => rw [e] at h; cases h
      | some o => cases o <;> simp_all [isFileO, isDirO]
  unfold osRename
  rw [if_neg h1, if_neg h2, if_neg (by simp [hp]), if_neg hne, if_neg hn, if_neg h4, if_neg (by simp [hd]),
    if_neg (hw.not_occupied hd)]

theorem prefix_snoc {s d : List Str} {n : Str} (h : s <+: d ++ [n]) : s <+: d ∨ s = d ++ [n] := by
  rw [List.prefix_concat_iff] at h
  exact h.symm

end Verif.Local
