import Verif.Spec.Namespace
/-!
# `Goes` as a function

An evaluator for the relation `Goes`; it shows that a path denotes at most one thing, that allowing deeper
nesting does not change what it denotes, and it makes concrete cases checkable.
-/
namespace Verif.Spec
open Verif.Mem

/-- the steps at one nesting level; `res` follows a link target -/
def followAux (res : Uri → Option Out) (ns : NS) : List Str → List Str → Option Out
  | q, [] => some (.found q)
  | q, n :: rest =>
    match ns q with
    | none => none
    | some o =>
      if o.isDir then
        match ns (q ++ [n]) with
        | none => some .missing
        | some (.link t _ _) =>
          match res t with
          | none => none
          | some (.found q') => followAux res ns q' rest
          | some .missing => some (if rest = [] then .missing else .dangling)
          | some o => some o
        | some _ => followAux res ns (q ++ [n]) rest
      else some .notDir

/-- evaluator of `Goes` -/
def follow (ns : NS) : Nat → List Str → List Str → Option Out
  | 0 => followAux (fun _ => none) ns
  | d + 1 => followAux (fun t => match stepsOf t with
      | none => some .badLink
      | some ts => follow ns d [] ts) ns

theorem Obj.isDir_iff {o : Obj} : o.isDir = true ↔ ∃ m t, o = .dir m t := by cases o <;> simp [Obj.isDir]

theorem NS.isDir_iff {ns : NS} {q : List Str} : ns.isDir q ↔ ∃ o, ns q = some o ∧ o.isDir = true := by
  unfold NS.isDir
  constructor
  · rintro ⟨m, t, h⟩; exact ⟨_, h, rfl⟩
  · rintro ⟨o, h, ho⟩; obtain ⟨m, t, rfl⟩ := Obj.isDir_iff.1 ho; exact ⟨m, t, h⟩

/-- the handler of links at level `d` -/
def linkRes (ns : NS) : Nat → Uri → Option Out
  | 0 => fun _ => none
  | d + 1 => fun t => match stepsOf t with
      | none => some .badLink
      | some ts => follow ns d [] ts

theorem follow_eq (ns : NS) (d : Nat) : follow ns d = followAux (linkRes ns d) ns := by
  cases d <;> rfl

theorem followAux_dir {res : Uri → Option Out} {ns : NS} {q rest : List Str} {n : Str} (h : ns.isDir q) :
    followAux res ns q (n :: rest) = match ns (q ++ [n]) with
        | none => some .missing
        | some (.link t _ _) =>
          match res t with
          | none => none
          | some (.found q') => followAux res ns q' rest
          | some .missing => some (if rest = [] then .missing else .dangling)
          | some o => some o
        | some _ => followAux res ns (q ++ [n]) rest := by
  obtain ⟨o, h1, h2⟩ := NS.isDir_iff.1 h
  rw [followAux]; simp only [h1, h2, if_true]

theorem follow_of_goes {ns : NS} {d : Nat} {q steps : List Str} {out : Out} (h : Goes ns d q steps out) :
    follow ns d q steps = some out := by
  induction h with
  | done => rw [follow_eq]; rfl
  | notDir h1 h2 => rw [follow_eq, followAux]; simp [h1, h2]
  | missing h1 h2 => rw [follow_eq, followAux_dir h1]; simp [h2]
  | @step d q o n rest out h1 h2 h3 _ ih =>
    rw [follow_eq] at ih ⊢
    rw [followAux_dir h1, h2]
    cases o with
    | link t m s => simp [Obj.isLink] at h3
    | file b m s => exact ih
    | dir m s => exact ih
  | link h1 h2 h3 _ _ ih1 ih2 =>
    rw [follow_eq] at ih2 ⊢
    rw [followAux_dir h1, h2]
    simp only [linkRes, h3, ih1]
    exact ih2
  | linkLost h1 h2 h3 _ ih => rw [follow_eq, followAux_dir h1, h2]; simp [linkRes, h3, ih]
  | linkLostMid h1 h2 h3 _ ih => rw [follow_eq, followAux_dir h1, h2]; simp [linkRes, h3, ih]
  | linkFail h1 h2 h3 _ h4 ih =>
    rw [follow_eq, followAux_dir h1, h2]
    simp only [linkRes, h3, ih]
    rcases h4 with rfl | rfl | rfl <;> rfl
  | badLink h1 h2 h3 => rw [follow_eq, followAux_dir h1, h2]; simp [linkRes, h3]

theorem goes_of_follow {ns : NS} (d : Nat) : ∀ {q steps : List Str} {out : Out},
    follow ns d q steps = some out → Goes ns d q steps out := by
  induction d with
  | zero =>
    intro q steps out h
    rw [follow_eq] at h
    induction steps generalizing q with
    | nil => simp [followAux] at h; subst h; exact .done
    | cons n rest ih =>
      cases hq : ns q with
      | none => rw [followAux] at h; simp [hq] at h
      | some o =>
        by_cases ho : o.isDir = true
        · have hd : ns.isDir q := NS.isDir_iff.2 ⟨o, hq, ho⟩
          rw [followAux_dir hd] at h
          cases hn : ns (q ++ [n]) with
          | none => rw [hn] at h; simp at h; subst h; exact .missing hd hn
          | some o' =>
            rw [hn] at h
            cases o' with
            | link t m s => simp [linkRes] at h
            | file b m s => exact .step hd hn rfl (ih h)
            | dir m s => exact .step hd hn rfl (ih h)
        · rw [followAux] at h
          simp [hq, ho] at h
          subst h
          exact .notDir hq (by simpa using ho)
  | succ d ihd =>
    intro q steps out h
    rw [follow_eq] at h
    induction steps generalizing q with
    | nil => simp [followAux] at h; subst h; exact .done
    | cons n rest ih =>
      cases hq : ns q with
      | none => rw [followAux] at h; simp [hq] at h
      | some o =>
        by_cases ho : o.isDir = true
        · have hd : ns.isDir q := NS.isDir_iff.2 ⟨o, hq, ho⟩
          rw [followAux_dir hd] at h
          cases hn : ns (q ++ [n]) with
          | none => rw [hn] at h; simp at h; subst h; exact .missing hd hn
          | some o' =>
            rw [hn] at h
            cases o' with
            | link t m s =>
              cases ht : stepsOf t with
              | none => simp [linkRes, ht] at h; subst h; exact .badLink hd hn ht
              | some ts =>
                simp only [linkRes, ht] at h
                cases hf : follow ns d [] ts with
                | none => rw [hf] at h; simp at h
                | some o =>
                  rw [hf] at h
                  have hg := ihd hf
                  cases o with
                  | found q' => exact .link hd hn ht hg (ih h)
                  | missing =>
                    simp at h
                    cases rest with
                    | nil => simp at h; subst h; exact .linkLost hd hn ht hg
                    | cons n' r => simp at h; subst h; exact .linkLostMid hd hn ht hg
                  | dangling => simp at h; subst h; exact .linkFail hd hn ht hg (.inl rfl)
                  | notDir => simp at h; subst h; exact .linkFail hd hn ht hg (.inr (.inl rfl))
                  | badLink => simp at h; subst h; exact .linkFail hd hn ht hg (.inr (.inr rfl))
            | file b m s => exact .step hd hn rfl (ih h)
            | dir m s => exact .step hd hn rfl (ih h)
        · rw [followAux] at h
          simp [hq, ho] at h
          subst h
          exact .notDir hq (by simpa using ho)

theorem goes_iff {ns : NS} {d : Nat} {q steps : List Str} {out : Out} :
    Goes ns d q steps out ↔ follow ns d q steps = some out := ⟨follow_of_goes, goes_of_follow d⟩

instance (ns : NS) (d : Nat) (q steps : List Str) (out : Out) : Decidable (Goes ns d q steps out) :=
  decidable_of_iff _ goes_iff.symm

theorem noGoes_iff {ns : NS} {d : Nat} {q steps : List Str} :
    (¬ ∃ out, Goes ns d q steps out) ↔ follow ns d q steps = none := by
  cases h : follow ns d q steps with
  | none => simp [goes_iff, h]
  | some o => simp [goes_iff, h]

/-- a path denotes at most one thing -/
theorem Goes.det {ns : NS} {d : Nat} {q steps : List Str} {out out' : Out} (h : Goes ns d q steps out)
    (h' : Goes ns d q steps out') : out = out' := by
  rw [goes_iff] at h h'; rw [h] at h'; simpa using h'

/-- allowing deeper nesting does not change what a path denotes -/
theorem Goes.succ {ns : NS} {d : Nat} {q steps : List Str} {out : Out} (h : Goes ns d q steps out) :
    Goes ns (d + 1) q steps out := by
  induction h with
  | done => exact .done
  | notDir h1 h2 => exact .notDir h1 h2
  | missing h1 h2 => exact .missing h1 h2
  | step h1 h2 h3 _ ih => exact .step h1 h2 h3 ih
  | link h1 h2 h3 _ _ ih1 ih2 => exact .link h1 h2 h3 ih1 ih2
  | linkLost h1 h2 h3 _ ih => exact .linkLost h1 h2 h3 ih
  | linkLostMid h1 h2 h3 _ ih => exact .linkLostMid h1 h2 h3 ih
  | linkFail h1 h2 h3 _ h4 ih => exact .linkFail h1 h2 h3 ih h4
  | badLink h1 h2 h3 => exact .badLink h1 h2 h3

theorem Goes.mono {ns : NS} {d d' : Nat} {q steps : List Str} {out : Out} (h : Goes ns d q steps out)
    (hd : d ≤ d') : Goes ns d' q steps out := by
  induction hd with
  | refl => exact h
  | step _ ih => exact ih.succ

/-- whatever the nesting allowed, a path denotes the same -/
theorem Goes.det' {ns : NS} {d d' : Nat} {q steps : List Str} {out out' : Out} (h : Goes ns d q steps out)
    (h' : Goes ns d' q steps out') : out = out' :=
  (h.mono (Nat.le_max_left d d')).det (h'.mono (Nat.le_max_right d d'))

end Verif.Spec
