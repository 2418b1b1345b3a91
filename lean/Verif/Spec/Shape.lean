import Verif.Spec.Follow
/-!
# How `Goes` depends on the file system
-/
namespace Verif.Spec
open Verif.Mem

/-- what matters for following a path -/
inductive Kind
  | file | dir | link (t : Uri)
  deriving DecidableEq

/-- the kind of an object -/
def Obj.kind : Obj → Kind
  | .file _ _ _ => .file
  | .dir _ _ => .dir
  | .link t _ _ => .link t

theorem Obj.kind_isDir {o o' : Obj} (h : o'.kind = o.kind) : o'.isDir = o.isDir := by
  cases o <;> cases o' <;> simp_all [Obj.kind, Obj.isDir]
theorem Obj.kind_isLink {o o' : Obj} (h : o'.kind = o.kind) : o'.isLink = o.isLink := by
  cases o <;> cases o' <;> simp_all [Obj.kind, Obj.isLink]
theorem Obj.kind_isFile {o o' : Obj} (h : o'.kind = o.kind) : o'.isFile = o.isFile := by
  cases o <;> cases o' <;> simp_all [Obj.kind, Obj.isFile]
theorem Obj.kind_link {o' : Obj} {t : Uri} {m s : Int} (h : o'.kind = (Obj.link t m s).kind) :
    ∃ m' s', o' = .link t m' s' := by
  cases o' <;> simp_all [Obj.kind]

/-- everything in `ns` is still there in `ns'` (contents and attributes may differ) -/
def NS.Keeps (ns ns' : NS) : Prop := ∀ p o, ns p = some o → ∃ o', ns' p = some o' ∧ o'.kind = o.kind

theorem NS.Keeps.isDir {ns ns' : NS} (h : ns.Keeps ns') {q : List Str} (hd : ns.isDir q) : ns'.isDir q := by
  rw [NS.isDir_iff] at hd ⊢
  obtain ⟨o, h1, h2⟩ := hd
  obtain ⟨o', h3, h4⟩ := h q o h1
  exact ⟨o', h3, by rw [Obj.kind_isDir h4]; exact h2⟩

/-- a path that leads somewhere keeps leading there -/
theorem Goes.keeps {ns ns' : NS} (hk : ns.Keeps ns') {d : Nat} {q0 ts q : List Str} (h : Goes ns d q0 ts (.found q)) :
    Goes ns' d q0 ts (.found q) := by
  generalize ho : Out.found q = out at h
  induction h generalizing q with
  | done => simp at ho; exact ho ▸ .done
  | notDir => simp at ho
  | missing => simp at ho
  | step h1 h2 h3 _ ih =>
    obtain ⟨o', h5, h6⟩ := hk _ _ h2
    exact .step (hk.isDir h1) h5 (by rw [Obj.kind_isLink h6]; exact h3) (ih ho)
  | link h1 h2 h3 _ _ ih1 ih2 =>
    obtain ⟨o', h5, h6⟩ := hk _ _ h2
    obtain ⟨m, s, rfl⟩ := Obj.kind_link h6
    have := ih1 rfl
    exact .link (hk.isDir h1) h5 h3 this (ih2 ho)
  | linkLost => simp at ho
  | linkLostMid => simp at ho
  | linkFail _ _ _ _ h5 => subst ho; simp at h5
  | badLink => simp at ho

/-- same locations and kinds -/
def NS.SameKinds (ns ns' : NS) : Prop := ∀ p, (ns' p).map Obj.kind = (ns p).map Obj.kind

theorem NS.SameKinds.symm {ns ns' : NS} (h : ns.SameKinds ns') : ns'.SameKinds ns := fun p => (h p).symm
theorem NS.SameKinds.trans {a b c : NS} (h : a.SameKinds b) (h' : b.SameKinds c) : a.SameKinds c :=
  fun p => (h' p).trans (h p)
theorem NS.SameKinds.rfl' (a : NS) : a.SameKinds a := fun _ => rfl

theorem NS.SameKinds.keeps {ns ns' : NS} (h : ns.SameKinds ns') : ns.Keeps ns' := by
  intro p o ho
  have := h p
  rw [ho] at this
  simpa [Option.map_eq_some_iff] using this

theorem NS.SameKinds.none {ns ns' : NS} (h : ns.SameKinds ns') {p : List Str} : ns' p = none ↔ ns p = none := by
  have := h p
  cases h1 : ns p <;> cases h2 : ns' p <;> simp_all

/-- following paths only depends on locations and kinds -/
theorem Goes.sameKinds {ns ns' : NS} (hk : ns.SameKinds ns') {d : Nat} {q ts : List Str} {out : Out}
    (h : Goes ns d q ts out) : Goes ns' d q ts out := by
  have hk' := hk.keeps
  induction h with
  | done => exact .done
  | notDir h1 h2 =>
    obtain ⟨o', h5, h6⟩ := hk' _ _ h1
    exact .notDir h5 (by rw [Obj.kind_isDir h6]; exact h2)
  | missing h1 h2 => exact .missing (hk'.isDir h1) (hk.none.2 h2)
  | step h1 h2 h3 _ ih =>
    obtain ⟨o', h5, h6⟩ := hk' _ _ h2
    exact .step (hk'.isDir h1) h5 (by rw [Obj.kind_isLink h6]; exact h3) ih
  | link h1 h2 h3 _ _ ih1 ih2 =>
    obtain ⟨o', h5, h6⟩ := hk' _ _ h2
    obtain ⟨m, s, rfl⟩ := Obj.kind_link h6
    exact .link (hk'.isDir h1) h5 h3 ih1 ih2
  | linkLost h1 h2 h3 _ ih =>
    obtain ⟨o', h5, h6⟩ := hk' _ _ h2
    obtain ⟨m, s, rfl⟩ := Obj.kind_link h6
    exact .linkLost (hk'.isDir h1) h5 h3 ih
  | linkLostMid h1 h2 h3 _ ih =>
    obtain ⟨o', h5, h6⟩ := hk' _ _ h2
    obtain ⟨m, s, rfl⟩ := Obj.kind_link h6
    exact .linkLostMid (hk'.isDir h1) h5 h3 ih
  | linkFail h1 h2 h3 _ h4 ih =>
    obtain ⟨o', h5, h6⟩ := hk' _ _ h2
    obtain ⟨m, s, rfl⟩ := Obj.kind_link h6
    exact .linkFail (hk'.isDir h1) h5 h3 ih h4
  | badLink h1 h2 h3 =>
    obtain ⟨o', h5, h6⟩ := hk' _ _ h2
    obtain ⟨m, s, rfl⟩ := Obj.kind_link h6
    exact .badLink (hk'.isDir h1) h5 h3

theorem NS.set_keeps_new {ns : NS} {q : List Str} {o : Obj} (h : ns q = none) : ns.Keeps (ns.set q o) := by
  intro p o' ho'
  have : p ≠ q := by rintro rfl; simp [h] at ho'
  exact ⟨o', by simp [NS.set, this, ho'], rfl⟩

theorem NS.set_sameKinds {ns : NS} {q : List Str} {o o' : Obj} (h : ns q = some o) (hk : o'.kind = o.kind) :
    ns.SameKinds (ns.set q o') := by
  intro p
  by_cases hp : p = q
  · subst hp; simp [NS.set, h, hk]
  · simp [NS.set, hp]

/-- following two stretches of a path -/
theorem Goes.append {ns : NS} {d : Nat} {q0 a q b : List Str} {out : Out} (h : Goes ns d q0 a (.found q))
    (h' : Goes ns d q b out) : Goes ns d q0 (a ++ b) out := by
  generalize ho : Out.found q = o at h
  induction h generalizing q with
  | done => simp at ho; exact ho ▸ h'
  | notDir => simp at ho
  | missing => simp at ho
  | step h1 h2 h3 _ ih => exact .step h1 h2 h3 (ih h' ho)
  | link h1 h2 h3 h4 _ _ ih2 => exact .link h1 h2 h3 h4 (ih2 h' ho)
  | linkLost => simp at ho
  | linkLostMid => simp at ho
  | linkFail _ _ _ _ h5 => subst ho; simp at h5
  | badLink => simp at ho

/-- one more step to something that is not a link -/
theorem Goes.snoc {ns : NS} {d : Nat} {q0 a q : List Str} {n : Str} {o : Obj} (h : Goes ns d q0 a (.found q))
    (hd : ns.isDir q) (ho : ns (q ++ [n]) = some o) (hl : o.isLink = false) :
    Goes ns d q0 (a ++ [n]) (.found (q ++ [n])) := h.append (.step hd ho hl .done)

/-- one more step to nothing -/
theorem Goes.snoc_missing {ns : NS} {d : Nat} {q0 a q : List Str} {n : Str} (h : Goes ns d q0 a (.found q))
    (hd : ns.isDir q) (ho : ns (q ++ [n]) = none) : Goes ns d q0 (a ++ [n]) .missing := h.append (.missing hd ho)

/-- one more step to a link: what its target denotes -/
theorem Goes.snoc_link {ns : NS} {d : Nat} {q0 a q ts : List Str} {n : Str} {t : Uri} {m s : Int} {out : Out}
    (h : Goes ns (d + 1) q0 a (.found q)) (hd : ns.isDir q) (ho : ns (q ++ [n]) = some (.link t m s))
    (ht : stepsOf t = some ts) (hg : Goes ns d [] ts out) : Goes ns (d + 1) q0 (a ++ [n]) out := by
  apply h.append
  cases out with
  | found q' => exact .link hd ho ht hg .done
  | missing => exact .linkLost hd ho ht hg
  | dangling => exact .linkFail hd ho ht hg (.inl rfl)
  | notDir => exact .linkFail hd ho ht hg (.inr (.inl rfl))
  | badLink => exact .linkFail hd ho ht hg (.inr (.inr rfl))

/-- a path that leads somewhere leads somewhere at every point, and through directories -/
theorem Goes.of_append {ns : NS} {d : Nat} {q0 a b q : List Str} (h : Goes ns d q0 (a ++ b) (.found q)) :
    ∃ q', Goes ns d q0 a (.found q') ∧ Goes ns d q' b (.found q) ∧ (b ≠ [] → ns.isDir q') := by
  generalize hts : a ++ b = ts at h
  generalize ho : Out.found q = out at h
  induction h generalizing a q with
  | done =>
    simp only [List.append_eq_nil_iff] at hts
    obtain ⟨rfl, rfl⟩ := hts
    simp only [Out.found.injEq] at ho
    subst ho
    exact ⟨_, .done, .done, by simp⟩
  | notDir => simp at ho
  | missing => simp at ho
  | linkLost => simp at ho
  | linkLostMid => simp at ho
  | linkFail _ _ _ _ h _ => subst ho; simp at h
  | badLink => simp at ho
  | @step d q1 o n rest out h1 h2 h3 h4 ih =>
    cases a with
    | nil =>
      simp only [List.nil_append] at hts
      subst hts
      subst ho
      exact ⟨_, .done, .step h1 h2 h3 h4, fun _ => h1⟩
    | cons x a =>
      simp only [List.cons_append, List.cons.injEq] at hts
      obtain ⟨rfl, hts⟩ := hts
      obtain ⟨q', g1, g2, g3⟩ := ih hts ho
      exact ⟨q', .step h1 h2 h3 g1, g2, g3⟩
  | @link d q1 t m s n rest ts q2 out h1 h2 h3 h4 h5 ih1 ih2 =>
    cases a with
    | nil =>
      simp only [List.nil_append] at hts
      subst hts
      subst ho
      exact ⟨_, .done, .link h1 h2 h3 h4 h5, fun _ => h1⟩
    | cons x a =>
      simp only [List.cons_append, List.cons.injEq] at hts
      obtain ⟨rfl, hts⟩ := hts
      obtain ⟨q', g1, g2, g3⟩ := ih2 hts ho
      exact ⟨q', .link h1 h2 h3 h4 g1, g2, g3⟩

end Verif.Spec
