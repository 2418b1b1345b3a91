import Verif.Props.UriStr
import Verif.Props.UriMisc
/-!
# C07 again: which URIs are equal

Two URIs are equal if and only if they have the same scheme, host, port, path and query; for no string is anything else
looked at.  So URIs of different users and of different archives can be equal.
-/
namespace Verif.Props
open Spec

theorem authorityFields_host {a u p h : Option Str} {n : Int} (e : authorityFields a = .ok (u, p, h, n)) : ':' ∉ h.getD [] := by
  have key : ∀ s : Str, ':' ∉ ((splitAuthority s).host).getD [] := by
    intro s
    have h0 : ∀ x : Str, ':' ∉ (headTail ':' x).1 := by
      intro x
      unfold headTail
      cases hx : split1 ':' x with
      | none => exact split1_eq_none hx
      | some ab => exact (split1_some hx).2
    unfold splitAuthority
    cases split1 '@' s with
    | none =>
      dsimp only
      split
      · simp
      · exact h0 _
    | some ab =>
      dsimp only
      split
      · simp
      · exact h0 _
  unfold authorityFields at e
  split at e
  · dsimp only at e
    split at e
    · split at e
      · simp only [Except.ok.injEq, Prod.mk.injEq] at e
        rw [← e.2.2.1]
        exact key _
      · simp at e
    · simp only [Except.ok.injEq, Prod.mk.injEq] at e
      rw [← e.2.2.1]
      exact key _
  · simp only [Except.ok.injEq, Prod.mk.injEq] at e
    rw [← e.2.2.1]; simp

theorem mk_netloc {cls : UriClass} {s : Str} {sep : Char} {E : Dict} {u : Uri} (h : Uri.mk' cls s sep E = .ok u) :
    u.parse.netloc = netlocField u.parse.hostname u.parse.port ∧ ':' ∉ u.parse.hostname.getD [] := by
  unfold Uri.mk' Uri.finish at h
  cases hp : UriParse.init (normInput s) with
  | error e => rw [hp] at h; simp at h
  | ok p =>
    rw [hp] at h
    simp only [Except.ok.injEq] at h
    rw [← h]
    dsimp only
    unfold UriParse.init at hp
    cases hu : urisplit (normInput s) with
    | error e => rw [hu] at hp; simp at hp
    | ok q =>
      rw [hu] at hp
      simp only at hp
      unfold UriParse.ofParts at hp
      simp only at hp
      split at hp
      · simp at hp
      · rename_i hau
        split at hp
        · simp at hp
        · simp only [Except.ok.injEq] at hp
          rw [← hp]
          exact ⟨rfl, authorityFields_host hau⟩

/-- the attribute `netloc` in words: the host, with the port behind a colon if there is one -/
theorem netlocField_eq (h : Option Str) (p : Int) :
    netlocField h p = if h.getD [] = [] then [] else h.getD [] ++ if p = 0 then [] else ':' :: intStr p := by
  unfold netlocField
  split
  · simp only [Option.getD_some, reduceCtorEq, if_false]
    split <;> simp_all
  · rename_i hx
    cases h with
    | none => simp
    | some x =>
      cases x with
      | nil => simp
      | cons c r => exact absurd rfl (hx c r)

theorem netlocField_inj {h h' : Option Str} {p p' : Int} (hc : ':' ∉ h.getD []) (hc' : ':' ∉ h'.getD []) :
    netlocField h p = netlocField h' p' ↔ h.getD [] = h'.getD [] ∧ (h.getD [] ≠ [] → p = p') := by
  rw [netlocField_eq, netlocField_eq]
  generalize h.getD [] = a at *
  generalize h'.getD [] = b at *
  constructor
  · intro e
    by_cases ha : a = []
    · subst ha
      rw [if_pos rfl] at e
      split at e
      · rename_i hb; exact ⟨hb.symm, fun h => absurd rfl h⟩
      · rename_i hb
        have := congrArg List.length e
        simp only [List.length_nil, List.length_append] at this
        exact absurd (List.length_eq_zero_iff.1 (by omega)) hb
    · rw [if_neg ha] at e
      by_cases hb : b = []
      · subst hb
        rw [if_pos rfl] at e
        simp at e
        exact absurd e.1 ha
      · rw [if_neg hb] at e
        by_cases hp : p = 0 <;> by_cases hp' : p' = 0
        · simp only [hp, hp', if_true, List.append_nil] at e
          exact ⟨e, fun _ => by rw [hp, hp']⟩
        · rw [if_pos hp, if_neg hp', List.append_nil] at e
          exact absurd (e ▸ by simp) hc
        · rw [if_neg hp, if_pos hp', List.append_nil] at e
          exact absurd (e ▸ by simp) hc'
        · rw [if_neg hp, if_neg hp'] at e
          have e1 := split1_append (b := intStr p) hc
          rw [e, split1_append hc'] at e1
          simp only [Option.some.injEq, Prod.mk.injEq] at e1
          refine ⟨e1.1.symm, fun _ => ?_⟩
          have e2 := pyInt_intStr p
          rw [← e1.2, pyInt_intStr] at e2
          exact (Option.some.inj e2).symm
  · rintro ⟨rfl, h⟩
    by_cases ha : a = []
    · simp [ha]
    · rw [h ha]

/-- URIs are equal if and only if scheme, host, port, path and query are (without a host the port does not count) -/
theorem C07_parts {s t : Str} {sep sep' : Char} {E E' : Dict} {u v : Uri} (hu : URI s sep E = .ok u) (hv : URI t sep' E' = .ok v) :
    u.eq v = true ↔ u.parse.scheme = v.parse.scheme ∧ u.parse.hostname.getD [] = v.parse.hostname.getD [] ∧
      (u.parse.hostname.getD [] ≠ [] → u.parse.port = v.parse.port) ∧ u.parse.path = v.parse.path ∧
      ∀ k, u.parse.query.get? k = v.parse.query.get? k := by
  obtain ⟨n1, c1⟩ := mk_netloc hu
  obtain ⟨n2, c2⟩ := mk_netloc hv
  rw [C07_eq_iff (mk_query_WF hu) (mk_query_WF hv), SameUri, n1, n2, netlocField_inj c1 c2]
  tauto

/-- the attribute `netloc` of a URI: the host, and behind a colon the port if it is not 0 -/
theorem C07_netloc {s : Str} {sep : Char} {E : Dict} {u : Uri} (hu : URI s sep E = .ok u) :
    u.parse.netloc = if u.parse.hostname.getD [] = [] then [] else
      u.parse.hostname.getD [] ++ if u.parse.port = 0 then [] else ':' :: intStr u.parse.port := by
  rw [(mk_netloc hu).1, netlocField_eq]

/-- the same with `URI` computed -/
def eqOf (s t : Str) : Except PyErr (Bool × Bool) := do
  let u ← URI s
  let v ← URI t
  pure (u.eq v, decide (u.key = v.key))

/-- equal URIs of different users: other connections -/
theorem C07_user_refuted : eqOf cl!"http://ann@h/p" cl!"http://bob@h/p" = .ok (true, false) := by decide +kernel

/-- members of different archives are equal -/
theorem C07_archive_refuted : eqOf cl!"zip://((/x.zip))/a" cl!"zip://((/y.zip))/a" = .ok (true, false) := by decide +kernel

example : eqOf cl!"http://h:80/p" cl!"http://h:81/p" = .ok (false, false) ∧ eqOf cl!"http://h:80/p" cl!"http://h:080/p" = .ok (true, true) := by
  decide +kernel

example : (do let u ← URI cl!"http://ann@h:080/p"; pure u.parse.netloc : Except PyErr Str) = .ok cl!"h:80" := by decide +kernel

example : ∃ u v, URI cl!"http://h:80/p" = .ok u ∧ URI cl!"http://h:81/p" = .ok v ∧ u.eq v = false ∧ u.parse.port ≠ v.parse.port := by
  have h : (do let u ← URI cl!"http://h:80/p"; let v ← URI cl!"http://h:81/p"
               return decide (u.parse.hostname.getD [] ≠ [] ∧ u.parse.port ≠ v.parse.port) : Except PyErr Bool) = .ok true := by decide +kernel
  cases hu : URI cl!"http://h:80/p" with
  | error e => rw [hu] at h; simp [bind, Except.bind] at h
  | ok u =>
    cases hv : URI cl!"http://h:81/p" with
    | error e => rw [hu, hv] at h; simp [bind, Except.bind] at h
    | ok v =>
      rw [hu, hv] at h
      simp only [bind, Except.bind, pure, Except.pure, Except.ok.injEq, decide_eq_true_eq] at h
      refine ⟨u, v, rfl, rfl, ?_, h.2⟩
      cases he : u.eq v with
      | false => rfl
      | true => exact absurd (((C07_parts hu hv).1 he).2.2.1 h.1) h.2

end Verif.Props
