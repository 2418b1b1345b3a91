import Verif.Uri.JoinLemmas
import Verif.Mem.ApiLemmas
/-!
# The URIs of one memory file system

`mem E cs` is the object `URI("memory:///c1/c2/…", **E)`; `mem_eq` shows that the model of `URI` builds it and
the other lemmas that `/`, `split`, `last` and `path` stay within this family.
-/
namespace Verif.Gen
open Verif.Spec Verif.Mem

/-- the prefix `memory://` -/
def memBase : Base := ⟨cl!"memory", .plain []⟩

theorem memBase_ok : memBase.Ok :=
  ⟨by decide, by decide, by simp only [memBase, Netloc.Ok]; exact ⟨by decide, by decide, by decide, by decide, ⟨_, rfl⟩⟩,
   by intro h; exact absurd h (by decide)⟩

/-- names that can be written in a memory URI: clean components, and the first one not hidden -/
structure Ok (cs : List Str) : Prop where
  clean : ∀ c ∈ cs, CleanName c
  head : ∀ r, cs.head? ≠ some ('.' :: r)

theorem Ok.nil : Ok [] := ⟨by simp, by simp⟩

theorem Ok.of_prefix {a b : List Str} (h : Ok (a ++ b)) : Ok a := by
  refine ⟨fun c hc => h.clean c (by simp [hc]), fun r hr => h.head r ?_⟩
  cases a with
  | nil => simp at hr
  | cons x a => simpa using hr

theorem Ok.nil_not_mem {cs : List Str} (h : Ok cs) : [] ∉ cs := fun hc => (h.clean _ hc).ne rfl

theorem Ok.append {a b : List Str} (h : Ok a) (ha : a ≠ []) (hb : ∀ c ∈ b, CleanName c) : Ok (a ++ b) := by
  refine ⟨fun c hc => ?_, fun r hr => h.head r ?_⟩
  · rcases List.mem_append.1 hc with h1 | h1
    · exact h.clean c h1
    · exact hb c h1
  · cases a with
    | nil => exact absurd rfl ha
    | cons x a => simpa using hr

instance (cs : List Str) : Decidable (Ok cs) :=
  decidable_of_iff ((∀ c ∈ cs, CleanName c) ∧ startsWith (cs.head?.getD []) cl!"." = false) <| by
    constructor
    · rintro ⟨a, b⟩
      refine ⟨a, fun r hr => ?_⟩
      rw [hr] at b
      simp [startsWith] at b
    · rintro ⟨a, b⟩
      refine ⟨a, ?_⟩
      cases h : cs.head? with
      | none => rfl
      | some n =>
        cases n with
        | nil => rfl
        | cons x n =>
          have : '.' ≠ x := by rintro rfl; exact b n h
          simp [startsWith, List.isPrefixOf, this]

/-- `URI("memory:///c1/c2/…", **E)` -/
def mem (E : Dict) (cs : List Str) : Uri :=
  { cls := .memory, uri := memBase.str ++ pathOf cs, sep := '/',
    parse := { uri := memBase.str ++ pathOf cs, scheme := some cl!"memory", authority := some [], path := pathOf cs,
               query := [], fragment := none, vpathConnector := [], username := some [], password := some [],
               hostname := some [], port := 0, netloc := netlocField (some []) 0 },
    extras := E, usernameAttr := none, passwordAttr := none }

theorem mem_at (E : Dict) (cs : List Str) : At (mem E cs) memBase (pathOf cs) [] :=
  ⟨rfl, rfl, rfl, rfl, rfl, rfl, rfl⟩

theorem mem_inj {E : Dict} {cs cs' : List Str} (h : pathOf cs = pathOf cs') : mem E cs = mem E cs' := by
  unfold mem; rw [h]

/-- whatever is built at the place of `mem E cs` in the same way is `mem E cs` -/
theorem eq_mem {u : Uri} {E : Dict} {cs : List Str} (h : At u memBase (pathOf cs) []) (h1 : u.cls = .memory)
    (h2 : u.uri = memBase.str ++ pathOf cs) (h3 : u.sep = '/') (h4 : u.parse.fragment = none)
    (h5 : u.parse.uri = memBase.str ++ pathOf cs) (h6 : u.extras = E) (h7 : u.usernameAttr = none)
    (h8 : u.passwordAttr = none) : u = mem E cs :=
  h.ext (mem_at E cs) h1 h2 h3 h4 h5 h6 h7 h8

theorem fits_mem {cs : List Str} (h : ∀ c ∈ cs, CleanName c) : Fits memBase (pathOf cs) none :=
  fits_pathOf h (by intro hf; exact absurd hf (by decide)) (by simp) (by simp [qs])

theorem mk_mem {cs : List Str} (h : ∀ c ∈ cs, CleanName c) (E : Dict) :
    Uri.mk' .memory (memBase.str ++ pathOf cs) '/' E = .ok (mem E cs) := by
  obtain ⟨u, h1, h2, h3, h4, h5, ⟨E1, h6, h7⟩, h8, h9⟩ := mk_at memBase_ok (fits_mem h) (q := none) rfl .memory '/' E
  have e : u.parse.username = some [] ∧ u.parse.password = some [] := by
    have := h2.fields
    simp [memBase, Netloc.auth, authorityFields] at this
    exact ⟨this.1.symm, this.2.1.symm⟩
  rw [e.1] at h6
  simp only [takeCred, Prod.mk.injEq] at h6
  rw [e.2] at h7
  simp only [takeCred, Prod.mk.injEq] at h7
  simp only [qs, List.append_nil] at h1 h3 h9
  rw [h1]
  congr 1
  exact eq_mem h2 h4 h3 h5 h8 h9 (by rw [h7.2, h6.2]) h6.1 h7.1

/-- the constructor of the library builds `mem E cs` -/
theorem mem_eq {cs : List Str} (h : ∀ c ∈ cs, CleanName c) (E : Dict) :
    URI (cl!"memory://" ++ pathOf cs) '/' E = .ok (mem E cs) := by
  have e : cl!"memory://" ++ pathOf cs = memBase.str ++ pathOf cs := by simp [memBase, Base.str, Netloc.str]
  have : sniffScheme (cl!"memory://" ++ pathOf cs) = cl!"memory" := by
    unfold sniffScheme
    simp [List.takeWhile, List.dropWhile, schemeChar, startsWith]
  unfold URI
  rw [this, e]
  exact mk_mem h E

@[simp] theorem mem_allExtras (E : Dict) (cs : List Str) : (mem E cs).allExtras = E := by
  simp [Uri.allExtras, mem, Uri.scheme, isHttp, Dict.update]

@[simp] theorem mem_scheme (E : Dict) (cs : List Str) : (mem E cs).scheme = some cl!"memory" := rfl

theorem mem_key (E : Dict) (cs cs' : List Str) : connKey (mem E cs) = connKey (mem E cs') := by
  unfold connKey; rw [mem_allExtras, mem_allExtras]; rfl

theorem noCreds_mem (E : Dict) (cs : List Str) : NoCreds (mem E cs) :=
  ⟨rfl, rfl, by simp [mem], by simp [mem]⟩

/-- `mem E cs / "a/b/c"` -/
theorem mem_div_path {cs ns : List Str} (h : ∀ c ∈ cs, CleanName c) (hn : ns ≠ []) (hns : ∀ n ∈ ns, CleanName n)
    (E : Dict) {p : Str} (hp : slash ns = '/' :: p) : (mem E cs).div p = .ok (mem E (cs ++ ns)) := by
  have hj : (mem E cs).joinPath [p] = .ok (pathOf (cs ++ ns)) := by
    rw [joinPath_one (P := pathOf cs) rfl rfl, rstrip_pathOf h, ← hp, ← slash_append, pathOf_ne (by simp [hn])]
  have hcn : ∀ c ∈ cs ++ ns, CleanName c := by
    intro c hc
    rcases List.mem_append.1 hc with h1 | h1
    · exact h c h1
    · exact hns c h1
  obtain ⟨v, h1, h2, h3, h4, h5, h6, h7, h8⟩ := join_at memBase_ok (mem_at E cs) hj (fits_mem hcn)
  obtain ⟨h9, h10, h11⟩ := h8 (noCreds_mem E cs)
  rw [Uri.div, h1]
  congr 1
  have hq : qs (encQ []) = [] := rfl
  rw [hq, List.append_nil] at h3
  exact eq_mem h2 h4 h3 h5 h6 (by rw [h7, h3]) (by rw [h11, mem_allExtras]) h9 h10

/-- `mem E cs / n` -/
theorem mem_div {cs : List Str} {n : Str} (h : ∀ c ∈ cs, CleanName c) (hn : CleanName n) (E : Dict) :
    (mem E cs).div n = .ok (mem E (cs ++ [n])) :=
  mem_div_path h (by simp) (by simpa using hn) E (by simp [slash])

theorem mem_split {cs : List Str} {n : Str} (h : ∀ c ∈ cs, CleanName c) (hn : CleanName n) (E : Dict) :
    (mem E (cs ++ [n])).split = .ok (mem E cs, n) := by
  obtain ⟨v, h1, h2, h3, h4, h5, ⟨E1, h6, h7⟩, h8, h9⟩ := split_at (v := mem E (cs ++ [n])) (q := none) memBase_ok h hn
    (by intro hf; exact absurd hf (by decide)) (.inr rfl) (by simp [mem, qs]) (by simp [qs])
  have e : v.parse.username = some [] ∧ v.parse.password = some [] := by
    have := h2.fields
    simp [memBase, Netloc.auth, authorityFields] at this
    exact ⟨this.1.symm, this.2.1.symm⟩
  rw [e.1] at h6
  simp only [takeCred, Prod.mk.injEq, mem_allExtras] at h6
  rw [e.2] at h7
  simp only [takeCred, Prod.mk.injEq] at h7
  rw [h1]
  congr 2
  exact eq_mem h2 h4 h3 h5 h8 (by rw [h9, h3]) (by rw [h7.2, h6.2]) h6.1 h7.1

theorem mem_split_root (E : Dict) : (mem E []).split = .ok (mem E [], []) := by
  have e : Uri.splitStr (mem E []).uri = (memBase.str ++ pathOf [], []) := by
    show Uri.splitStr (memBase.str ++ pathOf []) = _
    decide
  unfold Uri.split
  rw [e]
  dsimp only
  rw [show (mem E []).cls = .memory from rfl, show (mem E []).sep = '/' from rfl, mem_allExtras, mk_mem (by simp)]

theorem mem_path {cs : List Str} (h : Ok cs) (E : Dict) : (mem E cs).path = pathOf cs := by
  simp only [mem, Uri.path, cutDot_pathOf h.head]

theorem splitC_slash {c : Str} {cs : List Str} (h : ∀ x ∈ c :: cs, '/' ∉ x) :
    splitC '/' (c ++ slash cs) = c :: cs := by
  induction cs generalizing c with
  | nil => simp [slash, splitC_of_not_mem (h c (by simp))]
  | cons d cs ih =>
    rw [slash_cons, splitC_append_sep, ih (fun x hx => h x (by simp at hx ⊢; tauto)),
      splitC_of_not_mem (h c (by simp))]
    rfl

theorem stepsOf_mem {cs : List Str} (h : Ok cs) (E : Dict) : stepsOf (mem E cs) = some cs := by
  unfold stepsOf
  rw [mem_path h]
  cases cs with
  | nil => simp [pathOf]
  | cons c cs =>
    have hc := h.clean c (by simp)
    rw [pathOf_ne (by simp), slash_cons]
    simp only
    rw [if_neg (by simp [hc.ne]), splitC_slash]
    intro x hx
    exact (h.clean x hx).chars.not_mem (by simp)

theorem mem_last {cs : List Str} {n : Str} (hn : CleanName n) (E : Dict) : (mem E (cs ++ [n])).last = n := by
  exact last_snoc (A := memBase.str ++ slash cs) (by simp [mem, pathOf_snoc]) (hn.chars.not_mem (by simp)) hn.ne

end Verif.Gen
