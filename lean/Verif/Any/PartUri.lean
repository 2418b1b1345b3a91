import Verif.Uri.SchemeLemmas
/-!
# URIs that stay where they are

Texts of memory URIs and of local URIs, for any names at all: joining and splitting them never gives a URI of an archive.
-/
namespace Verif.Any
open Spec

/-- a path that begins with '/' or './', or '.' -/
def LocalText (r : Str) : Prop := (∃ t, r = '/' :: t) ∨ r = cl!"." ∨ ∃ t, r = '.' :: '/' :: t

/-- the URIs that can be made from local URIs, and with `M` also from memory URIs, by joining and splitting.  ('None' is what join makes of a URI
    that has no scheme.) -/
structure StaysIn (M : Prop) (u : Uri) : Prop where
  text : (∃ x r, ((M ∧ x = cl!"memory") ∨ x = cl!"None") ∧ u.uri = x ++ cl!"://" ++ r) ∨
    (∃ r, LocalText r ∧ (u.uri = cl!"file://" ++ r ∨ u.uri = r))
  scheme : (M ∧ u.scheme = some cl!"memory") ∨ u.scheme = some cl!"None" ∨ u.scheme = none ∨
    (u.scheme = some cl!"file" ∧ u.parse.listNetloc = [] ∧ LocalText u.parse.path)

/-- both kinds of URIs -/
abbrev Stays := StaysIn True

variable {M : Prop}

theorem StaysIn.not_zip {u : Uri} (h : StaysIn M u) : u.scheme ≠ some cl!"zip" := by
  rcases h.scheme with ⟨_, h⟩ | h | h | ⟨h, _⟩ <;> rw [h] <;> decide

theorem LocalText.append {r t : Str} (h : LocalText r) (ht : r ≠ cl!"." ∨ t = [] ∨ ∃ y, t = '/' :: y) : LocalText (r ++ t) := by
  rcases h with ⟨x, rfl⟩ | rfl | ⟨x, rfl⟩
  · exact .inl ⟨_, rfl⟩
  · rcases ht with ht | rfl | ⟨y, rfl⟩
    · exact absurd rfl ht
    · exact .inr (.inl rfl)
    · exact .inr (.inr ⟨_, rfl⟩)
  · exact .inr (.inr ⟨_, rfl⟩)

theorem localText_normalize {r : Str} (h : LocalText r) : LocalText (normalizeUri r '\\') := by
  unfold normalizeUri
  rw [if_pos (by decide)]
  rcases h with ⟨t, rfl⟩ | rfl | ⟨t, rfl⟩
  · show LocalText (match '/' :: replaceC '\\' '/' t with
      | a :: ':' :: r => '/' :: a :: r
      | u => u)
    split
    · exact .inl ⟨_, rfl⟩
    · exact .inl ⟨_, rfl⟩
  · exact .inr (.inl rfl)
  · exact .inr (.inr ⟨_, rfl⟩)

theorem localText_starts {r : Str} (h : LocalText r) : (startsWith r cl!"/" || startsWith r cl!".") = true := by
  rcases h with ⟨t, rfl⟩ | rfl | ⟨t, rfl⟩ <;> rfl

/-- what is before the first connector -/
theorem localText_inner {r a m b : Str} (h : LocalText r) (hf : findInner r = some (a, m, b)) : LocalText (a ++ INNER ++ b) := by
  have hc : ∀ (c : Char) (s : Str), c ≠ '(' → findInner (c :: s) = (findInner s).map fun (a, m, t) => (c :: a, m, t) := by
    intro c s hc
    exact findInner_skip (a := [c]) (by simpa using fun h => hc h.symm) |>.trans (by cases findInner s <;> rfl)
  rcases h with ⟨t, rfl⟩ | rfl | ⟨t, rfl⟩
  · rw [hc _ _ (by decide)] at hf
    cases hg : findInner t with
    | none => rw [hg] at hf; exact absurd hf (by simp)
    | some x =>
      rw [hg] at hf
      simp only [Option.map_some, Option.some.injEq, Prod.mk.injEq] at hf
      obtain ⟨rfl, -, -⟩ := hf
      exact .inl ⟨_, rfl⟩
  · exact absurd (show none = _ from hf) (by simp)
  · rw [hc _ _ (by decide), hc _ _ (by decide)] at hf
    cases hg : findInner t with
    | none => rw [hg] at hf; exact absurd hf (by simp)
    | some x =>
      rw [hg] at hf
      simp only [Option.map_some, Option.some.injEq, Prod.mk.injEq] at hf
      obtain ⟨rfl, -, -⟩ := hf
      exact .inr (.inr ⟨_, rfl⟩)

theorem reScheme_local {r : Str} (h : LocalText r) : (reScheme r).1 = none := by
  rcases h with ⟨t, rfl⟩ | rfl | ⟨t, rfl⟩ <;> rfl

theorem ofParts_parts {uri : Str} {p : Parts} {q : UriParse} (h : UriParse.ofParts uri p = .ok q) :
    q.scheme = p.scheme ∧ q.path = p.path := by
  unfold UriParse.ofParts at h
  simp only at h
  split at h
  · simp at h
  · split at h
    · simp at h
    · simp at h; rw [← h]; exact ⟨rfl, rfl⟩

theorem ofParts_netloc {uri : Str} {p : Parts} {q : UriParse} (h : UriParse.ofParts uri p = .ok q)
    (ha : p.authority = none ∨ p.authority = some []) : q.listNetloc = [] := by
  obtain ⟨s, a, pa, qu, fr⟩ := p
  simp only at ha
  unfold UriParse.ofParts at h
  rcases ha with rfl | rfl <;>
    simp only [extractConnector, authorityFields, show hasSub cl!"((" [] = false from rfl, Bool.false_eq_true, if_false] at h <;>
    split at h <;> simp at h <;> rw [← h] <;> rfl

/-- without a scheme -/
theorem finish_none {cls : UriClass} {r : Str} {sep : Char} {E : Dict} {u : Uri} (hr : LocalText r)
    (h : Uri.finish cls r sep E = .ok u) : StaysIn M u := by
  unfold Uri.finish at h
  cases hp : UriParse.init r with
  | error e => rw [hp] at h; simp at h
  | ok p =>
    rw [hp] at h
    simp only [Except.ok.injEq] at h
    have hs : p.scheme = none := by
      unfold UriParse.init at hp
      cases hu : urisplit r with
      | error e => rw [hu] at hp; simp at hp
      | ok q =>
        rw [hu] at hp
        rw [(ofParts_parts hp).1]
        unfold urisplit at hu
        cases hf : findInner r with
        | none =>
          rw [hf] at hu
          rw [urisplitPost_scheme hu]
          exact reScheme_local hr
        | some x =>
          obtain ⟨a, m, b⟩ := x
          rw [hf] at hu
          rw [urisplitPost_scheme hu]
          exact reScheme_local (localText_inner hr hf)
    rw [← h]
    exact ⟨.inr ⟨r, hr, .inr rfl⟩, .inr (.inr (.inl hs))⟩

theorem post_local {inner r : Str} {q : Parts} (hr : LocalText r) (h : urisplitPost inner (reMatch (cl!"file://" ++ r)) = .ok q) :
    q.scheme = some cl!"file" ∧ (q.authority = none ∨ q.authority = some []) ∧ LocalText q.path := by
  have key : ∀ {p : Parts} {A : Str}, p.scheme = some cl!"file" → p.authority = some A → (A = [] ∧ (∃ y, p.path = '/' :: y) ∨ A = cl!"." ∧ (∃ y, p.path = '/' :: y) ∨
      A = cl!"." ∧ p.path = [] ∧ p.fragment = none) → urisplitPost inner p = .ok q →
      q.scheme = some cl!"file" ∧ (q.authority = none ∨ q.authority = some []) ∧ LocalText q.path := by
    intro p A hs hA hc h
    refine ⟨(urisplitPost_scheme h).trans hs, ?_⟩
    obtain ⟨s, a, pa, qu, fr⟩ := p
    simp only at hs hA hc
    subst hs hA
    unfold urisplitPost at h
    simp only [show isHttp (some cl!"file") = false from rfl, Bool.false_eq_true, if_false] at h
    rcases hc with ⟨rfl, y, rfl⟩ | ⟨rfl, y, rfl⟩ | ⟨rfl, rfl, rfl⟩
    · rw [show replaceS INNER inner [] = [] from rfl] at h
      rw [if_neg (by decide)] at h
      dsimp only at h
      split at h <;> (simp only [Except.ok.injEq] at h; rw [← h]; exact ⟨.inr rfl, .inl ⟨_, rfl⟩⟩)
    · rw [show replaceS INNER inner cl!"." = cl!"." from rfl] at h
      rw [if_pos rfl] at h
      dsimp only at h
      split at h <;> (simp only [Except.ok.injEq] at h; rw [← h]; exact ⟨.inl rfl, .inr (.inr ⟨_, rfl⟩)⟩)
    · rw [show replaceS INNER inner cl!"." = cl!"." from rfl] at h
      rw [if_pos rfl] at h
      dsimp only at h
      simp only [Except.ok.injEq] at h
      rw [← h]
      exact ⟨.inl rfl, .inr (.inl rfl)⟩
  rcases hr with ⟨t, rfl⟩ | rfl | ⟨t, rfl⟩
  · exact key (A := []) rfl rfl (.inl ⟨rfl, _, rfl⟩) h
  · exact key (A := cl!".") rfl rfl (.inr (.inr ⟨rfl, rfl, rfl⟩)) h
  · exact key (A := cl!".") rfl rfl (.inr (.inl ⟨rfl, _, rfl⟩)) h

/-- local URIs -/
theorem finish_file {cls : UriClass} {r : Str} {sep : Char} {E : Dict} {u : Uri} (hr : LocalText r)
    (h : Uri.finish cls (cl!"file://" ++ r) sep E = .ok u) : StaysIn M u := by
  unfold Uri.finish at h
  cases hp : UriParse.init (cl!"file://" ++ r) with
  | error e => rw [hp] at h; simp at h
  | ok p =>
    rw [hp] at h
    simp only [Except.ok.injEq] at h
    have hs : p.scheme = some cl!"file" ∧ p.listNetloc = [] ∧ LocalText p.path := by
      unfold UriParse.init at hp
      cases hu : urisplit (cl!"file://" ++ r) with
      | error e => rw [hu] at hp; simp at hp
      | ok q =>
        rw [hu] at hp
        have hq : q.scheme = some cl!"file" ∧ (q.authority = none ∨ q.authority = some []) ∧ LocalText q.path := by
          unfold urisplit at hu
          rw [findInner_skip (a := cl!"file://") (by decide)] at hu
          cases hf : findInner r with
          | none =>
            rw [hf] at hu
            exact post_local hr hu
          | some x =>
            obtain ⟨a, m, b⟩ := x
            rw [hf] at hu
            exact post_local (localText_inner hr hf) hu
        obtain ⟨h1, h2, h3⟩ := hq
        refine ⟨(ofParts_parts hp).1.trans h1, ofParts_netloc hp h2, ?_⟩
        rw [(ofParts_parts hp).2]
        exact h3
    rw [← h]
    exact ⟨.inr ⟨r, hr, .inl rfl⟩, .inr (.inr (.inr hs))⟩

/-- memory URIs -/
theorem finish_other {x : Str} (hx : (M ∧ x = cl!"memory") ∨ x = cl!"None") {cls : UriClass} {r : Str} {sep : Char} {E : Dict} {u : Uri}
    (h : Uri.finish cls (x ++ cl!"://" ++ r) sep E = .ok u) : StaysIn M u := by
  have h1 : u.scheme = some x := (finish_scheme (by rcases hx with ⟨hM, rfl⟩ | rfl <;> decide) (by rcases hx with ⟨hM, rfl⟩ | rfl <;> decide) h).1
  refine ⟨.inl ⟨x, r, hx, ?_⟩, ?_⟩
  · unfold Uri.finish at h
    split at h
    · simp at h
    · simp only [Except.ok.injEq] at h
      rw [← h]
  · rcases hx with ⟨hM, rfl⟩ | rfl
    · exact .inl ⟨hM, h1⟩
    · exact .inr (.inl h1)

theorem mk_other {x : Str} (hx : (M ∧ x = cl!"memory") ∨ x = cl!"None") {cls : UriClass} {r : Str} {sep : Char} {E : Dict} {u : Uri}
    (h : Uri.mk' cls (x ++ cl!"://" ++ r) sep E = .ok u) : StaysIn M u := by
  unfold Uri.mk' at h
  rw [normInput_scheme (by rcases hx with ⟨hM, rfl⟩ | rfl <;> decide) (by rcases hx with ⟨hM, rfl⟩ | rfl <;> decide)
    (by rcases hx with ⟨hM, rfl⟩ | rfl <;> decide)] at h
  exact finish_other hx h

theorem normInput_local {r s : Str} (hr : LocalText r) (hs : s = r ∨ s = cl!"file://" ++ r) :
    ∃ r', LocalText r' ∧ (normInput s = cl!"file://" ++ r' ∨ normInput s = r') := by
  have e1 : (if startsWith s cl!"file://" then s.drop 7 else s) = r := by
    rcases hs with rfl | rfl
    · rcases hr with ⟨t, rfl⟩ | rfl | ⟨t, rfl⟩ <;> rfl
    · rfl
  refine ⟨normalizeUri r '\\', localText_normalize hr, ?_⟩
  unfold normInput
  simp only [e1]
  rw [localText_starts (localText_normalize hr)]
  simp only [Bool.not_true, Bool.and_false, Bool.false_eq_true, if_false]
  split
  · exact .inl rfl
  · exact .inr rfl

theorem mk_local {r s : Str} (hr : LocalText r) (hs : s = r ∨ s = cl!"file://" ++ r) {cls : UriClass} {sep : Char} {E : Dict} {u : Uri}
    (h : Uri.mk' cls s sep E = .ok u) : StaysIn M u := by
  obtain ⟨r', h1, h2 | h2⟩ := normInput_local hr hs
  · unfold Uri.mk' at h
    rw [h2] at h
    exact finish_file h1 h
  · unfold Uri.mk' at h
    rw [h2] at h
    exact finish_none h1 h

/-- texts that are taken for relative paths -/
theorem mk_relative {t : Str} (h0 : hasSub cl!"://" t = false) (hb : '\\' ∉ t) (hd : ∀ y, t ≠ '.' :: y) {cls : UriClass} {sep : Char}
    {E : Dict} {u : Uri} (h : Uri.mk' cls t sep E = .ok u) : StaysIn M u := by
  by_cases hs : ∃ y, t = '/' :: y
  · exact mk_local (.inl hs) (.inl rfl) h
  have s1 : startsWith t cl!"file://" = false := by
    cases hc : startsWith t cl!"file://" with
    | false => rfl
    | true =>
      obtain ⟨y, rfl⟩ := startsWith_iff.1 hc
      have := hasSub_mid (p := cl!"://") (a := cl!"file") (b := y)
      simp at this h0; rw [this] at h0; simp at h0
  have hn : (∃ y, normalizeUri t '\\' = '/' :: y) ∨ normalizeUri t '\\' = t := by
    unfold normalizeUri
    rw [if_pos (by decide), replaceC_of_not_mem hb]
    split
    · exact .inl ⟨_, rfl⟩
    · exact .inr rfl
  have fin : ∃ r, LocalText r ∧ (normInput t = cl!"file://" ++ r ∨ normInput t = r) := by
    unfold normInput
    simp only [s1, Bool.false_eq_true, if_false]
    rcases hn with ⟨y, e⟩ | e
    · refine ⟨'/' :: y, .inl ⟨_, rfl⟩, ?_⟩
      rw [e]
      simp only [show startsWith ('/' :: y) cl!"/" = true from rfl, Bool.true_or, Bool.not_true, Bool.and_false, Bool.false_eq_true, if_false]
      split
      · exact .inl rfl
      · exact .inr rfl
    · have e1 : startsWith t cl!"/" = false := by
        cases hc : startsWith t cl!"/" with
        | false => rfl
        | true => obtain ⟨y, rfl⟩ := startsWith_iff.1 hc; exact absurd ⟨y, rfl⟩ hs
      have e2 : startsWith t cl!"." = false := by
        cases hc : startsWith t cl!"." with
        | false => rfl
        | true => obtain ⟨y, rfl⟩ := startsWith_iff.1 hc; exact absurd rfl (hd y)
      refine ⟨'.' :: '/' :: t, .inr (.inr ⟨_, rfl⟩), ?_⟩
      rw [e]
      rw [show (!hasSub cl!"://" t && !(startsWith t cl!"/" || startsWith t cl!".")) = true by rw [h0, e1, e2]; rfl]
      simp only [if_true, List.cons_append, List.nil_append]
      rw [hasSub_cons_ne (by decide), hasSub_cons_ne (by decide), h0]
      exact .inl rfl
  obtain ⟨r', h1, h2 | h2⟩ := fin
  · unfold Uri.mk' at h
    rw [h2] at h
    exact finish_file h1 h
  · unfold Uri.mk' at h
    rw [h2] at h
    exact finish_none h1 h

theorem rstrip_local {r : Str} (h : LocalText r) (y : Str) : LocalText (rstripC '/' r ++ '/' :: y) := by
  have h1 : ∀ t, rstripC '/' ('/' :: t) = [] ∨ ∃ z, rstripC '/' ('/' :: t) = '/' :: z := by
    intro t
    unfold rstripC
    split
    · exact .inl rfl
    · exact .inr ⟨_, rfl⟩
  rcases h with ⟨t, rfl⟩ | rfl | ⟨t, rfl⟩
  · rcases h1 t with e | ⟨z, e⟩ <;> rw [e]
    · exact .inl ⟨_, rfl⟩
    · exact .inl ⟨_, rfl⟩
  · exact .inr (.inr ⟨_, rfl⟩)
  · rw [rstripC]
    rcases h1 t with e | ⟨z, e⟩ <;> rw [e]
    · exact .inr (.inr ⟨_, rfl⟩)
    · exact .inr (.inr ⟨_, rfl⟩)

theorem StaysIn.div {u v : Uri} {n : Str} (hu : StaysIn M u) (h : u.div n = .ok v) : StaysIn M v := by
  have key : ∀ {p : Str} {w : Uri}, u.joinPath [n] = .ok p →
      Uri.mk' u.cls (uriFromParts u.parse.scheme u.parse.listNetloc p u.parse.query) u.sep u.allExtras = .ok w → StaysIn M w := by
    intro p w hp hw
    rcases hu.scheme with ⟨hM, hs⟩ | hs | hs | ⟨hs, hn, hl⟩
    · unfold uriFromParts at hw
      rw [show u.parse.scheme = some cl!"memory" from hs] at hw
      simp only [Option.getD_some, List.append_assoc] at hw
      rw [← List.append_assoc] at hw
      exact mk_other (.inl ⟨hM, rfl⟩) hw
    · unfold uriFromParts at hw
      rw [show u.parse.scheme = some cl!"None" from hs] at hw
      simp only [Option.getD_some, List.append_assoc] at hw
      rw [← List.append_assoc] at hw
      exact mk_other (.inr rfl) hw
    · unfold uriFromParts at hw
      rw [show u.parse.scheme = none from hs] at hw
      simp only [Option.getD_none, List.append_assoc] at hw
      rw [← List.append_assoc] at hw
      exact mk_other (.inr rfl) hw
    · unfold uriFromParts at hw
      rw [show u.parse.scheme = some cl!"file" from hs, hn] at hw
      simp only [Option.getD_some, List.append_assoc, List.nil_append] at hw
      have hlp : LocalText p ∧ p ≠ cl!"." := by
        have : ∃ y, p = rstripC '/' u.parse.path ++ '/' :: y := by
          unfold Uri.joinPath at hp
          split at hp <;> simp [joinS] at hp <;> exact ⟨_, hp.symm⟩
        obtain ⟨y, rfl⟩ := this
        refine ⟨rstrip_local hl y, fun hc => ?_⟩
        have : '/' ∈ cl!"." := hc ▸ (by simp)
        exact absurd this (by decide)
      refine mk_local (hlp.1.append (t := if u.parse.query = [] then [] else cl!"?" ++ urlencode u.parse.query) (.inl hlp.2)) (.inr ?_) hw
      simp only [List.cons_append, List.nil_append]
  unfold Uri.div Uri.join at h
  cases hp : u.joinPath [n] with
  | error e => rw [hp] at h; simp at h
  | ok p =>
    rw [hp] at h
    simp only at h
    split at h
    · simp at h
    · rename_i w hw
      simp only [Except.ok.injEq] at h
      have := key hp hw
      rw [← h]
      exact ⟨this.text, this.scheme⟩

theorem rsplit1_last {c : Char} {s : Str} (h : c ∈ s) : ∃ a b, s = a ++ c :: b ∧ c ∉ b := by
  induction s with
  | nil => simp at h
  | cons x xs ih =>
    by_cases hm : c ∈ xs
    · obtain ⟨a, b, e, hr⟩ := ih hm
      exact ⟨x :: a, b, by rw [e]; rfl, hr⟩
    · have hx : x = c := by simp at h; rcases h with h | h; exact h.symm; exact absurd h hm
      exact ⟨[], xs, by rw [hx]; rfl, hm⟩

theorem cut {r a b : Str} (hr : LocalText r) (h : r = a ++ '/' :: b) : a = [] ∨ LocalText a := by
  cases a with
  | nil => exact .inl rfl
  | cons c a =>
    right
    rcases hr with ⟨t, rfl⟩ | rfl | ⟨t, rfl⟩
    · simp at h
      exact .inl ⟨a, by rw [h.1]⟩
    · simp at h
    · simp at h
      cases a with
      | nil => exact .inr (.inl (by rw [h.1]))
      | cons d a =>
        simp at h
        exact .inr (.inr ⟨a, by rw [h.1, h.2.1]⟩)

theorem StaysIn.split {u v : Uri} {t : Str} (hu : StaysIn M u) (h : u.split = .ok (v, t)) : StaysIn M v := by
  have key : ∀ {w : Uri}, Uri.mk' u.cls (Uri.splitStr u.uri).1 u.sep u.allExtras = .ok w → StaysIn M w := by
    intro w hw
    have hsome : ∀ {a b : Str}, rsplit1 '/' u.uri = some (a, b) → (Uri.splitStr u.uri).1 =
        (if (if endsWith a cl!"//" then a ++ cl!"/" else a) = [] then cl!"." else if endsWith a cl!"//" then a ++ cl!"/" else a) := by
      intro a b e
      unfold Uri.splitStr
      rw [e]
    rcases hu.text with ⟨x, r, hx, e⟩ | ⟨r, hr, e | e⟩
    · by_cases hm : '/' ∈ r
      · obtain ⟨a, b, hr, hb⟩ := rsplit1_last hm
        have h1 : rsplit1 '/' u.uri = some (x ++ cl!"://" ++ a, b) := by
          rw [e, hr, ← List.append_assoc]
          exact rsplit1_append hb
        rw [hsome h1, if_neg (by split <;> simp)] at hw
        split at hw
        · rw [List.append_assoc] at hw
          exact mk_other hx hw
        · exact mk_other hx hw
      · have h1 : rsplit1 '/' u.uri = some (x ++ cl!":/", r) := by
          rw [e, show x ++ cl!"://" ++ r = (x ++ cl!":/") ++ '/' :: r by simp]
          exact rsplit1_append hm
        rw [hsome h1] at hw
        rcases hx with ⟨hM, rfl⟩ | rfl
        · exact mk_relative (t := cl!"memory:/") (by decide) (by decide) (by intro y hc; simp at hc) hw
        · exact mk_relative (t := cl!"None:/") (by decide) (by decide) (by intro y hc; simp at hc) hw
    · by_cases hm : '/' ∈ r
      · obtain ⟨a, b, h2, hb⟩ := rsplit1_last hm
        have h1 : rsplit1 '/' u.uri = some (cl!"file://" ++ a, b) := by
          rw [e, h2, ← List.append_assoc]
          exact rsplit1_append hb
        rw [hsome h1, if_neg (by split <;> simp)] at hw
        rcases cut hr h2 with rfl | ha
        · exact mk_local (r := cl!"/") (.inl ⟨_, rfl⟩) (.inr rfl) hw
        · split at hw
          · rw [List.append_assoc] at hw
            exact mk_local (ha.append (t := cl!"/") (.inr (.inr ⟨_, rfl⟩))) (.inr rfl) hw
          · exact mk_local ha (.inr rfl) hw
      · have h1 : rsplit1 '/' u.uri = some (cl!"file:/", r) := by
          rw [e, show cl!"file://" ++ r = cl!"file:/" ++ '/' :: r by simp]
          exact rsplit1_append hm
        rw [hsome h1] at hw
        exact mk_relative (t := cl!"file:/") (by decide) (by decide) (by intro y hc; simp at hc) hw
    · by_cases hm : '/' ∈ r
      · obtain ⟨a, b, h2, hb⟩ := rsplit1_last hm
        have h1 : rsplit1 '/' u.uri = some (a, b) := by
          rw [e, h2]
          exact rsplit1_append hb
        rw [hsome h1] at hw
        rcases cut hr h2 with rfl | ha
        · exact mk_local (r := cl!".") (.inr (.inl rfl)) (.inl rfl) hw
        · rw [if_neg (by rcases ha with ⟨_, rfl⟩ | rfl | ⟨_, rfl⟩ <;> split <;> simp)] at hw
          split at hw
          · exact mk_local (ha.append (t := cl!"/") (.inr (.inr ⟨_, rfl⟩))) (.inl rfl) hw
          · exact mk_local ha (.inl rfl) hw
      · have h1 : (Uri.splitStr u.uri).1 = cl!"." := by
          unfold Uri.splitStr
          rw [e, rsplit1_none hm]
          rfl
        rw [h1] at hw
        exact mk_local (r := cl!".") (.inr (.inl rfl)) (.inl rfl) hw
  unfold Uri.split at h
  dsimp only at h
  cases hw : Uri.mk' u.cls (Uri.splitStr u.uri).1 u.sep u.allExtras with
  | error e => rw [hw] at h; simp at h
  | ok w =>
    rw [hw] at h
    simp only [Except.ok.injEq, Prod.mk.injEq] at h
    exact h.1 ▸ key hw

end Verif.Any
