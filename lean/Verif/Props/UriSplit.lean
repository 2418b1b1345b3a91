import Verif.Uri.SplitLemmas
import Verif.Uri.UrlJoin
import Verif.Uri.Paths
import Verif.Props.UriJoin
/-!
# Properties C08-C11, C13, C16, C17, C20: parsing of URI strings
-/
namespace Verif.Props
open Spec

/-! ## C08 -/

theorem urisplit_raw {s : Str} (hi : hasSub cl!"((" s = false) : urisplit s = urisplitPost [] (reMatch s) := by
  rw [urisplit, findInner_none hi]

/-- C08, existence: `urisplit` fails exactly on strings without an authority part. -/
theorem C08_split_defined {s : Str} (hi : hasSub cl!"((" s = false) :
    (HasAuthority s ↔ ∃ p, urisplit s = .ok p) ∧
    (¬ HasAuthority s ↔ urisplit s = .error .attributeError) := by
  rw [urisplit_raw hi, ← reMatch_authority]
  unfold urisplitPost
  cases h : (reMatch s).authority with
  | none => simp
  | some a =>
    simp only
    constructor
    · simp only [Option.some.injEq, exists_eq', true_iff]
      split
      · exact ⟨_, rfl⟩
      · split <;> exact ⟨_, rfl⟩
    · simp only [Option.some.injEq, exists_eq', not_true, false_iff]
      split
      · simp
      · split <;> simp

/-- C08 for http(s): the five parts recompose to the string and obey the grammar. -/
theorem C08_split_recomposes_http {s : Str} {p : Parts} (hi : hasSub cl!"((" s = false)
    (hph : hasSub INNER s = false) (hn : '\n' ∉ s) (h : urisplit s = .ok p)
    (hd : p.authority ≠ none)
    (hhttp : isHttp p.scheme = true) : recompose p = s ∧ Grammar p := by
  rw [urisplit_raw hi] at h
  obtain ⟨h1, h2⟩ := reMatch_spec s hn
  unfold urisplitPost at h
  cases ha : (reMatch s).authority with
  | none => rw [ha] at h; simp at h
  | some a =>
    rw [ha] at h
    have hri : hasSub INNER a = false := by
      cases hx : hasSub INNER a with
      | false => rfl
      | true =>
        have hsub : hasSub INNER (recompose (reMatch s)) = true := by
          obtain ⟨l, r, hlr⟩ := hasSub_iff.1 hx
          rw [hasSub_iff]
          refine ⟨(reMatch s).scheme.elim [] (· ++ cl!":") ++ cl!"//" ++ l,
            r ++ (reMatch s).path ++ (reMatch s).query.elim [] (cl!"?" ++ ·) ++
              (reMatch s).fragment.elim [] (cl!"#" ++ ·), ?_⟩
          simp only [recompose, ha, Option.elim, ← hlr, List.append_assoc]
        rw [h1, hph] at hsub; simp at hsub
    simp only [replaceS_of_no_sub hri] at h
    have hsch : p.scheme = (reMatch s).scheme := by
      split at h
      · simp at h; rw [← h]
      · split at h <;> simp at h <;> rw [← h]
    have hdot : a ≠ cl!"." := by
      rintro rfl
      apply hd
      rw [if_pos rfl] at h
      split at h
      · simp at h; rw [← h]
      · split at h <;> simp at h <;> rw [← h]
    rw [if_neg hdot, ← hsch, if_pos hhttp] at h
    simp at h
    have : p = reMatch s := by
      rw [← h]
      cases hm : reMatch s
      rw [hm] at ha
      simp at ha; simp [ha, hsch, hm]
    rw [this]; exact ⟨h1, h2⟩

example : recompose ⟨some cl!"http", some cl!"u:p@h:1", cl!"/a;b", some cl!"x?/y", some cl!"f#g"⟩
      = cl!"http://u:p@h:1/a;b?x?/y#f#g" ∧
    urisplit cl!"http://u:p@h:1/a;b?x?/y#f#g"
      = .ok ⟨some cl!"http", some cl!"u:p@h:1", cl!"/a;b", some cl!"x?/y", some cl!"f#g"⟩ := by decide

/-- C08 for the other schemes, without query: '#fragment' stays in the path; at most an empty fragment
    is lost. -/
theorem C08_split_recomposes_other {s : Str} {p : Parts} (hi : hasSub cl!"((" s = false)
    (hph : hasSub INNER s = false) (hn : '\n' ∉ s) (h : urisplit s = .ok p)
    (hd : p.authority ≠ none)
    (hhttp : isHttp p.scheme = false) (hq : p.query = none) :
    ∃ t, (t = [] ∨ t = cl!"#") ∧ s = recompose { p with fragment := none } ++ t ∧
      (p.fragment = none ∨ p.fragment = some []) := by
  rw [urisplit_raw hi] at h
  obtain ⟨h1, h2⟩ := reMatch_spec s hn
  unfold urisplitPost at h
  cases ha : (reMatch s).authority with
  | none => rw [ha] at h; simp at h
  | some a =>
    rw [ha] at h
    have hri : hasSub INNER a = false := by
      cases hx : hasSub INNER a with
      | false => rfl
      | true =>
        have hsub : hasSub INNER (recompose (reMatch s)) = true := by
          obtain ⟨l, r, hlr⟩ := hasSub_iff.1 hx
          rw [hasSub_iff]
          refine ⟨(reMatch s).scheme.elim [] (· ++ cl!":") ++ cl!"//" ++ l,
            r ++ (reMatch s).path ++ (reMatch s).query.elim [] (cl!"?" ++ ·) ++
              (reMatch s).fragment.elim [] (cl!"#" ++ ·), ?_⟩
          simp only [recompose, ha, Option.elim, ← hlr, List.append_assoc]
        rw [h1, hph] at hsub; simp at hsub
    simp only [replaceS_of_no_sub hri] at h
    have hsch : p.scheme = (reMatch s).scheme := by
      split at h
      · simp at h; rw [← h]
      · split at h <;> simp at h <;> rw [← h]
    have hdot : a ≠ cl!"." := by
      rintro rfl
      apply hd
      rw [if_pos rfl] at h
      split at h
      · simp at h; rw [← h]
      · split at h <;> simp at h <;> rw [← h]
    rw [if_neg hdot, ← hsch, hhttp] at h
    simp only [Bool.false_eq_true, if_false] at h
    have hqq : (reMatch s).query = none := by
      rw [← hq]; split at h <;> simp at h <;> rw [← h]
    split at h
    · rename_i c f hf
      simp at h
      refine ⟨[], .inl rfl, ?_, .inr (by rw [← h])⟩
      conv => lhs; rw [← h1]
      rw [← h]
      simp [recompose, hqq, ha, hf, hsch]
    · rename_i hf
      simp at h
      cases hfr : (reMatch s).fragment with
      | none =>
        refine ⟨[], .inl rfl, ?_, .inl (by rw [← h]; exact hfr)⟩
        conv => lhs; rw [← h1]
        rw [← h]
        simp [recompose, hqq, ha, hfr, hsch]
      | some f =>
        cases f with
        | cons c f => exact absurd hfr (hf c f)
        | nil =>
          refine ⟨cl!"#", .inr rfl, ?_, .inr (by rw [← h]; exact hfr)⟩
          conv => lhs; rw [← h1]
          rw [← h]
          simp [recompose, hqq, ha, hfr, hsch]

example : urisplit cl!"memory://h/a#b/c" = .ok ⟨some cl!"memory", some cl!"h", cl!"/a#b/c", none, some []⟩ := by
  decide

/-- With a query the fragment of a non-http URI moves in front of the query: text is reordered. -/
theorem C08_refuted_query_fragment :
    urisplit cl!"memory://h/a?q=1#b" = .ok ⟨some cl!"memory", some cl!"h", cl!"/a#b", some cl!"q=1", some []⟩ ∧
    recompose ⟨some cl!"memory", some cl!"h", cl!"/a#b", some cl!"q=1", none⟩ ≠ cl!"memory://h/a?q=1#b" := by
  decide

/-- A newline ends the fragment: the text behind it is lost (uriparse.py:75, `.` and no `$`). -/
theorem C08_refuted_newline :
    urisplit cl!"http://h/a#b\nc" = .ok ⟨some cl!"http", some cl!"h", cl!"/a", none, some cl!"b"⟩ := by
  decide

/-! ## C09 -/

/-- C09: the connector is extracted verbatim. -/
theorem C09_connector_verbatim {s x : Str} {cs : List Str} (hs : 2 ≤ s.length)
    (hsc : NoneOf cl!":/?#(\\" s) (hfile : s ≠ cl!"file") (hx : x ≠ []) (hx1 : NoneOf cl!"\n\\" x)
    (hx2 : hasSub cl!"))" x = false) (hc : ∀ c ∈ cs, CleanName c) :
    ∃ u, URI (s ++ cl!"://((" ++ x ++ cl!"))" ++ pathOf cs) = .ok u ∧
      u.parse.vpathConnector = x ∧ u.key.vpathConnector = x ∧ u.parse.path = pathOf cs ∧
      u.scheme = some s ∧ u.parse.hostname = some [] := by
  obtain ⟨u, h1, h2, -⟩ := URI_at (b := ⟨s, .vpath x⟩) (cs := cs) (q := none) (Q := [])
    ⟨hs, hsc, ⟨hx, hx1, hx2⟩, fun h => absurd h hfile⟩ hc (fun h => absurd h hfile) (by simp) rfl []
  refine ⟨u, ?_, h2.conn, h2.conn, h2.path, h2.scheme, ?_⟩
  · simpa [Base.str, Netloc.str, qs] using h1
  · have := h2.fields
    simp [Netloc.auth, authorityFields] at this
    simp [← this]

example : ∃ u, URI cl!"zip://((http://u:p@h/a.zip?x=(1)#y))/in/f.txt" = .ok u ∧
    u.parse.vpathConnector = cl!"http://u:p@h/a.zip?x=(1)#y" := by
  obtain ⟨u, h1, h2, -⟩ := C09_connector_verbatim (s := cl!"zip")
    (x := cl!"http://u:p@h/a.zip?x=(1)#y") (cs := [cl!"in", cl!"f.txt"])
    (by decide) (by decide) (by decide) (by decide) (by decide) (by decide) (by decide)
  exact ⟨u, h1, h2⟩

/-- A connector may not itself contain a connector: the first '))' closes it. -/
theorem C09_refuted_nested :
    (URI cl!"zip://((zip://((memory:///a.zip))/b.zip))/c").map (fun u => (u.parse.vpathConnector, u.path))
      = .ok (cl!"zip://((memory:///a.zip", cl!"/b.zip))/c") := by decide

theorem closeInner_text {s b t : Str} (h : closeInner s = some (b, t)) : s = b ++ cl!"))" ++ t ∧ '\n' ∉ b := by
  induction s using closeInner.induct generalizing b t with
  | case1 r => simp only [closeInner, Option.some.injEq, Prod.mk.injEq] at h; obtain ⟨rfl, rfl⟩ := h; simp
  | case2 r hc => simp [closeInner] at h
  | case3 c r hc hn ih =>
    rw [closeInner, if_neg hn] at h
    · cases hr : closeInner r with
      | none => simp [hr] at h
      | some v =>
        obtain ⟨b', t'⟩ := v
        simp only [hr, Option.map_some, Option.some.injEq, Prod.mk.injEq] at h
        obtain ⟨rfl, rfl⟩ := h
        obtain ⟨h1, h2⟩ := ih hr
        exact ⟨by rw [h1]; simp, by simp [h2, Ne.symm hn]⟩
    · exact hc
  | case4 => simp [closeInner] at h

/-- C09, what is set aside: the text is cut before and after one `((…))` on one line, and nothing is lost. -/
theorem C09_cut {s a m t : Str} (h : findInner s = some (a, m, t)) :
    s = a ++ m ++ t ∧ ∃ b, m = cl!"((" ++ b ++ cl!"))" ∧ '\n' ∉ b := by
  induction s using findInner.induct generalizing a m t with
  | case1 r b t' hr =>
    rw [findInner, hr] at h
    simp only [Option.some.injEq, Prod.mk.injEq] at h
    obtain ⟨rfl, rfl, rfl⟩ := h
    obtain ⟨h1, h2⟩ := closeInner_text hr
    exact ⟨by rw [h1]; simp, b, rfl, h2⟩
  | case2 r hr ih =>
    rw [findInner, hr] at h
    cases hf : findInner ('(' :: r) with
    | none => simp [hf] at h
    | some v =>
      obtain ⟨a', m', t'⟩ := v
      simp only [hf, Option.map_some, Option.some.injEq, Prod.mk.injEq] at h
      obtain ⟨rfl, rfl, rfl⟩ := h
      obtain ⟨h1, h2⟩ := ih hf
      exact ⟨by rw [h1]; simp, h2⟩
  | case3 c r hc ih =>
    rw [findInner] at h
    · cases hf : findInner r with
      | none => simp [hf] at h
      | some v =>
        obtain ⟨a', m', t'⟩ := v
        simp only [hf, Option.map_some, Option.some.injEq, Prod.mk.injEq] at h
        obtain ⟨rfl, rfl, rfl⟩ := h
        obtain ⟨h1, h2⟩ := ih hf
        exact ⟨by rw [h1]; simp, h2⟩
    · exact hc
  | case4 => simp [findInner] at h

example : findInner cl!"zip://((\n((x))/a" = some (cl!"zip://((\n", cl!"((x))", cl!"/a") := by decide

/-! ## C10, C11 -/

/-- last value given to `key` in a list of raw items -/
def lastValue (items : List (Str × Str)) (key : Str) : Option Str :=
  (items.reverse.find? fun kv => stripW kv.1 = key).map fun kv => unquotePlus (stripW kv.2)

theorem parseItem_pair {k v : Str} (hk : '=' ∉ k) (hv : '=' ∉ v) :
    parseItem (k ++ cl!"=" ++ v) = .ok (stripW k, unquotePlus (stripW v)) := by
  have : splitC '=' (k ++ cl!"=" ++ v) = [k, v] := by
    have := splitC_append (c := '=') (a := k) (b := v) hk
    rw [splitC_of_not_mem hv] at this
    simpa using this
  rw [parseItem, this]

theorem parseItems_get (items : List (Str × Str)) : ∀ (d : Dict),
    (∀ kv ∈ items, '=' ∉ kv.1 ∧ '=' ∉ kv.2) →
    ∃ e, parseItems d (items.map fun kv => kv.1 ++ cl!"=" ++ kv.2) = .ok e ∧
      ∀ key, e.get? key = (lastValue items key).or (d.get? key) := by
  induction items with
  | nil => intro d _; exact ⟨d, rfl, fun key => by simp [lastValue]⟩
  | cons kv items ih =>
    intro d h
    obtain ⟨hk, hv⟩ := h kv (by simp)
    obtain ⟨e, h1, h2⟩ := ih (d.set (stripW kv.1) (unquotePlus (stripW kv.2))) (fun x hx => h x (by simp [hx]))
    refine ⟨e, ?_, ?_⟩
    · simp only [List.map_cons, parseItems, parseItem_pair hk hv]; exact h1
    · intro key
      rw [h2, Dict.get?_set]
      simp only [lastValue, List.reverse_cons, List.find?_append]
      cases hf : items.reverse.find? (fun kv => decide (stripW kv.1 = key)) with
      | some x => simp
      | none =>
        by_cases hkey : stripW kv.1 = key
        · simp [hkey]
        · have : ¬ key = stripW kv.1 := fun h => hkey h.symm
          simp [hkey, this]

/-- C10: each key is mapped to the unquoted value of its last occurrence, and no other key is present. -/
theorem C10_query_last_value {items : List (Str × Str)} (hne : items ≠ [])
    (h : ∀ kv ∈ items, ('=' ∉ kv.1 ∧ '=' ∉ kv.2) ∧ '&' ∉ kv.1 ∧ '&' ∉ kv.2) :
    ∃ d, parseQueryString (joinS cl!"&" (items.map fun kv => kv.1 ++ cl!"=" ++ kv.2)) = .ok d ∧
      ∀ key, d.get? key = lastValue items key := by
  have hsp : splitC '&' (joinS cl!"&" (items.map fun kv => kv.1 ++ cl!"=" ++ kv.2))
      = items.map fun kv => kv.1 ++ cl!"=" ++ kv.2 := by
    apply splitC_joinS (by simpa using hne)
    intro s hs
    simp only [List.mem_map] at hs
    obtain ⟨kv, hkv, rfl⟩ := hs
    have := (h kv hkv).2
    simp [this]
  obtain ⟨d, h1, h2⟩ := parseItems_get items [] (fun kv hkv => (h kv hkv).1)
  refine ⟨d, ?_, ?_⟩
  · rw [parseQueryString, hsp]; exact h1
  · intro key
    rw [h2]
    simp [Dict.get?]

example : ∃ d, parseQueryString cl!"a=1&b=x%20y&a=+2" = .ok d ∧ d.get? cl!"a" = some cl!" 2" ∧
    d.get? cl!"b" = some cl!"x y" := by
  obtain ⟨d, h1, h2⟩ := C10_query_last_value (items := [(cl!"a", cl!"1"), (cl!"b", cl!"x%20y"), (cl!"a", cl!"+2")])
    (by decide) (by decide)
  exact ⟨d, h1, by rw [h2]; decide, by rw [h2]; decide⟩

theorem splitC_length (c : Char) (s : Str) : (splitC c s).length = s.count c + 1 := by
  induction s with
  | nil => rfl
  | cons x s ih =>
    simp only [splitC]
    split
    · rename_i h; subst h; simp [ih]
    · rename_i h
      cases hs : splitC c s with
      | nil => exact absurd hs splitC_ne_nil
      | cons a t =>
        rw [hs] at ih
        simp [h] at ih ⊢
        exact ih

theorem parseItem_error {i : Str} : parseItem i = .error .valueError ↔ i.count '=' ≠ 1 := by
  have hl := splitC_length '=' i
  unfold parseItem
  match h : splitC '=' i with
  | [] => exact absurd h splitC_ne_nil
  | [a] => rw [h] at hl; simp at hl ⊢; omega
  | [a, b] => rw [h] at hl; simp at hl ⊢; omega
  | a :: b :: c :: r => rw [h] at hl; simp at hl ⊢; omega

theorem parseItem_cases (i : Str) : parseItem i = .error .valueError ∨ ∃ kv, parseItem i = .ok kv := by
  unfold parseItem
  split
  · exact .inr ⟨_, rfl⟩
  · exact .inl rfl

/-- C10, rejection: ValueError exactly when some item has no or several '='. -/
theorem C10_query_rejects (q : Str) :
    (parseQueryString q = .error .valueError ↔ ∃ i ∈ splitC '&' q, i.count '=' ≠ 1) ∧
    (∀ e, parseQueryString q = .error e → e = .valueError) := by
  unfold parseQueryString
  generalize splitC '&' q = items
  generalize ([] : Dict) = d
  induction items generalizing d with
  | nil => simp [parseItems]
  | cons i r ih =>
    rcases parseItem_cases i with h | ⟨kv, h⟩
    · have := parseItem_error.1 h
      simp [parseItems, h, this]
    · have hc : ¬ i.count '=' ≠ 1 := by
        intro hx; rw [parseItem_error.2 hx] at h; simp at h
      simp only [parseItems, h]
      have := ih (Dict.set d kv.1 kv.2)
      refine ⟨?_, this.2⟩
      rw [this.1]
      simp only [List.mem_cons]
      constructor
      · rintro ⟨j, hj, hj'⟩; exact ⟨j, .inr hj, hj'⟩
      · rintro ⟨j, rfl | hj, hj'⟩
        · exact absurd hj' hc
        · exact ⟨j, hj, hj'⟩

example : parseQueryString cl!"a=1&bc" = .error .valueError ∧ parseQueryString cl!"a=1=2" = .error .valueError := by
  decide

/-- C11: encoding with `urlencode` and parsing gives the mapping back. -/
theorem C11_query_roundtrip {Q : Dict} (hne : Q ≠ []) (hw : Q.WF)
    (hk : ∀ kv ∈ Q, ∀ c ∈ kv.1, unreserved c = true) :
    parseQueryString (urlencode Q) = .ok Q := parseQueryString_urlencode_self hne hw hk

example : parseQueryString (urlencode [(cl!"a", cl!"x &=%+/é"), (cl!"b.c", [])])
    = .ok [(cl!"a", cl!"x &=%+/é"), (cl!"b.c", [])] :=
  C11_query_roundtrip (by simp) (by decide) (by decide)

/-- Keys are not unquoted (simpleuri.py:26-28), so other keys do change. -/
theorem C11_refuted_keys :
    parseQueryString (urlencode [(cl!"a b", cl!"1")]) = .ok [(cl!"a+b", cl!"1")] := by decide

/-! ## C13 -/

/-- C13, first half. -/
theorem C13_split_join {user passwd port : Option Str} {host : Str} (hh : host ≠ [])
    (hh1 : NoneOf cl!"@:" host) (hu : ∀ x, user = some x → x ≠ [] ∧ NoneOf cl!"@:" x)
    (hp : ∀ x, passwd = some x → x ≠ [] ∧ '@' ∉ x) (hup : passwd ≠ none → user ≠ none)
    (hpo : ∀ x, port = some x → x ≠ [] ∧ '@' ∉ x) :
    ∃ a, joinAuthority ⟨user, passwd, some host, port⟩ = .ok a ∧
      splitAuthority a = ⟨user, passwd, some host, port⟩ := by
  have hhp : ∃ hp, hp = host ++ (if truthy port then cl!":" ++ port.getD [] else []) ∧ '@' ∉ hp ∧
      headTail ':' hp = (host, port) := by
    refine ⟨_, rfl, ?_, ?_⟩
    · have := hh1.not_mem (c := '@') (by simp)
      cases port with
      | none => simp [truthy, this]
      | some x =>
        have h2 := hpo x rfl
        cases x with
        | nil => exact absurd rfl h2.1
        | cons c x => simp [truthy, this] at h2 ⊢; exact ⟨h2.1, h2.2⟩
    · have := hh1.not_mem (c := ':') (by simp)
      cases port with
      | none => simp [headTail, truthy, split1_none this]
      | some x =>
        have h2 := hpo x rfl
        cases x with
        | nil => exact absurd rfl h2.1
        | cons c x =>
          have := split1_append (b := c :: x) this
          simp [headTail, truthy, this]
  obtain ⟨hp', h1, h2, h3⟩ := hhp
  cases user with
  | none =>
    have : passwd = none := by
      cases passwd with
      | none => rfl
      | some x => exact absurd rfl (hup (by simp))
    subst this
    refine ⟨hp', ?_, ?_⟩
    · simp [joinAuthority, h1, truthy]
    · simp only [splitAuthority, split1_none h2]
      rw [h3]; simp [hh]
  | some x =>
    obtain ⟨hx1, hx2⟩ := hu x rfl
    have hxa := hx2.not_mem (c := '@') (by simp)
    have hxc := hx2.not_mem (c := ':') (by simp)
    have htx : truthy (some x) = true := by cases x with | nil => exact absurd rfl hx1 | cons => rfl
    cases passwd with
    | none =>
      refine ⟨x ++ '@' :: hp', ?_, ?_⟩
      · simp [joinAuthority, h1, htx, show truthy none = false from rfl]
      · simp only [splitAuthority, split1_append hxa]
        rw [h3]; simp [headTail, split1_none hxc, hh]
    | some y =>
      obtain ⟨hy1, hy2⟩ := hp y rfl
      have hty : truthy (some y) = true := by cases y with | nil => exact absurd rfl hy1 | cons => rfl
      refine ⟨(x ++ ':' :: y) ++ '@' :: hp', ?_, ?_⟩
      · simp [joinAuthority, h1, htx, hty]
      · have : '@' ∉ x ++ ':' :: y := by simp [hxa, hy2]
        simp only [splitAuthority, split1_append this]
        rw [h3]; simp [headTail, split1_append hxc, hh]

example : joinAuthority ⟨some cl!"u", some cl!"p:w", some cl!"h", some cl!"80"⟩ = .ok cl!"u:p:w@h:80" ∧
    splitAuthority cl!"u:p:w@h:80" = ⟨some cl!"u", some cl!"p:w", some cl!"h", some cl!"80"⟩ := by decide

/-- C13, second half: for every authority string with a host and without empty parts. -/
theorem C13_join_split {a : Str} (hh : (splitAuthority a).host ≠ none)
    (hu : (splitAuthority a).user ≠ some []) (hp : (splitAuthority a).passwd ≠ some [])
    (hpo : (splitAuthority a).port ≠ some []) : joinAuthority (splitAuthority a) = .ok a := by
  have tr : ∀ x : Str, x ≠ [] → truthy (some x) = true := by
    intro x hx; cases x with | nil => exact absurd rfl hx | cons => rfl
  -- the host:port half
  have half : ∀ hp' : Str, ∀ h po, headTail ':' hp' = (h, po) → po ≠ some [] →
      hp' = h ++ (if truthy po then cl!":" ++ po.getD [] else []) := by
    intro hp' h po he hpo'
    unfold headTail at he
    cases hs : split1 ':' hp' with
    | none => rw [hs] at he; simp at he; simp [← he.1, ← he.2, truthy]
    | some ab =>
      obtain ⟨x, y⟩ := ab
      rw [hs] at he; simp at he
      have := (split1_some hs).1
      rw [← he.1, ← he.2]
      rw [← he.2] at hpo'
      rw [tr y (by simpa using hpo'), this]; simp
  simp only [splitAuthority] at hh hu hp hpo ⊢
  cases hs : split1 '@' a with
  | none =>
    rw [hs] at hh hu hp hpo
    simp only at hh hu hp hpo ⊢
    generalize hm : headTail ':' a = m at *
    obtain ⟨h, po⟩ := m
    dsimp only at *
    have := half a h po hm hpo
    have hne : h ≠ [] := by intro h0; simp [h0] at hh
    rw [this]; simp [joinAuthority, hne, show truthy none = false from rfl]
  | some ui =>
    obtain ⟨ui, hp'⟩ := ui
    have hsa := (split1_some hs).1
    rw [hs] at hh hu hp hpo
    simp only at hh hu hp hpo ⊢
    generalize hm : headTail ':' hp' = m at *
    obtain ⟨h, po⟩ := m
    dsimp only at *
    have := half hp' h po hm hpo
    have hne : h ≠ [] := by intro h0; simp [h0] at hh
    cases hs2 : split1 ':' ui with
    | none =>
      simp only [headTail, hs2] at hu ⊢
      simp only [ne_eq, Option.some.injEq] at hu
      simp [joinAuthority, hne, tr ui hu]
      rw [hsa, this]; simp [show truthy none = false from rfl]
    | some xy =>
      obtain ⟨x, y⟩ := xy
      have hsb := (split1_some hs2).1
      simp only [headTail, hs2] at hu hp ⊢
      simp only [ne_eq, Option.some.injEq] at hu hp
      simp [joinAuthority, hne, tr x hu, tr y hp]
      rw [hsa, this, hsb]; simp

example : joinAuthority (splitAuthority cl!"u:p@h:port") = .ok cl!"u:p@h:port" :=
  C13_join_split (by decide) (by decide) (by decide) (by decide)

/-- Without a host joining raises a TypeError; empty parts are lost. -/
theorem C13_refuted_empty : joinAuthority (splitAuthority cl!":80") = .error .typeError ∧
    joinAuthority (splitAuthority cl!"u:@h:") = .ok cl!"u@h" := by decide

end Verif.Props
