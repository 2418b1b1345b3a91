import Verif.Props.UriMisc
/-!
# Property C12: the printed form of a URI parses back to an equal URI
-/
namespace Verif.Props
open Spec

/-! ## Substrings that cannot straddle a separator -/

theorem hasSub_sep {p a b : Str} {c : Char} (hc : c ∉ p) (hp : p ≠ []) :
    hasSub p (a ++ c :: b) = (hasSub p a || hasSub p b) := by
  rw [Bool.eq_iff_iff, Bool.or_eq_true]
  constructor
  · intro h
    obtain ⟨s, t, h⟩ := hasSub_iff.1 h
    rw [List.append_eq_append_iff] at h
    rcases h with ⟨x, h1, h2⟩ | ⟨x, h1, h2⟩
    · exact .inl (hasSub_iff.2 ⟨s, x, h1.symm⟩)
    · rcases List.append_eq_append_iff.1 h1.symm with ⟨y, h3, h4⟩ | ⟨y, h3, h4⟩
      · -- `s` reaches beyond the separator or the match begins at it
        rw [h4] at h2
        cases y with
        | nil =>
          simp only [List.nil_append] at h2
          cases p with
          | nil => exact absurd rfl hp
          | cons d p =>
            rw [List.cons_append, List.cons.injEq] at h2
            exact absurd (by simp [h2.1]) hc
        | cons d y =>
          rw [List.append_assoc, List.cons_append, List.cons.injEq] at h2
          exact .inr (hasSub_iff.2 ⟨y, t, by simpa using h2.2.symm⟩)
      · cases x with
        | nil => exact .inl (hasSub_iff.2 ⟨s, [], by rw [h3, h4]; simp⟩)
        | cons d x =>
          rw [List.cons_append, List.cons.injEq] at h2
          exact absurd (by rw [h4]; simp [h2.1]) hc
  · rintro (h | h)
    · exact hasSub_append_left h
    · have := hasSub_append_right (a := a ++ [c]) h
      simpa using this

/-! ## Unquoting text without escapes -/

theorem asciiRuns_flatten (s : Str) : (asciiRuns s).flatMap Prod.snd = s := by
  induction s with
  | nil => rfl
  | cons c s ih =>
    rw [asciiRuns]
    split
    · rename_i k' run t h
      rw [h] at ih
      split <;> simpa using ih
    · rename_i h
      rw [h] at ih
      simpa using ih

theorem asciiRuns_true {s run : Str} (h : (true, run) ∈ asciiRuns s) : ∀ c ∈ run, c.toNat < 128 := by
  induction s generalizing run with
  | nil => simp [asciiRuns] at h
  | cons d s ih =>
    rw [asciiRuns] at h
    split at h
    · rename_i k' run' t e
      split at h
      · rename_i hk
        rcases List.mem_cons.1 h with h | h
        · simp only [Prod.mk.injEq] at h
          intro c hc
          rw [h.2] at hc
          rcases List.mem_cons.1 hc with rfl | hc
          · simpa using h.1
          · exact ih (run := run') (by rw [e, ← hk, ← h.1]; simp) c hc
        · exact ih (by rw [e]; simp [h])
      · rcases List.mem_cons.1 h with h | h
        · simp only [Prod.mk.injEq] at h
          intro c hc
          rw [h.2] at hc
          simp at hc; subst hc
          simpa using h.1
        · exact ih (by rw [e]; exact h)
    · simp only [List.mem_singleton, Prod.mk.injEq] at h
      intro c hc
      rw [h.2] at hc
      simp at hc; subst hc
      simpa using h.1

theorem unquoteToBytes_plain {s : Str} (h : '%' ∉ s) (ha : ∀ c ∈ s, c.toNat < 128) :
    unquoteToBytes s = utf8Encode s := by
  induction s with
  | nil => rfl
  | cons c s ih =>
    simp at h
    have hc := ha c (by simp)
    rw [unquoteToBytes_cons (fun e => h.1 e.symm), ih h.2 (fun x hx => ha x (by simp [hx])), utf8Encode_cons]
    simp [encChar, hc]

theorem unquote_plain {s : Str} (h : '%' ∉ s) : unquote s = s := by
  have key : ∀ l : List (Bool × Str), (∀ kr ∈ l, kr ∈ asciiRuns s) →
      l.flatMap (fun (k, run) => if k then utf8DecodeReplace (unquoteToBytes run) else run)
        = l.flatMap Prod.snd := by
    intro l
    induction l with
    | nil => intro _; rfl
    | cons kr l ih =>
      intro hl
      obtain ⟨k, run⟩ := kr
      rw [List.flatMap_cons, List.flatMap_cons, ih (fun x hx => hl x (by simp [hx]))]
      congr 1
      cases k with
      | false => rfl
      | true =>
        have hm := hl (true, run) (by simp)
        have hp : '%' ∉ run := by
          intro hp
          apply h
          rw [← asciiRuns_flatten s]
          exact List.mem_flatMap.2 ⟨_, hm, hp⟩
        simp only [if_true]
        rw [unquoteToBytes_plain hp (asciiRuns_true hm), utf8DecodeReplace_encode]
  rw [unquote, key _ (fun _ h => h), asciiRuns_flatten]

theorem unquotePlus_plain {s : Str} (h : NoneOf cl!"%+" s) : unquotePlus s = s := by
  rw [unquotePlus, replaceC_of_not_mem (h.not_mem (by simp)), unquote_plain (h.not_mem (by simp))]

/-! ## Queries printed without quoting -/

/-- A query key or value that survives printing and parsing: no delimiter, no escape character, no
    white space around it. -/
structure PlainText (x : Str) : Prop where
  chars : NoneOf cl!"=&#\\(%+" x
  strip : stripW x = x

instance (x : Str) : Decidable (PlainText x) :=
  decidable_of_iff (NoneOf cl!"=&#\\(%+" x ∧ stripW x = x) ⟨fun ⟨a, b⟩ => ⟨a, b⟩, fun ⟨a, b⟩ => ⟨a, b⟩⟩

/-- the text after '?' that `__str__` prints -/
def plainBody (Q : Dict) : Str := joinS cl!"&" (Q.map fun kv => kv.1 ++ cl!"=" ++ kv.2)

theorem parseItem_plain {k v : Str} (hk : PlainText k) (hv : PlainText v) :
    parseItem (k ++ cl!"=" ++ v) = .ok (k, v) := by
  have h1 : '=' ∉ k := hk.chars.not_mem (by simp)
  have h2 : '=' ∉ v := hv.chars.not_mem (by simp)
  have h3 : unquotePlus v = v := unquotePlus_plain fun c hc => by
    have := hv.chars c hc; simp at this ⊢; tauto
  simp only [parseItem, List.append_assoc, List.cons_append, List.nil_append, splitC_append h1,
    splitC_of_not_mem h2, hk.strip, hv.strip, h3]

theorem parseItems_plain (d e : Dict) (h : ∀ kv ∈ e, PlainText kv.1 ∧ PlainText kv.2) :
    parseItems d (e.map fun kv => kv.1 ++ cl!"=" ++ kv.2) = .ok (d.update e) := by
  induction e generalizing d with
  | nil => simp [parseItems, Dict.update]
  | cons kv e ih =>
    have := h kv (by simp)
    rw [List.map_cons, parseItems, parseItem_plain this.1 this.2]
    simp only [ih _ (fun x hx => h x (by simp [hx]))]
    simp [Dict.update]

theorem plainBody_ne_nil {Q : Dict} (h : Q ≠ []) : plainBody Q ≠ [] := by
  cases Q with
  | nil => exact absurd rfl h
  | cons kv d => cases d <;> simp [plainBody, joinS]

theorem queryField_plain {Q : Dict} (hw : Q.WF) (h : ∀ kv ∈ Q, PlainText kv.1 ∧ PlainText kv.2) :
    queryField (if Q = [] then none else some (plainBody Q)) = .ok Q := by
  split
  · rename_i h0; subst h0; rfl
  · rename_i h0
    have hp : parseQueryString (plainBody Q) = .ok Q := by
      rw [parseQueryString, plainBody, splitC_joinS (by simpa using h0), parseItems_plain _ _ h,
        Dict.update_of_disjoint (by simpa using hw)]
      · simp
      · intro s hs
        simp only [List.mem_map] at hs
        obtain ⟨kv, hkv, rfl⟩ := hs
        have h1 := (h kv hkv).1.chars.not_mem (c := '&') (by simp)
        have h2 := (h kv hkv).2.chars.not_mem (c := '&') (by simp)
        simp [h1, h2]
    cases hb : plainBody Q with
    | nil => exact absurd hb (plainBody_ne_nil h0)
    | cons c r => rw [hb] at hp; exact hp

theorem plainBody_chars {Q : Dict} (h : ∀ kv ∈ Q, PlainText kv.1 ∧ PlainText kv.2) :
    NoneOf cl!"#\\(" (plainBody Q) := by
  apply joinS_chars
  · decide
  · intro s hs c hc
    simp only [List.mem_map] at hs
    obtain ⟨kv, hkv, rfl⟩ := hs
    simp only [List.append_assoc, List.mem_append, List.mem_cons, List.not_mem_nil, or_false] at hc
    rcases hc with h1 | h1 | h1
    · have := (h kv hkv).1.chars c h1; simp at this ⊢; tauto
    · subst h1; decide
    · have := (h kv hkv).2.chars c h1; simp at this ⊢; tauto

/-! ## Authorities -/

/-- the authority that `__str__` prints for a URI with a host or without connector -/
def printAuth (user pw host : Option Str) (port : Int) : Str :=
  user.getD [] ++ (if truthy pw then cl!":" ++ pw.getD [] else []) ++
    (if truthy user || truthy pw then cl!"@" else []) ++ host.getD [] ++
    (if port ≠ 0 then cl!":" ++ intStr port else [])

theorem truthy_getD (o : Option Str) : (if truthy o then o.getD [] else []) = o.getD [] := by
  cases o with
  | none => rfl
  | some x => cases x <;> rfl

theorem intStr_chars (i : Int) : ∀ c ∈ intStr i, c = '-' ∨ ('0' ≤ c ∧ c ≤ '9') := by
  intro c hc
  cases i with
  | ofNat n => exact .inr (natStr_digits n c hc)
  | negSucc n =>
    rcases List.mem_cons.1 hc with h | h
    · exact .inl h
    · exact .inr (natStr_digits _ c h)

theorem intStr_ne_nil (i : Int) : intStr i ≠ [] := by
  cases i with
  | ofNat n => exact natStr_ne_nil n
  | negSucc n => simp [intStr]

theorem intStr_not_mem {i : Int} {c : Char} (h1 : c ≠ '-') (h2 : ¬ ('0' ≤ c ∧ c ≤ '9')) :
    c ∉ intStr i := fun h => (intStr_chars i c h).elim h1 h2

/-- Facts about the parts of an authority. -/
structure Parts4 (a : Str) (user pw host : Option Str) : Prop where
  userNo : ∀ x, user = some x → '@' ∉ x ∧ ':' ∉ x
  pwNo : ∀ x, pw = some x → '@' ∉ x
  hostNo : ∀ x, host = some x → ':' ∉ x
  mem : ∀ c, c ∈ user.getD [] ∨ c ∈ pw.getD [] ∨ c ∈ host.getD [] → c ∈ a
  sub : ∀ p : Str, p ≠ [] → '@' ∉ p → ':' ∉ p → hasSub p a = false →
    hasSub p (user.getD []) = false ∧ hasSub p (pw.getD []) = false ∧ hasSub p (host.getD []) = false

theorem hasSub_nil {p : Str} (h : p ≠ []) : hasSub p [] = false := by
  cases p with
  | nil => exact absurd rfl h
  | cons c p => rfl

theorem headTail_spec (c : Char) (s : Str) :
    (c ∉ (headTail c s).1) ∧ s = (headTail c s).1 ++ (match (headTail c s).2 with
      | some b => c :: b | none => []) := by
  unfold headTail
  cases h : split1 c s with
  | none => simp [split1_eq_none h]
  | some ab =>
    obtain ⟨x, y⟩ := ab
    have := split1_some h
    exact ⟨this.2, this.1⟩

theorem headTail_sub {p s : Str} (hp : p ≠ []) (hc : ':' ∉ p) (h : hasSub p s = false) :
    hasSub p (headTail ':' s).1 = false ∧ hasSub p ((headTail ':' s).2.getD []) = false := by
  obtain ⟨-, e⟩ := headTail_spec ':' s
  rw [e] at h
  revert h
  cases (headTail ':' s).2 with
  | none => intro h; simp at h; exact ⟨by rw [headTail] at *; simpa using h, hasSub_nil hp⟩
  | some b =>
    intro h
    simp only [hasSub_sep hc hp, Bool.or_eq_false_iff] at h
    exact h

theorem headTail_mem {s : Str} {c : Char} (h : c ∈ (headTail ':' s).1 ∨ c ∈ (headTail ':' s).2.getD []) :
    c ∈ s := by
  obtain ⟨-, e⟩ := headTail_spec ':' s
  rw [e]
  revert h
  cases (headTail ':' s).2 with
  | none => intro h; simp at h; simp [h]
  | some b => intro h; simp at h ⊢; tauto

theorem host_getD (h : Str) : (if h = [] then none else some h : Option Str).getD [] = h := by
  split
  · rename_i e; simp [e]
  · rfl

theorem splitAuthority_parts (a : Str) :
    Parts4 a (splitAuthority a).user (splitAuthority a).passwd (splitAuthority a).host := by
  have hostNo : ∀ hp x : Str, (if (headTail ':' hp).1 = [] then none else some (headTail ':' hp).1) = some x →
      ':' ∉ x := by
    intro hp x h
    split at h
    · simp at h
    · simp at h; rw [← h]; exact (headTail_spec ':' hp).1
  cases hs : split1 '@' a with
  | none =>
    simp only [splitAuthority, hs]
    constructor
    · intro x h; simp at h
    · intro x h; simp at h
    · exact hostNo a
    · intro c h
      simp only [Option.getD_none, List.not_mem_nil, false_or, host_getD] at h
      exact headTail_mem (.inl h)
    · intro p hp _ hc h
      rw [host_getD]
      exact ⟨hasSub_nil hp, hasSub_nil hp, (headTail_sub hp hc h).1⟩
  | some uh =>
    obtain ⟨ui, hp'⟩ := uh
    obtain ⟨ha, hn⟩ := split1_some hs
    simp only [splitAuthority, hs]
    obtain ⟨hu1, hu2⟩ := headTail_spec ':' ui
    constructor
    · intro x h
      simp at h; subst h
      exact ⟨fun h => hn (headTail_mem (.inl h)), hu1⟩
    · intro x h hx
      exact hn (headTail_mem (.inr (by rw [h]; exact hx)))
    · exact hostNo hp'
    · intro c h
      simp only [Option.getD_some, host_getD] at h
      rw [ha]
      rcases h with h | h | h
      · simp [headTail_mem (.inl h)]
      · simp [headTail_mem (.inr h)]
      · simp [headTail_mem (.inl h)]
    · intro p hp h1 hc h
      rw [ha, hasSub_sep h1 hp, Bool.or_eq_false_iff] at h
      rw [host_getD]
      have t1 := headTail_sub hp hc h.1
      exact ⟨t1.1, t1.2, (headTail_sub hp hc h.2).1⟩

theorem authorityFields_parts {a : Str} {user pw host : Option Str} {port : Int}
    (h : authorityFields (some a) = .ok (user, pw, host, port)) : Parts4 a user pw host := by
  cases a with
  | nil =>
    simp [authorityFields] at h
    obtain ⟨rfl, rfl, rfl, rfl⟩ := h
    constructor <;> simp
  | cons c a =>
    have hp := splitAuthority_parts (c :: a)
    unfold authorityFields at h
    dsimp only at h
    split at h
    · split at h
      · simp at h
        obtain ⟨rfl, rfl, rfl, rfl⟩ := h
        exact hp
      · simp at h
    · simp at h
      obtain ⟨rfl, rfl, rfl, rfl⟩ := h
      exact hp

/-- What the fields become when the printed authority is read again. -/
theorem authorityFields_print {a : Str} {user pw host : Option Str} {port : Int}
    (hp : Parts4 a user pw host)
    (hat : ∀ h, host = some h → '@' ∈ h → truthy user = true ∨ truthy pw = true) :
    ∃ user' pw' host', authorityFields (some (printAuth user pw host port)) =
        .ok (user', pw', host', port) ∧
      user'.getD [] = user.getD [] ∧ pw'.getD [] = pw.getD [] ∧ host'.getD [] = host.getD [] := by
  -- the text after '@'
  have hhp : ∀ hp' : Str, hp' = host.getD [] ++ (if port ≠ 0 then cl!":" ++ intStr port else []) →
      headTail ':' hp' = (host.getD [], if port ≠ 0 then some (intStr port) else none) := by
    intro hp' e
    have hno : ':' ∉ host.getD [] := by
      cases host with
      | none => simp
      | some h => exact hp.hostNo h rfl
    subst e
    split
    · have := split1_append (b := intStr port) hno
      simp only [headTail, List.cons_append, List.nil_append, this]
    · simp only [List.append_nil, headTail, split1_none hno]
  have huser : '@' ∉ user.getD [] ∧ ':' ∉ user.getD [] := by
    cases user with
    | none => simp
    | some x => exact hp.userNo x rfl
  have hpw : '@' ∉ pw.getD [] := by
    cases pw with
    | none => simp
    | some x => exact hp.pwNo x rfl
  generalize hH : host.getD [] ++ (if port ≠ 0 then cl!":" ++ intStr port else []) = hp' at *
  have hht := hhp hp' rfl
  -- how the port is read
  have hport : ∀ s : Auth, ∀ c t, s = splitAuthority (c :: t) →
      s.port = (if port ≠ 0 then some (intStr port) else none) →
      authorityFields (some (c :: t)) = .ok (s.user, s.passwd, s.host, port) := by
    intro s c t e1 e2
    unfold authorityFields
    dsimp only
    rw [← e1, e2]
    by_cases h0 : port = 0
    · simp [h0]
    · rw [if_pos h0]
      have := pyInt_intStr port
      cases hi : intStr port with
      | nil => exact absurd hi (intStr_ne_nil port)
      | cons d r => rw [hi] at this; simp [this]
  by_cases hc : truthy user = true ∨ truthy pw = true
  · -- credentials are printed
    have e : printAuth user pw host port =
        (user.getD [] ++ (if truthy pw then cl!":" ++ pw.getD [] else [])) ++ '@' :: hp' := by
      have : (truthy user || truthy pw) = true := by rcases hc with h | h <;> simp [h]
      rw [← hH]
      simp [printAuth, this]
    rw [e]
    have hn : '@' ∉ user.getD [] ++ (if truthy pw then cl!":" ++ pw.getD [] else []) := by
      split <;> simp [huser.1, hpw]
    have hs := split1_append (b := hp') hn
    have hui : headTail ':' (user.getD [] ++ (if truthy pw then cl!":" ++ pw.getD [] else []))
        = (user.getD [], if truthy pw then some (pw.getD []) else none) := by
      split
      · have := split1_append (b := pw.getD []) huser.2
        simp only [headTail, List.cons_append, List.nil_append, this]
      · simp only [List.append_nil, headTail, split1_none huser.2]
    generalize user.getD [] ++ (if truthy pw then cl!":" ++ pw.getD [] else []) = ui at *
    have hsp : splitAuthority (ui ++ '@' :: hp') = ⟨some (user.getD []),
        if truthy pw then some (pw.getD []) else none,
        if host.getD [] = [] then none else some (host.getD []),
        if port ≠ 0 then some (intStr port) else none⟩ := by
      simp only [splitAuthority, hs, hui, hht]
    cases hl : ui ++ '@' :: hp' with
    | nil => simp at hl
    | cons c t =>
      rw [hl] at hsp
      refine ⟨_, _, _, hport _ c t hsp.symm rfl, by simp, ?_, ?_⟩
      · dsimp only
        cases pw with
        | none => rfl
        | some x => cases x <;> rfl
      · exact host_getD _
  · have hc1 : truthy user = false := by cases h : truthy user <;> simp_all
    have hc2 : truthy pw = false := by cases h : truthy pw <;> simp_all
    have eu : user.getD [] = [] := by
      cases user with
      | none => rfl
      | some x => cases x with | nil => rfl | cons => simp [truthy] at hc1
    have ep : pw.getD [] = [] := by
      cases pw with
      | none => rfl
      | some x => cases x with | nil => rfl | cons => simp [truthy] at hc2
    have e : printAuth user pw host port = hp' := by
      rw [← hH]
      simp [printAuth, hc1, hc2, eu]
    rw [e, eu, ep]
    have hn : '@' ∉ hp' := by
      rw [← hH]
      have h1 : '@' ∉ host.getD [] := by
        cases host with
        | none => simp
        | some x => exact fun h => hc (hat x rfl h)
      have h2 : '@' ∉ intStr port := intStr_not_mem (by decide) (by decide)
      split <;> simp [h1, h2]
    have hsp : splitAuthority hp' = ⟨none, none, if host.getD [] = [] then none else some (host.getD []),
        if port ≠ 0 then some (intStr port) else none⟩ := by
      simp only [splitAuthority, split1_none hn, hht]
    cases hl : hp' with
    | nil =>
      have h0 : host.getD [] = [] ∧ port = 0 := by
        rw [hl] at hH
        by_cases hz : port = 0
        · simp [hz] at hH; exact ⟨hH, hz⟩
        · simp [hz] at hH
      exact ⟨some [], some [], some [], by rw [h0.2]; rfl, rfl, rfl, h0.1.symm⟩
    | cons c t =>
      rw [hl] at hsp
      exact ⟨_, _, _, hport _ c t hsp.symm rfl, rfl, rfl, host_getD _⟩

theorem printAuth_sub {a : Str} {user pw host : Option Str} {port : Int} (hp : Parts4 a user pw host)
    {p : Str} (hp0 : p ≠ []) (h1 : '@' ∉ p) (h2 : ':' ∉ p) (h3 : hasSub p (intStr port) = false)
    (h : hasSub p a = false) : hasSub p (printAuth user pw host port) = false := by
  obtain ⟨s1, s2, s3⟩ := hp.sub p hp0 h1 h2 h
  -- text after '@'
  have t1 : hasSub p (host.getD [] ++ (if port ≠ 0 then cl!":" ++ intStr port else [])) = false := by
    split
    · simp only [List.cons_append, List.nil_append, hasSub_sep h2 hp0, s3, h3, Bool.or_self]
    · simpa using s3
  have t2 : hasSub p (user.getD [] ++ (if truthy pw then cl!":" ++ pw.getD [] else [])) = false := by
    split
    · simp only [List.cons_append, List.nil_append, hasSub_sep h2 hp0, s1, s2, Bool.or_self]
    · simpa using s1
  unfold printAuth
  by_cases hc : (truthy user || truthy pw) = true
  · rw [if_pos hc]
    have := hasSub_sep (p := p) (a := user.getD [] ++ (if truthy pw then cl!":" ++ pw.getD [] else []))
      (b := host.getD [] ++ (if port ≠ 0 then cl!":" ++ intStr port else [])) h1 hp0
    rw [t1, t2] at this
    simpa using this
  · rw [if_neg hc]
    simp only [Bool.or_eq_true, not_or, Bool.not_eq_true] at hc
    have eu : user.getD [] = [] := by
      cases user with
      | none => rfl
      | some x => cases x with | nil => rfl | cons => simp [truthy] at hc
    simp only [hc.2, eu, List.nil_append, Bool.false_eq_true, if_false]
    exact t1

theorem printAuth_chars {a : Str} {user pw host : Option Str} {port : Int} (hp : Parts4 a user pw host) :
    ∀ c ∈ printAuth user pw host port, c ∈ a ∨ c = '@' ∨ c = ':' ∨ c = '-' ∨ ('0' ≤ c ∧ c ≤ '9') := by
  intro c hc
  simp only [printAuth, List.mem_append] at hc
  rcases hc with (((h | h) | h) | h) | h
  · exact .inl (hp.mem c (.inl h))
  · split at h
    · simp at h
      rcases h with h | h
      · simp [h]
      · exact .inl (hp.mem c (.inr (.inl h)))
    · simp at h
  · split at h
    · simp at h; simp [h]
    · simp at h
  · exact .inl (hp.mem c (.inr (.inr h)))
  · split at h
    · simp at h
      rcases h with h | h
      · simp [h]
      · have := intStr_chars _ c h; tauto
    · simp at h

theorem printAuth_ok {a : Str} {user pw host : Option Str} {port : Int} (ha : (Netloc.plain a).Ok)
    (hp : Parts4 a user pw host)
    (hat : ∀ h, host = some h → '@' ∈ h → truthy user = true ∨ truthy pw = true)
    (hdot : host ≠ some cl!".") : (Netloc.plain (printAuth user pw host port)).Ok := by
  obtain ⟨h1, h2, h3, h4, h5⟩ := ha
  have hi : ∀ c d : Char, ¬ (c = '-' ∨ ('0' ≤ c ∧ c ≤ '9')) → ∀ r, hasSub (c :: r) (intStr port) = false := by
    intro c _ hc r
    rw [hasSub_false_iff]
    intro h
    exact hc (intStr_chars port c (h.subset (by simp)))
  refine ⟨?_, ?_, ?_, ?_, ?_⟩
  · intro c hc
    rcases printAuth_chars hp c hc with h | h | h | h | h
    · exact h1 c h
    · subst h; decide
    · subst h; decide
    · subst h; decide
    · simp only [List.mem_cons, List.not_mem_nil, or_false, not_or]
      refine ⟨?_, ?_, ?_, ?_⟩ <;> rintro rfl <;> revert h <;> decide
  · exact printAuth_sub hp (by decide) (by decide) (by decide) (hi '(' 'x' (by decide) _) h2
  · exact printAuth_sub hp (by decide) (by decide) (by decide) (hi '_' 'x' (by decide) _) h3
  · intro e
    unfold printAuth at e
    by_cases hc : (truthy user || truthy pw) = true
    · rw [if_pos hc] at e
      have : '@' ∈ cl!"." := by rw [← e]; simp
      revert this; decide
    · rw [if_neg hc] at e
      simp only [Bool.or_eq_true, not_or, Bool.not_eq_true] at hc
      have eu : user.getD [] = [] := by
        cases user with
        | none => rfl
        | some x => cases x with | nil => rfl | cons => simp [truthy] at hc
      simp only [hc.2, eu, List.nil_append, Bool.false_eq_true, if_false] at e
      by_cases hz : port = 0
      · simp [hz] at e
        cases host with
        | none => simp at e
        | some x => simp at e; exact hdot (by rw [e])
      · have : ':' ∈ cl!"." := by rw [← e]; simp [hz]
        revert this; decide
  · obtain ⟨u', p', h', h, -⟩ := authorityFields_print (port := port) hp hat
    exact ⟨_, h⟩

theorem netlocField_congr {h h' : Option Str} {p : Int} (e : h'.getD [] = h.getD []) :
    netlocField h' p = netlocField h p := by
  have aux : ∀ o : Option Str, netlocField o p = netlocField (some (o.getD [])) p := by
    intro o; cases o <;> rfl
  rw [aux h, aux h', e]

/-! ## C12 -/

/-- Two URIs with the same scheme, host, port, credentials, connector, path and query; an absent and an
    empty credential or host count as the same. -/
structure SameParts (u v : Uri) : Prop where
  scheme : u.parse.scheme = v.parse.scheme
  user : u.parse.username.getD [] = v.parse.username.getD []
  pw : u.parse.password.getD [] = v.parse.password.getD []
  host : u.parse.hostname.getD [] = v.parse.hostname.getD []
  port : u.parse.port = v.parse.port
  conn : u.parse.vpathConnector = v.parse.vpathConnector
  path : u.parse.path = v.parse.path
  query : u.parse.query = v.parse.query

/-- C12: `URI(str(u)) == u`, and all parts agree.  `hhttp` is needed because the printer leaves out the
    prefix of an http URI without host (simpleuri.py:121-127); `hat` and `hdot` exclude authorities such
    as `@b@c` and `@.`, see below. -/
theorem C12_str_roundtrip {u : Uri} {b : Base} {P : Str} {Q : Dict} (hb : b.Ok)
    (hfile : b.scheme ≠ cl!"file") (hcls : u.cls ≠ .localfs) (hu : At u b P Q)
    (hfr : u.parse.fragment = none) (hf : Fits b P none)
    (hhttp : startsWith b.scheme cl!"http" = true → truthy u.parse.hostname = true)
    (hat : ∀ h, u.parse.hostname = some h → '@' ∈ h →
      truthy u.parse.username = true ∨ truthy u.parse.password = true)
    (hdot : u.parse.hostname ≠ some cl!".")
    (hw : Q.WF) (hQ : ∀ kv ∈ Q, PlainText kv.1 ∧ PlainText kv.2) :
    ∃ s v, u.str = .ok s ∧ URI s = .ok v ∧ v.eq u = true ∧ SameParts v u := by
  obtain ⟨scheme, nl⟩ := b
  -- the printed location
  obtain ⟨nl', hnl', hstr, hsame⟩ : ∃ nl' : Netloc, nl'.Ok ∧
      u.str = .ok (scheme ++ cl!"://" ++ nl'.str ++ P ++
        qs (if Q = [] then none else some (plainBody Q))) ∧
      ∃ user' pw' host', authorityFields (some nl'.auth) = .ok (user', pw', host', u.parse.port) ∧
        user'.getD [] = u.parse.username.getD [] ∧ pw'.getD [] = u.parse.password.getD [] ∧
        host'.getD [] = u.parse.hostname.getD [] ∧ nl'.conn = u.parse.vpathConnector := by
    have hprint : u.str = .ok (scheme ++ cl!"://" ++ (if truthy u.parse.hostname ∨ u.parse.vpathConnector = []
        then printAuth u.parse.username u.parse.password u.parse.hostname u.parse.port
        else u.parse.username.getD [] ++ (if truthy u.parse.password then cl!":" ++ u.parse.password.getD [] else []) ++
          (if truthy u.parse.username || truthy u.parse.password then cl!"@" else []) ++
          (cl!"((" ++ u.parse.vpathConnector ++ cl!"))") ++
          (if u.parse.port ≠ 0 then cl!":" ++ intStr u.parse.port else [])) ++ P ++
        qs (if Q = [] then none else some (plainBody Q))) := by
      have hs : u.str = u.parse.str := by
        unfold Uri.str
        cases h : u.cls with
        | localfs => exact absurd h hcls
        | _ => rfl
      have hhead : ((startsWith scheme cl!"http" && truthy u.parse.hostname) || !startsWith scheme cl!"http")
          = true := by
        cases h : startsWith scheme cl!"http" with
        | false => rfl
        | true => simp [hhttp h]
      have hqs : (if Q = [] then [] else queryPlain Q) = qs (if Q = [] then none else some (plainBody Q)) := by
        split <;> rfl
      have hsch := hu.scheme
      dsimp only at hsch
      rw [hs, UriParse.str]
      simp only [hsch, hu.path, hu.query, hfr, hhead, if_true, truthy_getD, hqs, printAuth]
      have : truthy none = false := rfl
      rw [this]
      by_cases h1 : truthy u.parse.hostname = true
      · simp [h1]
      · by_cases h2 : u.parse.vpathConnector = []
        · have h3 : u.parse.hostname.getD [] = [] := by
            revert h1
            cases u.parse.hostname with
            | none => simp
            | some x => cases x <;> simp [truthy]
          simp [h1, h2, h3]
        · simp [h1, h2]
    have hfl := hu.fields
    have hcn := hu.conn
    dsimp only at hfl hcn
    cases nl with
    | plain a =>
      dsimp only [Netloc.auth, Netloc.conn] at hfl hcn
      have hp := authorityFields_parts hfl
      refine ⟨.plain (printAuth u.parse.username u.parse.password u.parse.hostname u.parse.port),
        printAuth_ok hb.netloc hp hat hdot, ?_, ?_⟩
      · rw [hprint, if_pos (.inr hcn)]; rfl
      · obtain ⟨u', p', h', h1, h2, h3, h4⟩ := authorityFields_print (port := u.parse.port) hp hat
        exact ⟨u', p', h', h1, h2, h3, h4, hcn.symm⟩
    | vpath x =>
      dsimp only [Netloc.auth, Netloc.conn] at hfl hcn
      have hfl' := hfl
      simp only [authorityFields, Except.ok.injEq, Prod.mk.injEq] at hfl'
      obtain ⟨e1, e2, e3, e4⟩ := hfl'
      refine ⟨.vpath x, hb.netloc, ?_, _, _, _, hfl, rfl, rfl, rfl, hcn.symm⟩
      have hx : x ≠ [] := hb.netloc.1
      rw [hprint, ← e1, ← e2, ← e3, ← e4, hcn, if_neg (by simp [truthy, hx])]
      simp [truthy, Netloc.str]
  obtain ⟨user', pw', host', hfl', e1, e2, e3, e4⟩ := hsame
  have hb' : Base.Ok ⟨scheme, nl'⟩ := ⟨hb.len, hb.chars, hnl', fun h => absurd h hfile⟩
  have hf' : Fits ⟨scheme, nl'⟩ P (if Q = [] then none else some (plainBody Q)) := by
    refine ⟨hf.chars, hf.abs, hf.noInner, ?_, fun h => absurd h hfile⟩
    intro x hx
    split at hx
    · simp at hx
    · simp at hx
      subst hx
      have := plainBody_chars hQ
      exact ⟨fun c hc => by have := this c hc; simp at this ⊢; tauto,
        hasDbl_of_not_mem (this.not_mem (by simp))⟩
  obtain ⟨v, hv1, hv2, -⟩ := mk_at hb' hf' (queryField_plain hw hQ)
    (classOf (sniffScheme (scheme ++ cl!"://" ++ nl'.str ++ P ++
        qs (if Q = [] then none else some (plainBody Q))))) '/' []
  have hvf := hv2.fields
  dsimp only at hvf
  rw [hfl'] at hvf
  simp only [Except.ok.injEq, Prod.mk.injEq] at hvf
  obtain ⟨f1, f2, f3, f4⟩ := hvf
  have hnet : v.parse.netloc = u.parse.netloc := by
    rw [hv2.netloc, hu.netloc, ← f4]
    exact netlocField_congr (by rw [← f3, e3])
  have hsp : SameParts v u := by
    refine ⟨hv2.scheme.trans hu.scheme.symm, by rw [← f1, e1], by rw [← f2, e2], by rw [← f3, e3],
      f4.symm, ?_, hv2.path.trans hu.path.symm, hv2.query.trans hu.query.symm⟩
    rw [hv2.conn, ← e4]
  refine ⟨_, v, hstr, hv1, ?_, hsp⟩
  unfold Uri.eq UriParse.eq
  rw [hsp.scheme, hsp.path, hsp.query, hnet]
  have : u.parse.query.eq u.parse.query = true := by
    rw [Dict.eq_iff (hu.query ▸ hw) (hu.query ▸ hw)]; intro k; rfl
  simp [this]

/-- C12 for URIs made from a string: nothing but the shape of the string is assumed. -/
theorem C12_str_roundtrip_URI {b : Base} {cs : List Str} {Q : Dict} (hb : b.Ok)
    (hc : ∀ c ∈ cs, CleanName c) (hfile : b.scheme ≠ cl!"file")
    (hsc : ∀ c ∈ b.scheme, schemeChar c = true)
    (hhost : (splitAuthority b.netloc.auth).host ≠ some cl!"." ∧
      ∀ h, (splitAuthority b.netloc.auth).host = some h → '@' ∉ h)
    (hhttp : startsWith b.scheme cl!"http" = true → (splitAuthority b.netloc.auth).host ≠ none)
    (hw : Q.WF) (hQ : ∀ kv ∈ Q, PlainText kv.1 ∧ PlainText kv.2) :
    ∃ u s v, URI (b.str ++ pathOf cs ++ qs (if Q = [] then none else some (plainBody Q))) = .ok u ∧
      u.str = .ok s ∧ URI s = .ok v ∧ v.eq u = true ∧ SameParts v u := by
  have hpf := pathOf_facts hc
  have hf : ∀ q : Option Str, (∀ x, q = some x → NoneOf cl!"#\\" x ∧ hasSub cl!"((" x = false) →
      Fits b (pathOf cs) q := by
    intro q hq
    refine ⟨hpf.1, ?_, hpf.2.1, hq, fun h => absurd h hfile⟩
    intro c r hc
    obtain ⟨r', hr⟩ := pathOf_head cs
    rw [hr] at hc; simp at hc; exact hc.1.symm
  have hq : ∀ x, (if Q = [] then none else some (plainBody Q)) = some x →
      NoneOf cl!"#\\" x ∧ hasSub cl!"((" x = false := by
    intro x hx
    split at hx
    · simp at hx
    · simp at hx
      subst hx
      have := plainBody_chars hQ
      exact ⟨fun c hc => by have := this c hc; simp at this ⊢; tauto,
        hasDbl_of_not_mem (this.not_mem (by simp))⟩
  obtain ⟨u, h1, h2, -, h4, -, -, h7, -⟩ := mk_at hb (hf _ hq) (queryField_plain hw hQ)
    (classOf (sniffScheme (b.str ++ pathOf cs ++ qs (if Q = [] then none else some (plainBody Q))))) '/' []
  have hx : b.scheme ≠ [] := by intro h; have := hb.len; rw [h] at this; simp at this
  have hcls : u.cls ≠ .localfs := by
    have hs : sniffScheme (b.str ++ pathOf cs ++ qs (if Q = [] then none else some (plainBody Q))) = b.scheme := by
      have := sniff_prefix (r := b.netloc.str ++ pathOf cs ++
        qs (if Q = [] then none else some (plainBody Q))) hx hsc
      rw [← this]
      simp [Base.str]
    rw [h4, hs]
    unfold classOf
    rw [if_neg hfile]
    split
    · simp
    · split <;> simp
  have hhn : (u.parse.hostname = some [] ∨ u.parse.hostname = (splitAuthority b.netloc.auth).host) ∧
      (b.netloc.auth ≠ [] → u.parse.hostname = (splitAuthority b.netloc.auth).host) := by
    have := h2.fields
    revert this
    generalize b.netloc.auth = a
    intro h
    cases a with
    | nil =>
      simp [authorityFields] at h
      exact ⟨.inl h.2.2.1.symm, fun h => absurd rfl h⟩
    | cons c a =>
      unfold authorityFields at h
      dsimp only at h
      split at h
      · split at h
        · simp at h; exact ⟨.inr h.2.2.1.symm, fun _ => h.2.2.1.symm⟩
        · simp at h
      · simp at h; exact ⟨.inr h.2.2.1.symm, fun _ => h.2.2.1.symm⟩
  obtain ⟨s, v, r1, r2, r3, r4⟩ := C12_str_roundtrip hb hfile hcls h2 h7 (hf none (by simp))
    (fun h => by
      have hne := hhttp h
      have ha : b.netloc.auth ≠ [] := by intro h0; rw [h0] at hne; exact hne (by decide)
      rw [hhn.2 ha]
      have hsp : ∀ a, (splitAuthority a).host ≠ none → truthy (splitAuthority a).host = true := by
        intro a ha
        simp only [splitAuthority] at ha ⊢
        generalize (headTail ':' _).1 = t at *
        cases t with
        | nil => exact absurd rfl ha
        | cons => rfl
      exact hsp _ hne)
    (fun h hh ha => by
      rcases hhn.1 with e | e
      · rw [e] at hh; simp at hh; subst hh; simp at ha
      · rw [e] at hh; exact absurd ha (hhost.2 h hh))
    (by
      rcases hhn.1 with e | e
      · rw [e]; decide
      · rw [e]; exact hhost.1) hw hQ
  exact ⟨u, s, v, h1, r1, r2, r3, r4⟩

example : ∃ u s v, URI cl!"http://joe:pw@host:80/a/b?k=v&l=1/2" = .ok u ∧ u.str = .ok s ∧
    URI s = .ok v ∧ v.eq u = true ∧ SameParts v u :=
  C12_str_roundtrip_URI (b := httpB) (cs := [cl!"a", cl!"b"])
    (Q := [(cl!"k", cl!"v"), (cl!"l", cl!"1/2")]) httpB_ok (by decide) (by decide) (by decide)
    ⟨by decide, by decide⟩
    (by decide) (by decide) (by decide)

example : ∃ u s v, URI cl!"zip://((memory:///x.zip?a#(b))/a" = .ok u ∧ u.str = .ok s ∧
    URI s = .ok v ∧ v.eq u = true ∧ SameParts v u :=
  C12_str_roundtrip_URI (b := zipB) (cs := [cl!"a"]) (Q := []) zipB_ok (by decide) (by decide) (by decide)
    ⟨by decide, by decide⟩ (by decide) (by decide) (by decide)

/-- C12 fails for an http URI without host: it prints as a bare path, which is read as a file. -/
theorem C12_refuted_http : ((URI cl!"http:///a").bind fun u => u.str.bind fun s => (URI s).map fun v =>
    (s, v.scheme, v.eq u)) = .ok (cl!"/a", some cl!"file", false) := by decide

/-- ... for a host with '@' after an empty user, ... -/
theorem C12_refuted_at : ((URI cl!"ftp://@b@c/a").bind fun u => u.str.bind fun s => (URI s).map fun v =>
    (s, u.parse.hostname, v.parse.hostname, v.eq u))
    = .ok (cl!"ftp://b@c/a", some cl!"b@c", some cl!"c", false) := by decide

/-- ... for query values with an escaped character, because values are printed unquoted, ... -/
theorem C12_refuted_quote : ((URI cl!"ftp://h/a?k=1%2B2").bind fun u => u.str.bind fun s => (URI s).map fun v =>
    (s, u.parse.query.get? cl!"k", v.parse.query.get? cl!"k", v.eq u))
    = .ok (cl!"ftp://h/a?k=1+2", some cl!"1+2", some cl!"1 2", false) := by decide

/-- ... and for a scheme with a digit: its class is the one for files, which prints the path only. -/
theorem C12_refuted_digit : ((URI cl!"s3://bucket/key").bind fun u => u.str.bind fun s => (URI s).map fun v =>
    (s, v.scheme, v.eq u)) = .ok (cl!"/key", some cl!"file", false) := by decide

end Verif.Props
