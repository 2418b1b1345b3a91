import Verif.Uri.Query
/-! # Constructing URIs from well-formed strings; join and split on them -/
namespace Verif
open Spec

namespace Spec

/-- the connector of a location -/
def Netloc.conn : Netloc → Str
  | .plain _ => []
  | .vpath x => x

/-- the authority of a location -/
def Netloc.auth : Netloc → Str
  | .plain a => a
  | .vpath _ => []

/-- `P` and `q` may follow the prefix `b` in a URI string. -/
structure Fits (b : Base) (P : Str) (q : Option Str) : Prop where
  chars : NoneOf cl!"?#\\" P
  abs : ∀ c r, P = c :: r → c = '/'
  noInner : hasSub cl!"((" P = false
  query : ∀ x, q = some x → NoneOf cl!"#\\" x ∧ hasSub cl!"((" x = false
  file : b.scheme = cl!"file" →
    (∃ r, P = '/' :: r ∧ ∀ t, r ≠ ':' :: t) ∧ hasSub cl!"://" (P ++ qs q) = false

/-- The URI object `u` names path `P` with query `Q` at location `b`. -/
structure At (u : Uri) (b : Base) (P : Str) (Q : Dict) : Prop where
  scheme : u.parse.scheme = some b.scheme
  path : u.parse.path = P
  query : u.parse.query = Q
  conn : u.parse.vpathConnector = b.netloc.conn
  auth : u.parse.authority = some b.netloc.auth
  fields : authorityFields (some b.netloc.auth) =
    .ok (u.parse.username, u.parse.password, u.parse.hostname, u.parse.port)
  netloc : u.parse.netloc = netlocField u.parse.hostname u.parse.port

end Spec

theorem normInput_clean {b : Base} {P : Str} {q : Option Str} (hb : b.Ok) (hf : Fits b P q) :
    normInput (b.str ++ P ++ qs q) = b.str ++ P ++ qs q := by
  obtain ⟨hlen, hch, hnl, hfile⟩ := hb
  obtain ⟨s, nl⟩ := b
  obtain ⟨h1, h2, h3, h4, h5⟩ := hf
  simp only [Base.str] at *
  have hbs1 : '\\' ∉ s := hch.not_mem (by simp)
  have hbs2 : '\\' ∉ nl.str := by
    cases nl with
    | plain a => exact hnl.1.not_mem (by simp)
    | vpath x => have := hnl.2.1.not_mem (c := '\\') (by simp); simp [Netloc.str, this]
  have hbs3 : '\\' ∉ P := h1.not_mem (by simp)
  have hbs4 : '\\' ∉ qs q := by
    cases q with
    | none => simp [qs]
    | some x => have := (h4 x rfl).1.not_mem (c := '\\') (by simp); simp [qs, this]
  by_cases hs : s = cl!"file"
  · subst hs
    have hnl' := hfile rfl
    subst hnl'
    obtain ⟨⟨r, hP, hr⟩, hno⟩ := h5 rfl
    subst hP
    have e1 : startsWith (cl!"file" ++ cl!"://" ++ (Netloc.plain []).str ++ '/' :: r ++ qs q)
        cl!"file://" = true := by simp [startsWith, List.isPrefixOf]
    have e2 : (cl!"file" ++ cl!"://" ++ (Netloc.plain []).str ++ '/' :: r ++ qs q).drop 7
        = '/' :: (r ++ qs q) := by simp [Netloc.str]
    have e3 : normalizeUri ('/' :: (r ++ qs q)) '\\' = '/' :: (r ++ qs q) := by
      have : '\\' ∉ '/' :: (r ++ qs q) := by
        simp at hbs3; simp [hbs3, hbs4]
      simp only [normalizeUri, replaceC_of_not_mem this]
      simp only [ne_eq, show ¬ ('\\' = '/') by decide, not_false_iff, if_true]
      split
      · rename_i a t h
        simp at h
        exfalso
        cases r with
        | nil => cases q <;> simp [qs] at h
        | cons c r => simp at h; exact hr r (by rw [h.2.1])
      · rfl
    have e4 : startsWith ('/' :: (r ++ qs q)) cl!"/" = true := by simp [startsWith, List.isPrefixOf]
    have hno' : hasSub cl!"://" ('/' :: (r ++ qs q)) = false := by simpa using hno
    simp only [normInput, e1, if_true, e2, e3, e4, hno']
    simp [hno', Netloc.str]
  · have e1 : startsWith (s ++ cl!"://" ++ nl.str ++ P ++ qs q) cl!"file://" = false := by
      cases h : startsWith (s ++ cl!"://" ++ nl.str ++ P ++ qs q) cl!"file://" with
      | false => rfl
      | true =>
        exfalso
        obtain ⟨r, hr⟩ := startsWith_iff.1 h
        have t1 : (s ++ (cl!"://" ++ nl.str ++ P ++ qs q)).takeWhile (fun c => c ≠ ':') = s :=
          takeWhile_stop (fun c hc => by have := hch c hc; simp at this; simp [this])
            (by intro c r h; simp at h; simp [← h.1])
        have t2 : (cl!"file" ++ (cl!"://" ++ r)).takeWhile (fun c => c ≠ ':') = cl!"file" :=
          takeWhile_stop (by decide) (by intro c r h; simp at h; simp [← h.1])
        have : s ++ (cl!"://" ++ nl.str ++ P ++ qs q) = cl!"file" ++ (cl!"://" ++ r) := by
          simpa using hr
        rw [this, t2] at t1
        exact hs t1.symm
    have e2 : '\\' ∉ s ++ cl!"://" ++ nl.str ++ P ++ qs q := by simp [hbs1, hbs2, hbs3, hbs4]
    have e3 : normalizeUri (s ++ cl!"://" ++ nl.str ++ P ++ qs q) '\\'
        = s ++ cl!"://" ++ nl.str ++ P ++ qs q := by
      simp only [normalizeUri, replaceC_of_not_mem e2]
      simp only [ne_eq, show ¬ ('\\' = '/') by decide, not_false_iff, if_true]
      split
      · rename_i a t h
        exfalso
        match s, hlen, hch, h with
        | c :: d :: s', _, hch, h =>
          simp at h
          have := hch d (by simp)
          simp [h.2.1] at this
      · rfl
    have e4 : hasSub cl!"://" (s ++ cl!"://" ++ nl.str ++ P ++ qs q) = true := by
      have := hasSub_mid (p := cl!"://") (a := s) (b := nl.str ++ P ++ qs q)
      simpa using this
    simp only [normInput, e1, Bool.false_eq_true, if_false, e3]
    rw [e4]
    simp [-List.append_assoc, e4]

theorem extractConnector_netloc {nl : Netloc} (h : nl.Ok) :
    extractConnector (some nl.str) = (nl.conn, some nl.auth) := by
  cases nl with
  | plain a => simp [extractConnector, Netloc.str, Netloc.conn, Netloc.auth, h.2.1]
  | vpath x =>
    have : hasSub cl!"((" (cl!"((" ++ x ++ cl!"))") = true := by
      simp [hasSub, List.isPrefixOf]
    simp only [extractConnector, Netloc.str, Netloc.conn, Netloc.auth, this, if_true]
    simp [sliceTo]

theorem authorityFields_ok {nl : Netloc} (h : nl.Ok) :
    ∃ r, authorityFields (some nl.auth) = .ok r := by
  cases nl with
  | plain a => exact h.2.2.2.2
  | vpath x => exact ⟨_, rfl⟩

/-- `BaseUri.__init__` on a well-formed string. -/
theorem mk_at {b : Base} {P : Str} {q : Option Str} {Q : Dict} (hb : b.Ok) (hf : Fits b P q)
    (hq : queryField q = .ok Q) (cls : UriClass) (sep : Char) (E : Dict) :
    ∃ u, Uri.mk' cls (b.str ++ P ++ qs q) sep E = .ok u ∧ At u b P Q ∧
      u.uri = b.str ++ P ++ qs q ∧ u.cls = cls ∧ u.sep = sep ∧
      (∃ E1, (u.usernameAttr, E1) = takeCred cl!"username" u.parse.username Q E ∧
        (u.passwordAttr, u.extras) = takeCred cl!"password" u.parse.password Q E1) ∧
      u.parse.fragment = none ∧ u.parse.uri = b.str ++ P ++ qs q := by
  obtain ⟨⟨user, pw, host, port⟩, hr⟩ := authorityFields_ok hb.netloc
  have hP : NoneOf cl!"?#" P := fun c hc => by
    have := hf.chars c hc; simp at this ⊢; tauto
  have hsplit := urisplit_clean hb hP hf.abs hf.noInner (q := q) (fun x hx => by
    have := hf.query x hx
    exact ⟨fun c hc => by have := this.1 c hc; simp at this ⊢; tauto, this.2⟩)
  have hsub : hasSub cl!"://" (b.str ++ P ++ qs q) = true := by
    have := hasSub_mid (p := cl!"://") (a := b.scheme) (b := b.netloc.str ++ P ++ qs q)
    simpa [Base.str] using this
  have hinit : UriParse.init (b.str ++ P ++ qs q) = .ok
      { uri := b.str ++ P ++ qs q, scheme := some b.scheme, authority := some b.netloc.auth,
        path := P, query := Q, fragment := none, vpathConnector := b.netloc.conn,
        username := user, password := pw, hostname := host, port := port,
        netloc := netlocField host port } := by
    simp only [UriParse.init, hsplit, hsub, if_true, UriParse.ofParts,
      extractConnector_netloc hb.netloc, hr, hq]
  rw [Uri.mk', normInput_clean hb hf, Uri.finish, hinit]
  refine ⟨_, rfl, ⟨rfl, rfl, rfl, rfl, rfl, hr, rfl⟩, rfl, rfl, rfl, ⟨_, rfl, rfl⟩, rfl, rfl⟩

/-- Two URIs at the same place without out-of-band credentials use the same connection key. -/
theorem Spec.At.key_eq {u v : Uri} {b : Base} {P P' : Str} {Q Q' : Dict} (hu : At u b P Q)
    (hv : At v b P' Q') (hu1 : u.usernameAttr = v.usernameAttr)
    (hu2 : u.passwordAttr = v.passwordAttr) : v.key = u.key := by
  have := hu.fields.symm.trans hv.fields
  simp at this
  simp only [Uri.key, Uri.scheme, Uri.username, Uri.password, hu.scheme, hv.scheme, hu.conn, hv.conn,
    this, hu1, hu2]

theorem Spec.At.listNetloc {u : Uri} {b : Base} {P : Str} {Q : Dict} (hb : b.Ok) (hu : At u b P Q) :
    u.parse.listNetloc = b.netloc.str := by
  simp only [UriParse.listNetloc, hu.conn, hu.auth]
  cases hn : b.netloc with
  | plain a =>
    simp only [Netloc.conn, Netloc.auth, Netloc.str, ne_eq, not_true, if_false, Option.getD_some]
    cases a with
    | cons c a => simp [truthy]
    | nil =>
      have := hu.fields
      simp only [hn, Netloc.auth, authorityFields] at this
      simp at this
      simp [truthy, hu.netloc, ← this.2.2.1, netlocField]
  | vpath x =>
    have : x ≠ [] := by have := hb.netloc; rw [hn] at this; exact this.1
    simp [Netloc.conn, Netloc.str, this]

/-- the `?query` part that `join` writes -/
def encQ (Q : Dict) : Option Str := if Q = [] then none else some (urlencode Q)

theorem queryField_encQ (Q : Dict) : ∃ Q', queryField (encQ Q) = .ok Q' := by
  unfold encQ
  split
  · exact ⟨[], rfl⟩
  · rename_i h
    have h1 := urlencode_ne_nil h
    have h2 := parseQueryString_urlencode h
    cases hu : urlencode Q with
    | nil => exact absurd hu h1
    | cons c r => rw [hu] at h2; exact ⟨_, h2⟩

theorem encQ_ok {Q : Dict} : ∀ x, encQ Q = some x → NoneOf cl!"#\\" x ∧ hasSub cl!"((" x = false := by
  intro x hx
  unfold encQ at hx
  split at hx
  · simp at hx
  · simp at hx
    subst hx
    refine ⟨?_, hasDbl_of_not_mem (urlencode_not_mem (by decide) (by decide) (by decide))⟩
    intro c hc
    rcases urlencode_chars Q c hc with h | h | h
    · simp only [List.mem_cons, List.not_mem_nil, or_false, not_or]
      exact ⟨quoteSafe_ne h (by decide), quoteSafe_ne h (by decide)⟩
    · subst h; decide
    · subst h; decide

theorem colon_not_mem_encQ {Q : Dict} : ':' ∉ qs (encQ Q) := by
  unfold encQ
  split
  · simp [qs]
  · have := urlencode_not_mem (d := Q) (c := ':') (by decide) (by decide) (by decide)
    simp [qs, this]

theorem slash_not_mem_encQ {Q : Dict} : '/' ∉ qs (encQ Q) := by
  unfold encQ
  split
  · simp [qs]
  · have := urlencode_not_mem (d := Q) (c := '/') (by decide) (by decide) (by decide)
    simp [qs, this]

/-- No credential is smuggled in through keyword arguments or the query. -/
def Spec.NoCreds (u : Uri) : Prop :=
  u.usernameAttr = none ∧ u.passwordAttr = none ∧
  (u.parse.username = none → u.allExtras.get? cl!"username" = none ∧
    u.parse.query.get? cl!"username" = none) ∧
  (u.parse.password = none → u.allExtras.get? cl!"password" = none ∧
    u.parse.query.get? cl!"password" = none)

end Verif
