import Verif.Uri.JoinLemmas
/-!
# Properties C01-C06, C14, C15, C18, C19: paths, join, split, dirname

Each theorem is followed by an `example` showing that its hypotheses can be met by a concrete,
non-trivial input, and by refutations where the English claim needs a side condition.
-/
namespace Verif.Props
open Spec

/-! ## Sample locations used in the examples -/

/-- a memory URI -/
def memB : Base := ⟨cl!"memory", .plain []⟩
/-- a local URI -/
def fileB : Base := ⟨cl!"file", .plain []⟩
/-- a URI with an authority -/
def httpB : Base := ⟨cl!"http", .plain cl!"joe:pw@host:80"⟩
/-- a URI inside another one -/
def zipB : Base := ⟨cl!"zip", .vpath cl!"memory:///x.zip?a#(b"⟩

theorem memB_ok : memB.Ok := ⟨by decide, by decide, ⟨by decide, by decide, by decide, by decide, _, rfl⟩, by decide⟩
theorem fileB_ok : fileB.Ok := ⟨by decide, by decide, ⟨by decide, by decide, by decide, by decide, _, rfl⟩, by decide⟩
theorem httpB_ok : httpB.Ok := ⟨by decide, by decide, ⟨by decide, by decide, by decide, by decide, _, rfl⟩, by decide⟩
theorem zipB_ok : zipB.Ok := ⟨by decide, by decide, ⟨by decide, by decide, by decide⟩, by decide⟩

/-- Every well-formed URI string is accepted and yields a URI object at that place: the theorems below
    are about such objects. -/
theorem URI_at {b : Base} {cs : List Str} {q : Option Str} {Q : Dict} (hb : b.Ok)
    (hc : ∀ c ∈ cs, CleanName c) (hf : FileOk b cs)
    (hq : ∀ x, q = some x → NoneOf cl!"#\\/" x ∧ hasSub cl!"((" x = false)
    (hQ : queryField q = .ok Q) (E : Dict) :
    ∃ u, URI (b.str ++ pathOf cs ++ qs q) '/' E = .ok u ∧ At u b (pathOf cs) Q ∧
      u.uri = b.str ++ pathOf cs ++ qs q ∧ u.sep = '/' := by
  have hfit : Fits b (pathOf cs) q := fits_pathOf hc hf
    (fun x hx => ⟨fun c hc => by have := (hq x hx).1 c hc; simp at this ⊢; tauto, (hq x hx).2⟩)
    (by
      cases q with
      | none => simp [qs]
      | some x => have := (hq x rfl).1.not_mem (c := '/') (by simp); simp [qs, this])
  obtain ⟨u, h1, h2, h3, -, h5, -⟩ := mk_at hb hfit hQ (classOf (sniffScheme (b.str ++ pathOf cs ++ qs q))) '/' E
  exact ⟨u, h1, h2, h3, h5⟩

example : ∃ u, URI cl!"zip://((memory:///x.zip?a#(b))/a/b?k=v" '/' [] = .ok u ∧
    At u zipB cl!"/a/b" [(cl!"k", cl!"v")] := by
  obtain ⟨u, h1, h2, -⟩ := URI_at (cs := [cl!"a", cl!"b"]) (q := some cl!"k=v")
    (Q := [(cl!"k", cl!"v")]) zipB_ok (by decide) (by intro h; exact absurd h (by decide))
    (by intro x hx; simp at hx; subst hx; decide) (by decide) []
  exact ⟨u, h1, h2⟩

/-! ## C01 -/

/-- C01: an absolute local path round-trips. -/
theorem C01_local_path_roundtrip {cs : List Str} (hc : ∀ c ∈ cs, CleanName c)
    (hd : ∀ r, cs.head? ≠ some ('.' :: r)) (hcol : ∀ r, cs.head? ≠ some (':' :: r)) :
    ∃ u, URI (pathOf cs) = .ok u ∧ u.path = pathOf cs ∧ u.scheme = some cl!"file" ∧
      u.cls = .localfs ∧ u.isAbsolute = true ∧
      ∃ u', URI (cl!"file://" ++ pathOf cs) = .ok u' ∧ u'.eq u = true ∧ u' = u := by
  have hf : FileOk fileB cs := by
    rintro - c r hcr rfl; exact hcol r hcr
  have hfit : Fits fileB (pathOf cs) none := fits_pathOf hc hf (by simp) (by simp [qs])
  obtain ⟨u, h1, h2, h3, h4, h5, -⟩ := mk_at fileB_ok hfit rfl .localfs '/' []
  obtain ⟨r, hr⟩ := pathOf_head cs
  have hbs : fileB.str = cl!"file://" := rfl
  simp only [qs, List.append_nil, hbs] at h1
  have s1 : sniffScheme (pathOf cs) = cl!"file" := by
    rw [hr]; simp [sniffScheme, List.takeWhile, show schemeChar '/' = false by decide]
  have s2 : sniffScheme (cl!"file://" ++ pathOf cs) = cl!"file" := by
    have t1 : (cl!"file" ++ (cl!"://" ++ pathOf cs)).takeWhile schemeChar = cl!"file" :=
      takeWhile_stop (by decide) (by intro c r h; simp at h; rw [← h.1]; decide)
    have t2 : (cl!"file" ++ (cl!"://" ++ pathOf cs)).dropWhile schemeChar = cl!"://" ++ pathOf cs :=
      dropWhile_stop (by decide) (by intro c r h; simp at h; rw [← h.1]; decide)
    have e : cl!"file://" ++ pathOf cs = cl!"file" ++ (cl!"://" ++ pathOf cs) := by simp
    rw [e]
    simp only [sniffScheme, t1, t2]
    simp
  have n1 : normInput (pathOf cs) = normInput (cl!"file://" ++ pathOf cs) := by
    have a1 : startsWith (pathOf cs) cl!"file://" = false := by
      rw [hr]; simp [startsWith, List.isPrefixOf]
    have a2 : startsWith (cl!"file://" ++ pathOf cs) cl!"file://" = true := by
      simp [startsWith, List.isPrefixOf]
    have a3 : (cl!"file://" ++ pathOf cs).drop 7 = pathOf cs := by simp
    simp only [normInput, a1, a2, a3, if_true, Bool.false_eq_true, if_false]
  have hu1 : URI (pathOf cs) = .ok u := by
    rw [URI, s1, Uri.mk', n1]; exact h1
  have hu2 : URI (cl!"file://" ++ pathOf cs) = .ok u := by
    rw [URI, s2]; exact h1
  refine ⟨u, hu1, ?_, by simp [Uri.scheme, h2.scheme, fileB], h4, ?_, u, hu2, ?_, rfl⟩
  · simp only [Uri.path, h4, h5, h2.path, ne_eq, not_true, if_false, cutDot_pathOf hd]
  · unfold Uri.isAbsolute; rw [h2.path, cutDot_pathOf hd, hr]; simp [startsWith]
  · simp [Uri.eq, UriParse.eq, h2.query, Dict.eq]

example : ∃ u, URI cl!"/tmp/x.y/.. z" = .ok u ∧ u.path = cl!"/tmp/x.y/.. z" := by
  obtain ⟨u, h1, h2, -⟩ := C01_local_path_roundtrip (cs := [cl!"tmp", cl!"x.y", cl!".. z"])
    (by decide) (by simp) (by simp)
  exact ⟨u, h1, h2⟩

/-- The side condition on the first component is needed: a hidden file in the root directory becomes a
    relative path (fs.py:337). -/
theorem C01_refuted_dot : (URI cl!"/.bashrc").map Uri.path = .ok cl!".bashrc" := by decide

/-- ... and a first component starting with ':' is mangled by the drive-letter rule (fs.py:186-187). -/
theorem C01_refuted_colon : (URI cl!"/:a").map Uri.path = .ok cl!"//a" := by decide

/-- ... and a backslash in a POSIX file name is turned into '/' (fs.py:279). -/
theorem C01_refuted_backslash : (URI cl!"/a\\b").map Uri.path = .ok cl!"/a/b" := by decide

/-- ... and a '((..))' in a file name is replaced by a placeholder (uriparse.py:73). -/
theorem C01_refuted_inner : (URI cl!"/a((b))").map Uri.path = .ok cl!"/a__inner_part__" := by decide

/-! ## C02, C03 -/

/-- C02: joining appends exactly one component. -/
theorem C02_join_appends {u : Uri} {b : Base} {cs : List Str} {n : Str} {Q : Dict} (hb : b.Ok)
    (hu : At u b (pathOf cs) Q) (hs : u.sep = '/') (hc : ∀ c ∈ cs, CleanName c) (hn : CleanName n)
    (hf : FileOk b (cs ++ [n])) :
    ∃ v, u.div n = .ok v ∧ At v b (pathOf (cs ++ [n])) Q ∧
      ((cs ≠ [] ∨ ∀ r, n ≠ '.' :: r) → v.path = rstripC '/' u.path ++ cl!"/" ++ n) := by
  have hall : ∀ c ∈ cs ++ [n], CleanName c := by
    intro c h; simp at h; rcases h with h | rfl; exacts [hc c h, hn]
  obtain ⟨v, h1, h2, h3, h4, h5, -⟩ := join_at hb hu
    (joinPath_clean hs hc hu.path (by simp) (ns := [n]) (by simpa using hn)) (fits_encQ hall hf)
  refine ⟨v, h1, h2, ?_⟩
  intro hdot
  have hpath : ∀ w : Uri, w.sep = '/' → w.path = Uri.cutDot w.parse.path := by
    intro w hw; unfold Uri.path; split <;> simp [hw]
  rw [hpath v (h5.trans hs), hpath u hs, h2.path, hu.path]
  by_cases hcs : cs = []
  · subst hcs
    have hnd : ∀ r, n ≠ '.' :: r := by simpa using hdot
    rw [cutDot_pathOf (by simpa using hnd)]
    simp [pathOf, slash, Uri.cutDot, startsWith, List.isPrefixOf, rstripC]
  · rw [pathOf_snoc, cutDot_snoc hc hcs, pathOf_ne hcs, rstrip_cutDot hc]
    simp

example : ∃ u v, URI cl!"http://joe:pw@host:80/a/b?k=v" = .ok u ∧ u.div cl!".." = .ok v ∧
    v.path = cl!"/a/b/.." := by
  obtain ⟨u, h1, h2, -, h4⟩ := URI_at (cs := [cl!"a", cl!"b"]) (q := some cl!"k=v")
    (Q := [(cl!"k", cl!"v")]) httpB_ok (by decide) (by intro h; exact absurd h (by decide))
    (by intro x hx; simp at hx; subst hx; decide) (by decide) []
  obtain ⟨v, h5, h6, h7⟩ := C02_join_appends (n := cl!"..") httpB_ok h2 h4 (by decide) (by decide)
    (by intro h; exact absurd h (by decide))
  refine ⟨u, v, h1, h5, ?_⟩
  have : u.path = cl!"/a/b" := by
    have : u.path = Uri.cutDot u.parse.path := by unfold Uri.path; split <;> simp [h4]
    rw [this, h2.path]; decide
  rw [h7 (by simp), this]; decide

/-- C02's exception: joining a hidden name to a root loses the slash (fs.py:337). -/
theorem C02_refuted_root_dot :
    (do let u ← URI cl!"memory:///"; let v ← u.div cl!".x"; return v.path : Except PyErr Str)
      = .ok cl!".x" := by decide

/-- C03: joining selects the same connection: same key and same extras. -/
theorem C03_join_same_connection {u : Uri} {b : Base} {cs : List Str} {n : Str} {Q : Dict} (hb : b.Ok)
    (hu : At u b (pathOf cs) Q) (hs : u.sep = '/') (hc : ∀ c ∈ cs, CleanName c) (hn : CleanName n)
    (hf : FileOk b (cs ++ [n])) (hcr : NoCreds u) (hQ : Q.WF) :
    ∃ v, u.div n = .ok v ∧ v.key = u.key ∧ v.allExtras = u.allExtras ∧ v.cls = u.cls ∧
      v.parse.query = u.parse.query ∧ NoCreds v := by
  have hall : ∀ c ∈ cs ++ [n], CleanName c := by
    intro c h; simp at h; rcases h with h | rfl; exacts [hc c h, hn]
  obtain ⟨v, h1, h2, h3, h4, h5, -, -, h6⟩ := join_at hb hu
    (joinPath_clean hs hc hu.path (by simp) (ns := [n]) (by simpa using hn)) (fits_encQ hall hf)
  obtain ⟨e1, e2, e3⟩ := h6 hcr
  exact ⟨v, h1, Spec.At.key_eq hu h2 (hcr.1.trans e1.symm) (hcr.2.1.trans e2.symm),
    allExtras_join hQ hu h2 e3, h4, h2.query.trans hu.query.symm, hcr.join hu h2 e1 e2 e3⟩

/-- Sample objects satisfying the hypotheses of C02-C06 and C15. -/
theorem memSample : ∃ u, URI cl!"memory:///a/b?k=v" = .ok u ∧
    At u memB (pathOf [cl!"a", cl!"b"]) [(cl!"k", cl!"v")] ∧ u.sep = '/' ∧ NoCreds u ∧
    u.uri = memB.str ++ pathOf [cl!"a", cl!"b"] ++ qs (some cl!"k=v") := by
  obtain ⟨u, h1, h2, h3, h4⟩ := URI_at (cs := [cl!"a", cl!"b"]) (q := some cl!"k=v")
    (Q := [(cl!"k", cl!"v")]) memB_ok (by decide) (by intro h; exact absurd h (by decide))
    (by intro x hx; simp at hx; subst hx; decide) (by decide) []
  refine ⟨u, h1, h2, h4, ?_, h3⟩
  have : (URI cl!"memory:///a/b?k=v").map (fun u => decide
    (u.usernameAttr = none ∧ u.passwordAttr = none ∧ u.extras = [])) = .ok true := by decide
  have h1' : URI cl!"memory:///a/b?k=v" = .ok u := h1
  rw [h1'] at this
  simp [Except.map] at this
  obtain ⟨a, b, c⟩ := this
  refine ⟨a, b, fun _ => ⟨?_, ?_⟩, fun _ => ⟨?_, ?_⟩⟩ <;> first | rw [h2.query]; decide | (unfold Uri.allExtras; rw [h2.query, c]; split <;> decide)

example : ∃ u v, URI cl!"memory:///a/b?k=v" = .ok u ∧ u.div cl!"c" = .ok v ∧ v.key = u.key ∧
    v.allExtras = u.allExtras := by
  obtain ⟨u, h1, h2, h3, h4, -⟩ := memSample
  obtain ⟨v, g1, g2, g3, -⟩ := C03_join_same_connection (n := cl!"c") memB_ok h2 h3 (by decide)
    (by decide) (by intro h; exact absurd h (by decide)) h4 (by decide)
  exact ⟨u, v, h1, g1, g2, g3⟩

/-- Without the credential condition C03 fails: a user name given as keyword argument is forgotten by
    join (fs.py:288-292, 508-512). -/
theorem C03_refuted_kwarg_username :
    (do let u ← URI cl!"x+y://host/a" '/' [(cl!"username", cl!"joe")]
        let v ← u.div cl!"b"
        return (u.username, v.username) : Except PyErr _) = .ok (some cl!"joe", none) := by decide

/-! ## C04, C05 -/

/-- C04: split undoes join. -/
theorem C04_split_join {u : Uri} {b : Base} {cs : List Str} {n : Str} {Q : Dict} (hb : b.Ok)
    (hu : At u b (pathOf cs) Q) (hs : u.sep = '/') (hc : ∀ c ∈ cs, CleanName c) (hn : CleanName n)
    (hf : FileOk b (cs ++ [n])) (hr : cs ≠ [] ∨ b.netloc.str = []) :
    ∃ v w, u.div n = .ok v ∧ v.split = .ok (w, n) ∧ v.basename = .ok n ∧ v.directory = .ok w ∧
      w.path = u.path ∧ w.cls = u.cls ∧ (Q = [] → w.eq u = true) ∧
      (NoCreds u → Q.WF → w.key = u.key ∧ (isHttp u.scheme = false → w.allExtras = u.allExtras)) := by
  have hall : ∀ c ∈ cs ++ [n], CleanName c := by
    intro c h; simp at h; rcases h with h | rfl; exacts [hc c h, hn]
  obtain ⟨v, h1, h2, h3, h4, h5, -, -, h6⟩ := join_at hb hu
    (joinPath_clean hs hc hu.path (by simp) (ns := [n]) (by simpa using hn)) (fits_encQ hall hf)
  obtain ⟨w, s1, s2, s3, s4, s5, ⟨E1, s6, s7⟩, -⟩ := split_at hb hc hn hf hr h3 slash_not_mem_encQ
  have hfields := hu.fields.symm.trans s2.fields
  simp at hfields
  have hnet : w.parse.netloc = u.parse.netloc := by
    rw [s2.netloc, hu.netloc, hfields.2.2.1, hfields.2.2.2]
  have hsch : w.parse.scheme = u.parse.scheme := s2.scheme.trans hu.scheme.symm
  refine ⟨v, w, h1, s1, basename_of_split s1, directory_of_split s1, ?_,
    s4.trans h4, ?_, ?_⟩
  · have hpath : ∀ w : Uri, w.sep = '/' → w.path = Uri.cutDot w.parse.path := by
      intro w hw; unfold Uri.path; split <;> simp [hw]
    rw [hpath w (s5.trans (h5.trans hs)), hpath u hs, s2.path, hu.path]
  · intro hQ
    simp [Uri.eq, UriParse.eq, hsch, hnet, s2.path, hu.path, s2.query, hu.query, hQ, Dict.eq]
  · intro hcr hQ
    obtain ⟨e1, e2, e3⟩ := h6 hcr
    have hncv := hcr.join hu h2 e1 e2 e3
    obtain ⟨-, -, n3, n4⟩ := hncv
    have hfv := h2.fields.symm.trans s2.fields
    simp at hfv
    rw [takeCred_none (fun h => ⟨(n3 (hfv.1.trans h)).1, rfl⟩)] at s6
    simp at s6
    rw [s6.2, takeCred_none (fun h => ⟨(n4 (hfv.2.1.trans h)).1, rfl⟩)] at s7
    simp at s7
    refine ⟨Spec.At.key_eq hu s2 (hcr.1.trans s6.1.symm) (hcr.2.1.trans s7.1.symm), ?_⟩
    intro hh
    have hh' : isHttp (Uri.scheme w) = false := by simpa [Uri.scheme, hsch] using hh
    have hav := allExtras_join hQ hu h2 e3
    rw [← hav, ← s7.2]
    conv => lhs; unfold Uri.allExtras
    rw [hh', s2.query]
    simp [Dict.update]

example : ∃ u v w, URI cl!"zip://((memory:///x.zip?a#(b))/a" = .ok u ∧ u.div cl!"b c" = .ok v ∧
    v.split = .ok (w, cl!"b c") ∧ w.eq u = true := by
  obtain ⟨u, h1, h2, -, h4⟩ := URI_at (cs := [cl!"a"]) (q := none)
    (Q := []) zipB_ok (by decide) (by intro h; exact absurd h (by decide)) (by simp) (by decide) []
  obtain ⟨v, w, g1, g2, -, -, -, -, g3, -⟩ := C04_split_join (n := cl!"b c") zipB_ok h2 h4 (by decide)
    (by decide) (by intro h; exact absurd h (by decide)) (by simp)
  exact ⟨u, v, w, h1, g1, g2, g3 rfl⟩

/-- With a query the parent is *not* equal to the URI joined to: split drops the query from the string
    (it survives only as extras). -/
theorem C04_refuted_query :
    (do let u ← URI cl!"memory:///a?k=v"
        let v ← u.div cl!"b"
        let (w, _) ← v.split
        return w.eq u : Except PyErr Bool) = .ok false := by decide

/-- With an authority and no components the parent's path is '' instead of '/'. -/
theorem C04_refuted_authority_root :
    (do let u ← URI cl!"http://host/"
        let v ← u.div cl!"b"
        let (w, _) ← v.split
        return (w.path, w.eq u) : Except PyErr _) = .ok ([], false) := by decide

theorem dirLoop_at {b : Base} (hb : b.Ok) (hr : b.netloc.str = []) (k : Nat) {u : Uri}
    {cs : List Str} {q : Option Str} (hc : ∀ c ∈ cs, CleanName c) (hf : FileOk b cs)
    (hu : u.uri = b.str ++ pathOf cs ++ qs q) (hq : '/' ∉ qs q) :
    ∃ w Q', u.dirLoop (k + 1) = .ok w ∧ At w b (pathOf (cs.take (cs.length - (k + 1)))) Q' ∧
      w.uri = b.str ++ pathOf (cs.take (cs.length - (k + 1))) ∧ w.sep = u.sep ∧ w.cls = u.cls := by
  induction k generalizing u cs q with
  | zero =>
    rcases List.eq_nil_or_concat cs with rfl | ⟨l, n, rfl⟩
    · obtain ⟨w, h1, h2, h3, h4, h5⟩ := split_root hb hr hu hq
      exact ⟨w, [], dirLoop_of_split h1 0, h2, h3, h5, h4⟩
    · simp only [List.concat_eq_append] at *
      obtain ⟨w, h1, h2, h3, h4, h5, -⟩ := split_at (q := q) hb (fun c h => hc c (by simp [h]))
        (hc n (by simp)) hf (.inr hr) hu hq
      refine ⟨w, [], dirLoop_of_split h1 0, ?_, ?_, h5, h4⟩ <;> simp <;> assumption
  | succ k ih =>
    rcases List.eq_nil_or_concat cs with rfl | ⟨l, n, rfl⟩
    · obtain ⟨w, h1, h2, h3, h4, h5⟩ := split_root hb hr hu hq
      obtain ⟨w', Q', g1, g2, g3, g4, g5⟩ := ih (u := w) (cs := []) (q := none) (by simp) hf
        (by simpa [qs] using h3) (by simp [qs])
      refine ⟨w', Q', (dirLoop_of_split h1 _).trans g1, by simpa using g2, by simpa using g3,
        g4.trans h5, g5.trans h4⟩
    · simp only [List.concat_eq_append] at *
      obtain ⟨w, h1, h2, h3, h4, h5, -⟩ := split_at (q := q) hb (fun c h => hc c (by simp [h]))
        (hc n (by simp)) hf (.inr hr) hu hq
      obtain ⟨w', Q', g1, g2, g3, g4, g5⟩ := ih (u := w) (cs := l) (q := none)
        (fun c h => hc c (by simp [h])) (fileOk_of_prefix hf) (by simpa [qs] using h3) (by simp [qs])
      refine ⟨w', Q', ?_, ?_, ?_, g4.trans h5, g5.trans h4⟩
      · exact (dirLoop_of_split h1 _).trans g1
      · have : (l ++ [n]).take ((l ++ [n]).length - (k + 1 + 1)) = l.take (l.length - (k + 1)) := by
          simp only [List.length_append, List.length_singleton]
          rw [List.take_append_of_le_length (by omega)]
          congr 1; omega
        rw [this]; exact g2
      · have : (l ++ [n]).take ((l ++ [n]).length - (k + 1 + 1)) = l.take (l.length - (k + 1)) := by
          simp only [List.length_append, List.length_singleton]
          rw [List.take_append_of_le_length (by omega)]
          congr 1; omega
        rw [this]; exact g3

/-- C05: `dirname(level=k)` drops the last `min(k,n)` components; the root is a fixed point.
    For locations without authority (`file`, `memory`). -/
theorem C05_dirname_levels {u : Uri} {b : Base} {cs : List Str} {q : Option Str} (hb : b.Ok)
    (hr : b.netloc.str = []) (hc : ∀ c ∈ cs, CleanName c) (hf : FileOk b cs)
    (hu : u.uri = b.str ++ pathOf cs ++ qs q) (hq : '/' ∉ qs q) (k : Nat) (hk : 1 ≤ k) :
    ∃ w, u.directory k = .ok w ∧ w.parse.path = pathOf (cs.take (cs.length - k)) ∧
      w.parse.scheme = some b.scheme ∧ w.uri = b.str ++ pathOf (cs.take (cs.length - k)) := by
  obtain ⟨j, rfl⟩ : ∃ j, k = j + 1 := ⟨k - 1, by omega⟩
  obtain ⟨w, Q', h1, h2, h3, -⟩ := dirLoop_at hb hr j hc hf hu hq
  refine ⟨w, ?_, h2.path, h2.scheme, h3⟩
  unfold Uri.directory; rw [if_pos (by omega)]; exact h1

example : ∃ u w w', URI cl!"memory:///a/b?k=v" = .ok u ∧ u.directory = .ok w ∧
    w.parse.path = cl!"/a" ∧ u.directory 7 = .ok w' ∧ w'.parse.path = cl!"/" := by
  obtain ⟨u, h1, h2, h3, -, h5⟩ := memSample
  obtain ⟨w, g1, g2, -⟩ := C05_dirname_levels memB_ok rfl (by decide)
    (by intro h; exact absurd h (by decide)) h5 (by decide) 1 (by decide)
  obtain ⟨w', k1, k2, -⟩ := C05_dirname_levels memB_ok rfl (by decide)
    (by intro h; exact absurd h (by decide)) h5 (by decide) 7 (by decide)
  exact ⟨u, w, w', h1, g1, g2, k1, k2⟩

/-- C05 for locations with an authority or connector, above the root. -/
theorem C05_dirname_authority {u : Uri} {b : Base} {cs : List Str} {n : Str} {q : Option Str} (hb : b.Ok)
    (hc : ∀ c ∈ cs, CleanName c) (hn : CleanName n) (hf : FileOk b (cs ++ [n])) (hcs : cs ≠ [])
    (hu : u.uri = b.str ++ pathOf (cs ++ [n]) ++ qs q) (hq : '/' ∉ qs q) :
    ∃ w, u.directory = .ok w ∧ w.parse.path = pathOf cs ∧ w.uri = b.str ++ pathOf cs := by
  obtain ⟨w, h1, h2, h3, -⟩ := split_at hb hc hn hf (.inl hcs) hu hq
  exact ⟨w, directory_of_split h1, h2.path, h3⟩

example : ∃ u w, URI cl!"http://joe:pw@host:80/a/b" = .ok u ∧ u.directory = .ok w ∧
    w.parse.path = cl!"/a" := by
  obtain ⟨u, h1, -, h3, -⟩ := URI_at (cs := [cl!"a", cl!"b"]) (q := none)
    (Q := []) httpB_ok (by decide) (by intro h; exact absurd h (by decide)) (by simp) (by decide) []
  obtain ⟨w, g1, g2, -⟩ := C05_dirname_authority (cs := [cl!"a"]) (n := cl!"b") httpB_ok (by decide)
    (by decide) (by intro h; exact absurd h (by decide)) (by simp) h3 (by simp [qs])
  exact ⟨u, w, h1, g1, g2⟩

/-- At the root of a location with authority `dirname` is not a fixed point: it first yields an empty
    path, then leaves the scheme altogether and becomes a relative *file* URI. -/
theorem C05_refuted_authority_root :
    (do let u ← URI cl!"http://host/a"
        let w ← u.directory 2
        return (w.scheme, w.path) : Except PyErr _) = .ok (some cl!"file", cl!"./http:/") := by decide

/-! ## C06 -/

theorem foldl_join {b : Base} {Q : Dict} (hb : b.Ok) (hQ : Q.WF) {ns : List Str}
    (hne : ns ≠ []) (hns : ∀ n ∈ ns, CleanName n) :
    ∀ {u : Uri} {cs : List Str}, At u b (pathOf cs) Q → u.sep = '/' → (∀ c ∈ cs, CleanName c) →
      FileOk b (cs ++ ns) → NoCreds u →
      ∃ w, u.join ns = .ok w ∧ ns.foldlM Uri.div u = .ok w := by
  induction ns with
  | nil => exact absurd rfl hne
  | cons n ns ih =>
    intro u cs hu hs hc hf hcr
    have hn := hns n (by simp)
    have hall : ∀ c ∈ cs ++ [n], CleanName c := by
      intro c h; simp at h; rcases h with h | rfl; exacts [hc c h, hn]
    have hf1 : FileOk b (cs ++ [n]) := fileOk_of_prefix (ns := ns) (by simpa using hf)
    obtain ⟨v, h1, h2, h3, h4, h5, h6, h7, h8⟩ := join_at hb hu
      (joinPath_clean hs hc hu.path (by simp) (ns := [n]) (by simpa using hn)) (fits_encQ hall hf1)
    obtain ⟨e1, e2, e3⟩ := h8 hcr
    by_cases hns0 : ns = []
    · subst hns0
      refine ⟨v, h1, ?_⟩
      have h1' : u.div n = .ok v := h1
      simp [List.foldlM, h1', pure, Except.pure, bind, Except.bind]
    · obtain ⟨w, g1, g2⟩ := ih hns0 (fun m hm => hns m (by simp [hm])) (u := v) (cs := cs ++ [n]) h2
        (h5.trans hs) hall (by simpa using hf) (hcr.join hu h2 e1 e2 e3)
      refine ⟨w, ?_, ?_⟩
      · -- both results are determined by the same data
        have hall2 : ∀ c ∈ cs ++ (n :: ns), CleanName c := by
          intro c h
          rcases List.mem_append.1 h with h | h
          exacts [hc c h, hns c h]
        obtain ⟨v1, a1, a2, a3, a4, a5, a6, a7, a8⟩ := join_at hb hu
          (joinPath_clean hs hc hu.path (by simp) (ns := n :: ns) hns) (fits_encQ hall2 hf)
        obtain ⟨v2, b1, b2, b3, b4, b5, b6, b7, b8⟩ := join_at hb h2
          (joinPath_clean (h5.trans hs) hall h2.path hns0 (ns := ns) (fun m hm => hns m (by simp [hm])))
          (by simpa using fits_encQ (Q := Q) hall2 hf)
        obtain ⟨c1, c2, c3⟩ := a8 hcr
        obtain ⟨d1, d2, d3⟩ := b8 (hcr.join hu h2 e1 e2 e3)
        rw [g1] at b1
        simp at b1
        subst b1
        rw [a1]
        congr 1
        have hpe : cs ++ [n] ++ ns = cs ++ n :: ns := by simp
        rw [hpe] at b2 b3
        exact Spec.At.ext a2 b2 (a4.trans (h4.symm.trans b4.symm)) (a3.trans b3.symm)
          (a5.trans (h5.symm.trans b5.symm)) (a6.trans b6.symm)
          (by rw [a7, b7, a3, b3]) (by rw [c3, d3, allExtras_join hQ hu h2 e3])
          (c1.trans d1.symm) (c2.trans d2.symm)
      · have h1' : u.div n = .ok v := h1
        simp only [List.foldlM, h1', bind, Except.bind]
        exact g2

/-- C06: joining several names at once is the same as joining them one after the other – the resulting
    objects are identical in every attribute. -/
theorem C06_multi_join {u : Uri} {b : Base} {cs ns : List Str} {Q : Dict} (hb : b.Ok) (hQ : Q.WF)
    (hu : At u b (pathOf cs) Q) (hs : u.sep = '/') (hc : ∀ c ∈ cs, CleanName c)
    (hne : ns ≠ []) (hns : ∀ n ∈ ns, CleanName n) (hf : FileOk b (cs ++ ns)) (hcr : NoCreds u) :
    ∃ w, u.join ns = .ok w ∧ ns.foldlM Uri.div u = .ok w :=
  foldl_join hb hQ hne hns hu hs hc hf hcr

example : ∃ u w, URI cl!"memory:///a/b?k=v" = .ok u ∧ u.join [cl!"c", cl!"d"] = .ok w ∧
    [cl!"c", cl!"d"].foldlM Uri.div u = .ok w := by
  obtain ⟨u, h1, h2, h3, h4, -⟩ := memSample
  obtain ⟨w, g1, g2⟩ := C06_multi_join (ns := [cl!"c", cl!"d"]) memB_ok (by decide) h2 h3 (by decide)
    (by decide) (by decide) (by intro h; exact absurd h (by decide)) h4
  exact ⟨u, w, h1, g1, g2⟩

/-! ## C15 -/

theorem cutDot_append {p : Str} (s : Str) (h : p.length ≠ 1) (h0 : p ≠ []) : Uri.cutDot (p ++ s) = Uri.cutDot p ++ s := by
  match p, h, h0 with
  | a :: b :: p, _, _ =>
    unfold Uri.cutDot
    by_cases hp : startsWith (a :: b :: p) cl!"/." = true
    · have : startsWith (a :: b :: p ++ s) cl!"/." = true := by
        simp only [startsWith, List.cons_append] at hp ⊢
        simpa [List.isPrefixOf] using hp
      rw [if_pos hp, if_pos this]
      rfl
    · have : ¬ startsWith (a :: b :: p ++ s) cl!"/." = true := by
        simp only [startsWith, List.cons_append] at hp ⊢
        simpa [List.isPrefixOf] using hp
      rw [if_neg hp, if_neg this]

/-- C15: `u + s` extends the last component. -/
theorem C15_suffix {u : Uri} {b : Base} {cs : List Str} {n s : Str} (hb : b.Ok)
    (hu : At u b (pathOf (cs ++ [n])) []) (huri : u.uri = b.str ++ pathOf (cs ++ [n]))
    (hc : ∀ c ∈ cs, CleanName c) (hn : CleanName (n ++ s)) (hf : FileOk b (cs ++ [n ++ s])) :
    ∃ v, u.add s = .ok v ∧ v.parse.path = u.parse.path ++ s ∧ v.uri = u.uri ++ s ∧
      ((cs ≠ [] ∨ n ≠ []) → u.sep = '/' → v.path = u.path ++ s) ∧
      At v b (pathOf (cs ++ [n ++ s])) [] ∧ (NoCreds u → v.key = u.key ∧ v.allExtras = u.allExtras) := by
  have hall : ∀ c ∈ cs ++ [n ++ s], CleanName c := by
    intro c h; simp at h; rcases h with h | rfl; exacts [hc c h, hn]
  have hfit : Fits b (pathOf (cs ++ [n ++ s])) none := fits_pathOf hall hf (by simp) (by simp [qs])
  obtain ⟨v, h1, h2, h3, h4, h5, ⟨E1, h6, h7⟩, -⟩ := mk_at hb hfit rfl u.cls u.sep u.allExtras
  have he : u.uri ++ s = b.str ++ pathOf (cs ++ [n ++ s]) := by
    rw [huri, pathOf_snoc, pathOf_snoc]; simp
  simp only [qs, List.append_nil] at h1 h3
  have hv : { v with parse := { v.parse with query := u.parse.query } } = v := by
    have := h2.query.trans hu.query.symm
    rw [← this]
  have hp : v.parse.path = u.parse.path ++ s := by rw [h2.path, hu.path, pathOf_snoc, pathOf_snoc]; simp
  refine ⟨v, ?_, hp, by rw [h3, he], fun hne hsep => ?_, h2, ?_⟩
  · unfold Uri.add
    rw [he, h1]
    simp only [hv]
  · have hlen : u.parse.path.length ≠ 1 ∧ u.parse.path ≠ [] := by
      rw [hu.path, pathOf_snoc]
      refine ⟨?_, by simp⟩
      rcases hne with hne | hne
      · obtain ⟨c, cs', rfl⟩ := List.exists_cons_of_ne_nil hne
        simp [slash]
      · have := List.length_pos_iff.2 hne
        simp only [List.length_append, List.length_cons]
        omega
    have key := cutDot_append s hlen.1 hlen.2
    unfold Uri.path
    rw [h4, h5, hsep, hp]
    cases u.cls <;> simp [key]
  · intro ⟨n1, n2, n3, n4⟩
    have hfe := hu.fields.symm.trans h2.fields
    simp at hfe
    rw [takeCred_none (fun h => ⟨(n3 (hfe.1.trans h)).1, rfl⟩)] at h6
    simp at h6
    rw [h6.2, takeCred_none (fun h => ⟨(n4 (hfe.2.1.trans h)).1, rfl⟩)] at h7
    simp at h7
    refine ⟨Spec.At.key_eq hu h2 (n1.trans h6.1.symm) (n2.trans h7.1.symm), ?_⟩
    exact allExtras_join (by simp [Dict.WF]) hu h2 h7.2

example : ∃ u v, URI cl!"memory:///a/b" = .ok u ∧ u.add cl!".tar" = .ok v ∧
    v.path = u.path ++ cl!".tar" := by
  obtain ⟨u, h1, h2, h3, h4⟩ := URI_at (cs := [cl!"a", cl!"b"]) (q := none)
    (Q := []) memB_ok (by decide) (by intro h; exact absurd h (by decide)) (by simp) (by decide) []
  obtain ⟨v, g1, -, -, g2, -⟩ := C15_suffix (cs := [cl!"a"]) (n := cl!"b") (s := cl!".tar") memB_ok h2
    (by simpa [qs] using h3) (by decide) (by decide) (by intro h; exact absurd h (by decide))
  exact ⟨u, v, h1, g1, g2 (by simp) h4⟩

/-! ## C19 -/

theorem last_snoc_slash {u : Uri} {A n : Str} (hu : u.uri = A ++ '/' :: (n ++ cl!"/")) (hn : '/' ∉ n) :
    u.last = n := by
  have e : u.uri = (A ++ '/' :: n) ++ '/' :: [] := by rw [hu]; simp
  unfold Uri.last
  simp only [e, splitC_append_sep, splitC_of_not_mem hn, List.reverse_append, List.reverse_cons,
    List.reverse_nil, List.nil_append, List.cons_append, splitC]

/-- C19: `last()` ignores one trailing slash, `basename()` does not. -/
theorem C19_last_basename {u v : Uri} {b : Base} {cs : List Str} {n : Str} (hb : b.Ok)
    (hc : ∀ c ∈ cs, CleanName c) (hn : CleanName n) (hf : FileOk b (cs ++ [n]))
    (hr : cs ≠ [] ∨ b.netloc.str = [])
    (hu : u.uri = b.str ++ pathOf (cs ++ [n])) (hv : v.uri = b.str ++ pathOf (cs ++ [n]) ++ cl!"/") :
    u.last = n ∧ v.last = n ∧ u.basename = .ok n ∧ v.basename = .ok [] := by
  have hns : '/' ∉ n := hn.chars.not_mem (by simp)
  refine ⟨?_, ?_, ?_, ?_⟩
  · apply last_snoc (A := b.str ++ slash cs) _ hns hn.ne
    rw [hu, pathOf_snoc]; simp
  · apply last_snoc_slash (A := b.str ++ slash cs) _ hns
    rw [hv, pathOf_snoc]; simp
  · obtain ⟨w, h1, -⟩ := split_at (q := none) hb hc hn hf hr (by simpa [qs] using hu) (by simp [qs])
    exact basename_of_split h1
  · have hall : ∀ c ∈ cs ++ [n], CleanName c := by
      intro c h; simp at h; rcases h with h | rfl; exacts [hc c h, hn]
    have hfit : Fits b (pathOf (cs ++ [n])) none := fits_pathOf hall hf (by simp) (by simp [qs])
    obtain ⟨w, h1, -⟩ := mk_at hb hfit rfl v.cls v.sep v.allExtras
    have hs : Uri.splitStr v.uri = (b.str ++ pathOf (cs ++ [n]), []) := by
      rw [hv, pathOf_ne (by simp)]
      have := splitStr_snoc (A := b.str ++ slash (cs ++ [n])) (n := []) (q := []) (by simp) (by simp)
        (endsWith_slash_false hall (by simp)) (by simp [Base.str]) (by simp) (.inl rfl)
      simpa using this
    simp only [qs, List.append_nil] at h1
    unfold Uri.basename Uri.split
    rw [hs]
    dsimp only
    rw [h1]

example : (do let u ← URI cl!"memory:///some/dir"; let v ← URI cl!"memory:///some/dir/"
              return (u.uri, v.uri, v.last, ← v.basename) : Except PyErr _) =
    .ok (memB.str ++ pathOf [cl!"some", cl!"dir"], memB.str ++ pathOf [cl!"some", cl!"dir"] ++ cl!"/",
      cl!"dir", []) := by decide

/-- The docstring's "the last part is really returned" holds for one trailing slash only. -/
theorem C19_refuted_two_slashes :
    (URI cl!"memory:///some/dir//").map Uri.last = .ok [] := by decide

end Verif.Props
