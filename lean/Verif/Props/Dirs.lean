import Verif.Gen.DirLemmas
import Verif.Spec.Sample
import Verif.Props.MemOps
/-!
# C42 makedirs, C53 glob

Paths are the URIs `mem E cs` = `URI("memory:///c1/c2/…", **E)`, `depth` is Python's recursion limit.
-/
namespace Verif.Props
open Verif.Spec Verif.Mem Verif.Gen

theorem uMakedirs_eq {w : World} {E : Dict} {r : Nat} {cs : List Str} (hf : Fs w E r) (hok : Ok cs) (depth : Nat) :
    uMakedirs depth (mem E cs) w = makedirs depth (mem E cs) w := by
  unfold uMakedirs; rw [withConn_serves (hf.serves cs) (stepsOf_mem hok E)]

/-- where the path leads after the missing directories were created -/
theorem splits_goes {w : World} {r : Nat} {cs pre rest q : List Str} {t : List Str → Int}
    (hs : Splits (view w r) cs pre rest q) :
    Goes ((view w r).mkdirs q rest t) maxDepth [] cs (.found (q ++ rest)) ∧
      ((view w r).mkdirs q rest t).isDir (q ++ rest) := by
  cases rest with
  | nil =>
    rw [NS.mkdirs_nil, hs.eq]
    simpa using ⟨hs.goes, hs.dir⟩
  | cons m rest =>
    have hm := hs.fresh m rest rfl
    have hbelow : ∀ s, view w r (q ++ [m] ++ s) = none := by
      intro s
      cases hv : view w r (q ++ [m] ++ s) with
      | none => rfl
      | some o => obtain ⟨o', ho'⟩ := view_prefix hv; rw [hm] at ho'; simp at ho'
    obtain ⟨g1, g2, -⟩ := goes_mkdirs (t := t) (rest := rest) hs.goes hs.dir hm hbelow
    rw [hs.eq]
    exact ⟨g1, g2⟩

/-- The part `pre` of the path denotes the directory `q`, the rest is missing: makedirs creates exactly the
    directories along the rest, each empty but for the next. -/
theorem C42_creates {w : World} (h : Reachable w) {E : Dict} {r : Nat} (hf : Fs w E r) {cs pre rest q : List Str}
    (hok : Ok cs) (hs : Splits (view w r) cs pre rest q) {depth : Nat} (hdepth : rest.length < depth) :
    ∃ w' t, uMakedirs depth (mem E cs) w = (.ok (), w') ∧ Becomes w w' r ((view w r).mkdirs q rest t) := by
  rw [uMakedirs_eq hf hok]
  cases rest with
  | nil =>
    have e := hs.eq
    rw [List.append_nil] at e
    subst e
    obtain ⟨k, rfl⟩ : ∃ k, depth = k + 1 := ⟨depth - 1, by simp at hdepth; omega⟩
    refine ⟨w, fun _ => 0, makedirs_found h.inv hf hok hs.goes hs.dir, ?_⟩
    rw [NS.mkdirs_nil]
    exact .refl h.inv r
  | cons n rest =>
    rw [hs.eq] at hok ⊢
    exact makedirs_new rest depth h.inv hf hok hs.goes hs.dir (hs.fresh n rest rfl) (by simp at hdepth; omega)

/-- A makedirs that returns did that and nothing else, whatever the state was. -/
theorem C42_only {w w' : World} (h : Reachable w) {E : Dict} {r : Nat} (hf : Fs w E r) {cs : List Str} (hok : Ok cs)
    {depth : Nat} (hm : uMakedirs depth (mem E cs) w = (.ok (), w')) :
    ∃ pre rest q t, Splits (view w r) cs pre rest q ∧ Becomes w w' r ((view w r).mkdirs q rest t) := by
  rw [uMakedirs_eq hf hok] at hm
  rcases makedirs_cases depth h.inv hf hok with ⟨e, h1⟩ | ⟨pre, rest, q, w1, t, h1, h2, h3⟩
  · rw [h1] at hm; simp at hm
  · rw [h2] at hm
    simp only [Prod.mk.injEq, true_and] at hm
    exact ⟨pre, rest, q, t, h1, hm ▸ h3⟩

/-- A makedirs that fails changed nothing: it never leaves part of the chain behind. -/
theorem C42_all_or_nothing {w w' : World} (h : Reachable w) {E : Dict} {r : Nat} (hf : Fs w E r) {cs : List Str}
    (hok : Ok cs) {depth : Nat} {e : PyErr} (hm : uMakedirs depth (mem E cs) w = (.error e, w')) : w' = w := by
  rw [uMakedirs_eq hf hok] at hm
  rcases makedirs_cases depth h.inv hf hok with ⟨e, h1⟩ | ⟨pre, rest, q, w1, t, h1, h2, h3⟩
  · rw [h1] at hm; simp at hm; exact hm.2.symm
  · rw [h2] at hm; simp at hm

/-- Afterwards the path and every ancestor is a directory. -/
theorem C42_all_dirs {w w' : World} (h : Reachable w) {E : Dict} {r : Nat} (hf : Fs w E r) {cs : List Str} (hok : Ok cs)
    {depth : Nat} (hm : uMakedirs depth (mem E cs) w = (.ok (), w')) {p : List Str} (hp : p <+: cs) :
    uIsdir (mem E p) w' = (.ok true, w') := by
  obtain ⟨pre, rest, q, t, h1, h2⟩ := C42_only h hf hok hm
  obtain ⟨g1, g2⟩ := splits_goes (t := t) h1
  rw [← h2.view] at g1 g2
  obtain ⟨s, rfl⟩ := hp
  obtain ⟨q', k1, k2, k3⟩ := g1.of_append
  rw [uIsdir_ans h2.inv ((hf.becomes h2).serves p) (stepsOf_mem hok.of_prefix E)]
  by_cases hs : s = []
  · subst hs
    cases k2
    rw [dirAns_dir k1 g2]
  · rw [dirAns_dir k1 (k3 hs)]

/-- Doing it again returns and changes nothing. -/
theorem C42_idempotent {w w' : World} (h : Reachable w) {E : Dict} {r : Nat} (hf : Fs w E r) {cs : List Str} (hok : Ok cs)
    {depth : Nat} (hm : uMakedirs depth (mem E cs) w = (.ok (), w')) :
    uMakedirs depth (mem E cs) w' = (.ok (), w') := by
  obtain ⟨pre, rest, q, t, h1, h2⟩ := C42_only h hf hok hm
  obtain ⟨g1, g2⟩ := splits_goes (t := t) h1
  rw [← h2.view] at g1 g2
  have hf' := hf.becomes h2
  rw [uMakedirs_eq hf' hok]
  cases depth with
  | zero =>
    rw [uMakedirs_eq hf hok] at hm
    simp [makedirs] at hm
  | succ k => exact makedirs_found h2.inv hf' hok g1 g2

theorem fs_sample : Fs sample [] 0 :=
  ⟨by decide, by decide +kernel, by
    intro p cb m h
    have : (sample.hooks 0) = [] := by decide +kernel
    rw [this] at h; simp at h⟩

/-- the path /l/b/x/y of the sample goes through the link /l and needs two new directories in /a/b -/
theorem sample_splits : Splits (view sample 0) [cl!"l", cl!"b", cl!"x", cl!"y"] [cl!"l", cl!"b"] [cl!"x", cl!"y"]
    [cl!"a", cl!"b"] :=
  ⟨rfl, by decide +kernel, by decide +kernel, by
    intro n s h
    simp only [List.cons.injEq] at h
    rw [← h.1]
    decide +kernel⟩

example : ∃ w' t, uMakedirs 10 (mem [] [cl!"l", cl!"b", cl!"x", cl!"y"]) sample = (.ok (), w') ∧
    Becomes sample w' 0 ((view sample 0).mkdirs [cl!"a", cl!"b"] [cl!"x", cl!"y"] t) :=
  C42_creates sample_reachable fs_sample (by decide) sample_splits (by decide)
example : (view (uMakedirs 10 (mem [] [cl!"l", cl!"b", cl!"x", cl!"y"]) sample).2 0).isDir
    [cl!"a", cl!"b", cl!"x", cl!"y"] := by decide +kernel
/-- and it does fail: below a file -/
example : (uMakedirs 10 (mem [] [cl!"a", cl!"f", cl!"x"]) sample).1 = .error .attributeError := by decide +kernel

/-! ## glob -/

theorem glob_map {E : Dict} {cs : List Str} (hc : ∀ c ∈ cs, CleanName c) {w : World} :
    ∀ l : List Str, (∀ n ∈ l, CleanName n) →
      (l.mapM fun f => (M.lift ((mem E cs).div f) : M Uri)) w = (.ok (l.map fun n => mem E (cs ++ [n])), w) := by
  intro l
  induction l with
  | nil => intro _; rfl
  | cons n l ih =>
    intro h
    rw [List.mapM_cons, bind_lift (mem_div hc (h n (by simp)) E), bind_ok (ih fun x hx => h x (by simp [hx]))]
    rfl

/-- glob lists the matching names of the directory, in order, as URIs below it. -/
theorem C53_glob {w : World} (h : Reachable w) {E : Dict} {r : Nat} (hf : Fs w E r) {cs q : List Str} (hok : Ok cs)
    (hg : Goes (view w r) maxDepth [] cs (.found q)) (hd : (view w r).isDir q)
    (hcl : ∀ n, view w r (q ++ [n]) ≠ none → CleanName n) (match_ : Str → Bool) :
    ∃ l, uListdir (mem E cs) w = (.ok l, w) ∧ l.Pairwise strLt ∧ (∀ n, n ∈ l ↔ view w r (q ++ [n]) ≠ none) ∧
      uGlob (mem E cs) match_ w = (.ok ((l.filter match_).map fun n => mem E (cs ++ [n])), w) := by
  obtain ⟨l, h1, h2, h3, h4⟩ := uListdir_at h.inv (hf.serves cs) (stepsOf_mem hok E) hok.nil_not_mem hg hd
  refine ⟨l, h1, h2, h4, ?_⟩
  unfold uGlob
  rw [withConn_serves (hf.serves cs) (stepsOf_mem hok E), bind_ok h1]
  apply glob_map hok.clean
  intro n hn
  exact hcl n ((h4 n).1 (List.mem_filter.1 hn).1)

/-- no duplicates -/
theorem C53_nodup {w : World} (h : Reachable w) {E : Dict} {r : Nat} (hf : Fs w E r) {cs q : List Str} (hok : Ok cs)
    (hg : Goes (view w r) maxDepth [] cs (.found q)) (hd : (view w r).isDir q)
    (hcl : ∀ n, view w r (q ++ [n]) ≠ none → CleanName n) (match_ : Str → Bool) {us : List Uri} {w' : World}
    (hu : uGlob (mem E cs) match_ w = (.ok us, w')) : us.Nodup := by
  obtain ⟨l, h1, h2, h3, h4⟩ := C53_glob h hf hok hg hd hcl match_
  rw [hu] at h4
  simp only [Prod.mk.injEq, Except.ok.injEq] at h4
  rw [h4.1]
  have hn : l.Nodup := by
    have := (uListdir_at h.inv (hf.serves cs) (stepsOf_mem hok E) hok.nil_not_mem hg hd)
    obtain ⟨l', a, -, b, -⟩ := this
    rw [h1] at a
    simp at a
    exact a ▸ b
  refine List.pairwise_map.2 (List.Pairwise.imp_of_mem ?_ (hn.filter _))
  intro a b ha hb hne hab
  apply hne
  have h5 := mem_last (cs := cs) (hcl a ((h3 a).1 (List.mem_filter.1 ha).1)) E
  have h6 := mem_last (cs := cs) (hcl b ((h3 b).1 (List.mem_filter.1 hb).1)) E
  rw [← h5, ← h6, hab]

example : ∃ l, uListdir (mem [] [cl!"l"]) sample = (.ok l, sample) ∧ l.Pairwise strLt ∧
    (∀ n, n ∈ l ↔ view sample 0 ([cl!"a"] ++ [n]) ≠ none) ∧
    uGlob (mem [] [cl!"l"]) (fun s => s = cl!"f") sample =
      (.ok ((l.filter fun s => s = cl!"f").map fun n => mem [] ([cl!"l"] ++ [n])), sample) :=
  C53_glob sample_reachable fs_sample (by decide) (q := [cl!"a"]) (by decide +kernel) (by decide +kernel) (by
    intro n hn
    obtain ⟨l, h1, -, -, h2⟩ := uListdir_at sample_reachable.inv (fs_sample.serves [cl!"a"]) (ts := [cl!"a"])
      (q := [cl!"a"]) (by decide +kernel) (by decide) (by decide +kernel) (by decide +kernel)
    have e : (uListdir (mem [] [cl!"a"]) sample).1 = .ok [cl!"b", cl!"f"] := by decide +kernel
    rw [h1] at e
    simp only [Except.ok.injEq] at e
    have := (h2 n).2 hn
    rw [e] at this
    simp at this
    rcases this with rfl | rfl <;> decide) _

end Verif.Props
