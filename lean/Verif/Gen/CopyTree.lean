import Verif.Gen.CopyLemmas
import Verif.Spec.CopySpec
/-! # The recursive copy of a physical directory -/
namespace Verif.Gen
open Verif.Spec Verif.Mem Verif.Mem.M

theorem rstripW_snoc (l : Str) {c : Char} (h : pyIsSpace c = false) : rstripW (l ++ [c]) = l ++ [c] := by
  induction l with
  | nil => simp [rstripW, h]
  | cons x l ih =>
    rw [List.cons_append, rstripW, ih]
    cases hl : l ++ [c] with
    | nil => simp at hl
    | cons a b => rfl

theorem stripW_trimmed {p : Str} (h : Trimmed p) : stripW p = p := by
  unfold stripW
  have h1 : p.dropWhile pyIsSpace = p := by
    cases p with
    | nil => rfl
    | cons c p => rw [List.dropWhile_cons, h.1 c rfl]; simp
  rw [h1]
  rcases List.eq_nil_or_concat p with rfl | ⟨l, c, rfl⟩
  · rfl
  · rw [List.concat_eq_append] at *
    exact rstripW_snoc l (h.2 c (by simp))

theorem slash_trimmed {t : List Str} (hne : t ≠ []) (h : ∀ n ∈ t, n ≠ [] ∧ Trimmed n) :
    ∃ p, slash t = '/' :: p ∧ p ≠ [] ∧ stripW p = p := by
  obtain ⟨n, t', rfl⟩ := List.exists_cons_of_ne_nil hne
  obtain ⟨h1, h2⟩ := h n (by simp)
  refine ⟨n ++ slash t', slash_cons n t', by simp [h1], stripW_trimmed ⟨?_, ?_⟩⟩
  · intro c hc
    apply h2.1
    cases n with
    | nil => exact absurd rfl h1
    | cons a n => simpa using hc
  · intro c hc
    rcases List.eq_nil_or_concat t' with rfl | ⟨l, m, rfl⟩
    · exact h2.2 c (by simpa [slash] using hc)
    · rw [List.concat_eq_append] at *
      obtain ⟨h3, h4⟩ := h m (by simp)
      apply h4.2 c
      rw [slash_snoc] at hc
      rcases List.eq_nil_or_concat m with rfl | ⟨m', y, rfl⟩
      · exact absurd rfl h3
      · rw [List.concat_eq_append] at *
        rw [show n ++ (slash l ++ '/' :: (m' ++ [y])) = (n ++ slash l ++ '/' :: m') ++ [y] by simp, List.getLast?_concat] at hc
        simpa using hc

/-- fs.py:945-950 where the contents of `s ++ t` go -/
theorem dbase_eq {s t d : List Str} {E : Dict} {w : World} (hs : Ok (s ++ t)) (hs0 : s ≠ []) (hd : Ok d) (ht : ∀ n ∈ t, Trimmed n) :
    (if stripW ((mem E (s ++ t)).path.drop ((mem E s).path.length + 1)) ≠ [] then
        lift ((mem E d).div (stripW ((mem E (s ++ t)).path.drop ((mem E s).path.length + 1)))) else pure (mem E d) : M Uri) w
      = (.ok (mem E (d ++ t)), w) := by
  have e1 : pathOf (s ++ t) = slash s ++ slash t := by rw [pathOf_ne (by simp [hs0]), slash_append]
  rw [mem_path hs, mem_path hs.of_prefix, e1, pathOf_ne hs0]
  by_cases h : t = []
  · subst h
    have : stripW ((slash s ++ slash []).drop ((slash s).length + 1)) = [] := by
      rw [List.drop_eq_nil_of_le (by simp [slash])]; rfl
    rw [this]
    simp
  · obtain ⟨p, h1, h2, h3⟩ := slash_trimmed h (fun n hn => ⟨(hs.clean n (by simp [hn])).ne, ht n hn⟩)
    have : (slash s ++ slash t).drop ((slash s).length + 1) = p := by
      rw [h1, show slash s ++ '/' :: p = (slash s ++ ['/']) ++ p by simp, List.drop_left' (by simp)]
    rw [this, h3, if_pos h2]
    rw [mem_div_path hd.clean h (fun n hn => hs.clean n (by simp [hn])) E h1]
    rfl

section
variable {w : World} {E : Dict} {r : Nat} (hw : Inv w) (hf : Fs w E r)
include hw hf

/-- fs.py:962-971 one file or link -/
theorem copyItem {q e : List Str} {n : Str} {o : Obj} {fl : Bool} (hok : Ok (q ++ [n])) (hok' : Ok (e ++ [n]))
    (ho : view w r (q ++ [n]) = some o) (hnd : o.isDir = false) (hfl : fl = true → o.isLink = false)
    (he : (view w r).isDir e) (hn : view w r (e ++ [n]) = none) :
    ∃ w' o', copyOne r (mem E (q ++ [n])) (mem E (e ++ [n])) fl w = (.ok (), w') ∧ CopyOf o o' ∧
      Becomes w w' r ((view w r).set (e ++ [n]) o') := by
  cases o with
  | dir m t => simp [Obj.isDir] at hnd
  | link t m s =>
    have : fl = false := by
      cases fl with
      | false => rfl
      | true => simp [Obj.isLink] at hfl
    subst this
    obtain ⟨w', s', h1, h2⟩ := copyLink_new hw hf hok hok' ho he hn
    exact ⟨w', .link t 0 s', by rw [copyOne_link hw hf hok ho]; exact h1, rfl, h2⟩
  | file b m t =>
    have hq := view_parent ho
    have hne : e ++ [n] ≠ q ++ [n] := by intro h; rw [h, ho] at hn; simp at hn
    obtain ⟨w', h1, h2⟩ := copyFile_eq hw (hf.serves _) (hf.serves _) (stepsOf_mem hok E) ((isDir_goes hq).snoc hq ho rfl) ho
      (stepsOf_mem hok' E) (.new (isDir_goes he) he hn) hne
    refine ⟨w', .file b m t, ?_, ⟨rfl, rfl, rfl⟩, h2⟩
    unfold copyOne
    have e1 := uIslink_at hw hf hok hq
    rw [ho] at e1
    rw [bind_ok e1]
    simp only [Option.any_some, Obj.isLink, Bool.false_and, Bool.false_eq_true, if_false]
    exact h1

/-- fs.py:955-960 one directory or link to a directory -/
theorem copyDirItem {q e : List Str} {n : Str} {o : Obj} {fl : Bool} {depth : Nat} (hok : Ok (q ++ [n])) (hok' : Ok (e ++ [n]))
    (ho : view w r (q ++ [n]) = some o) (hnd : o.isFile = false) (hfl : fl = true → o.isLink = false)
    (he : (view w r).isDir e) (hn : view w r (e ++ [n]) = none) (hdep : 0 < depth) :
    ∃ w' o', (do
        if (← uIslink (mem E (q ++ [n]))) && !fl then copyLink r (mem E (q ++ [n])) (mem E (e ++ [n]))
        else uMakedirs depth (mem E (e ++ [n])) : M Unit) w = (.ok (), w') ∧ CopyOf o o' ∧
      Becomes w w' r ((view w r).set (e ++ [n]) o') := by
  have hq := view_parent ho
  have e1 := uIslink_at hw hf hok hq
  rw [ho] at e1
  rw [bind_ok e1]
  cases o with
  | file b m t => simp [Obj.isFile] at hnd
  | link t m s =>
    have : fl = false := by
      cases fl with
      | false => rfl
      | true => simp [Obj.isLink] at hfl
    subst this
    obtain ⟨w', s', h1, h2⟩ := copyLink_new hw hf hok hok' ho he hn
    exact ⟨w', .link t 0 s', h1, rfl, h2⟩
  | dir m t =>
    obtain ⟨w', t', h1, h2⟩ := makedirs_new [] depth hw hf hok' (isDir_goes he) he hn hdep
    refine ⟨w', .dir 0 (t' (e ++ [n])), ?_, trivial, h2.congr ?_⟩
    · simp only [Option.any_some, Obj.isLink, Bool.false_and, Bool.false_eq_true, if_false]
      unfold uMakedirs
      rw [withConn_serves (hf.serves _) (stepsOf_mem hok' E)]
      exact h1
    · funext p
      unfold NS.mkdirs NS.set
      by_cases hp : p = e ++ [n]
      · subst hp; simp
      · rw [if_neg hp, if_neg]
        rintro ⟨h3, h4, h5⟩
        rcases prefix_snoc_iff.1 h5 with h5 | h5
        · exact h4 (h5.eq_of_length_le h3.length_le)
        · exact hp h5
end

/-- the `e ++ [n]` are copies of the `q ++ [n]`, everything else is as before -/
def Fill (ns ns' : NS) (q e l : List Str) : Prop :=
  (∀ n ∈ l, ∃ o o', ns (q ++ [n]) = some o ∧ ns' (e ++ [n]) = some o' ∧ CopyOf o o') ∧
  ∀ p, (∀ n ∈ l, p ≠ e ++ [n]) → ns' p = ns p

theorem Fill.nil (ns : NS) (q e : List Str) : Fill ns ns q e [] := ⟨by simp, fun _ _ => rfl⟩

theorem Fill.cons {a b c : NS} {q e l : List Str} {n : Str} {o o' : Obj} (hn : n ∉ l) (hqe : ∀ m m', q ++ [m] ≠ e ++ [m'])
    (ho : a (q ++ [n]) = some o) (hc : CopyOf o o') (hb : b = a.set (e ++ [n]) o') (h : Fill b c q e l) : Fill a c q e (n :: l) := by
  subst hb
  have hne : ∀ m ∈ l, e ++ [n] ≠ e ++ [m] := by
    intro m hm h
    have : n = m := by simpa using h
    subst this; exact hn hm
  refine ⟨?_, ?_⟩
  · intro m hm
    rcases List.mem_cons.1 hm with rfl | hm
    · exact ⟨o, o', ho, by rw [h.2 _ hne, NS.set_get], hc⟩
    · obtain ⟨x, y, h1, h2, h3⟩ := h.1 m hm
      rw [NS.set_ne _ _ (hqe m n)] at h1
      exact ⟨x, y, h1, h2, h3⟩
  · intro p hp
    rw [h.2 p (fun m hm => hp m (by simp [hm])), NS.set_ne _ _ (hp n (by simp))]

section
variable {E : Dict} {r : Nat}

/-- fs.py:962-971 -/
theorem copyFiles_eq {q e : List Str} (hq : Ok q) (he : Ok e) (hqe : ∀ m m', q ++ [m] ≠ e ++ [m']) {fl : Bool} :
    ∀ (l : List Str) {w : World}, Inv w → Fs w E r → (view w r).isDir e → l.Nodup →
    (∀ n ∈ l, Ok (q ++ [n]) ∧ Ok (e ++ [n]) ∧ view w r (e ++ [n]) = none ∧
      ∃ o, view w r (q ++ [n]) = some o ∧ o.isDir = false ∧ (fl = true → o.isLink = false)) →
    ∃ w', copyFiles r fl (mem E q) (mem E e) l w = (.ok (), w') ∧ Becomes w w' r (view w' r) ∧
      Fill (view w r) (view w' r) q e l := by
  intro l
  induction l with
  | nil => intro w hw _ _ _ _; exact ⟨w, rfl, .refl hw r, .nil _ _ _⟩
  | cons n l ih =>
    intro w hw hf hd hnd hl
    obtain ⟨h1, h2, h3, o, h4, h5, h6⟩ := hl n (by simp)
    obtain ⟨w1, o', k1, k2, k3⟩ := copyItem hw hf h1 h2 h4 h5 h6 hd h3
    have hnn := (List.nodup_cons.1 hnd).1
    obtain ⟨w2, k4, k5, k6⟩ := ih k3.inv (hf.becomes k3) (by
        obtain ⟨m, t, x⟩ := hd
        exact ⟨m, t, by rw [k3.view, NS.set_ne _ _ (by intro h; simpa using congrArg List.length h), x]⟩)
      (List.nodup_cons.1 hnd).2 (by
        intro m hm
        obtain ⟨g1, g2, g3, g4⟩ := hl m (by simp [hm])
        have hne : m ≠ n := by rintro rfl; exact hnn hm
        refine ⟨g1, g2, ?_, ?_⟩
        · rw [k3.view, NS.set_ne _ _ (by simpa using hne)]; exact g3
        · rw [k3.view, NS.set_ne _ _ (hqe m n)]; exact g4)
    refine ⟨w2, ?_, k3.trans k5, Fill.cons hnn hqe h4 k2 k3.view k6⟩
    unfold copyFiles
    rw [bind_lift (mem_div hq.clean (h1.clean n (by simp)) E), bind_lift (mem_div he.clean (h2.clean n (by simp)) E), bind_ok k1]
    exact k4

/-- fs.py:951-960 -/
theorem copyDirs_eq {q e : List Str} (hq : Ok q) (he : Ok e) (hqe : ∀ m m', q ++ [m] ≠ e ++ [m']) {fl : Bool} {ig : List Str}
    {depth : Nat} (hdep : 0 < depth) :
    ∀ (l D : List Str) {w : World}, Inv w → Fs w E r → (view w r).isDir e → l.Nodup → D.Nodup →
    (∀ n ∈ l, Ok (q ++ [n]) ∧ Ok (e ++ [n]) ∧ view w r (e ++ [n]) = none ∧
      ∃ o, view w r (q ++ [n]) = some o ∧ o.isFile = false ∧ (fl = true → o.isLink = false)) →
    ∃ w', copyDirs depth r ig fl (mem E q) (mem E e) l D w = (.ok (D.filter fun n => ¬ (n ∈ l ∧ n ∈ ig)), w') ∧
      Becomes w w' r (view w' r) ∧ Fill (view w r) (view w' r) q e (l.filter fun n => n ∉ ig) := by
  intro l
  induction l with
  | nil => intro D w hw _ _ _ _ _; exact ⟨w, by simp [copyDirs], .refl hw r, .nil _ _ _⟩
  | cons n l ih =>
    intro D w hw hf hd hnd hD hl
    obtain ⟨h1, h2, h3, o, h4, h5, h6⟩ := hl n (by simp)
    have hnn := (List.nodup_cons.1 hnd).1
    by_cases hig : n ∈ ig
    · obtain ⟨w2, k4, k5, k6⟩ := ih (D.erase n) hw hf hd (List.nodup_cons.1 hnd).2 (hD.erase n) (fun m hm => hl m (by simp [hm]))
      refine ⟨w2, ?_, k5, ?_⟩
      · unfold copyDirs
        rw [if_pos hig, k4, hD.erase_eq_filter, List.filter_filter]
        congr 2
        apply List.filter_congr
        intro x _
        by_cases hx : x = n
        · subst hx; simp [hig]
        · simp [hx]
      · rw [List.filter_cons_of_neg (by simpa using hig)]; exact k6
    · obtain ⟨w1, o', k1, k2, k3⟩ := copyDirItem hw hf h1 h2 h4 h5 h6 hd h3 hdep
      obtain ⟨w2, k4, k5, k6⟩ := ih D k3.inv (hf.becomes k3) (by
          obtain ⟨m, t, x⟩ := hd
          exact ⟨m, t, by rw [k3.view, NS.set_ne _ _ (by intro h; simpa using congrArg List.length h), x]⟩)
        (List.nodup_cons.1 hnd).2 hD (by
          intro m hm
          obtain ⟨g1, g2, g3, g4⟩ := hl m (by simp [hm])
          have hne : m ≠ n := by rintro rfl; exact hnn hm
          refine ⟨g1, g2, ?_, ?_⟩
          · rw [k3.view, NS.set_ne _ _ (by simpa using hne)]; exact g3
          · rw [k3.view, NS.set_ne _ _ (hqe m n)]; exact g4)
      refine ⟨w2, ?_, k3.trans k5, ?_⟩
      · unfold copyDirs
        rw [if_neg hig, bind_lift (mem_div he.clean (h2.clean n (by simp)) E), bind_lift (mem_div hq.clean (h1.clean n (by simp)) E)]
        refine Eq.trans ?_ ((bind_ok (f := fun _ => copyDirs depth r ig fl (mem E q) (mem E e) l D) k1).trans (k4.trans ?_))
        · rw [bind_assoc]
          refine congrFun (congrArg (uIslink (mem E (q ++ [n])) >>= ·) (funext fun b => ?_)) w
          cases b <;> cases fl <;> rfl
        congr 2
        apply List.filter_congr
        intro x _
        by_cases hx : x = n
        · subst hx; simp [hig]
        · simp [hx]
      · rw [List.filter_cons_of_pos (by simpa using hig)]
        exact Fill.cons (fun h => hnn (List.mem_filter.1 h).1) hqe h4 k2 k3.view k6
end

/-! ## The whole walk -/

theorem leadsToDir_iff {ns : NS} {p : List Str} : LeadsToDir ns p ↔ isD ns p = true := by
  constructor
  · rintro ⟨q, h1, h2⟩; unfold isD; rw [dirAns_dir h1 h2]
  · intro h
    unfold isD at h
    cases hd : dirAns ns p with
    | error e => rw [hd] at h; simp at h
    | ok b => rw [hd] at h; simp only at h; rw [h] at hd; exact dirAns_true hd

theorem pruned_cons {ns : NS} {ig q x : List Str} {n : Str} :
    Pruned ns ig q (n :: x) ↔ (n ∈ ig ∧ LeadsToDir ns (q ++ [n])) ∨ Pruned ns ig (q ++ [n]) x := by
  constructor
  · rintro ⟨a, m, b, h1, h2, h3⟩
    cases a with
    | nil =>
      simp only [List.nil_append, List.cons.injEq] at h1
      obtain ⟨rfl, rfl⟩ := h1
      exact .inl ⟨h2, by simpa using h3⟩
    | cons y a =>
      simp only [List.cons_append, List.cons.injEq] at h1
      obtain ⟨rfl, rfl⟩ := h1
      exact .inr ⟨a, m, b, rfl, h2, by simpa using h3⟩
  · rintro (⟨h1, h2⟩ | ⟨a, m, b, h1, h2, h3⟩)
    · exact ⟨[], n, x, rfl, h1, by simpa using h2⟩
    · exact ⟨n :: a, m, b, by simp [h1], h2, by simpa using h3⟩

theorem pruned_nil {ns : NS} {ig q : List Str} : ¬ Pruned ns ig q [] := by
  rintro ⟨a, m, b, h1, -⟩; simp at h1

/-- what the recursive copy of `s` to `d` relies on -/
structure Copyable (ns : NS) (s d : List Str) (fl : Bool) : Prop where
  /-- all names can be written in URIs -/
  writable : Writable ns s
  /-- what `isdir` says about the links in the tree does not depend on what is at `d` -/
  quiet : ∀ t, ns.isLink (s ++ t) → ∃ b, ∀ ns', Outside d ns ns' → dirAns ns' (s ++ t) = .ok b
  /-- links are not followed, or there are none -/
  noLinks : fl = true → ∀ t, ¬ ns.isLink (s ++ t)
  /-- directory names have no whitespace at the ends (`tojoin.strip()`, fs.py:946) -/
  trim : ∀ t n, ns.isDir (s ++ t ++ [n]) → Trimmed n
  ok : Ok d
  s_ne : s ≠ []
  d_ne : d ≠ []
  s_d : ¬ s <+: d
  d_s : ¬ d <+: s

theorem Copyable.apart {ns : NS} {s d : List Str} {fl : Bool} (h : Copyable ns s d fl) (x : List Str) : ¬ d <+: s ++ x := by
  intro hp
  rcases List.prefix_or_prefix_of_prefix hp (List.prefix_append s x) with h1 | h1
  · exact h.d_s h1
  · exact h.s_d h1

theorem Copyable.same {ns ns' : NS} {s d : List Str} {fl : Bool} (h : Copyable ns s d fl) (ho : Outside d ns ns') (x : List Str) :
    ns' (s ++ x) = ns (s ++ x) := ho _ (h.apart x)

theorem Copyable.isD_same {w0 w : World} {r : Nat} {s d : List Str} {fl : Bool} (h : Copyable (view w0 r) s d fl)
    (ho : Outside d (view w0 r) (view w r)) {x : List Str} (hx : view w0 r (s ++ x) ≠ none) :
    isD (view w r) (s ++ x) = isD (view w0 r) (s ++ x) := by
  have e := h.same ho x
  by_cases hl : (view w0 r).isLink (s ++ x)
  · obtain ⟨b, hb⟩ := h.quiet x hl
    unfold isD
    rw [hb _ ho, hb _ (fun _ _ => rfl)]
  · have h1 := isD_iff (w := w0) hl hx
    have h2 := isD_iff (w := w) (r := r) (p := s ++ x) (by unfold NS.isLink; rw [e]; exact hl) (by rw [e]; exact hx)
    have h3 : (view w r).isDir (s ++ x) ↔ (view w0 r).isDir (s ++ x) := by unfold NS.isDir; rw [e]
    rw [Bool.eq_iff_iff, h1, h2, h3]

theorem Copyable.answers {w0 w : World} {r : Nat} {s d : List Str} {fl : Bool} (h : Copyable (view w0 r) s d fl)
    (ho : Outside d (view w0 r) (view w r)) (t : List Str) : Answers (view w r) (s ++ t) := by
  apply Answers.below
  intro x hx
  obtain ⟨b, hb⟩ := h.quiet x (by unfold NS.isLink at hx ⊢; rw [h.same ho] at hx; exact hx)
  exact ⟨b, hb _ ho⟩

theorem Copyable.writable' {w0 w : World} {r : Nat} {s d : List Str} {fl : Bool} (h : Copyable (view w0 r) s d fl)
    (ho : Outside d (view w0 r) (view w r)) (t : List Str) : Writable (view w r) (s ++ t) := by
  apply Writable.below
  intro x hx
  rw [h.same ho] at hx
  exact h.writable x hx

theorem Copyable.trims {w0 : World} {r : Nat} {s d : List Str} {fl : Bool} (h : Copyable (view w0 r) s d fl) {t : List Str}
    (hd : (view w0 r).isDir (s ++ t)) : ∀ n ∈ t, Trimmed n := by
  intro n hn
  obtain ⟨a, b, rfl⟩ := List.append_of_mem hn
  exact h.trim a n (isDir_prefix (b := b) (by simpa using hd))

theorem Copyable.okDest {w0 : World} {r : Nat} {s d : List Str} {fl : Bool} (h : Copyable (view w0 r) s d fl) {x : List Str}
    (hx : view w0 r (s ++ x) ≠ none) : Ok (d ++ x) :=
  h.ok.append h.d_ne fun c hc => (h.writable x hx).clean c (by simp [hc])

/-- fs.py:944-971 as the walk's consumer -/
def copier (depth root : Nat) (ig : List Str) (fl : Bool) (len : Nat) (droot : Uri) (_ : Unit) (top : Uri) (dirs files : List Str) :
    M (Unit × List Str) := do
  let dirs' ← copyBody depth root ig fl len droot top dirs files
  pure ((), dirs')

/-- what lies below `e` afterwards: a copy of what lies below `q`, without the pruned parts -/
def Below (ns ns' : NS) (ig q e : List Str) : Prop := ∀ x, x ≠ [] →
  (Pruned ns ig q x → ns' (e ++ x) = none) ∧ (¬ Pruned ns ig q x → OptCopy (ns (q ++ x)) (ns' (e ++ x)))

theorem copy_walk {E : Dict} {r : Nat} {w0 : World} {s d : List Str} {fl : Bool} (H : Copyable (view w0 r) s d fl) {ig : List Str}
    {depth0 : Nat} (hdep : 0 < depth0) (depth : Nat) : ∀ (t q e : List Str) {w : World}, q = s ++ t → e = d ++ t → Inv w → Fs w E r →
    Outside d (view w0 r) (view w r) → (view w0 r).isDir q → (view w r).isDir e → (∀ x, x ≠ [] → view w r (e ++ x) = none) →
    (∀ x, (view w0 r).isDir (q ++ x) → x.length < depth) →
    ∃ w', walk r true fl (copier depth0 r ig fl ((mem E s).path.length + 1) (mem E d)) depth (mem E q) () w = (.ok (), w') ∧
      Becomes w w' r (view w' r) ∧ (∀ p, ¬ (e <+: p ∧ p ≠ e) → view w' r p = view w r p) ∧
      Below (view w0 r) (view w' r) ig q e := by
  induction depth with
  | zero =>
    intro t q e w _ _ _ _ _ hd _ _ hh
    exact absurd (hh [] (by simpa using hd)) (by simp)
  | succ depth ih =>
    intro t q e w hqt het hw hf hout hd hde hemp hh
    have hsame : ∀ {w : World}, Outside d (view w0 r) (view w r) → ∀ x, view w r (q ++ x) = view w0 r (q ++ x) := by
      intro w ho x
      rw [hqt, List.append_assoc]; exact H.same ho _
    have hde0 : d <+: e := by rw [het]; exact List.prefix_append _ _
    have hapart : ∀ x y, q ++ x ≠ e ++ y := by
      intro x y hxy
      refine H.apart (t ++ x) ?_
      rw [← List.append_assoc, ← hqt, hxy]
      exact hde0.trans (List.prefix_append _ _)
    have hqe : ∀ m m', q ++ [m] ≠ e ++ [m'] := fun m m' => hapart _ _
    have hwr : Writable (view w r) q := by rw [hqt]; exact H.writable' hout t
    have han : Answers (view w r) q := by rw [hqt]; exact H.answers hout t
    have hdq : (view w r).isDir q := by
      have := hsame hout []
      simp only [List.append_nil] at this
      unfold NS.isDir; rw [this]; exact hd
    have hokq : Ok q := by
      have := hwr [] (by obtain ⟨m, x, h⟩ := hdq; simp [h])
      simpa using this
    have hoke : ∀ {x}, view w0 r (q ++ x) ≠ none → Ok (e ++ x) := by
      intro x hx
      rw [het, List.append_assoc]; rw [hqt, List.append_assoc] at hx
      exact H.okDest hx
    have hoke0 : Ok e := by
      have := hoke (x := []) (by obtain ⟨m, x, h⟩ := hd; simp [h])
      simpa using this
    have hisD : ∀ {n}, view w0 r (q ++ [n]) ≠ none → isD (view w r) (q ++ [n]) = isD (view w0 r) (q ++ [n]) := by
      intro n hn
      rw [hqt, List.append_assoc] at hn ⊢
      exact H.isD_same hout hn
    have hnl : ∀ n o, view w0 r (q ++ [n]) = some o → fl = true → o.isLink = false := by
      intro n o ho hfl
      cases o with
      | link u m x => exact absurd ⟨u, m, x, by rw [← List.append_assoc, ← hqt]; exact ho⟩ (H.noLinks hfl (t ++ [n]))
      | file => rfl
      | dir => rfl
    have hmem : ∀ n, n ∈ names w r q ↔ view w0 r (q ++ [n]) ≠ none := by
      intro n; rw [mem_names, hsame hout]
    have hleaf : ∀ {n o x}, view w0 r (q ++ [n]) = some o → o.isDir = false → x ≠ [] → view w0 r (q ++ [n] ++ x) = none := by
      intro n o x ho hod hx
      obtain ⟨y, x, rfl⟩ := List.exists_cons_of_ne_nil hx
      have h1 := notDir_leaf ho hod y
      cases hv : view w0 r (q ++ [n] ++ y :: x) with
      | none => rfl
      | some o' =>
        rw [show q ++ [n] ++ y :: x = q ++ [n] ++ [y] ++ x by simp] at hv
        obtain ⟨o'', ho''⟩ := view_prefix hv
        rw [h1] at ho''; simp at ho''
    -- the loop over the directories
    have loop : ∀ (l : List Str) {w1 : World}, Inv w1 → Fs w1 E r → Outside d (view w0 r) (view w1 r) → l.Nodup →
        (∀ n ∈ l, view w0 r (q ++ [n]) ≠ none ∧ isD (view w0 r) (q ++ [n]) = true ∧ ((view w0 r).isDir (q ++ [n]) →
          (view w1 r).isDir (e ++ [n]) ∧ ∀ x, x ≠ [] → view w1 r (e ++ [n] ++ x) = none)) →
        ∃ w', walkDirs fl (walk r true fl (copier depth0 r ig fl ((mem E s).path.length + 1) (mem E d)) depth) (mem E q) l () w1
            = (.ok (), w') ∧ Becomes w1 w' r (view w' r) ∧
          (∀ p, (∀ n ∈ l, (view w0 r).isDir (q ++ [n]) → ¬ (e ++ [n] <+: p ∧ p ≠ e ++ [n])) → view w' r p = view w1 r p) ∧
          ∀ n ∈ l, (view w0 r).isDir (q ++ [n]) → Below (view w0 r) (view w' r) ig (q ++ [n]) (e ++ [n]) := by
      intro l
      induction l with
      | nil => intro w1 hw1 _ _ _ _; exact ⟨w1, rfl, .refl hw1 r, fun _ _ => rfl, by simp⟩
      | cons n l ihl =>
        intro w1 hw1 hf1 ho1 hnd hl
        obtain ⟨hex, hisd, hdir⟩ := hl n (by simp)
        have hnn := (List.nodup_cons.1 hnd).1
        have hdq1 : (view w1 r).isDir q := by
          have := hsame ho1 []
          simp only [List.append_nil] at this
          unfold NS.isDir; rw [this]; exact hd
        rw [walkDirs_cons hw1 hf1 hokq (hwr [n] (by rw [hsame hout]; exact hex)) hdq1, hsame ho1]
        cases hlink : (view w0 r (q ++ [n])).any Obj.isLink with
        | true =>
          have hlk := any_isLink.1 hlink
          have hflf : fl = false := by
            obtain ⟨u, m, x, ho⟩ := hlk
            cases hfl : fl with
            | false => rfl
            | true => simpa [Obj.isLink] using hnl n _ ho hfl
          have hnd' : ¬ (view w0 r).isDir (q ++ [n]) := by
            rintro ⟨m, x, h1⟩; obtain ⟨u, m', x', h2⟩ := hlk; rw [h1] at h2; simp at h2
          obtain ⟨w2, h1, h2, h3, h4⟩ := ihl hw1 hf1 ho1 (List.nodup_cons.1 hnd).2 (fun m hm => hl m (by simp [hm]))
          refine ⟨w2, ?_, h2, ?_, ?_⟩
          · rw [hflf] at h1 ⊢
            simp only [Bool.not_true, Bool.or_false, Bool.false_eq_true, if_false]
            exact h1
          · intro p hp; exact h3 p fun m hm => hp m (by simp [hm])
          · intro m hm hdm
            rcases List.mem_cons.1 hm with rfl | hm
            · exact absurd hdm hnd'
            · exact h4 m hm hdm
        | false =>
          have hnlk : ¬ (view w0 r).isLink (q ++ [n]) := fun h => by rw [any_isLink.2 h] at hlink; simp at hlink
          have hdn : (view w0 r).isDir (q ++ [n]) := (isD_iff hnlk hex).1 hisd
          obtain ⟨g1, g2⟩ := hdir hdn
          obtain ⟨w2, h1, h2, h3, h4⟩ := ih (t ++ [n]) (q ++ [n]) (e ++ [n]) (by rw [hqt, List.append_assoc]) (by rw [het, List.append_assoc])
            hw1 hf1 ho1 hdn g1 g2 (by
              intro x hx
              have := hh (n :: x) (by simpa using hx)
              simp at this; omega)
          have ho2 : Outside d (view w0 r) (view w2 r) := by
            intro p hp
            rw [h3 p (fun h => hp (hde0.trans ((List.prefix_append _ _).trans h.1))), ho1 p hp]
          have keep : ∀ m ∈ l, ∀ x, view w2 r (e ++ [m] ++ x) = view w1 r (e ++ [m] ++ x) := by
            intro m hm x
            apply h3
            rintro ⟨h5, -⟩
            have := prefix_snoc_inj (List.prefix_append (e ++ [m]) x) h5
            subst this
            exact hnn hm
          obtain ⟨w3, k1, k2, k3, k4⟩ := ihl h2.inv (hf1.becomes h2) ho2 (List.nodup_cons.1 hnd).2 (by
            intro m hm
            obtain ⟨a, b, c⟩ := hl m (by simp [hm])
            refine ⟨a, b, fun hdm => ?_⟩
            obtain ⟨c1, c2⟩ := c hdm
            refine ⟨?_, fun x hx => by rw [keep m hm]; exact c2 x hx⟩
            have := keep m hm []
            simp only [List.append_nil] at this
            unfold NS.isDir; rw [this]; exact c1)
          refine ⟨w3, ?_, h2.trans k2, ?_, ?_⟩
          · simp only [Bool.not_false, Bool.true_or, if_true]
            rw [bind_ok h1]
            exact k1
          · intro p hp
            rw [k3 p (fun m hm => hp m (by simp [hm])), h3 p (hp n (by simp) hdn)]
          · intro m hm hdm
            rcases List.mem_cons.1 hm with rfl | hm
            · intro x hx
              have : view w3 r (e ++ [m] ++ x) = view w2 r (e ++ [m] ++ x) := by
                apply k3
                rintro y hy - ⟨h5, -⟩
                have := prefix_snoc_inj (List.prefix_append (e ++ [m]) x) h5
                subst this
                exact hnn hy
              rw [this]
              exact h4 x hx
            · exact k4 m hm hdm
    -- the level itself
    have hndD : (dirNames w r q).Nodup := (names_nodup hw).filter _
    have hndF : (fileNames w r q).Nodup := (names_nodup hw).filter _
    have hD : ∀ n, n ∈ dirNames w r q ↔ view w0 r (q ++ [n]) ≠ none ∧ isD (view w0 r) (q ++ [n]) = true := by
      intro n
      unfold dirNames
      rw [List.mem_filter, hmem]
      constructor
      · rintro ⟨a, b⟩; exact ⟨a, by rw [← hisD a]; exact b⟩
      · rintro ⟨a, b⟩; exact ⟨a, by rw [hisD a]; exact b⟩
    have hF : ∀ n, n ∈ fileNames w r q ↔ view w0 r (q ++ [n]) ≠ none ∧ isD (view w0 r) (q ++ [n]) = false := by
      intro n
      unfold fileNames
      rw [List.mem_filter, hmem]
      constructor
      · rintro ⟨a, b⟩; exact ⟨a, by rw [← hisD a]; simpa using b⟩
      · rintro ⟨a, b⟩; exact ⟨a, by rw [hisD a]; simpa using b⟩
    obtain ⟨w1, a1, a2, a3⟩ := copyDirs_eq (E := E) (r := r) hokq hoke0 hqe (fl := fl) (ig := ig) hdep (dirNames w r q) (dirNames w r q)
      hw hf hde hndD hndD (by
        intro n hn
        obtain ⟨h1, h2⟩ := (hD n).1 hn
        obtain ⟨o, ho⟩ := Option.ne_none_iff_exists'.1 h1
        refine ⟨hwr [n] (by rw [hsame hout]; exact h1), hoke h1, hemp _ (by simp), o, by rw [hsame hout]; exact ho, ?_, hnl n o ho⟩
        cases o with
        | file b m x => rw [isD, isD_file ⟨b, m, x, ho⟩] at h2; simp at h2
        | dir => rfl
        | link => rfl)
    have ho1 : Outside d (view w0 r) (view w1 r) := by
      intro p hp
      rw [a3.2 p (by rintro n - rfl; exact hp (hde0.trans (List.prefix_append _ _))), hout p hp]
    obtain ⟨w2, b1, b2, b3⟩ := copyFiles_eq (E := E) (r := r) hokq hoke0 hqe (fl := fl) (fileNames w r q) a2.inv (hf.becomes a2) (by
        obtain ⟨m, x, h⟩ := hde
        refine ⟨m, x, ?_⟩
        rw [a3.2 e (by intro n _ h; simpa using congrArg List.length h), h]) hndF (by
        intro n hn
        obtain ⟨h1, h2⟩ := (hF n).1 hn
        obtain ⟨o, ho⟩ := Option.ne_none_iff_exists'.1 h1
        refine ⟨hwr [n] (by rw [hsame hout]; exact h1), hoke h1, ?_, o, by rw [hsame ho1]; exact ho, ?_, hnl n o ho⟩
        · rw [a3.2]
          · exact hemp _ (by simp)
          · intro m hm h
            have : n = m := by simpa using h
            subst this
            have := ((hD n).1 (List.mem_filter.1 hm).1).2
            rw [h2] at this; simp at this
        · cases o with
          | file => rfl
          | dir m x => rw [isD_of_dir ⟨m, x, ho⟩] at h2; simp at h2
          | link => rfl)
    have ho2 : Outside d (view w0 r) (view w2 r) := by
      intro p hp
      rw [b3.2 p (by rintro n - rfl; exact hp (hde0.trans (List.prefix_append _ _))), ho1 p hp]
    have hframe : ∀ p, (∀ n, view w0 r (q ++ [n]) ≠ none → ¬ (n ∈ ig ∧ isD (view w0 r) (q ++ [n]) = true) → p ≠ e ++ [n]) →
        view w2 r p = view w r p := by
      intro p hp
      rw [b3.2 p, a3.2 p]
      · intro n hn
        obtain ⟨h1, h2⟩ := List.mem_filter.1 hn
        exact hp n ((hD n).1 h1).1 (fun h => by simp [h.1] at h2)
      · intro n hn
        obtain ⟨h1, h2⟩ := (hF n).1 hn
        exact hp n h1 (fun h => by rw [h2] at h; simp at h)
    have hcopy : ∀ n o, view w0 r (q ++ [n]) = some o → ¬ (n ∈ ig ∧ isD (view w0 r) (q ++ [n]) = true) →
        ∃ o', view w2 r (e ++ [n]) = some o' ∧ CopyOf o o' := by
      intro n o ho hn
      have hex : view w0 r (q ++ [n]) ≠ none := by rw [ho]; simp
      cases hb : isD (view w0 r) (q ++ [n]) with
      | false =>
        obtain ⟨x, o', h1, h2, h3⟩ := b3.1 n ((hF n).2 ⟨hex, hb⟩)
        rw [hsame ho1, ho] at h1
        simp only [Option.some.injEq] at h1
        subst h1
        exact ⟨o', h2, h3⟩
      | true =>
        have hig : n ∉ ig := fun h => hn ⟨h, hb⟩
        obtain ⟨x, o', h1, h2, h3⟩ := a3.1 n (List.mem_filter.2 ⟨(hD n).2 ⟨hex, hb⟩, by simpa using hig⟩)
        rw [hsame hout, ho] at h1
        simp only [Option.some.injEq] at h1
        subst h1
        refine ⟨o', ?_, h3⟩
        rw [b3.2]
        · exact h2
        · intro m hm h
          have : n = m := by simpa using h
          subst this
          have := ((hF n).1 hm).2
          rw [hb] at this; simp at this
    have hdeep : ∀ n x, x ≠ [] → view w2 r (e ++ [n] ++ x) = none := by
      intro n x hx
      rw [hframe]
      · rw [List.append_assoc]; exact hemp _ (by simp)
      · intro m _ _ h
        have := congrArg List.length h
        have h' := List.length_pos_iff.2 hx
        simp only [List.length_append, List.length_cons, List.length_nil] at this
        omega
    obtain ⟨w3, c1, c2, c3, c4⟩ := loop ((dirNames w r q).filter fun n => ¬ (n ∈ dirNames w r q ∧ n ∈ ig)) b2.inv
      ((hf.becomes a2).becomes b2) ho2 (hndD.filter _) (by
        intro n hn
        obtain ⟨h1, h2⟩ := List.mem_filter.1 hn
        obtain ⟨h3, h4⟩ := (hD n).1 h1
        refine ⟨h3, h4, fun hdn => ⟨?_, hdeep n⟩⟩
        obtain ⟨m, x, hx⟩ := hdn
        obtain ⟨o', k1, k2⟩ := hcopy n _ hx (fun h => by simp [h1, h.1] at h2)
        cases o' with
        | dir m' x' => exact ⟨m', x', k1⟩
        | file => exact k2.elim
        | link => exact k2.elim)
    refine ⟨w3, ?_, a2.trans (b2.trans c2), ?_, ?_⟩
    · have hb := dbase_eq (E := E) (w := w) (s := s) (t := t) (d := d) (by rw [← hqt]; exact hokq) H.s_ne H.ok
        (H.trims (by rw [← hqt]; exact hd))
      rw [← hqt, ← het] at hb
      have hbody : copyBody depth0 r ig fl ((mem E s).path.length + 1) (mem E d) (mem E q) (dirNames w r q) (fileNames w r q) w =
          (.ok ((dirNames w r q).filter fun n => ¬ (n ∈ dirNames w r q ∧ n ∈ ig)), w2) := by
        unfold copyBody
        dsimp only
        by_cases c : stripW ((mem E q).path.drop ((mem E s).path.length + 1)) ≠ []
        · rw [if_pos c] at hb ⊢
          rw [bind_ok hb, bind_ok a1, bind_ok b1]
          rfl
        · rw [if_neg c] at hb ⊢
          rw [bind_ok hb, bind_ok a1, bind_ok b1]
          rfl
      rw [walk_dir hw hf hwr han hdq]
      simp only [if_true]
      rw [bind_ok (show copier depth0 r ig fl ((mem E s).path.length + 1) (mem E d) () (mem E q) (dirNames w r q) (fileNames w r q) w =
        (.ok ((), _), w2) from bind_ok hbody)]
      exact c1
    · intro p hp
      have hno : ∀ n x, p ≠ e ++ [n] ++ x := by
        rintro n x rfl
        exact hp ⟨by rw [List.append_assoc]; exact List.prefix_append _ _, by simp⟩
      rw [c3, hframe]
      · intro n _ _ h; exact hno n [] (by simpa using h)
      · rintro n - - ⟨⟨x, rfl⟩, -⟩; exact hno n x rfl
    · intro x hx
      obtain ⟨n, x, rfl⟩ := List.exists_cons_of_ne_nil hx
      rw [show e ++ n :: x = e ++ [n] ++ x by simp, show q ++ n :: x = q ++ [n] ++ x by simp, pruned_cons, leadsToDir_iff]
      -- what the loop leaves alone
      have hrest : (¬ (n ∉ ig ∧ (view w0 r).isDir (q ++ [n])) ∨ x = []) →
          view w3 r (e ++ [n] ++ x) = view w2 r (e ++ [n] ++ x) := by
        intro h
        apply c3
        rintro m hm hdm ⟨h1, h2⟩
        have := prefix_snoc_inj (List.prefix_append (e ++ [n]) x) h1
        subst this
        rcases h with h | h
        · obtain ⟨h3, h4⟩ := List.mem_filter.1 hm
          exact h ⟨fun hi => by simp [h3, hi] at h4, hdm⟩
        · subst h; simp at h2
      cases hv : view w0 r (q ++ [n]) with
      | none =>
        have hnd' : ¬ (view w0 r).isDir (q ++ [n]) := by rintro ⟨m, y, h⟩; rw [hv] at h; simp at h
        have h1 : view w0 r (q ++ [n] ++ x) = none := by
          cases hvx : view w0 r (q ++ [n] ++ x) with
          | none => rfl
          | some o => obtain ⟨o', ho'⟩ := view_prefix hvx; rw [hv] at ho'; simp at ho'
        have h2 : view w3 r (e ++ [n] ++ x) = none := by
          rw [hrest (.inl fun h => hnd' h.2), hframe]
          · rw [List.append_assoc]; exact hemp _ (by simp)
          · intro m hm _ h
            have := prefix_snoc_inj (List.prefix_append (e ++ [n]) x) ⟨[], by simpa using h.symm⟩
            subst this
            exact hm hv
        rw [h1, h2]
        exact ⟨fun _ => rfl, fun _ => trivial⟩
      | some o =>
        have hex : view w0 r (q ++ [n]) ≠ none := by rw [hv]; simp
        by_cases hp : n ∈ ig ∧ isD (view w0 r) (q ++ [n]) = true
        · refine ⟨fun _ => ?_, fun h => absurd (.inl hp) h⟩
          rw [hrest (.inl fun h => h.1 hp.1), hframe]
          · rw [List.append_assoc]; exact hemp _ (by simp)
          · intro m _ hm h
            have := prefix_snoc_inj (List.prefix_append (e ++ [n]) x) ⟨[], by simpa using h.symm⟩
            subst this
            exact hm hp
        · by_cases hx0 : x = []
          · subst hx0
            refine ⟨fun h => ?_, fun _ => ?_⟩
            · rcases h with h | h
              · exact absurd h hp
              · exact absurd h pruned_nil
            · rw [hrest (.inr rfl)]
              obtain ⟨o', k1, k2⟩ := hcopy n o hv hp
              simp only [List.append_nil, k1, hv]
              exact k2
          · by_cases hdn : (view w0 r).isDir (q ++ [n])
            · have hig : n ∉ ig := fun h => hp ⟨h, isD_of_dir hdn⟩
              have := c4 n (List.mem_filter.2 ⟨(hD n).2 ⟨hex, isD_of_dir hdn⟩, by simp [hig]⟩) hdn x hx0
              rw [or_iff_right hp]
              exact this
            · have hod : o.isDir = false := by
                cases o with
                | dir m y => exact absurd ⟨m, y, hv⟩ hdn
                | file => rfl
                | link => rfl
              rw [hrest (.inl fun h => hdn h.2), hdeep n x hx0, hleaf hv hod hx0]
              exact ⟨fun _ => rfl, fun _ => trivial⟩

/-! ## Making the destination, then walking -/

theorem Outside.trans {e x : List Str} {a b c : NS} (h : Outside e a b) (h' : Outside (e ++ x) b c) : Outside e a c := by
  intro p hp
  rw [h' p (fun hx => hp ((List.prefix_append _ _).trans hx)), h p hp]

theorem Copyable.deeper {ns ns1 : NS} {s e rest : List Str} {fl : Bool} (H : Copyable ns s e fl) (ho : Outside e ns ns1)
    (hok : Ok (e ++ rest)) : Copyable ns1 s (e ++ rest) fl := by
  have same := H.same ho
  refine ⟨?_, ?_, ?_, ?_, hok, H.s_ne, by simp [H.d_ne], ?_, ?_⟩
  · intro x hx; rw [same] at hx; exact H.writable x hx
  · intro t ht
    unfold NS.isLink at ht
    rw [same] at ht
    obtain ⟨b, hb⟩ := H.quiet t ht
    exact ⟨b, fun ns' h' => hb ns' (Outside.trans ho h')⟩
  · intro hfl t ht
    unfold NS.isLink at ht
    rw [same] at ht
    exact H.noLinks hfl t ht
  · intro t n hd
    unfold NS.isDir at hd
    rw [List.append_assoc, same, ← List.append_assoc] at hd
    exact H.trim t n hd
  · intro h
    rcases List.prefix_or_prefix_of_prefix h (List.prefix_append e rest) with h1 | h1
    · exact H.s_d h1
    · exact H.d_s h1
  · intro h; exact H.d_s ((List.prefix_append _ _).trans h)

/-- the state after copying `s` to `d = e ++ rest`: a copy at `d`, directories on the way from `e` to `d`,
    otherwise nothing new -/
structure Copied (ns ns' : NS) (ig s e rest : List Str) : Prop where
  outside : Outside e ns ns'
  way : ∀ p, e <+: p → p <+: e ++ rest → ns'.isDir p
  aside : ∀ p, e <+: p → ¬ p <+: e ++ rest → ¬ e ++ rest <+: p → ns' p = none
  below : Below ns ns' ig s (e ++ rest)

theorem Below.congr {ns ns1 ns' : NS} {ig s e : List Str} (h : Below ns1 ns' ig s e) (h1 : ∀ x, ns1 (s ++ x) = ns (s ++ x))
    (h2 : ∀ x, ns (s ++ x) ≠ none → (LeadsToDir ns1 (s ++ x) ↔ LeadsToDir ns (s ++ x)))
    (hp : ∀ a b, ns (s ++ a ++ b) ≠ none → ns (s ++ a) ≠ none) (h3 : ∀ x, ns (s ++ x) = none → ns' (e ++ x) = none) : Below ns ns' ig s e := by
  intro x hx
  obtain ⟨k1, k2⟩ := h x hx
  rw [h1] at k2
  by_cases hn : ns (s ++ x) = none
  · rw [hn, h3 x hn]; exact ⟨fun _ => rfl, fun _ => trivial⟩
  · have : Pruned ns1 ig s x ↔ Pruned ns ig s x := by
      unfold Pruned
      constructor
      · rintro ⟨a, n, b, rfl, h4, h5⟩
        refine ⟨a, n, b, rfl, h4, ?_⟩
        rw [List.append_assoc] at h5 ⊢
        exact (h2 _ (hp (a ++ [n]) b (by simpa using hn))).1 h5
      · rintro ⟨a, n, b, rfl, h4, h5⟩
        refine ⟨a, n, b, rfl, h4, ?_⟩
        rw [List.append_assoc] at h5 ⊢
        exact (h2 _ (hp (a ++ [n]) b (by simpa using hn))).2 h5
    rw [← this]
    exact ⟨k1, k2⟩

/-- fs.py:936-971 -/
theorem copyTree_eq {w : World} {E : Dict} {r : Nat} (hw : Inv w) (hf : Fs w E r) {s pre rest : List Str} {n : Str} {fl : Bool}
    (H : Copyable (view w r) s (pre ++ [n]) fl) (hs : (view w r).isDir s) (hpre : (view w r).isDir pre)
    (hn : view w r (pre ++ [n]) = none) (hok : Ok (pre ++ [n] ++ rest)) {depth : Nat} (hlen : rest.length < depth)
    (hh : ∀ t, (view w r).isDir (s ++ t) → t.length < depth) (ig : List Str) :
    ∃ w', (do
        if (← uIslink (mem E s)) && !fl then copyLink r (mem E s) (mem E (pre ++ [n] ++ rest))
        else
          uMakedirs depth (mem E (pre ++ [n] ++ rest))
          copyWalk depth r ig fl (mem E s) (mem E (pre ++ [n] ++ rest)) : M Unit) w = (.ok (), w') ∧
      Becomes w w' r (view w' r) ∧ Copied (view w r) (view w' r) ig s (pre ++ [n]) rest := by
  have hoks : Ok s := by
    have := H.writable [] (by obtain ⟨m, t, h⟩ := hs; simp [h])
    simpa using this
  have e0 : pre ++ [n] ++ rest = pre ++ n :: rest := by simp
  obtain ⟨w1, t, h1, h2⟩ := makedirs_new rest depth hw hf (by rw [← e0]; exact hok) (isDir_goes hpre) hpre hn hlen
  rw [← e0] at h1
  have hbelow : ∀ x, view w r (pre ++ [n] ++ x) = none := by
    intro x
    cases hv : view w r (pre ++ [n] ++ x) with
    | none => rfl
    | some o => obtain ⟨o', ho'⟩ := view_prefix hv; rw [hn] at ho'; simp at ho'
  have hiff : ∀ p, (pre <+: p ∧ p ≠ pre ∧ p <+: pre ++ n :: rest) ↔ (pre ++ [n] <+: p ∧ p <+: pre ++ [n] ++ rest) := by
    intro p
    constructor
    · rintro ⟨⟨x, rfl⟩, k2, k3⟩
      cases x with
      | nil => simp at k2
      | cons y x =>
        rw [List.prefix_append_right_inj, List.cons_prefix_cons] at k3
        obtain ⟨rfl, k3⟩ := k3
        refine ⟨⟨x, by simp⟩, ?_⟩
        rw [show pre ++ y :: x = pre ++ [y] ++ x by simp, List.prefix_append_right_inj]
        exact k3
    · rintro ⟨⟨x, rfl⟩, k2⟩
      refine ⟨⟨n :: x, by simp⟩, by simp, ?_⟩
      rw [← e0]; exact k2
  have v1 : ∀ p, view w1 r p = if pre ++ [n] <+: p ∧ p <+: pre ++ [n] ++ rest then some (.dir 0 (t p)) else view w r p := by
    intro p
    rw [h2.view]
    unfold NS.mkdirs
    simp only [hiff]
  have ho1 : Outside (pre ++ [n]) (view w r) (view w1 r) := by
    intro p hp
    rw [v1, if_neg (fun h => hp h.1)]
  have H1 := H.deeper ho1 hok
  have hde : (view w1 r).isDir (pre ++ [n] ++ rest) := ⟨0, _, by rw [v1, if_pos ⟨List.prefix_append _ _, List.prefix_refl _⟩]⟩
  have hs1 : (view w1 r).isDir s := by
    have := H.same ho1 []
    simp only [List.append_nil] at this
    unfold NS.isDir; rw [this]; exact hs
  have hd0 : 0 < depth := by omega
  obtain ⟨w2, k1, k2, k3, k4⟩ := copy_walk (E := E) (r := r) H1 (ig := ig) hd0 depth [] s (pre ++ [n] ++ rest) (w := w1) (by simp) (by simp)
    h2.inv (hf.becomes h2) (fun _ _ => rfl) hs1 hde (by
      intro x hx
      rw [v1, if_neg]
      · rw [List.append_assoc]; exact hbelow _
      · rintro ⟨-, h⟩
        have := h.length_le
        have h' := List.length_pos_iff.2 hx
        simp only [List.length_append] at this
        omega) (by
      intro x hx
      unfold NS.isDir at hx
      rw [H.same ho1] at hx
      exact hh x hx)
  have ho2 : Outside (pre ++ [n]) (view w r) (view w2 r) := by
    intro p hp
    rw [k3 p (fun h => hp ((List.prefix_append _ _).trans h.1)), ho1 p hp]
  refine ⟨w2, ?_, h2.trans k2, ho2, ?_, ?_, ?_⟩
  · obtain ⟨s0, x, rfl⟩ : ∃ s0 x, s = s0 ++ [x] := by
      rcases List.eq_nil_or_concat s with h | ⟨a, b, h⟩
      · exact absurd h H.s_ne
      · exact ⟨a, b, by rw [h, List.concat_eq_append]⟩
    have e1 := uIslink_at hw hf hoks (isDir_prefix hs)
    obtain ⟨m, y, hy⟩ := hs
    rw [hy] at e1
    rw [bind_ok e1]
    simp only [Option.any_some, Obj.isLink, Bool.false_and, Bool.false_eq_true, if_false]
    have e2 : uMakedirs depth (mem E (pre ++ [n] ++ rest)) w = (.ok (), w1) := by
      unfold uMakedirs
      rw [withConn_serves (hf.serves _) (stepsOf_mem hok E)]
      exact h1
    rw [bind_ok e2]
    unfold copyWalk
    rw [withConn_serves ((hf.becomes h2).serves _) (stepsOf_mem hoks E)]
    exact k1
  · intro p h3 h4
    have : view w2 r p = view w1 r p := k3 p (fun h => h.2 (h.1.eq_of_length_le h4.length_le).symm)
    exact ⟨0, t p, by rw [this, v1, if_pos ⟨h3, h4⟩]⟩
  · intro p h3 h4 h5
    rw [k3 p (fun h => h5 h.1), v1, if_neg (fun h => h4 h.2)]
    obtain ⟨x, rfl⟩ := h3
    exact hbelow x
  · refine k4.congr (H.same ho1) ?_ ?_ ?_
    · intro x hx
      rw [leadsToDir_iff, leadsToDir_iff, H.isD_same ho1 hx]
    · intro a b h1 h2
      obtain ⟨o, ho⟩ := Option.ne_none_iff_exists'.1 h1
      obtain ⟨o', ho'⟩ := view_prefix ho
      rw [h2] at ho'; simp at ho'
    · intro x hx
      have hx0 : x ≠ [] := by
        rintro rfl
        obtain ⟨m, y, hy⟩ := hs
        rw [List.append_nil, hy] at hx; simp at hx
      obtain ⟨g1, g2⟩ := k4 x hx0
      by_cases hp : Pruned (view w1 r) ig s x
      · exact g1 hp
      · have := g2 hp
        rw [H.same ho1, hx] at this
        cases hv : view w2 r (pre ++ [n] ++ rest ++ x) with
        | none => rfl
        | some o => rw [hv] at this; exact this.elim

end Verif.Gen
