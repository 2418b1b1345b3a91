import Verif.Any.Walk
/-! # Copying and moving between backends -/
namespace Verif.Any
open Mem (Meth)
open Verif.Spec Verif.Gen

/-- what is below a directory, by names relative to it, without what is in ignored directories -/
noncomputable def kept (T : List Str → Option Kind) (ig q : List Str) : List Str → Option Kind := by
  classical exact fun x => if ∃ a n b, x = a ++ n :: b ∧ n ∈ ig ∧ T (q ++ a ++ [n]) = some .dir then none else T (q ++ x)

theorem kept_nil {T : List Str → Option Kind} {ig q : List Str} : kept T ig q [] = T q := by simp [kept]

theorem kept_noIgnore {T : List Str → Option Kind} {q x : List Str} : kept T [] q x = T (q ++ x) := by simp [kept]

theorem kept_ignored {T : List Str → Option Kind} {ig q x : List Str} {n : Str} (h : n ∈ ig) (hd : T (q ++ [n]) = some .dir) :
    kept T ig q (n :: x) = none := by
  unfold kept
  rw [if_pos]
  exact ⟨[], n, x, rfl, h, by simpa using hd⟩

theorem kept_cons {T : List Str → Option Kind} {ig q x : List Str} {n : Str} (h : ¬ (n ∈ ig ∧ T (q ++ [n]) = some .dir)) :
    kept T ig q (n :: x) = kept T ig (q ++ [n]) x := by
  unfold kept
  have : (∃ a m b, n :: x = a ++ m :: b ∧ m ∈ ig ∧ T (q ++ a ++ [m]) = some .dir) ↔
      (∃ a m b, x = a ++ m :: b ∧ m ∈ ig ∧ T (q ++ [n] ++ a ++ [m]) = some .dir) := by
    constructor
    · rintro ⟨a, m, b, h1, h2, h3⟩
      cases a with
      | nil =>
        simp only [List.nil_append, List.cons.injEq] at h1
        obtain ⟨rfl, rfl⟩ := h1
        exact absurd ⟨h2, by simpa using h3⟩ h
      | cons y a =>
        simp only [List.cons_append, List.cons.injEq] at h1
        obtain ⟨rfl, rfl⟩ := h1
        exact ⟨a, m, b, rfl, h2, by simpa using h3⟩
    · rintro ⟨a, m, b, h1, h2, h3⟩
      exact ⟨n :: a, m, b, by simp [h1], h2, by simpa using h3⟩
  by_cases hc : ∃ a m b, x = a ++ m :: b ∧ m ∈ ig ∧ T (q ++ [n] ++ a ++ [m]) = some .dir
  · rw [if_pos hc, if_pos (this.2 hc)]
  · rw [if_neg hc, if_neg (fun h => hc (this.1 h))]
    simp

/-- the map with a tree put below a name -/
noncomputable def graft {κ : Type} (V : κ → List Str → Option Kind) (k : κ) (e : List Str) (T : List Str → Option Kind) :
    κ → List Str → Option Kind := by
  classical exact fun j p => if j = k ∧ e <+: p ∧ p ≠ e then T (p.drop e.length) else V j p

section
variable {κ : Type} {V : κ → List Str → Option Kind} {k j : κ} {e p x : List Str} {T : List Str → Option Kind}

theorem graft_in (hx : x ≠ []) : graft V k e T k (e ++ x) = T x := by
  unfold graft
  rw [if_pos ⟨rfl, List.prefix_append _ _, by simp [hx]⟩, List.drop_left]

theorem graft_out (h : ¬ (j = k ∧ e <+: p ∧ p ≠ e)) : graft V k e T j p = V j p := by
  unfold graft; rw [if_neg h]
end

namespace Laws
variable {σ : Type} {O : Ops σ} {κ : Type} {I : σ → Prop} {may : κ → κ → Prop} (L : Laws O κ I may)
variable {s : σ} {k k' : κ}

theorem leaf (hs : I s) {q x : List Str} {d : Bytes} (h : L.V s k q = some (.file d)) (hx : x ≠ []) : L.V s k (q ++ x) = none := by
  cases hv : L.V s k (q ++ x) with
  | none => rfl
  | some o =>
    have := L.above hs (k := k) (cs := q ++ x) (by rw [hv]; simp) q (List.prefix_append _ _) (by simp [hx])
    rw [h] at this; simp at this

/-- fs.py:923-929, 965-971 one file -/
theorem copyOne {cs ds : List Str} {n : Str} {d : Bytes} {fl : Bool} (hm : may k k') (hs : I s) (hn : Nm cs) (hn' : Nm (ds ++ [n]))
    (hd : L.V s k cs = some (.file d)) (hp : L.V s k' ds = some .dir)
    (hf : L.V s k' (ds ++ [n]) = none ∨ isF (L.V s k' (ds ++ [n])) = true) (hne : ¬ (k = k' ∧ cs = ds ++ [n])) :
    ∃ s', copyOne O (L.C k) (L.at_ k cs) (L.at_ k' (ds ++ [n])) fl s = (.ok (), s') ∧ I s' ∧
      L.V s' = upd (L.V s) k' (ds ++ [n]) (some (.file d)) := by
  obtain ⟨s', h1, h2, h3⟩ := L.copy hm hs hn hn' hd hp hf hne
  refine ⟨s', ?_, h2, h3⟩
  unfold Any.copyOne
  rw [bind_ok (L.uIslink hs hn (L.clear_of hs (by rw [hd]; simp) (by rw [hd]; simp)) (by rw [hd]; simp))]
  exact h1

/-- fs.py:945-950 where the contents of `q ++ t` go -/
theorem dbase {q t d : List Str} (hn : Nm (q ++ t)) (hq : q ≠ []) (hd : Nm (d ++ t)) (ht : ∀ n ∈ t, Trimmed n) :
    (if stripW ((L.at_ k (q ++ t)).path.drop ((L.at_ k q).path.length + 1)) ≠ [] then
        OM.lift ((L.at_ k' d).div (stripW ((L.at_ k (q ++ t)).path.drop ((L.at_ k q).path.length + 1)))) else pure (L.at_ k' d) : OM σ Uri) s
      = (.ok (L.at_ k' (d ++ t)), s) := by
  have e1 : pathOf (q ++ t) = slash q ++ slash t := by rw [pathOf_ne (by simp [hq]), slash_append]
  rw [L.path hn, L.path hn.of_prefix, e1, pathOf_ne hq]
  by_cases h : t = []
  · subst h
    have : stripW ((slash q ++ slash []).drop ((slash q).length + 1)) = [] := by
      rw [List.drop_eq_nil_of_le (by simp [slash])]; rfl
    rw [this]
    simp
  · obtain ⟨p, h1, h2, h3⟩ := slash_trimmed h (fun n hn' => ⟨(hn.ok.clean n (by simp [hn'])).ne, ht n hn'⟩)
    have : (slash q ++ slash t).drop ((slash q).length + 1) = p := by
      rw [h1, show slash q ++ '/' :: p = (slash q ++ ['/']) ++ p by simp, List.drop_left' (by simp)]
    rw [this, h3, if_pos h2, L.div hd h h1]
    rfl

/-- a directory is made in another -/
theorem uMakedirs1 {depth : Nat} {e : List Str} {n : Str} (hdep : 0 < depth) (hs : I s) (hn : Nm (e ++ [n])) (hd : L.V s k e = some .dir)
    (he : L.V s k (e ++ [n]) = none) :
    ∃ s', Any.uMakedirs O depth (L.at_ k (e ++ [n])) s = (.ok (), s') ∧ I s' ∧ L.V s' = upd (L.V s) k (e ++ [n]) (some .dir) := by
  obtain ⟨depth, rfl⟩ := Nat.exists_eq_succ_of_ne_zero (Nat.pos_iff_ne_zero.1 hdep)
  obtain ⟨s', h1, h2, h3⟩ := L.mkdir hs hn hd he
  refine ⟨s', ?_, h2, h3⟩
  unfold Any.uMakedirs Any.makedirs
  rw [L.withConn hs hn, bind_ok (L.uIsdir hs hn (L.clear_in hs hd (by rw [he]; simp)))]
  have hf : isD (L.V s k (e ++ [n])) = false := by rw [he]; rfl
  rw [hf, if_neg Bool.false_ne_true, bind_lift (L.split hn)]
  dsimp only
  rw [bind_ok (L.uIsdir hs hn.of_prefix (L.clear_dir hs hd))]
  have hf : isD (L.V s k e) = true := by rw [hd]; rfl
  rw [hf, Bool.not_true, if_neg Bool.false_ne_true, if_pos (hn.ok.clean n (by simp)).ne]
  unfold uMkdir
  rw [L.withConn hs hn, h1]

/-- the map with some names in one directory taken from another -/
noncomputable def _root_.Verif.Any.fill (V : κ → List Str → Option Kind) (k k' : κ) (q e l : List Str) : κ → List Str → Option Kind := by
  classical exact fun j p => if j = k' ∧ ∃ n ∈ l, p = e ++ [n] then V k (q ++ p.drop e.length) else V j p

theorem _root_.Verif.Any.fill_nil {V : κ → List Str → Option Kind} {q e : List Str} : fill V k k' q e [] = V := by
  funext j p; simp [fill]

theorem _root_.Verif.Any.fill_in {V : κ → List Str → Option Kind} {q e l : List Str} {n : Str} (h : n ∈ l) :
    fill V k k' q e l k' (e ++ [n]) = V k (q ++ [n]) := by
  unfold fill
  rw [if_pos ⟨rfl, n, h, rfl⟩, List.drop_left]

theorem _root_.Verif.Any.fill_out {V : κ → List Str → Option Kind} {q e l p : List Str} {j : κ}
    (h : ¬ (j = k' ∧ ∃ n ∈ l, p = e ++ [n])) : fill V k k' q e l j p = V j p := by
  unfold fill; rw [if_neg h]

theorem _root_.Verif.Any.fill_cons {V : κ → List Str → Option Kind} {q e l : List Str} {n : Str} {x : Kind} (hn : n ∉ l)
    (hx : V k (q ++ [n]) = some x) (hqe : ∀ m m', ¬ (k = k' ∧ q ++ [m] = e ++ [m'])) :
    fill (upd V k' (e ++ [n]) (some x)) k k' q e l = fill V k k' q e (n :: l) := by
  funext j p
  by_cases h1 : j = k' ∧ ∃ m ∈ l, p = e ++ [m]
  · obtain ⟨rfl, m, hm, rfl⟩ := h1
    rw [fill_in hm, fill_in (by simp [hm]), upd_ne (hqe m n)]
  · rw [fill_out h1]
    by_cases h2 : j = k' ∧ p = e ++ [n]
    · obtain ⟨rfl, rfl⟩ := h2
      rw [upd_same, fill_in (by simp), hx]
    · rw [upd_ne h2, fill_out]
      rintro ⟨rfl, m, hm, rfl⟩
      rcases List.mem_cons.1 hm with rfl | hm
      · exact h2 ⟨rfl, rfl⟩
      · exact h1 ⟨rfl, m, hm, rfl⟩

theorem _root_.Verif.Any.fill_fill {V : κ → List Str → Option Kind} {q e l l' : List Str}
    (hqe : ∀ m m', ¬ (k = k' ∧ q ++ [m] = e ++ [m'])) :
    fill (fill V k k' q e l) k k' q e l' = fill V k k' q e (l ++ l') := by
  funext j p
  by_cases h1 : j = k' ∧ ∃ m ∈ l', p = e ++ [m]
  · obtain ⟨rfl, m, hm, rfl⟩ := h1
    rw [fill_in hm, fill_in (by simp [hm]), fill_out]
    rintro ⟨h, m', -, h'⟩; exact hqe m m' ⟨h, h'⟩
  · rw [fill_out h1]
    by_cases h2 : j = k' ∧ ∃ m ∈ l, p = e ++ [m]
    · obtain ⟨rfl, m, hm, rfl⟩ := h2
      rw [fill_in hm, fill_in (by simp [hm])]
    · rw [fill_out h2, fill_out]
      rintro ⟨rfl, m, hm, rfl⟩
      rcases List.mem_append.1 hm with hm | hm
      · exact h2 ⟨rfl, m, hm, rfl⟩
      · exact h1 ⟨rfl, m, hm, rfl⟩

/-- fs.py:962-971 -/
theorem copyFiles {q e : List Str} {fl : Bool} (hm : may k k') (hqe : ∀ m m', ¬ (k = k' ∧ q ++ [m] = e ++ [m'])) :
    ∀ (l : List Str) {s : σ}, I s → L.V s k' e = some .dir → l.Nodup →
    (∀ n ∈ l, Nm (q ++ [n]) ∧ Nm (e ++ [n]) ∧ L.V s k' (e ++ [n]) = none ∧ ∃ d, L.V s k (q ++ [n]) = some (.file d)) →
    ∃ s', copyFiles O (L.C k) fl (L.at_ k q) (L.at_ k' e) l s = (.ok (), s') ∧ I s' ∧ L.V s' = fill (L.V s) k k' q e l := by
  intro l
  induction l with
  | nil => intro s hs _ _ _; exact ⟨s, rfl, hs, fill_nil.symm⟩
  | cons n l ih =>
    intro s hs hd hnd hl
    obtain ⟨h1, h2, h3, d, h4⟩ := hl n (by simp)
    have hnn := (List.nodup_cons.1 hnd).1
    obtain ⟨s1, k1, k2, k3⟩ := L.copyOne (fl := fl) hm hs h1 h2 h4 hd (.inl h3) (hqe n n)
    obtain ⟨s2, j1, j2, j3⟩ := ih k2 (by rw [k3, upd_ne (by simp)]; exact hd) (List.nodup_cons.1 hnd).2 (by
      intro m hm'
      obtain ⟨g1, g2, g3, d', g4⟩ := hl m (by simp [hm'])
      have hne : m ≠ n := by rintro rfl; exact hnn hm'
      exact ⟨g1, g2, by rw [k3, upd_ne (by simpa using hne)]; exact g3, d', by rw [k3, upd_ne (hqe m n)]; exact g4⟩)
    refine ⟨s2, ?_, j2, by rw [j3, k3, fill_cons hnn h4 hqe]⟩
    unfold Any.copyFiles
    rw [bind_lift (L.div1 h1), bind_lift (L.div1 h2), bind_ok k1]
    exact j1

/-- fs.py:951-960 -/
theorem copyDirs {q e ig : List Str} {fl : Bool} {depth : Nat} (hdep : 0 < depth) (hqe : ∀ m m', ¬ (k = k' ∧ q ++ [m] = e ++ [m'])) :
    ∀ (l D : List Str) {s : σ}, I s → L.V s k' e = some .dir → l.Nodup → D.Nodup →
    (∀ n ∈ l, Nm (q ++ [n]) ∧ Nm (e ++ [n]) ∧ L.V s k' (e ++ [n]) = none ∧ L.V s k (q ++ [n]) = some .dir) →
    ∃ s', copyDirs O depth (L.C k) ig fl (L.at_ k q) (L.at_ k' e) l D s = (.ok (D.filter fun n => ¬ (n ∈ l ∧ n ∈ ig)), s') ∧ I s' ∧
      L.V s' = fill (L.V s) k k' q e (l.filter fun n => n ∉ ig) := by
  intro l
  induction l with
  | nil => intro D s hs _ _ _ _; exact ⟨s, by simp [Any.copyDirs], hs, fill_nil.symm⟩
  | cons n l ih =>
    intro D s hs hd hnd hD hl
    obtain ⟨h1, h2, h3, h4⟩ := hl n (by simp)
    have hnn := (List.nodup_cons.1 hnd).1
    by_cases hig : n ∈ ig
    · obtain ⟨s2, k4, k5, k6⟩ := ih (D.erase n) hs hd (List.nodup_cons.1 hnd).2 (hD.erase n) (fun m hm => hl m (by simp [hm]))
      refine ⟨s2, ?_, k5, ?_⟩
      · unfold Any.copyDirs
        rw [if_pos hig, k4, hD.erase_eq_filter, List.filter_filter]
        congr 2
        apply List.filter_congr
        intro x _
        by_cases hx : x = n
        · subst hx; simp [hig]
        · simp [hx]
      · rw [List.filter_cons_of_neg (by simpa using hig)]; exact k6
    · obtain ⟨s1, k1, k2, k3⟩ := L.uMakedirs1 hdep hs h2 hd h3
      obtain ⟨s2, j1, j2, j3⟩ := ih D k2 (by rw [k3, upd_ne (by simp)]; exact hd) (List.nodup_cons.1 hnd).2 hD (by
        intro m hm'
        obtain ⟨g1, g2, g3, g4⟩ := hl m (by simp [hm'])
        have hne : m ≠ n := by rintro rfl; exact hnn hm'
        exact ⟨g1, g2, by rw [k3, upd_ne (by simpa using hne)]; exact g3, by rw [k3, upd_ne (hqe m n)]; exact g4⟩)
      refine ⟨s2, ?_, j2, ?_⟩
      · unfold Any.copyDirs
        rw [if_neg hig, bind_lift (L.div1 h2), bind_lift (L.div1 h1),
          bind_ok (L.uIslink hs h1 (L.clear_dir hs h4) (by rw [h4]; simp)), Bool.false_and, if_neg Bool.false_ne_true, bind_ok k1]
        refine j1.trans ?_
        congr 2
        apply List.filter_congr
        intro x _
        by_cases hx : x = n
        · subst hx; simp [hig]
        · simp [hx]
      · rw [List.filter_cons_of_pos (by simpa using hig), j3, k3]
        exact fill_cons (fun h => hnn (List.mem_filter.1 h).1) h4 hqe

/-- what copying the tree at `q` to `e` relies on -/
structure Copyable (T : List Str → Option Kind) (q : List Str) : Prop where
  sub : Sub T q
  ne : q ≠ []
  dir : T q = some .dir
  /-- directory names have no whitespace at the ends (`tojoin.strip()`, fs.py:946) -/
  trim : ∀ t n, T (q ++ t ++ [n]) = some .dir → Trimmed n

/-- the consumer of the walk in `copy` -/
def copier (k : κ) (depth : Nat) (ig : List Str) (fl : Bool) (len : Nat) (droot : Uri) (_ : Unit) (top : Uri)
    (dirs files : List Str) : OM σ (Unit × List Str) := do
  let dirs' ← copyBody O depth (L.C k) ig fl len droot top dirs files
  pure ((), dirs')

theorem trims {s0 : σ} {src t : List Str} (h0 : I s0) (H : Copyable (L.V s0 k) src) (hd : L.V s0 k (src ++ t) = some .dir) :
    ∀ n ∈ t, Trimmed n := by
  intro n hn
  obtain ⟨a, b, rfl⟩ := List.append_of_mem hn
  exact H.trim a n (L.dir_prefix h0 (b := b) (by simpa using hd))

theorem _root_.Verif.Any.Nm.append {a b c : List Str} (h : Nm a) (ha : a ≠ []) (hb : Nm (c ++ b)) : Nm (a ++ b) :=
  ⟨h.ok.append ha (fun x hx => hb.ok.clean x (by simp [hx])), fun x hx => by
    rcases List.mem_append.1 hx with hx | hx
    · exact h.noDots x hx
    · exact hb.noDots x (by simp [hx]), fun r hr => h.noColon r (by
    cases a with
    | nil => exact absurd rfl ha
    | cons y a => simpa using hr)⟩

theorem copy_walk {s0 : σ} (h0 : I s0) {src d : List Str} (hm : may k k') (H : Copyable (L.V s0 k) src) (hd : Nm d) (hd0 : d ≠ [])
    (hsd : ¬ (k = k' ∧ (src <+: d ∨ d <+: src))) {ig : List Str} {fl : Bool} {depth0 : Nat} (hdep : 0 < depth0) (depth : Nat) :
    ∀ (t q e : List Str) {s : σ}, q = src ++ t → e = d ++ t → I s → (∀ x, L.V s k (src ++ x) = L.V s0 k (src ++ x)) →
    L.V s0 k q = some .dir → L.V s k' e = some .dir → (∀ x, x ≠ [] → L.V s k' (e ++ x) = none) →
    (∀ x, L.V s0 k (q ++ x) = some .dir → x.length < depth) →
    ∃ s', walk O (L.C k) true fl (L.copier k depth0 ig fl ((L.at_ k src).path.length + 1) (L.at_ k' d)) depth (L.at_ k q) () s = (.ok (), s') ∧
      I s' ∧ L.V s' = graft (L.V s) k' e (kept (L.V s0 k) ig q) := by
  have apart : ∀ {t x y : List Str}, ¬ (k = k' ∧ src ++ x = d ++ t ++ y) := by
    rintro t x y ⟨hk, h⟩
    apply hsd
    refine ⟨hk, ?_⟩
    have h1 : src <+: d ++ t ++ y := ⟨x, h⟩
    have h2 : d <+: d ++ t ++ y := ⟨t ++ y, by simp⟩
    exact List.prefix_or_prefix_of_prefix h1 h2
  induction depth with
  | zero =>
    intro t q e s _ _ _ _ hd _ _ hh
    exact absurd (hh [] (by simpa using hd)) (by simp)
  | succ depth ih =>
    intro t q e s hqt het hs hsame hdq hde hemp hh
    have hq : ∀ x, L.V s k (q ++ x) = L.V s0 k (q ++ x) := by
      intro x; rw [hqt, List.append_assoc]; exact hsame _
    have hqe : ∀ m m', ¬ (k = k' ∧ q ++ [m] = e ++ [m']) := by
      rintro m m' ⟨h, h'⟩
      rw [hqt, het, List.append_assoc] at h'
      exact apart ⟨h, h'⟩
    have hsub0 : Sub (L.V s0 k) q := by rw [hqt]; exact H.sub.below t
    have hsub : Sub (L.V s k) q := ⟨fun x hx => hsub0.nm x (by rwa [hq] at hx), fun x => by rw [hq]; exact hsub0.noLink x⟩
    have hdq' : L.V s k q = some .dir := by have := hq []; simp only [List.append_nil] at this; rw [this, hdq]
    have hnq : Nm (src ++ t) := by rw [← hqt]; exact hsub0.nm0 (by rw [hdq]; simp)
    have hne : ∀ {x}, L.V s0 k (q ++ x) ≠ none → Nm (e ++ x) := by
      intro x hx
      have := hsub0.nm x hx
      rw [hqt, List.append_assoc] at this
      rw [het, List.append_assoc]
      exact hd.append hd0 this
    have hnD : (L.dirNames s k q).Nodup := (L.names_nodup hs).filter _
    have hnF : (L.fileNames s k q).Nodup := (L.names_nodup hs).filter _
    obtain ⟨s1, a1, a2, a3⟩ := L.copyDirs (k := k) (k' := k') (q := q) (e := e) (ig := ig) (fl := fl) hdep hqe (L.dirNames s k q)
      (L.dirNames s k q) hs hde hnD hnD (by
        intro n hn
        have hv := (L.mem_dirNames hs).1 hn
        have hv0 : L.V s0 k (q ++ [n]) = some .dir := by rw [← hq]; exact hv
        exact ⟨hsub.nm [n] (by rw [hv]; simp), hne (by rw [hv0]; simp), hemp [n] (by simp), hv⟩)
    obtain ⟨s2, b1, b2, b3⟩ := L.copyFiles (k := k) (k' := k') (q := q) (e := e) (fl := fl) hm hqe (L.fileNames s k q) a2 (by
        rw [a3, fill_out (by rintro ⟨-, n, -, h⟩; simp at h)]; exact hde) hnF (by
        intro n hn
        obtain ⟨dd, hv⟩ := (L.mem_fileNames hs hsub).1 hn
        have hv0 : L.V s0 k (q ++ [n]) = some (.file dd) := by rw [← hq]; exact hv
        refine ⟨hsub.nm [n] (by rw [hv]; simp), hne (by rw [hv0]; simp), ?_, dd, ?_⟩
        · rw [a3, fill_out]
          · exact hemp [n] (by simp)
          · rintro ⟨-, m, hm', h⟩
            simp only [List.append_cancel_left_eq, List.cons.injEq, and_true] at h
            subst h
            have := (L.mem_dirNames hs).1 (List.mem_filter.1 hm').1
            rw [hv] at this; simp at this
        · rw [a3, fill_out (by rintro ⟨h, m, -, h'⟩; exact hqe n m ⟨h, h'⟩)]; exact hv)
    rw [a3, fill_fill hqe] at b3
    -- the directories that are walked into
    have hDf : (L.dirNames s k q).filter (fun n => ¬ (n ∈ L.dirNames s k q ∧ n ∈ ig)) = (L.dirNames s k q).filter (fun n => n ∉ ig) := by
      apply List.filter_congr
      intro x hx
      simp [hx]
    rw [hDf] at a1
    have loop : ∀ (l : List Str) {s1 : σ}, I s1 → l.Nodup → (∀ x, L.V s1 k (src ++ x) = L.V s0 k (src ++ x)) →
        (∀ n ∈ l, n ∉ ig ∧ L.V s0 k (q ++ [n]) = some .dir ∧ L.V s1 k' (e ++ [n]) = some .dir ∧
          ∀ x, x ≠ [] → L.V s1 k' (e ++ [n] ++ x) = none) →
        ∃ s', walkDirs O fl (walk O (L.C k) true fl (L.copier k depth0 ig fl ((L.at_ k src).path.length + 1) (L.at_ k' d)) depth)
            (L.at_ k q) l () s1 = (.ok (), s') ∧ I s' ∧
          (∀ n ∈ l, ∀ x, x ≠ [] → L.V s' k' (e ++ [n] ++ x) = kept (L.V s0 k) ig (q ++ [n]) x) ∧
          (∀ j p, ¬ (j = k' ∧ ∃ n ∈ l, ∃ x, x ≠ [] ∧ p = e ++ [n] ++ x) → L.V s' j p = L.V s1 j p) := by
      intro l
      induction l with
      | nil => intro s1 h1 _ _ _; exact ⟨s1, rfl, h1, by simp, fun _ _ _ => rfl⟩
      | cons n l ihl =>
        intro s1 h1 hnd hsame1 hl
        obtain ⟨g1, g2, g3, g4⟩ := hl n (by simp)
        have hnn := (List.nodup_cons.1 hnd).1
        have hsub1 : Sub (L.V s1 k) q := by
          refine ⟨fun x hx => hsub0.nm x ?_, fun x => ?_⟩
          · rw [hqt, List.append_assoc] at hx ⊢; rwa [hsame1] at hx
          · have := hsub0.noLink x; rw [hqt, List.append_assoc] at this ⊢; rwa [hsame1]
        have hv1 : L.V s1 k (q ++ [n]) = some .dir := by
          rw [hqt, List.append_assoc] at g2 ⊢; rw [hsame1, g2]
        rw [L.walkDirs_cons h1 hsub1 (by rw [hv1]; simp)]
        obtain ⟨s2, c1, c2, c3⟩ := ih (t ++ [n]) (q ++ [n]) (e ++ [n]) (by rw [hqt]; simp) (by rw [het]; simp) h1 hsame1 g2 g3 g4 (by
          intro x hx
          have := hh (n :: x) (by simpa using hx)
          simp at this; omega)
        have hout : ∀ j p, ¬ (j = k' ∧ ∃ x, x ≠ [] ∧ p = e ++ [n] ++ x) → L.V s2 j p = L.V s1 j p := by
          intro j p hp
          rw [c3, graft_out]
          rintro ⟨hj, ⟨x, rfl⟩, hx⟩
          exact hp ⟨hj, x, by rintro rfl; simp at hx, rfl⟩
        have other : ∀ m ∈ l, ∀ x, ¬ ∃ y, y ≠ [] ∧ e ++ [m] ++ x = e ++ [n] ++ y := by
          rintro m hm' x ⟨y, -, h⟩
          simp only [List.append_assoc, List.append_cancel_left_eq, List.singleton_append, List.cons.injEq] at h
          obtain ⟨rfl, -⟩ := h
          exact hnn hm'
        obtain ⟨s3, j1, j2, j3, j4⟩ := ihl c2 (List.nodup_cons.1 hnd).2 (by
            intro x
            rw [hout, hsame1]
            rintro ⟨h, y, -, h'⟩
            rw [het, List.append_assoc (d ++ t)] at h'
            exact apart ⟨h, h'⟩) (by
            intro m hm'
            obtain ⟨f1, f2, f3, f4⟩ := hl m (by simp [hm'])
            refine ⟨f1, f2, ?_, fun x hx => ?_⟩
            · rw [hout, f3]; rintro ⟨-, y, hy, h⟩; exact other m hm' [] ⟨y, hy, by rw [List.append_nil]; exact h⟩
            · rw [hout, f4 x hx]; rintro ⟨-, h⟩; exact other m hm' x h)
        refine ⟨s3, by rw [bind_ok c1, j1], j2, ?_, ?_⟩
        · intro m hm' x hx
          rcases List.mem_cons.1 hm' with rfl | hm'
          · rw [j4, c3, graft_in hx]
            rintro ⟨-, m', hm'', y, -, h⟩
            simp only [List.append_assoc, List.append_cancel_left_eq, List.singleton_append, List.cons.injEq] at h
            obtain ⟨rfl, -⟩ := h
            exact hnn hm''
          · exact j3 m hm' x hx
        · intro j p hp
          rw [j4, hout]
          · rintro ⟨hj, x, hx, h⟩; exact hp ⟨hj, n, by simp, x, hx, h⟩
          · rintro ⟨hj, m, hm', x, hx, h⟩; exact hp ⟨hj, m, by simp [hm'], x, hx, h⟩
    have hs2 : ∀ j p, ¬ (j = k' ∧ ∃ n, p = e ++ [n]) → L.V s2 j p = L.V s j p := by
      intro j p hp
      rw [b3, fill_out]
      rintro ⟨hj, n, -, h⟩; exact hp ⟨hj, n, h⟩
    have memD : ∀ {n}, n ∈ (L.dirNames s k q).filter (fun n => n ∉ ig) ↔ n ∉ ig ∧ L.V s0 k (q ++ [n]) = some .dir := by
      intro n
      rw [List.mem_filter, L.mem_dirNames hs, hq]
      simp [and_comm]
    obtain ⟨s3, c1, c2, c3, c4⟩ := loop ((L.dirNames s k q).filter (fun n => n ∉ ig)) b2 (hnD.filter _) (by
        intro x
        rw [hs2, hsame]
        rintro ⟨h, n, h'⟩
        rw [het] at h'
        exact apart ⟨h, h'⟩) (by
        intro n hn
        obtain ⟨f1, f2⟩ := memD.1 hn
        refine ⟨f1, f2, ?_, fun x hx => ?_⟩
        · rw [b3, fill_in (List.mem_append_left _ hn), hq, f2]
        · rw [hs2, List.append_assoc, hemp _ (by simp)]
          rintro ⟨-, m, h⟩
          simp only [List.append_assoc, List.append_cancel_left_eq, List.singleton_append, List.cons.injEq] at h
          exact hx h.2)
    refine ⟨s3, ?_, c2, ?_⟩
    · rw [L.walk_dir hs hsub hdq', if_pos rfl]
      have : L.copier k depth0 ig fl ((L.at_ k src).path.length + 1) (L.at_ k' d) () (L.at_ k q) (L.dirNames s k q) (L.fileNames s k q) s =
          (.ok ((), (L.dirNames s k q).filter (fun n => n ∉ ig)), s2) := by
        unfold copier copyBody
        rw [bind_ok (a := (L.dirNames s k q).filter (fun n => n ∉ ig)) (s' := s2)]
        · rfl
        · have hb := L.dbase (s := s) (k := k) (k' := k') hnq H.ne (d := d) (by
            have := hne (x := []) (by rw [List.append_nil, hdq]; simp)
            rwa [List.append_nil, het] at this) (L.trims h0 H (by rw [← hqt]; exact hdq))
          rw [← hqt, ← het] at hb
          have hk := bind_ok (f := fun db => do
            let dirs' ← Any.copyDirs O depth0 (L.C k) ig fl (L.at_ k q) db (L.dirNames s k q) (L.dirNames s k q)
            Any.copyFiles O (L.C k) fl (L.at_ k q) db (L.fileNames s k q)
            pure dirs') hb
          rw [bind_ok a1, bind_ok b1] at hk
          rw [← pure_apply, ← hk]
          dsimp only
          split <;> rfl
      rw [bind_ok this]
      exact c1
    · funext j p
      by_cases hp : j = k' ∧ e <+: p ∧ p ≠ e
      · obtain ⟨rfl, ⟨x, rfl⟩, hx⟩ := hp
        cases x with
        | nil => simp at hx
        | cons n x =>
          rw [graft_in (by simp)]
          rw [show e ++ n :: x = e ++ [n] ++ x by simp]
          by_cases hdir : L.V s0 k (q ++ [n]) = some .dir
          · by_cases hig : n ∈ ig
            · rw [kept_ignored hig hdir, c4, b3, fill_out]
              · rw [List.append_assoc, hemp _ (by simp)]
              · rintro ⟨-, m, hm', h⟩
                simp only [List.append_assoc, List.append_cancel_left_eq, List.singleton_append, List.cons.injEq] at h
                obtain ⟨rfl, rfl⟩ := h
                rcases List.mem_append.1 hm' with hm' | hm'
                · exact (memD.1 hm').1 hig
                · obtain ⟨dd, hv⟩ := (L.mem_fileNames hs hsub).1 hm'
                  rw [hq, hdir] at hv; simp at hv
              · rintro ⟨-, m, hm', y, -, h⟩
                simp only [List.append_assoc, List.append_cancel_left_eq, List.singleton_append, List.cons.injEq] at h
                obtain ⟨rfl, -⟩ := h
                exact (memD.1 hm').1 hig
            · rw [kept_cons (fun h => hig h.1)]
              by_cases hx' : x = []
              · subst hx'
                rw [List.append_nil, kept_nil, c4, b3, fill_in, hq]
                · exact List.mem_append_left _ (memD.2 ⟨hig, hdir⟩)
                · rintro ⟨-, m, -, y, hy, h⟩
                  simp only [List.append_assoc, List.append_cancel_left_eq, List.singleton_append, List.cons.injEq] at h
                  exact hy h.2.symm
              · exact c3 n (memD.2 ⟨hig, hdir⟩) x hx'
          · rw [kept_cons (fun h => hdir h.2), c4]
            · cases hv : L.V s0 k (q ++ [n]) with
              | none =>
                have h5 : L.V s0 k (q ++ [n] ++ x) = none := L.none_below h0 hv
                have : kept (L.V s0 k) ig (q ++ [n]) x = none := by unfold kept; rw [h5]; simp
                rw [this, b3, fill_out]
                · rw [List.append_assoc, hemp _ (by simp)]
                · rintro ⟨-, m, hm', h⟩
                  simp only [List.append_assoc, List.append_cancel_left_eq, List.singleton_append, List.cons.injEq] at h
                  obtain ⟨rfl, rfl⟩ := h
                  rcases List.mem_append.1 hm' with hm' | hm'
                  · exact hdir (memD.1 hm').2
                  · obtain ⟨dd, hv'⟩ := (L.mem_fileNames hs hsub).1 hm'
                    rw [hq, hv] at hv'; simp at hv'
              | some o =>
                cases o with
                | dir => exact absurd hv hdir
                | other => exact absurd hv (hsub0.noLink [n])
                | file dd =>
                  by_cases hx' : x = []
                  · subst hx'
                    rw [List.append_nil, kept_nil, b3, fill_in, hq]
                    refine List.mem_append_right _ ((L.mem_fileNames hs hsub).2 ⟨dd, ?_⟩)
                    rw [hq]; exact hv
                  · have h5 : L.V s0 k (q ++ [n] ++ x) = none := L.leaf h0 hv hx'
                    have : kept (L.V s0 k) ig (q ++ [n]) x = none := by unfold kept; rw [h5]; simp
                    rw [this, hs2, List.append_assoc, hemp _ (by simp)]
                    rintro ⟨-, m, h⟩
                    simp only [List.append_assoc, List.append_cancel_left_eq, List.singleton_append, List.cons.injEq] at h
                    exact hx' h.2
            · rintro ⟨-, m, hm', y, -, h⟩
              simp only [List.append_assoc, List.append_cancel_left_eq, List.singleton_append, List.cons.injEq] at h
              obtain ⟨rfl, -⟩ := h
              exact hdir (memD.1 hm').2
      · rw [graft_out hp, c4, hs2]
        · rintro ⟨hj, n, h⟩; exact hp ⟨hj, ⟨[n], h.symm⟩, by rw [h]; simp⟩
        · rintro ⟨hj, n, -, x, -, h⟩; exact hp ⟨hj, ⟨n :: x, by rw [h]; simp⟩, by rw [h]; simp⟩

/-- where a copy goes: into an existing directory, under the name of the source, or to a name not in use -/
inductive _root_.Verif.Any.Target (T : List Str → Option Kind) (ds : List Str) (n : Str) : List Str → Prop
  | into : T ds = some .dir → Target T ds n (ds ++ [n])
  | new : T ds = none → Target T ds n ds

theorem copyTree {init : List Str} {n : Str} {ds e ig : List Str} {fl : Bool} {depth : Nat} (hm : may k k') (hs : I s)
    (H : Copyable (L.V s k) (init ++ [n])) (hds : Nm ds) (he : Nm e)
    (ht : Target (L.V s k') ds n e) (hclear : ∀ p, p <+: e → L.V s k' p = some .dir ∨ L.V s k' p = none) (hnew : L.V s k' e = none)
    (hsd : ¬ (k = k' ∧ init ++ [n] <+: e)) (hl : e.length < depth)
    (hh : ∀ x, L.V s k (init ++ [n] ++ x) = some .dir → x.length < depth) :
    ∃ s', uCopy O depth (L.at_ k (init ++ [n])) (L.at_ k' ds) true ig fl s = (.ok (), s') ∧ I s' ∧
      L.V s' = graft (mkdirs (L.V s) k' e) k' e (kept (L.V s k) ig (init ++ [n])) := by
  have hn : Nm (init ++ [n]) := H.sub.nm0 (by rw [H.dir]; simp)
  have hc := L.clear_dir hs H.dir
  have hcds : Clear (L.V s k') ds := by
    cases ht with
    | into h => exact L.clear_dir hs h
    | new h => exact ⟨fun p hp _ => hclear p hp, by rw [h]; simp⟩
  have he0 : e ≠ [] := by rintro rfl; rw [L.root hs] at hnew; simp at hnew
  have hse : ¬ (k = k' ∧ (init ++ [n] <+: e ∨ e <+: init ++ [n])) := by
    rintro ⟨rfl, h | h⟩
    · exact hsd ⟨rfl, h⟩
    · by_cases heq : e = init ++ [n]
      · rw [heq, H.dir] at hnew; simp at hnew
      · rw [L.above hs (by rw [H.dir]; simp) e h heq] at hnew; simp at hnew
  obtain ⟨s1, a1, a2, a3⟩ := L.uMakedirs (k := k') hs he hclear hl
  have hsame : ∀ x, L.V s1 k (init ++ [n] ++ x) = L.V s k (init ++ [n] ++ x) := by
    intro x
    rw [a3]
    unfold mkdirs
    rw [if_neg]
    rintro ⟨rfl, h⟩
    exact hsd ⟨rfl, (List.prefix_append _ _).trans h⟩
  obtain ⟨s2, b1, b2, b3⟩ := L.copy_walk (ig := ig) (fl := fl) hs hm H he he0 hse (Nat.zero_lt_of_lt hl) depth [] (init ++ [n]) e
    (by simp) (by simp) a2 hsame H.dir (by rw [a3]; simp [mkdirs]) (by
      intro x hx
      rw [a3]
      unfold mkdirs
      rw [if_neg, L.none_below hs hnew]
      rintro ⟨-, h⟩
      have := h.length_le
      have h2 : 0 < x.length := List.length_pos_iff.2 hx
      simp only [List.length_append] at this
      omega) hh
  have hnm1 : Sub (L.V s1 k) (init ++ [n]) :=
    ⟨fun x hx => H.sub.nm x (by rwa [hsame] at hx), fun x => by rw [hsame]; exact H.sub.noLink x⟩
  refine ⟨s2, ?_, b2, by rw [b3, a3]⟩
  unfold Any.uCopy Any.copy
  rw [L.withConn hs hn, bind_ok (L.uExists hs hn hc), H.dir]
  have fin : (do
      if (← Any.uIslink O (L.at_ k (init ++ [n]))) && !fl then copyLink O (L.C k) (L.at_ k (init ++ [n])) (L.at_ k' e)
      else
        Any.uMakedirs O depth (L.at_ k' e)
        copyWalk O depth (L.C k) ig fl (L.at_ k (init ++ [n])) (L.at_ k' e) : OM σ Unit) s = (.ok (), s2) := by
    rw [bind_ok (L.uIslink hs hn hc (by rw [H.dir]; simp)), Bool.false_and, if_neg Bool.false_ne_true, bind_ok a1]
    unfold copyWalk
    rw [L.withConn a2 hn]
    exact b1
  show ((do if !(← Any.uIsdir O (L.at_ k (init ++ [n]))) then _ else _ : OM σ Unit)) s = _
  rw [bind_ok (L.uIsdir hs hn hc), H.dir]
  show ((do if ← Any.uIsdir O (L.at_ k' ds) then _ else _ : OM σ Unit)) s = _
  rw [bind_ok (L.uIsdir hs hds hcds)]
  cases ht with
  | into h =>
    have : isD (L.V s k' ds) = true := by rw [h]; rfl
    rw [this, if_pos rfl, L.last hn, L.div1 he]
    exact fin
  | new h =>
    have : isD (L.V s k' ds) = false := by rw [h]; rfl
    rw [this, if_neg Bool.false_ne_true]
    exact fin

/-- where the copy of a file goes: into an existing directory, under the name of the source, or to the name of another
    file, or to a name not in use -/
inductive _root_.Verif.Any.FileTarget (T : List Str → Option Kind) (ds : List Str) (n : Str) : List Str → Prop
  | into : T ds = some .dir → FileTarget T ds n (ds ++ [n])
  | at_ : T ds ≠ some .dir → FileTarget T ds n ds

theorem copyFile_one {init : List Str} {n m : Str} {ds e ig : List Str} {d : Bytes} {fl : Bool} {depth : Nat} (hs : I s)
    (hn : Nm (init ++ [n])) (hd : L.V s k (init ++ [n]) = some (.file d)) (hds : Nm ds) (he : Nm (e ++ [m]))
    (ht : FileTarget (L.V s k') ds n (e ++ [m])) (hp : L.V s k' e = some .dir)
    (hf : L.V s k' (e ++ [m]) = none ∨ isF (L.V s k' (e ++ [m])) = true) :
    uCopy O depth (L.at_ k (init ++ [n])) (L.at_ k' ds) false ig fl s =
      Any.copyOne O (L.C k) (L.at_ k (init ++ [n])) (L.at_ k' (e ++ [m])) fl s := by
  have hc : Clear (L.V s k) (init ++ [n]) := L.clear_of hs (by rw [hd]; simp) (by rw [hd]; simp)
  have hcds : Clear (L.V s k') ds := by
    generalize hg : e ++ [m] = g at *
    cases ht with
    | into h => exact L.clear_dir hs h
    | at_ h =>
      subst hg
      refine L.clear_in hs hp ?_
      rcases hf with hf | hf
      · rw [hf]; simp
      · intro h'; rw [h'] at hf; simp [isF] at hf
  unfold Any.uCopy Any.copy
  rw [L.withConn hs hn, bind_ok (L.uExists hs hn hc), hd]
  show ((do if !(← Any.uIsfile O (L.at_ k (init ++ [n]))) then _ else _ : OM σ Unit)) s = _
  rw [bind_ok (L.uIsfile hs hn hc), hd]
  show ((do if ← Any.uIsdir O (L.at_ k' ds) then _ else _ : OM σ Unit)) s = _
  rw [bind_ok (L.uIsdir hs hds hcds)]
  generalize hg : e ++ [m] = g at *
  cases ht with
  | into h =>
    have : isD (L.V s k' ds) = true := by rw [h]; rfl
    rw [this, if_pos rfl, L.last hn, L.div1 he]
    rfl
  | at_ h =>
    have : isD (L.V s k' ds) = false := by
      cases hb : isD (L.V s k' ds) with
      | false => rfl
      | true => exact absurd (isD_iff.1 hb) h
    rw [this, if_neg Bool.false_ne_true]
    rfl

/-- copying a file -/
theorem copyFile {init : List Str} {n m : Str} {ds e ig : List Str} {d : Bytes} {fl : Bool} {depth : Nat} (hm : may k k') (hs : I s)
    (hn : Nm (init ++ [n])) (hd : L.V s k (init ++ [n]) = some (.file d)) (hds : Nm ds) (he : Nm (e ++ [m]))
    (ht : FileTarget (L.V s k') ds n (e ++ [m])) (hp : L.V s k' e = some .dir)
    (hf : L.V s k' (e ++ [m]) = none ∨ isF (L.V s k' (e ++ [m])) = true) (hne : ¬ (k = k' ∧ init ++ [n] = e ++ [m])) :
    ∃ s', uCopy O depth (L.at_ k (init ++ [n])) (L.at_ k' ds) false ig fl s = (.ok (), s') ∧ I s' ∧
      L.V s' = upd (L.V s) k' (e ++ [m]) (some (.file d)) := by
  rw [L.copyFile_one hs hn hd hds he ht hp hf]
  exact L.copyOne (fl := fl) hm hs hn he hd hp hf hne

/-- moving a file is copying and removing it -/
theorem moveFile {init : List Str} {n m : Str} {ds e : List Str} {d : Bytes} {depth : Nat} (hm : may k k') (hs : I s)
    (hself : O.moveSelf (L.C k) (L.at_ k (init ++ [n])) (L.at_ k' ds) = none)
    (hn : Nm (init ++ [n])) (hd : L.V s k (init ++ [n]) = some (.file d)) (hds : Nm ds) (he : Nm (e ++ [m]))
    (ht : FileTarget (L.V s k') ds n (e ++ [m])) (hp : L.V s k' e = some .dir)
    (hf : L.V s k' (e ++ [m]) = none ∨ isF (L.V s k' (e ++ [m])) = true) (hne : ¬ (k = k' ∧ init ++ [n] = e ++ [m])) :
    ∃ s', uMove O depth (L.at_ k (init ++ [n])) (L.at_ k' ds) s = (.ok (), s') ∧ I s' ∧
      L.V s' = upd (upd (L.V s) k' (e ++ [m]) (some (.file d))) k (init ++ [n]) none := by
  have hc : Clear (L.V s k) (init ++ [n]) := L.clear_of hs (by rw [hd]; simp) (by rw [hd]; simp)
  obtain ⟨s1, a1, a2, a3⟩ := L.copyFile (depth := depth) (ig := []) (fl := true) hm hs hn hd hds he ht hp hf hne
  obtain ⟨s2, b1, b2, b3⟩ := L.uRemove_file (depth := depth) (rec := false) (k := k) (q := init ++ [n]) (d := d) a2 hn (by
    rw [a3, upd_ne hne]; exact hd)
  refine ⟨s2, ?_, b2, by rw [b3, a3]⟩
  unfold Any.uMove
  rw [L.withConn hs hn, hself]
  show Any.move O depth _ _ s = _
  unfold Any.move
  rw [bind_ok (L.uIsfile hs hn hc), hd]
  show (uCopy O depth _ _ >>= fun _ => _) s = _
  rw [bind_ok a1]
  exact b1

/-- moving a directory is copying and removing it -/
theorem moveTree {init : List Str} {n : Str} {ds e : List Str} {depth : Nat} (hm : may k k') (hs : I s)
    (hself : O.moveSelf (L.C k) (L.at_ k (init ++ [n])) (L.at_ k' ds) = none)
    (H : Copyable (L.V s k) (init ++ [n])) (hds : Nm ds) (he : Nm e)
    (ht : Target (L.V s k') ds n e) (hclear : ∀ p, p <+: e → L.V s k' p = some .dir ∨ L.V s k' p = none) (hnew : L.V s k' e = none)
    (hsd : ¬ (k = k' ∧ init ++ [n] <+: e)) (hl : e.length < depth)
    (hh : ∀ x, L.V s k (init ++ [n] ++ x) = some .dir → x.length < depth) :
    ∃ s', uMove O depth (L.at_ k (init ++ [n])) (L.at_ k' ds) s = (.ok (), s') ∧ I s' ∧
      L.V s' = wipe (graft (mkdirs (L.V s) k' e) k' e (fun x => L.V s k (init ++ [n] ++ x))) k (fun p => init ++ [n] <+: p) := by
  have hn : Nm (init ++ [n]) := H.sub.nm0 (by rw [H.dir]; simp)
  have hc := L.clear_dir hs H.dir
  obtain ⟨s1, a1, a2, a3⟩ := L.copyTree (ig := []) (fl := true) hm hs H hds he ht hclear hnew hsd hl hh
  rw [show kept (L.V s k) [] (init ++ [n]) = fun x => L.V s k (init ++ [n] ++ x) from funext fun x => kept_noIgnore] at a3
  have hse : ¬ (k = k' ∧ e <+: init ++ [n]) := by
    rintro ⟨rfl, h⟩
    by_cases heq : e = init ++ [n]
    · rw [heq, H.dir] at hnew; simp at hnew
    · rw [L.above hs (by rw [H.dir]; simp) e h heq] at hnew; simp at hnew
  have hsame : ∀ x, L.V s1 k (init ++ [n] ++ x) = L.V s k (init ++ [n] ++ x) := by
    intro x
    rw [a3, graft_out]
    · unfold mkdirs
      rw [if_neg]
      rintro ⟨rfl, h⟩
      exact hsd ⟨rfl, (List.prefix_append _ _).trans h⟩
    · rintro ⟨rfl, h, -⟩
      rcases List.prefix_or_prefix_of_prefix h (List.prefix_append (init ++ [n]) x) with h' | h'
      · exact hse ⟨rfl, h'⟩
      · exact hsd ⟨rfl, h'⟩
  obtain ⟨s2, b1, b2, b3⟩ := L.uRemove_tree (depth := depth) (k := k) (q := init ++ [n]) a2
    ⟨fun x hx => H.sub.nm x (by rwa [hsame] at hx), fun x => by rw [hsame]; exact H.sub.noLink x⟩ (by simp)
    (by have := hsame []; simp only [List.append_nil] at this; rw [this, H.dir])
    (fun x hx => hh x (by rwa [hsame] at hx))
  refine ⟨s2, ?_, b2, by rw [b3, a3]⟩
  unfold Any.uMove
  rw [L.withConn hs hn, hself]
  show Any.move O depth _ _ s = _
  unfold Any.move
  rw [bind_ok (L.uIsfile hs hn hc), H.dir]
  show (uCopy O depth _ _ true >>= fun _ => _) s = _
  rw [bind_ok a1]
  exact b1

end Laws
end Verif.Any
