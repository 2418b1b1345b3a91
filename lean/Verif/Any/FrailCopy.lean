import Verif.Any.FrailTree
import Verif.Any.Pump
/-! # What copying and moving leave behind when calls fail -/
namespace Verif.Any
open Mem (Meth)
open Verif.Spec Verif.Gen

/-- `y` is what there may be of `x` in an unfinished copy: nothing, the directory, or a file with a beginning of the data -/
inductive Part : Option Kind → Option Kind → Prop
  | none {x} : Part x none
  | dir : Part (some .dir) (some .dir)
  | file {d d'} : d' <+: d → Part (some (.file d)) (some (.file d'))

namespace Laws
variable {σ : Type} {O : Ops σ} {κ : Type} {I : σ → Prop} {may : κ → κ → Prop}

/-- what is needed of failing backends besides the laws: `copyfileobj` with failing calls is `copyfileobj` if it returns,
    and copying a file leaves nothing or a file with a beginning of the data -/
structure Frailty (L : Laws O κ I may) (pumpF : O.Hd → O.Hd → OM (Frail σ) Unit) : Prop where
  sim : ∀ a b, Sim (pumpF a b) (O.pump a b)
  copy : ∀ {s k k' cs ds n d} {Q : (κ → List Str → Option Kind) → Prop}, may k k' → I s → Nm cs → Nm (ds ++ [n]) →
    L.V s k cs = some (.file d) → L.V s k' ds = some .dir →
    (L.V s k' (ds ++ [n]) = none ∨ isF (L.V s k' (ds ++ [n])) = true) → ¬ (k = k' ∧ cs = ds ++ [n]) →
    Q (L.V s) → (∀ d', d' <+: d → Q (upd (L.V s) k' (ds ++ [n]) (some (.file d')))) →
    L.Ends (do
        copyContent (frailOps O pumpF) (L.at_ k cs) (L.at_ k' (ds ++ [n]))
        if (L.at_ k cs).scheme = (L.at_ k' (ds ++ [n])).scheme then
          (frailOps O pumpF).copystat (L.C k) (L.at_ k cs) (L.at_ k' (ds ++ [n]))) s Q

variable {L : Laws O κ I may} {pumpF : O.Hd → O.Hd → OM (Frail σ) Unit} (X : L.Frailty pumpF)
variable {s : σ} {k k' : κ} {Q : (κ → List Str → Option Kind) → Prop}
local notation "F" => frailOps O pumpF
include X

theorem ends_copyOne {cs ds : List Str} {n : Str} {d : Bytes} {fl : Bool} (hm : may k k') (hs : I s) (hn : Nm cs) (hn' : Nm (ds ++ [n]))
    (hd : L.V s k cs = some (.file d)) (hp : L.V s k' ds = some .dir)
    (hf : L.V s k' (ds ++ [n]) = none ∨ isF (L.V s k' (ds ++ [n])) = true) (hne : ¬ (k = k' ∧ cs = ds ++ [n]))
    (hQ : Q (L.V s)) (hQ' : ∀ d', d' <+: d → Q (upd (L.V s) k' (ds ++ [n]) (some (.file d')))) :
    L.Ends (Any.copyOne (F) (L.C k) (L.at_ k cs) (L.at_ k' (ds ++ [n])) fl) s Q := by
  have hc := L.clear_of hs (k := k) (cs := cs) (by rw [hd]; simp) (by rw [hd]; simp)
  have hx : L.V s k cs ≠ none := by rw [hd]; simp
  unfold Any.copyOne
  refine Ends.bind (sim_islink _) (L.uIslink hs hn hc hx) (ends_uIslink hs hn hc hx hQ) ?_
  exact X.copy hm hs hn hn' hd hp hf hne hQ hQ'

theorem ends_copyFiles {q e : List Str} {fl : Bool} (hm : may k k') (hqe : ∀ m m', ¬ (k = k' ∧ q ++ [m] = e ++ [m'])) :
    ∀ (l : List Str) {s : σ}, I s → L.V s k' e = some .dir → l.Nodup →
    (∀ n ∈ l, Nm (q ++ [n]) ∧ Nm (e ++ [n]) ∧ L.V s k' (e ++ [n]) = none ∧ ∃ d, L.V s k (q ++ [n]) = some (.file d) ∧
      ∀ W d', Q W → d' <+: d → Q (upd W k' (e ++ [n]) (some (.file d')))) → Q (L.V s) →
    L.Ends (Any.copyFiles (F) (L.C k) fl (L.at_ k q) (L.at_ k' e) l) s Q := by
  intro l
  induction l with
  | nil => intro s hs _ _ _ hQ; exact Ends.pure hs hQ
  | cons n l ih =>
    intro s hs hd hnd hl hQ
    obtain ⟨h1, h2, h3, d, h4, h5⟩ := hl n (by simp)
    have hnn := (List.nodup_cons.1 hnd).1
    obtain ⟨s1, k1, k2, k3⟩ := L.copyOne (fl := fl) hm hs h1 h2 h4 hd (.inl h3) (hqe n n)
    refine Ends.bind_lift (L.div1 h1) (Ends.bind_lift (L.div1 h2) ?_)
    refine Ends.bind (sim_copyOne X.sim _ _ _ _) k1
      (ends_copyOne X hm hs h1 h2 h4 hd (.inl h3) (hqe n n) hQ fun d' hd' => h5 _ _ hQ hd') ?_
    refine ih k2 (by rw [k3, upd_ne (by simp)]; exact hd) (List.nodup_cons.1 hnd).2 ?_ (by rw [k3]; exact h5 _ _ hQ (List.prefix_refl _))
    intro m hm'
    obtain ⟨g1, g2, g3, d', g4, g5⟩ := hl m (by simp [hm'])
    have hne : m ≠ n := by rintro rfl; exact hnn hm'
    exact ⟨g1, g2, by rw [k3, upd_ne (by simpa using hne)]; exact g3, d', by rw [k3, upd_ne (hqe m n)]; exact g4, g5⟩

omit X in
theorem ends_copyDirs {q e ig : List Str} {fl : Bool} {depth : Nat} (hdep : 0 < depth) (hqe : ∀ m m', ¬ (k = k' ∧ q ++ [m] = e ++ [m'])) :
    ∀ (l D : List Str) {s : σ}, I s → L.V s k' e = some .dir → l.Nodup →
    (∀ n ∈ l, Nm (q ++ [n]) ∧ Nm (e ++ [n]) ∧ L.V s k' (e ++ [n]) = none ∧ L.V s k (q ++ [n]) = some .dir ∧
      (n ∉ ig → ∀ W, Q W → Q (upd W k' (e ++ [n]) (some .dir)))) → Q (L.V s) →
    L.Ends (Any.copyDirs (F) depth (L.C k) ig fl (L.at_ k q) (L.at_ k' e) l D) s Q := by
  intro l
  induction l with
  | nil => intro D s hs _ _ _ hQ; exact Ends.pure hs hQ
  | cons n l ih =>
    intro D s hs hd hnd hl hQ
    obtain ⟨h1, h2, h3, h4, h5⟩ := hl n (by simp)
    have hnn := (List.nodup_cons.1 hnd).1
    unfold Any.copyDirs
    by_cases hig : n ∈ ig
    · rw [if_pos hig]
      exact ih _ hs hd (List.nodup_cons.1 hnd).2 (fun m hm => hl m (by simp [hm])) hQ
    · rw [if_neg hig]
      obtain ⟨s1, k1, k2, k3⟩ := L.uMakedirs1 hdep hs h2 hd h3
      refine Ends.bind_lift (L.div1 h2) (Ends.bind_lift (L.div1 h1) ?_)
      have hc := L.clear_dir hs h4
      have hx : L.V s k (q ++ [n]) ≠ none := by rw [h4]; simp
      refine Ends.bind (sim_islink _) (L.uIslink hs h1 hc hx) (ends_uIslink hs h1 hc hx hQ) ?_
      rw [Bool.false_and, if_neg Bool.false_ne_true]
      refine Ends.bind (sim_uMakedirs _ _) k1 (ends_uMakedirs1 hdep hs h2 hd h3 hQ (h5 hig _ hQ)) ?_
      refine ih D k2 (by rw [k3, upd_ne (by simp)]; exact hd) (List.nodup_cons.1 hnd).2 ?_ (by rw [k3]; exact h5 hig _ hQ)
      intro m hm'
      obtain ⟨g1, g2, g3, g4, g5⟩ := hl m (by simp [hm'])
      have hne : m ≠ n := by rintro rfl; exact hnn hm'
      exact ⟨g1, g2, by rw [k3, upd_ne (by simpa using hne)]; exact g3, by rw [k3, upd_ne (hqe m n)]; exact g4, g5⟩

omit X in
/-- the consumer of the walk in `copy`, with failing calls -/
def fcopier (L : Laws O κ I may) (pumpF : O.Hd → O.Hd → OM (Frail σ) Unit) (k : κ) (depth : Nat) (ig : List Str) (fl : Bool) (len : Nat)
    (droot : Uri) (_ : Unit) (top : Uri) (dirs files : List Str) : OM (Frail σ) (Unit × List Str) := do
  let dirs' ← copyBody (frailOps O pumpF) depth (L.C k) ig fl len droot top dirs files
  pure ((), dirs')

theorem sim_copier {depth : Nat} {ig : List Str} {fl : Bool} {len : Nat} {droot u : Uri} {ds fs : List Str} :
    Sim (L.fcopier pumpF k depth ig fl len droot () u ds fs) (L.copier k depth ig fl len droot () u ds fs) :=
  sim_bind (sim_copyBody X.sim _ _ _ _ _ _ _ _ _) fun _ => sim_pure _

theorem ends_copy_walk {s0 : σ} (h0 : I s0) {src d : List Str} (hm : may k k') (H : Copyable (L.V s0 k) src) (hd : Nm d) (hd0 : d ≠ [])
    (hsd : ¬ (k = k' ∧ (src <+: d ∨ d <+: src))) {ig : List Str} {fl : Bool} {depth0 : Nat} (hdep : 0 < depth0)
    (hQ : ∀ W t y, Q W → Part (kept (L.V s0 k) ig src t) y → Q (upd W k' (d ++ t) y)) (depth : Nat) :
    ∀ (t q e : List Str) {s : σ}, q = src ++ t → e = d ++ t → I s → (∀ x, L.V s k (src ++ x) = L.V s0 k (src ++ x)) →
    L.V s0 k q = some .dir → L.V s k' e = some .dir → (∀ x, x ≠ [] → L.V s k' (e ++ x) = none) →
    (∀ x, L.V s0 k (q ++ x) = some .dir → x.length < depth) →
    (∀ x, kept (L.V s0 k) ig src (t ++ x) = kept (L.V s0 k) ig q x) → Q (L.V s) →
    L.Ends (walk (F) (L.C k) true fl (L.fcopier pumpF k depth0 ig fl ((L.at_ k src).path.length + 1) (L.at_ k' d)) depth (L.at_ k q) ()) s Q ∧
    ∃ s', walk O (L.C k) true fl (L.copier k depth0 ig fl ((L.at_ k src).path.length + 1) (L.at_ k' d)) depth (L.at_ k q) () s = (.ok (), s') ∧
      Q (L.V s') := by
  have apart : ∀ {t x y : List Str}, ¬ (k = k' ∧ src ++ x = d ++ t ++ y) := by
    rintro t x y ⟨hk, h⟩
    apply hsd
    refine ⟨hk, ?_⟩
    have h1 : src <+: d ++ t ++ y := ⟨x, h⟩
    have h2 : d <+: d ++ t ++ y := ⟨t ++ y, by simp⟩
    exact List.prefix_or_prefix_of_prefix h1 h2
  induction depth with
  | zero =>
    intro t q e s _ _ _ _ hd _ _ hh
    exact absurd (hh [] (by simpa using hd)) (by simp)
  | succ depth ih =>
    intro t q e s hqt het hs hsame hdq hde hemp hh hk hQs
    have hq : ∀ x, L.V s k (q ++ x) = L.V s0 k (q ++ x) := by
      intro x; rw [hqt, List.append_assoc]; exact hsame _
    have hqe : ∀ m m', ¬ (k = k' ∧ q ++ [m] = e ++ [m']) := by
      rintro m m' ⟨h, h'⟩
      rw [hqt, het, List.append_assoc] at h'
      exact apart ⟨h, h'⟩
    have hsub0 : Sub (L.V s0 k) q := by rw [hqt]; exact H.sub.below t
    have hsub : Sub (L.V s k) q := ⟨fun x hx => hsub0.nm x (by rwa [hq] at hx), fun x => by rw [hq]; exact hsub0.noLink x⟩
    have hdq' : L.V s k q = some .dir := by have := hq []; simp only [List.append_nil] at this; rw [this, hdq]
    have hnq : Nm (src ++ t) := by rw [← hqt]; exact hsub0.nm0 (by rw [hdq]; simp)
    have hne : ∀ {x}, L.V s0 k (q ++ x) ≠ none → Nm (e ++ x) := by
      intro x hx
      have := hsub0.nm x hx
      rw [hqt, List.append_assoc] at this
      rw [het, List.append_assoc]
      exact hd.append hd0 this
    have hnD : (L.dirNames s k q).Nodup := (L.names_nodup hs).filter _
    have hnF : (L.fileNames s k q).Nodup := (L.names_nodup hs).filter _
    -- one more thing may be put below the destination
    have step : ∀ {n : Str} {y : Option Kind}, Part (kept (L.V s0 k) ig q [n]) y → ∀ W, Q W → Q (upd W k' (e ++ [n]) y) := by
      intro n y hy W hW
      rw [het, List.append_assoc]
      exact hQ W _ y hW (by rw [hk]; exact hy)
    have keptD : ∀ {n : Str}, n ∉ ig → kept (L.V s0 k) ig q [n] = L.V s0 k (q ++ [n]) := by
      intro n hn
      rw [kept_cons (fun h => hn h.1), kept_nil]
    have keptF : ∀ {n : Str} {dd}, L.V s0 k (q ++ [n]) = some (.file dd) → kept (L.V s0 k) ig q [n] = some (.file dd) := by
      intro n dd h
      rw [kept_cons (fun c => by rw [h] at c; simp at c), kept_nil, h]
    have hDl : ∀ n ∈ L.dirNames s k q, Nm (q ++ [n]) ∧ Nm (e ++ [n]) ∧ L.V s k' (e ++ [n]) = none ∧ L.V s k (q ++ [n]) = some .dir := by
      intro n hn
      have hv := (L.mem_dirNames hs).1 hn
      have hv0 : L.V s0 k (q ++ [n]) = some .dir := by rw [← hq]; exact hv
      exact ⟨hsub.nm [n] (by rw [hv]; simp), hne (by rw [hv0]; simp), hemp [n] (by simp), hv⟩
    obtain ⟨s1, a1, a2, a3⟩ := L.copyDirs (k := k) (k' := k') (q := q) (e := e) (ig := ig) (fl := fl) hdep hqe (L.dirNames s k q)
      (L.dirNames s k q) hs hde hnD hnD hDl
    have a0 := ends_copyDirs (pumpF := pumpF) (Q := Q) (k := k) (k' := k') (q := q) (e := e) (ig := ig) (fl := fl) hdep hqe (L.dirNames s k q)
      (L.dirNames s k q) hs hde hnD (fun n hn => by
        obtain ⟨g1, g2, g3, g4⟩ := hDl n hn
        refine ⟨g1, g2, g3, g4, fun hig => step ?_⟩
        rw [keptD hig, ← hq, g4]; exact .dir) hQs
    -- filling in names one by one
    have fillQ : ∀ (l : List Str) (W : κ → List Str → Option Kind), Q W → (∀ n ∈ l, n ∉ ig ∨ ∃ dd, L.V s0 k (q ++ [n]) = some (.file dd)) →
        (∀ n ∈ l, W k (q ++ [n]) = L.V s0 k (q ++ [n]) ∧ L.V s0 k (q ++ [n]) ≠ none) → l.Nodup → Q (fill W k k' q e l) := by
      intro l
      induction l with
      | nil => intro W hW _ _ _; rw [fill_nil]; exact hW
      | cons n l ihl =>
        intro W hW h1 h2 h3
        have hnn := (List.nodup_cons.1 h3).1
        obtain ⟨g1, g2⟩ := h2 n (by simp)
        obtain ⟨x, hx⟩ := Option.ne_none_iff_exists'.1 g2
        rw [← fill_cons hnn (g1.trans hx) hqe]
        refine ihl _ (step ?_ _ hW) (fun m hm' => h1 m (by simp [hm'])) (fun m hm' => ?_) (List.nodup_cons.1 h3).2
        · have hk1 : kept (L.V s0 k) ig q [n] = some x := by
            rcases h1 n (by simp) with h | ⟨dd, h⟩
            · rw [keptD h, hx]
            · rw [keptF h]; rw [hx] at h; exact h.symm
          rw [hk1]
          cases x with
          | dir => exact .dir
          | file dd => exact .file (List.prefix_refl _)
          | other => exact absurd hx (hsub0.noLink [n])
        · rw [upd_ne (hqe m n)]; exact h2 m (by simp [hm'])
    have hQ1 : Q (L.V s1) := by
      rw [a3]
      refine fillQ _ _ hQs (fun n hn => .inl (by simpa using (List.mem_filter.1 hn).2)) (fun n hn => ?_) (hnD.filter _)
      have := (hDl n (List.mem_filter.1 hn).1).2.2.2
      exact ⟨hq [n], by rw [← hq, this]; simp⟩
    have hFl : ∀ n ∈ L.fileNames s k q, Nm (q ++ [n]) ∧ Nm (e ++ [n]) ∧ L.V s1 k' (e ++ [n]) = none ∧ ∃ d, L.V s1 k (q ++ [n]) = some (.file d) ∧
        L.V s0 k (q ++ [n]) = some (.file d) := by
      intro n hn
      obtain ⟨dd, hv⟩ := (L.mem_fileNames hs hsub).1 hn
      have hv0 : L.V s0 k (q ++ [n]) = some (.file dd) := by rw [← hq]; exact hv
      refine ⟨hsub.nm [n] (by rw [hv]; simp), hne (by rw [hv0]; simp), ?_, dd, ?_, hv0⟩
      · rw [a3, fill_out]
        · exact hemp [n] (by simp)
        · rintro ⟨-, m, hm', h⟩
          simp only [List.append_cancel_left_eq, List.cons.injEq, and_true] at h
          subst h
          have := (L.mem_dirNames hs).1 (List.mem_filter.1 hm').1
          rw [hv] at this; simp at this
      · rw [a3, fill_out (by rintro ⟨h, m, -, h'⟩; exact hqe n m ⟨h, h'⟩)]; exact hv
    have hde1 : L.V s1 k' e = some .dir := by rw [a3, fill_out (by rintro ⟨-, n, -, h⟩; simp at h)]; exact hde
    obtain ⟨s2, b1, b2, b3⟩ := L.copyFiles (k := k) (k' := k') (q := q) (e := e) (fl := fl) hm hqe (L.fileNames s k q) a2 hde1 hnF (by
        intro n hn
        obtain ⟨g1, g2, g3, dd, g4, -⟩ := hFl n hn
        exact ⟨g1, g2, g3, dd, g4⟩)
    have b0 := ends_copyFiles X (Q := Q) (k := k) (k' := k') (q := q) (e := e) (fl := fl) hm hqe (L.fileNames s k q) a2 hde1 hnF (fun n hn => by
        obtain ⟨g1, g2, g3, dd, g4, g5⟩ := hFl n hn
        refine ⟨g1, g2, g3, dd, g4, fun W d' hW hd' => step ?_ W hW⟩
        rw [keptF g5]
        exact .file hd') hQ1
    have hQ2 : Q (L.V s2) := by
      rw [b3]
      refine fillQ _ _ hQ1 (fun n hn => ?_) (fun n hn => ?_) hnF
      · obtain ⟨-, -, -, dd, -, g5⟩ := hFl n hn; exact .inr ⟨dd, g5⟩
      · obtain ⟨-, -, -, dd, g4, g5⟩ := hFl n hn; exact ⟨by rw [g4, g5], by rw [g5]; simp⟩
    rw [a3, fill_fill hqe] at b3
    -- the directories that are walked into
    have hDf : (L.dirNames s k q).filter (fun n => ¬ (n ∈ L.dirNames s k q ∧ n ∈ ig)) = (L.dirNames s k q).filter (fun n => n ∉ ig) := by
      apply List.filter_congr
      intro x hx
      simp [hx]
    rw [hDf] at a1
    have loop : ∀ (l : List Str) {s1 : σ}, I s1 → Q (L.V s1) → l.Nodup → (∀ x, L.V s1 k (src ++ x) = L.V s0 k (src ++ x)) →
        (∀ n ∈ l, n ∉ ig ∧ L.V s0 k (q ++ [n]) = some .dir ∧ L.V s1 k' (e ++ [n]) = some .dir ∧
          ∀ x, x ≠ [] → L.V s1 k' (e ++ [n] ++ x) = none) →
        L.Ends (walkDirs (F) fl (walk (F) (L.C k) true fl (L.fcopier pumpF k depth0 ig fl ((L.at_ k src).path.length + 1) (L.at_ k' d)) depth)
            (L.at_ k q) l ()) s1 Q ∧
        ∃ s', walkDirs O fl (walk O (L.C k) true fl (L.copier k depth0 ig fl ((L.at_ k src).path.length + 1) (L.at_ k' d)) depth)
            (L.at_ k q) l () s1 = (.ok (), s') ∧ Q (L.V s') := by
      intro l
      induction l with
      | nil => intro s1 h1 hQ1 _ _ _; exact ⟨Ends.pure h1 hQ1, s1, rfl, hQ1⟩
      | cons n l ihl =>
        intro s1 h1 hQ1 hnd hsame1 hl
        obtain ⟨g1, g2, g3, g4⟩ := hl n (by simp)
        have hnn := (List.nodup_cons.1 hnd).1
        have hsub1 : Sub (L.V s1 k) q := by
          refine ⟨fun x hx => hsub0.nm x ?_, fun x => ?_⟩
          · rw [hqt, List.append_assoc] at hx ⊢; rwa [hsame1] at hx
          · have := hsub0.noLink x; rw [hqt, List.append_assoc] at this ⊢; rwa [hsame1]
        have hv1 : L.V s1 k (q ++ [n]) = some .dir := by
          rw [hqt, List.append_assoc] at g2 ⊢; rw [hsame1, g2]
        have hh' : ∀ x, L.V s0 k (q ++ [n] ++ x) = some .dir → x.length < depth := by
          intro x hx
          have := hh (n :: x) (by simpa using hx)
          simp at this; omega
        rw [L.walkDirs_cons h1 hsub1 (by rw [hv1]; simp)]
        obtain ⟨s2, c1, c2, c3⟩ := L.copy_walk (ig := ig) (fl := fl) h0 hm H hd hd0 hsd hdep depth (t ++ [n]) (q ++ [n]) (e ++ [n]) (by rw [hqt]; simp)
          (by rw [het]; simp) h1 hsame1 g2 g3 g4 hh'
        obtain ⟨i1, s2', i2, i3⟩ := ih (t ++ [n]) (q ++ [n]) (e ++ [n]) (by rw [hqt]; simp) (by rw [het]; simp) h1 hsame1 g2 g3 g4 hh' (by
          intro x
          rw [List.append_assoc, hk, List.singleton_append, kept_cons (fun h => g1 h.1)]) hQ1
        rw [c1] at i2
        simp only [Prod.mk.injEq, true_and] at i2
        subst i2
        have hout : ∀ j p, ¬ (j = k' ∧ ∃ x, x ≠ [] ∧ p = e ++ [n] ++ x) → L.V s2 j p = L.V s1 j p := by
          intro j p hp
          rw [c3, graft_out]
          rintro ⟨hj, ⟨x, rfl⟩, hx⟩
          exact hp ⟨hj, x, by rintro rfl; simp at hx, rfl⟩
        have other : ∀ m ∈ l, ∀ x, ¬ ∃ y, y ≠ [] ∧ e ++ [m] ++ x = e ++ [n] ++ y := by
          rintro m hm' x ⟨y, -, h⟩
          simp only [List.append_assoc, List.append_cancel_left_eq, List.singleton_append, List.cons.injEq] at h
          obtain ⟨rfl, -⟩ := h
          exact hnn hm'
        obtain ⟨j0, s3, j1, j2⟩ := ihl c2 i3 (List.nodup_cons.1 hnd).2 (by
            intro x
            rw [hout, hsame1]
            rintro ⟨h, y, -, h'⟩
            rw [het, List.append_assoc (d ++ t)] at h'
            exact apart ⟨h, h'⟩) (by
            intro m hm'
            obtain ⟨f1, f2, f3, f4⟩ := hl m (by simp [hm'])
            refine ⟨f1, f2, ?_, fun x hx => ?_⟩
            · rw [hout, f3]; rintro ⟨-, y, hy, h⟩; exact other m hm' [] ⟨y, hy, by rw [List.append_nil]; exact h⟩
            · rw [hout, f4 x hx]; rintro ⟨-, h⟩; exact other m hm' x h)
        refine ⟨?_, s3, by rw [bind_ok c1, j1], j2⟩
        exact ends_walkDirs_cons h1 hsub1 (by rw [hv1]; simp) _ hQ1
          (Ends.bind (sim_walk _ _ _ (fun _ _ _ _ => sim_copier X) _ _ _) c1 i1 j0)
    have hs2 : ∀ j p, ¬ (j = k' ∧ ∃ n, p = e ++ [n]) → L.V s2 j p = L.V s j p := by
      intro j p hp
      rw [b3, fill_out]
      rintro ⟨hj, n, -, h⟩; exact hp ⟨hj, n, h⟩
    have memD : ∀ {n}, n ∈ (L.dirNames s k q).filter (fun n => n ∉ ig) ↔ n ∉ ig ∧ L.V s0 k (q ++ [n]) = some .dir := by
      intro n
      rw [List.mem_filter, L.mem_dirNames hs, hq]
      simp [and_comm]
    obtain ⟨c0, s3, c1, c2⟩ := loop ((L.dirNames s k q).filter (fun n => n ∉ ig)) b2 hQ2 (hnD.filter _) (by
        intro x
        rw [hs2, hsame]
        rintro ⟨h, n, h'⟩
        rw [het] at h'
        exact apart ⟨h, h'⟩) (by
        intro n hn
        obtain ⟨f1, f2⟩ := memD.1 hn
        refine ⟨f1, f2, ?_, fun x hx => ?_⟩
        · rw [b3, fill_in (List.mem_append_left _ hn), hq, f2]
        · rw [hs2, List.append_assoc, hemp _ (by simp)]
          rintro ⟨-, m, h⟩
          simp only [List.append_assoc, List.append_cancel_left_eq, List.singleton_append, List.cons.injEq] at h
          exact hx h.2)
    have hb0 := L.dbase (s := s) (k := k) (k' := k') hnq H.ne (d := d) (by
      have := hne (x := []) (by rw [List.append_nil, hdq]; simp)
      rwa [List.append_nil, het] at this) (L.trims h0 H (by rw [← hqt]; exact hdq))
    rw [← hqt, ← het] at hb0
    have bodyO : copyBody O depth0 (L.C k) ig fl ((L.at_ k src).path.length + 1) (L.at_ k' d) (L.at_ k q) (L.dirNames s k q) (L.fileNames s k q) s =
        (.ok ((L.dirNames s k q).filter (fun n => n ∉ ig)), s2) := by
      have hk := bind_ok (f := fun db => do
        let dirs' ← Any.copyDirs O depth0 (L.C k) ig fl (L.at_ k q) db (L.dirNames s k q) (L.dirNames s k q)
        Any.copyFiles O (L.C k) fl (L.at_ k q) db (L.fileNames s k q)
        pure dirs') hb0
      rw [bind_ok a1, bind_ok b1] at hk
      unfold copyBody
      rw [← pure_apply, ← hk]
      dsimp only
      split <;> rfl
    have bodyF : L.Ends (copyBody (F) depth0 (L.C k) ig fl ((L.at_ k src).path.length + 1) (L.at_ k' d) (L.at_ k q) (L.dirNames s k q)
        (L.fileNames s k q)) s Q := by
      have rest : L.Ends (do
          let dirs' ← Any.copyDirs (F) depth0 (L.C k) ig fl (L.at_ k q) (L.at_ k' e) (L.dirNames s k q) (L.dirNames s k q)
          Any.copyFiles (F) (L.C k) fl (L.at_ k q) (L.at_ k' e) (L.fileNames s k q)
          pure dirs') s Q :=
        Ends.bind (sim_copyDirs _ _ _ _ _ _ _ _) a1 a0 (Ends.bind (sim_copyFiles X.sim _ _ _ _ _) b1 b0 (Ends.pure b2 hQ2))
      unfold copyBody
      dsimp only
      split at hb0
      · rename_i hc
        rw [if_pos hc]
        simp only [lift_apply, Prod.mk.injEq, and_true] at hb0
        exact Ends.bind_lift hb0 rest
      · rename_i hc
        rw [if_neg hc]
        simp only [pure_apply, Prod.mk.injEq, and_true, Except.ok.injEq] at hb0
        rw [hb0]
        exact rest
    have copO : L.copier k depth0 ig fl ((L.at_ k src).path.length + 1) (L.at_ k' d) () (L.at_ k q) (L.dirNames s k q) (L.fileNames s k q) s =
        (.ok ((), (L.dirNames s k q).filter (fun n => n ∉ ig)), s2) := by
      unfold copier
      rw [bind_ok bodyO]
      rfl
    constructor
    · refine ends_walk_dir hs hsub hdq' _ _ _ _ _ hQs ?_
      rw [if_pos rfl]
      refine Ends.bind (m' := L.copier k depth0 ig fl ((L.at_ k src).path.length + 1) (L.at_ k' d) () (L.at_ k q) (L.dirNames s k q) (L.fileNames s k q))
        (sim_copier X) copO ?_ c0
      exact Ends.bind (sim_copyBody X.sim _ _ _ _ _ _ _ _ _) bodyO bodyF (Ends.pure b2 hQ2)
    · refine ⟨s3, ?_, c2⟩
      rw [L.walk_dir hs hsub hdq', if_pos rfl, bind_ok copO]
      exact c1

/-- what is in the file systems during a recursive copy to `e`: outside of the destination nothing but directories made
    on the way to it is new, and at and below it is a part of the source -/
def _root_.Verif.Any.Midway (V W : κ → List Str → Option Kind) (k' : κ) (e : List Str) (T : List Str → Option Kind) : Prop :=
  (∀ j p, ¬ (j = k' ∧ e <+: p) → W j p = V j p ∨ (j = k' ∧ p <+: e ∧ V j p = none ∧ W j p = some .dir)) ∧
  ∀ t, Part (T t) (W k' (e ++ t))

theorem ends_copyTree {init : List Str} {n : Str} {ds e ig : List Str} {fl : Bool} {depth : Nat} (hm : may k k') (hs : I s)
    (H : Copyable (L.V s k) (init ++ [n])) (hds : Nm ds) (he : Nm e)
    (ht : Target (L.V s k') ds n e) (hclear : ∀ p, p <+: e → L.V s k' p = some .dir ∨ L.V s k' p = none) (hnew : L.V s k' e = none)
    (hsd : ¬ (k = k' ∧ init ++ [n] <+: e)) (hl : e.length < depth)
    (hh : ∀ x, L.V s k (init ++ [n] ++ x) = some .dir → x.length < depth) :
    L.Ends (uCopy (F) depth (L.at_ k (init ++ [n])) (L.at_ k' ds) true ig fl) s
      (fun W => Midway (L.V s) W k' e (kept (L.V s k) ig (init ++ [n]))) := by
  have hn : Nm (init ++ [n]) := H.sub.nm0 (by rw [H.dir]; simp)
  have hc := L.clear_dir hs H.dir
  have hcds : Clear (L.V s k') ds := by
    cases ht with
    | into h => exact L.clear_dir hs h
    | new h => exact ⟨fun p hp _ => hclear p hp, by rw [h]; simp⟩
  have he0 : e ≠ [] := by rintro rfl; rw [L.root hs] at hnew; simp at hnew
  have hse : ¬ (k = k' ∧ (init ++ [n] <+: e ∨ e <+: init ++ [n])) := by
    rintro ⟨rfl, h | h⟩
    · exact hsd ⟨rfl, h⟩
    · by_cases heq : e = init ++ [n]
      · rw [heq, H.dir] at hnew; simp at hnew
      · rw [L.above hs (by rw [H.dir]; simp) e h heq] at hnew; simp at hnew
  let Q : (κ → List Str → Option Kind) → Prop := fun W => Midway (L.V s) W k' e (kept (L.V s k) ig (init ++ [n]))
  have hQmk : ∀ p, p <+: e → Q (mkdirs (L.V s) k' p) := by
    intro p hp
    refine ⟨fun j x hx => ?_, fun t => ?_⟩
    · unfold mkdirs
      by_cases hj : j = k' ∧ x <+: p
      · rw [if_pos hj]
        rcases hclear x (hj.2.trans hp) with h | h
        · exact .inl (by rw [hj.1, h])
        · exact .inr ⟨hj.1, hj.2.trans hp, by rw [hj.1]; exact h, rfl⟩
      · rw [if_neg hj]; exact .inl rfl
    · by_cases ht : e ++ t <+: p
      · have hl1 := ht.length_le
        have hl2 := hp.length_le
        simp only [List.length_append] at hl1
        have : t = [] := List.eq_nil_of_length_eq_zero (by omega)
        subst this
        rw [kept_nil, H.dir]
        unfold mkdirs
        rw [if_pos ⟨rfl, by simpa using ht⟩]
        exact .dir
      · unfold mkdirs
        rw [if_neg (fun h => ht h.2), L.none_below hs hnew]
        exact .none
  have hQ0 : Q (L.V s) := by
    have := hQmk [] List.nil_prefix
    rwa [mkdirs_eq] at this
    intro p h
    rw [List.prefix_nil.1 h]; exact L.root hs
  have hQstep : ∀ W t y, Q W → Part (kept (L.V s k) ig (init ++ [n]) t) y → Q (upd W k' (e ++ t) y) := by
    intro W t y hW hy
    refine ⟨fun j p hp => ?_, fun x => ?_⟩
    · rw [upd_ne (by rintro ⟨rfl, rfl⟩; exact hp ⟨rfl, List.prefix_append _ _⟩)]
      exact hW.1 j p hp
    · by_cases hx : x = t
      · subst hx; rw [upd_same]; exact hy
      · rw [upd_ne (by rintro ⟨-, h⟩; exact hx (List.append_cancel_left h))]; exact hW.2 x
  obtain ⟨s1, a1, a2, a3⟩ := L.uMakedirs (k := k') hs he hclear hl
  have a0 := ends_uMakedirs (pumpF := pumpF) (Q := Q) hs he hclear hl hQmk
  have hQ1 : Q (L.V s1) := by rw [a3]; exact hQmk e (List.prefix_refl _)
  have hsame : ∀ x, L.V s1 k (init ++ [n] ++ x) = L.V s k (init ++ [n] ++ x) := by
    intro x
    rw [a3]
    unfold mkdirs
    rw [if_neg]
    rintro ⟨rfl, h⟩
    exact hsd ⟨rfl, (List.prefix_append _ _).trans h⟩
  obtain ⟨b0, -⟩ := ends_copy_walk X (Q := Q) (ig := ig) (fl := fl) hs hm H he he0 hse (Nat.zero_lt_of_lt hl) hQstep depth [] (init ++ [n]) e
    (by simp) (by simp) a2 hsame H.dir (by rw [a3]; simp [mkdirs]) (by
      intro x hx
      rw [a3]
      unfold mkdirs
      rw [if_neg, L.none_below hs hnew]
      rintro ⟨-, h⟩
      have := h.length_le
      have h2 : 0 < x.length := List.length_pos_iff.2 hx
      simp only [List.length_append] at this
      omega) hh (fun x => by rw [List.nil_append]) hQ1
  have hx : L.V s k (init ++ [n]) ≠ none := by rw [H.dir]; simp
  unfold Any.uCopy Any.copy
  refine Ends.withConn hs hn hQ0 (Ends.bind (sim_exists _) (L.uExists hs hn hc) (ends_uExists hs hn hc hQ0) ?_)
  rw [H.dir]
  have fin : L.Ends (do
      if (← Any.uIslink (F) (L.at_ k (init ++ [n]))) && !fl then copyLink (F) (L.C k) (L.at_ k (init ++ [n])) (L.at_ k' e)
      else
        Any.uMakedirs (F) depth (L.at_ k' e)
        copyWalk (F) depth (L.C k) ig fl (L.at_ k (init ++ [n])) (L.at_ k' e)) s Q := by
    refine Ends.bind (sim_islink _) (L.uIslink hs hn hc hx) (ends_uIslink hs hn hc hx hQ0) ?_
    rw [Bool.false_and, if_neg Bool.false_ne_true]
    refine Ends.bind (sim_uMakedirs _ _) a1 a0 ?_
    unfold copyWalk
    exact Ends.withConn a2 hn hQ1 b0
  show L.Ends ((do if !(← Any.uIsdir (F) (L.at_ k (init ++ [n]))) then _ else _ : OM (Frail σ) Unit)) s _
  refine Ends.bind (sim_isdir _) (L.uIsdir hs hn hc) (ends_uIsdir hs hn hc hQ0) ?_
  rw [H.dir]
  show L.Ends ((do if ← Any.uIsdir (F) (L.at_ k' ds) then _ else _ : OM (Frail σ) Unit)) s _
  refine Ends.bind (sim_isdir _) (L.uIsdir hs hds hcds) (ends_uIsdir hs hds hcds hQ0) ?_
  cases ht with
  | into h =>
    have : isD (L.V s k' ds) = true := by rw [h]; rfl
    rw [this, if_pos rfl, L.last hn, L.div1 he]
    exact fin
  | new h =>
    have : isD (L.V s k' ds) = false := by rw [h]; rfl
    rw [this, if_neg Bool.false_ne_true]
    exact fin

theorem ends_copyFile {init : List Str} {n m : Str} {ds e ig : List Str} {d : Bytes} {fl : Bool} {depth : Nat} (hm : may k k') (hs : I s)
    (hn : Nm (init ++ [n])) (hd : L.V s k (init ++ [n]) = some (.file d)) (hds : Nm ds) (he : Nm (e ++ [m]))
    (ht : FileTarget (L.V s k') ds n (e ++ [m])) (hp : L.V s k' e = some .dir)
    (hf : L.V s k' (e ++ [m]) = none ∨ isF (L.V s k' (e ++ [m])) = true) (hne : ¬ (k = k' ∧ init ++ [n] = e ++ [m]))
    (hQ : Q (L.V s)) (hQ' : ∀ d', d' <+: d → Q (upd (L.V s) k' (e ++ [m]) (some (.file d')))) :
    L.Ends (uCopy (F) depth (L.at_ k (init ++ [n])) (L.at_ k' ds) false ig fl) s Q := by
  have hc : Clear (L.V s k) (init ++ [n]) := L.clear_of hs (by rw [hd]; simp) (by rw [hd]; simp)
  have one := ends_copyOne X (fl := fl) hm hs hn he hd hp hf hne hQ hQ'
  have hcds : Clear (L.V s k') ds := by
    generalize hg : e ++ [m] = g at *
    cases ht with
    | into h => exact L.clear_dir hs h
    | at_ h =>
      subst hg
      refine L.clear_in hs hp ?_
      rcases hf with hf | hf
      · rw [hf]; simp
      · intro h'; rw [h'] at hf; simp [isF] at hf
  unfold Any.uCopy Any.copy
  refine Ends.withConn hs hn hQ (Ends.bind (sim_exists _) (L.uExists hs hn hc) (ends_uExists hs hn hc hQ) ?_)
  rw [hd]
  show L.Ends ((do if !(← Any.uIsfile (F) (L.at_ k (init ++ [n]))) then _ else _ : OM (Frail σ) Unit)) s Q
  refine Ends.bind (sim_isfile _) (L.uIsfile hs hn hc) (ends_uIsfile hs hn hc hQ) ?_
  rw [hd]
  show L.Ends ((do if ← Any.uIsdir (F) (L.at_ k' ds) then _ else _ : OM (Frail σ) Unit)) s Q
  refine Ends.bind (sim_isdir _) (L.uIsdir hs hds hcds) (ends_uIsdir hs hds hcds hQ) ?_
  generalize hg : e ++ [m] = g at *
  cases ht with
  | into h =>
    have : isD (L.V s k' ds) = true := by rw [h]; rfl
    rw [this, if_pos rfl, L.last hn, L.div1 he]
    exact one
  | at_ h =>
    have : isD (L.V s k' ds) = false := by
      cases hb : isD (L.V s k' ds) with
      | false => rfl
      | true => exact absurd (isD_iff.1 hb) h
    rw [this, if_neg Bool.false_ne_true]
    exact one

theorem ends_moveFile {init : List Str} {n m : Str} {ds e : List Str} {d : Bytes} {depth : Nat} (hm : may k k') (hs : I s)
    (hself : O.moveSelf (L.C k) (L.at_ k (init ++ [n])) (L.at_ k' ds) = none)
    (hn : Nm (init ++ [n])) (hd : L.V s k (init ++ [n]) = some (.file d)) (hds : Nm ds) (he : Nm (e ++ [m]))
    (ht : FileTarget (L.V s k') ds n (e ++ [m])) (hp : L.V s k' e = some .dir)
    (hf : L.V s k' (e ++ [m]) = none ∨ isF (L.V s k' (e ++ [m])) = true) (hne : ¬ (k = k' ∧ init ++ [n] = e ++ [m]))
    (hQ : Q (L.V s)) (hQ' : ∀ d', d' <+: d → Q (upd (L.V s) k' (e ++ [m]) (some (.file d'))))
    (hQ'' : Q (upd (upd (L.V s) k' (e ++ [m]) (some (.file d))) k (init ++ [n]) none)) :
    L.Ends (uMove (F) depth (L.at_ k (init ++ [n])) (L.at_ k' ds)) s Q := by
  have hc : Clear (L.V s k) (init ++ [n]) := L.clear_of hs (by rw [hd]; simp) (by rw [hd]; simp)
  obtain ⟨s1, a1, a2, a3⟩ := L.copyFile (depth := depth) (ig := []) (fl := true) hm hs hn hd hds he ht hp hf hne
  unfold Any.uMove
  refine Ends.withConn hs hn hQ ?_
  have e : (F).moveSelf (L.C k) (L.at_ k (init ++ [n])) (L.at_ k' ds) = (O.moveSelf (L.C k) (L.at_ k (init ++ [n])) (L.at_ k' ds)).map fr := rfl
  rw [e, hself]
  show L.Ends (Any.move (F) depth _ _) s Q
  unfold Any.move
  refine Ends.bind (sim_isfile _) (L.uIsfile hs hn hc) (ends_uIsfile hs hn hc hQ) ?_
  rw [hd]
  refine Ends.bind (sim_uCopy X.sim _ _ _ _ _ _) a1 (ends_copyFile X hm hs hn hd hds he ht hp hf hne hQ hQ') ?_
  refine ends_uRemove_file a2 hn ?_ ?_ (d := d) (by rw [a3, upd_ne hne]; exact hd)
  · rw [a3]; exact hQ' d (List.prefix_refl _)
  · rw [a3]; exact hQ''

theorem ends_moveTree {init : List Str} {n : Str} {ds e : List Str} {depth : Nat} (hm : may k k') (hs : I s)
    (hself : O.moveSelf (L.C k) (L.at_ k (init ++ [n])) (L.at_ k' ds) = none)
    (H : Copyable (L.V s k) (init ++ [n])) (hds : Nm ds) (he : Nm e)
    (ht : Target (L.V s k') ds n e) (hclear : ∀ p, p <+: e → L.V s k' p = some .dir ∨ L.V s k' p = none) (hnew : L.V s k' e = none)
    (hsd : ¬ (k = k' ∧ init ++ [n] <+: e)) (hl : e.length < depth)
    (hh : ∀ x, L.V s k (init ++ [n] ++ x) = some .dir → x.length < depth) :
    L.Ends (uMove (F) depth (L.at_ k (init ++ [n])) (L.at_ k' ds)) s (fun W =>
      Midway (L.V s) W k' e (fun x => L.V s k (init ++ [n] ++ x)) ∨
      ∃ P : List Str → Prop, (∀ p, P p → init ++ [n] <+: p) ∧
        W = wipe (graft (mkdirs (L.V s) k' e) k' e (fun x => L.V s k (init ++ [n] ++ x))) k P) := by
  have hn : Nm (init ++ [n]) := H.sub.nm0 (by rw [H.dir]; simp)
  have hc := L.clear_dir hs H.dir
  obtain ⟨s1, a1, a2, a3⟩ := L.copyTree (ig := []) (fl := true) hm hs H hds he ht hclear hnew hsd hl hh
  have a0 := ends_copyTree X (ig := []) (fl := true) hm hs H hds he ht hclear hnew hsd hl hh
  have hkept : kept (L.V s k) [] (init ++ [n]) = fun x => L.V s k (init ++ [n] ++ x) := funext fun x => kept_noIgnore
  rw [hkept] at a3 a0
  have hse : ¬ (k = k' ∧ e <+: init ++ [n]) := by
    rintro ⟨rfl, h⟩
    by_cases heq : e = init ++ [n]
    · rw [heq, H.dir] at hnew; simp at hnew
    · rw [L.above hs (by rw [H.dir]; simp) e h heq] at hnew; simp at hnew
  have hsame : ∀ x, L.V s1 k (init ++ [n] ++ x) = L.V s k (init ++ [n] ++ x) := by
    intro x
    rw [a3, graft_out]
    · unfold mkdirs
      rw [if_neg]
      rintro ⟨rfl, h⟩
      exact hsd ⟨rfl, (List.prefix_append _ _).trans h⟩
    · rintro ⟨rfl, h, -⟩
      rcases List.prefix_or_prefix_of_prefix h (List.prefix_append (init ++ [n]) x) with h' | h'
      · exact hse ⟨rfl, h'⟩
      · exact hsd ⟨rfl, h'⟩
  have b0 := ends_uRemove_tree (pumpF := pumpF) (depth := depth) (k := k) (q0 := init ++ [n])
    (Q := fun W => ∃ P : List Str → Prop, (∀ p, P p → init ++ [n] <+: p) ∧
        W = wipe (graft (mkdirs (L.V s) k' e) k' e (fun x => L.V s k (init ++ [n] ++ x))) k P) (by
      rintro W P ⟨P', h1, rfl⟩ h2
      rw [wipe_wipe]
      exact ⟨_, fun p hp => hp.elim (h1 p) (h2 p), rfl⟩) a2 ⟨fun _ => False, by simp, by rw [a3, wipe_false (by simp)]⟩
    ⟨fun x hx => H.sub.nm x (by rwa [hsame] at hx), fun x => by rw [hsame]; exact H.sub.noLink x⟩ (by simp)
    (by have := hsame []; simp only [List.append_nil] at this; rw [this, H.dir])
    (fun x hx => hh x (by rwa [hsame] at hx))
  have hQ0 : Midway (L.V s) (L.V s) k' e (fun x => L.V s k (init ++ [n] ++ x)) :=
    ⟨fun j p _ => .inl rfl, fun t => by rw [L.none_below hs hnew]; exact .none⟩
  unfold Any.uMove
  refine Ends.withConn hs hn (.inl hQ0) ?_
  have e : (F).moveSelf (L.C k) (L.at_ k (init ++ [n])) (L.at_ k' ds) = (O.moveSelf (L.C k) (L.at_ k (init ++ [n])) (L.at_ k' ds)).map fr := rfl
  rw [e, hself]
  show L.Ends (Any.move (F) depth _ _) s _
  unfold Any.move
  refine Ends.bind (sim_isfile _) (L.uIsfile hs hn hc) (ends_uIsfile hs hn hc (.inl hQ0)) ?_
  rw [H.dir]
  exact Ends.bind (sim_uCopy X.sim _ _ _ _ _ _) a1 (a0.mono fun W h => .inl h) (b0.mono fun W h => .inr h)

end Laws
end Verif.Any
