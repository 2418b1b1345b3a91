import Verif.Any.Copy
/-! # Copying a tree over an existing one -/
namespace Verif.Any
open Mem (Meth)
open Verif.Spec Verif.Gen

/-- `x` can be put where `y` is: nothing is in the way, or something of the same kind -/
def Fits : Option Kind → Option Kind → Prop
  | some .dir, y => y = none ∨ y = some .dir
  | some (.file _), y => y = none ∨ isF y = true
  | some .other, y => y = none
  | none, _ => True

/-- the map with everything of `T` put below `e` at place `k`, over what is there -/
noncomputable def over {κ : Type} (V : κ → List Str → Option Kind) (k : κ) (e : List Str) (T : List Str → Option Kind) :
    κ → List Str → Option Kind := by
  classical exact fun j p => if j = k ∧ e <+: p ∧ p ≠ e then (T (p.drop e.length)).or (V j p) else V j p

section
variable {κ : Type} {V : κ → List Str → Option Kind} {k j : κ} {e p x : List Str} {T : List Str → Option Kind}

theorem over_in (hx : x ≠ []) : over V k e T k (e ++ x) = (T x).or (V k (e ++ x)) := by
  unfold over
  rw [if_pos ⟨rfl, List.prefix_append _ _, by simp [hx]⟩, List.drop_left]

theorem over_out (h : ¬ (j = k ∧ e <+: p ∧ p ≠ e)) : over V k e T j p = V j p := by
  unfold over; rw [if_neg h]
end

namespace Laws
variable {σ : Type} {O : Ops σ} {κ : Type} {I : σ → Prop} {may : κ → κ → Prop} (L : Laws O κ I may)
variable {s : σ} {k k' : κ}

/-- a directory is made in another, or is there -/
theorem uMakedirs1' {depth : Nat} {e : List Str} {n : Str} (hdep : 0 < depth) (hs : I s) (hn : Nm (e ++ [n])) (hd : L.V s k e = some .dir)
    (he : L.V s k (e ++ [n]) = none ∨ L.V s k (e ++ [n]) = some .dir) :
    ∃ s', Any.uMakedirs O depth (L.at_ k (e ++ [n])) s = (.ok (), s') ∧ I s' ∧ L.V s' = upd (L.V s) k (e ++ [n]) (some .dir) := by
  rcases he with he | he
  · exact L.uMakedirs1 hdep hs hn hd he
  · obtain ⟨depth, rfl⟩ := Nat.exists_eq_succ_of_ne_zero (Nat.pos_iff_ne_zero.1 hdep)
    refine ⟨s, ?_, hs, (upd_self he).symm⟩
    unfold Any.uMakedirs Any.makedirs
    rw [L.withConn hs hn, bind_ok (L.uIsdir hs hn (L.clear_dir hs he)), he]
    rfl

/-- fs.py:962-971 -/
theorem mergeFiles {q e : List Str} {fl : Bool} (hm : may k k') (hqe : ∀ m m', ¬ (k = k' ∧ q ++ [m] = e ++ [m'])) :
    ∀ (l : List Str) {s : σ}, I s → L.V s k' e = some .dir → l.Nodup →
    (∀ n ∈ l, Nm (q ++ [n]) ∧ Nm (e ++ [n]) ∧ (L.V s k' (e ++ [n]) = none ∨ isF (L.V s k' (e ++ [n])) = true) ∧ ∃ d, L.V s k (q ++ [n]) = some (.file d)) →
    ∃ s', Any.copyFiles O (L.C k) fl (L.at_ k q) (L.at_ k' e) l s = (.ok (), s') ∧ I s' ∧ L.V s' = fill (L.V s) k k' q e l := by
  intro l
  induction l with
  | nil => intro s hs _ _ _; exact ⟨s, rfl, hs, fill_nil.symm⟩
  | cons n l ih =>
    intro s hs hd hnd hl
    obtain ⟨h1, h2, h3, d, h4⟩ := hl n (by simp)
    have hnn := (List.nodup_cons.1 hnd).1
    obtain ⟨s1, k1, k2, k3⟩ := L.copyOne (fl := fl) hm hs h1 h2 h4 hd h3 (hqe n n)
    obtain ⟨s2, j1, j2, j3⟩ := ih k2 (by rw [k3, upd_ne (by simp)]; exact hd) (List.nodup_cons.1 hnd).2 (by
      intro m hm'
      obtain ⟨g1, g2, g3, d', g4⟩ := hl m (by simp [hm'])
      have hne : m ≠ n := by rintro rfl; exact hnn hm'
      exact ⟨g1, g2, by rw [k3, upd_ne (by simpa using hne)]; exact g3, d', by rw [k3, upd_ne (hqe m n)]; exact g4⟩)
    refine ⟨s2, ?_, j2, by rw [j3, k3, fill_cons hnn h4 hqe]⟩
    unfold Any.copyFiles
    rw [bind_lift (L.div1 h1), bind_lift (L.div1 h2), bind_ok k1]
    exact j1

/-- fs.py:951-960 -/
theorem mergeDirs {q e ig : List Str} {fl : Bool} {depth : Nat} (hdep : 0 < depth) (hqe : ∀ m m', ¬ (k = k' ∧ q ++ [m] = e ++ [m'])) :
    ∀ (l D : List Str) {s : σ}, I s → L.V s k' e = some .dir → l.Nodup → D.Nodup →
    (∀ n ∈ l, Nm (q ++ [n]) ∧ Nm (e ++ [n]) ∧ (n ∉ ig → L.V s k' (e ++ [n]) = none ∨ L.V s k' (e ++ [n]) = some .dir) ∧ L.V s k (q ++ [n]) = some .dir) →
    ∃ s', Any.copyDirs O depth (L.C k) ig fl (L.at_ k q) (L.at_ k' e) l D s = (.ok (D.filter fun n => ¬ (n ∈ l ∧ n ∈ ig)), s') ∧ I s' ∧
      L.V s' = fill (L.V s) k k' q e (l.filter fun n => n ∉ ig) := by
  intro l
  induction l with
  | nil => intro D s hs _ _ _ _; exact ⟨s, by simp [Any.copyDirs], hs, fill_nil.symm⟩
  | cons n l ih =>
    intro D s hs hd hnd hD hl
    obtain ⟨h1, h2, h3, h4⟩ := hl n (by simp)
    have hnn := (List.nodup_cons.1 hnd).1
    by_cases hig : n ∈ ig
    · obtain ⟨s2, k4, k5, k6⟩ := ih (D.erase n) hs hd (List.nodup_cons.1 hnd).2 (hD.erase n) (fun m hm => hl m (by simp [hm]))
      refine ⟨s2, ?_, k5, ?_⟩
      · unfold Any.copyDirs
        rw [if_pos hig, k4, hD.erase_eq_filter, List.filter_filter]
        congr 2
        apply List.filter_congr
        intro x _
        by_cases hx : x = n
        · subst hx; simp [hig]
        · simp [hx]
      · rw [List.filter_cons_of_neg (by simpa using hig)]; exact k6
    · obtain ⟨s1, k1, k2, k3⟩ := L.uMakedirs1' hdep hs h2 hd (h3 hig)
      obtain ⟨s2, j1, j2, j3⟩ := ih D k2 (by rw [k3, upd_ne (by simp)]; exact hd) (List.nodup_cons.1 hnd).2 hD (by
        intro m hm'
        obtain ⟨g1, g2, g3, g4⟩ := hl m (by simp [hm'])
        have hne : m ≠ n := by rintro rfl; exact hnn hm'
        exact ⟨g1, g2, by rw [k3, upd_ne (by simpa using hne)]; exact g3, by rw [k3, upd_ne (hqe m n)]; exact g4⟩)
      refine ⟨s2, ?_, j2, ?_⟩
      · unfold Any.copyDirs
        rw [if_neg hig, bind_lift (L.div1 h2), bind_lift (L.div1 h1),
          bind_ok (L.uIslink hs h1 (L.clear_dir hs h4) (by rw [h4]; simp)), Bool.false_and, if_neg Bool.false_ne_true, bind_ok k1]
        refine j1.trans ?_
        congr 2
        apply List.filter_congr
        intro x _
        by_cases hx : x = n
        · subst hx; simp [hig]
        · simp [hx]
      · rw [List.filter_cons_of_pos (by simpa using hig), j3, k3]
        exact fill_cons (fun h => hnn (List.mem_filter.1 h).1) h4 hqe

theorem merge_walk {s0 : σ} (h0 : I s0) {src d : List Str} (hm : may k k') (H : Copyable (L.V s0 k) src) (hd : Nm d) (hd0 : d ≠ [])
    (hsd : ¬ (k = k' ∧ (src <+: d ∨ d <+: src))) {ig : List Str} {fl : Bool} {depth0 : Nat} (hdep : 0 < depth0) (depth : Nat) :
    ∀ (t q e : List Str) {s : σ}, q = src ++ t → e = d ++ t → I s → (∀ x, L.V s k (src ++ x) = L.V s0 k (src ++ x)) →
    L.V s0 k q = some .dir → L.V s k' e = some .dir → (∀ x, x ≠ [] → Fits (kept (L.V s0 k) ig q x) (L.V s k' (e ++ x))) →
    (∀ x, L.V s0 k (q ++ x) = some .dir → x.length < depth) →
    ∃ s', walk O (L.C k) true fl (L.copier k depth0 ig fl ((L.at_ k src).path.length + 1) (L.at_ k' d)) depth (L.at_ k q) () s = (.ok (), s') ∧
      I s' ∧ L.V s' = over (L.V s) k' e (kept (L.V s0 k) ig q) := by
  have apart : ∀ {t x y : List Str}, ¬ (k = k' ∧ src ++ x = d ++ t ++ y) := by
    rintro t x y ⟨hk, h⟩
    apply hsd
    refine ⟨hk, ?_⟩
    have h1 : src <+: d ++ t ++ y := ⟨x, h⟩
    have h2 : d <+: d ++ t ++ y := ⟨t ++ y, by simp⟩
    exact List.prefix_or_prefix_of_prefix h1 h2
  induction depth with
  | zero =>
    intro t q e s _ _ _ _ hd _ _ hh
    exact absurd (hh [] (by simpa using hd)) (by simp)
  | succ depth ih =>
    intro t q e s hqt het hs hsame hdq hde hemp hh
    have hq : ∀ x, L.V s k (q ++ x) = L.V s0 k (q ++ x) := by
      intro x; rw [hqt, List.append_assoc]; exact hsame _
    have hqe : ∀ m m', ¬ (k = k' ∧ q ++ [m] = e ++ [m']) := by
      rintro m m' ⟨h, h'⟩
      rw [hqt, het, List.append_assoc] at h'
      exact apart ⟨h, h'⟩
    have hsub0 : Sub (L.V s0 k) q := by rw [hqt]; exact H.sub.below t
    have hsub : Sub (L.V s k) q := ⟨fun x hx => hsub0.nm x (by rwa [hq] at hx), fun x => by rw [hq]; exact hsub0.noLink x⟩
    have hdq' : L.V s k q = some .dir := by have := hq []; simp only [List.append_nil] at this; rw [this, hdq]
    have hnq : Nm (src ++ t) := by rw [← hqt]; exact hsub0.nm0 (by rw [hdq]; simp)
    have hne : ∀ {x}, L.V s0 k (q ++ x) ≠ none → Nm (e ++ x) := by
      intro x hx
      have := hsub0.nm x hx
      rw [hqt, List.append_assoc] at this
      rw [het, List.append_assoc]
      exact hd.append hd0 this
    have hnD : (L.dirNames s k q).Nodup := (L.names_nodup hs).filter _
    have hnF : (L.fileNames s k q).Nodup := (L.names_nodup hs).filter _
    obtain ⟨s1, a1, a2, a3⟩ := L.mergeDirs (k := k) (k' := k') (q := q) (e := e) (ig := ig) (fl := fl) hdep hqe (L.dirNames s k q)
      (L.dirNames s k q) hs hde hnD hnD (by
        intro n hn
        have hv := (L.mem_dirNames hs).1 hn
        have hv0 : L.V s0 k (q ++ [n]) = some .dir := by rw [← hq]; exact hv
        refine ⟨hsub.nm [n] (by rw [hv]; simp), hne (by rw [hv0]; simp), fun hig => ?_, hv⟩
        have := hemp [n] (by simp)
        rwa [kept_cons (fun h => hig h.1), kept_nil, hv0] at this)
    obtain ⟨s2, b1, b2, b3⟩ := L.mergeFiles (k := k) (k' := k') (q := q) (e := e) (fl := fl) hm hqe (L.fileNames s k q) a2 (by
        rw [a3, fill_out (by rintro ⟨-, n, -, h⟩; simp at h)]; exact hde) hnF (by
        intro n hn
        obtain ⟨dd, hv⟩ := (L.mem_fileNames hs hsub).1 hn
        have hv0 : L.V s0 k (q ++ [n]) = some (.file dd) := by rw [← hq]; exact hv
        refine ⟨hsub.nm [n] (by rw [hv]; simp), hne (by rw [hv0]; simp), ?_, dd, ?_⟩
        · rw [a3, fill_out]
          · have := hemp [n] (by simp)
            rwa [kept_cons (fun h => by rw [hv0] at h; simp at h), kept_nil, hv0] at this
          · rintro ⟨-, m, hm', h⟩
            simp only [List.append_cancel_left_eq, List.cons.injEq, and_true] at h
            subst h
            have := (L.mem_dirNames hs).1 (List.mem_filter.1 hm').1
            rw [hv] at this; simp at this
        · rw [a3, fill_out (by rintro ⟨h, m, -, h'⟩; exact hqe n m ⟨h, h'⟩)]; exact hv)
    rw [a3, fill_fill hqe] at b3
    -- the directories that are walked into
    have hDf : (L.dirNames s k q).filter (fun n => ¬ (n ∈ L.dirNames s k q ∧ n ∈ ig)) = (L.dirNames s k q).filter (fun n => n ∉ ig) := by
      apply List.filter_congr
      intro x hx
      simp [hx]
    rw [hDf] at a1
    have loop : ∀ (l : List Str) {s1 : σ}, I s1 → l.Nodup → (∀ x, L.V s1 k (src ++ x) = L.V s0 k (src ++ x)) →
        (∀ n ∈ l, n ∉ ig ∧ L.V s0 k (q ++ [n]) = some .dir ∧ L.V s1 k' (e ++ [n]) = some .dir ∧
          ∀ x, x ≠ [] → Fits (kept (L.V s0 k) ig (q ++ [n]) x) (L.V s1 k' (e ++ [n] ++ x))) →
        ∃ s', walkDirs O fl (walk O (L.C k) true fl (L.copier k depth0 ig fl ((L.at_ k src).path.length + 1) (L.at_ k' d)) depth)
            (L.at_ k q) l () s1 = (.ok (), s') ∧ I s' ∧
          (∀ n ∈ l, ∀ x, x ≠ [] → L.V s' k' (e ++ [n] ++ x) = (kept (L.V s0 k) ig (q ++ [n]) x).or (L.V s1 k' (e ++ [n] ++ x))) ∧
          (∀ j p, ¬ (j = k' ∧ ∃ n ∈ l, ∃ x, x ≠ [] ∧ p = e ++ [n] ++ x) → L.V s' j p = L.V s1 j p) := by
      intro l
      induction l with
      | nil => intro s1 h1 _ _ _; exact ⟨s1, rfl, h1, by simp, fun _ _ _ => rfl⟩
      | cons n l ihl =>
        intro s1 h1 hnd hsame1 hl
        obtain ⟨g1, g2, g3, g4⟩ := hl n (by simp)
        have hnn := (List.nodup_cons.1 hnd).1
        have hsub1 : Sub (L.V s1 k) q := by
          refine ⟨fun x hx => hsub0.nm x ?_, fun x => ?_⟩
          · rw [hqt, List.append_assoc] at hx ⊢; rwa [hsame1] at hx
          · have := hsub0.noLink x; rw [hqt, List.append_assoc] at this ⊢; rwa [hsame1]
        have hv1 : L.V s1 k (q ++ [n]) = some .dir := by
          rw [hqt, List.append_assoc] at g2 ⊢; rw [hsame1, g2]
        rw [L.walkDirs_cons h1 hsub1 (by rw [hv1]; simp)]
        obtain ⟨s2, c1, c2, c3⟩ := ih (t ++ [n]) (q ++ [n]) (e ++ [n]) (by rw [hqt]; simp) (by rw [het]; simp) h1 hsame1 g2 g3 g4 (by
          intro x hx
          have := hh (n :: x) (by simpa using hx)
          simp at this; omega)
        have hout : ∀ j p, ¬ (j = k' ∧ ∃ x, x ≠ [] ∧ p = e ++ [n] ++ x) → L.V s2 j p = L.V s1 j p := by
          intro j p hp
          rw [c3, over_out]
          rintro ⟨hj, ⟨x, rfl⟩, hx⟩
          exact hp ⟨hj, x, by rintro rfl; simp at hx, rfl⟩
        have other : ∀ m ∈ l, ∀ x, ¬ ∃ y, y ≠ [] ∧ e ++ [m] ++ x = e ++ [n] ++ y := by
          rintro m hm' x ⟨y, -, h⟩
          simp only [List.append_assoc, List.append_cancel_left_eq, List.singleton_append, List.cons.injEq] at h
          obtain ⟨rfl, -⟩ := h
          exact hnn hm'
        obtain ⟨s3, j1, j2, j3, j4⟩ := ihl c2 (List.nodup_cons.1 hnd).2 (by
            intro x
            rw [hout, hsame1]
            rintro ⟨h, y, -, h'⟩
            rw [het, List.append_assoc (d ++ t)] at h'
            exact apart ⟨h, h'⟩) (by
            intro m hm'
            obtain ⟨f1, f2, f3, f4⟩ := hl m (by simp [hm'])
            refine ⟨f1, f2, ?_, fun x hx => ?_⟩
            · rw [hout, f3]; rintro ⟨-, y, hy, h⟩; exact other m hm' [] ⟨y, hy, by rw [List.append_nil]; exact h⟩
            · rw [hout]; · exact f4 x hx
              rintro ⟨-, h⟩; exact other m hm' x h)
        refine ⟨s3, by rw [bind_ok c1, j1], j2, ?_, ?_⟩
        · intro m hm' x hx
          rcases List.mem_cons.1 hm' with rfl | hm'
          · rw [j4, c3, over_in hx]
            rintro ⟨-, m', hm'', y, -, h⟩
            simp only [List.append_assoc, List.append_cancel_left_eq, List.singleton_append, List.cons.injEq] at h
            obtain ⟨rfl, -⟩ := h
            exact hnn hm''
          · rw [j3 m hm' x hx, hout]
            rintro ⟨-, h⟩; exact other m hm' x h
        · intro j p hp
          rw [j4, hout]
          · rintro ⟨hj, x, hx, h⟩; exact hp ⟨hj, n, by simp, x, hx, h⟩
          · rintro ⟨hj, m, hm', x, hx, h⟩; exact hp ⟨hj, m, by simp [hm'], x, hx, h⟩
    have hs2 : ∀ j p, ¬ (j = k' ∧ ∃ n, p = e ++ [n]) → L.V s2 j p = L.V s j p := by
      intro j p hp
      rw [b3, fill_out]
      rintro ⟨hj, n, -, h⟩; exact hp ⟨hj, n, h⟩
    have memD : ∀ {n}, n ∈ (L.dirNames s k q).filter (fun n => n ∉ ig) ↔ n ∉ ig ∧ L.V s0 k (q ++ [n]) = some .dir := by
      intro n
      rw [List.mem_filter, L.mem_dirNames hs, hq]
      simp [and_comm]
    obtain ⟨s3, c1, c2, c3, c4⟩ := loop ((L.dirNames s k q).filter (fun n => n ∉ ig)) b2 (hnD.filter _) (by
        intro x
        rw [hs2, hsame]
        rintro ⟨h, n, h'⟩
        rw [het] at h'
        exact apart ⟨h, h'⟩) (by
        intro n hn
        obtain ⟨f1, f2⟩ := memD.1 hn
        refine ⟨f1, f2, ?_, fun x hx => ?_⟩
        · rw [b3, fill_in (List.mem_append_left _ hn), hq, f2]
        · rw [hs2, List.append_assoc]
          · have := hemp (n :: x) (by simp)
            rwa [kept_cons (fun h => f1 h.1)] at this
          rintro ⟨-, m, h⟩
          simp only [List.append_assoc, List.append_cancel_left_eq, List.singleton_append, List.cons.injEq] at h
          exact hx h.2)
    refine ⟨s3, ?_, c2, ?_⟩
    · rw [L.walk_dir hs hsub hdq', if_pos rfl]
      have : L.copier k depth0 ig fl ((L.at_ k src).path.length + 1) (L.at_ k' d) () (L.at_ k q) (L.dirNames s k q) (L.fileNames s k q) s =
          (.ok ((), (L.dirNames s k q).filter (fun n => n ∉ ig)), s2) := by
        unfold copier copyBody
        rw [bind_ok (a := (L.dirNames s k q).filter (fun n => n ∉ ig)) (s' := s2)]
        · rfl
        · have hb := L.dbase (s := s) (k := k) (k' := k') hnq H.ne (d := d) (by
            have := hne (x := []) (by rw [List.append_nil, hdq]; simp)
            rwa [List.append_nil, het] at this) (L.trims h0 H (by rw [← hqt]; exact hdq))
          rw [← hqt, ← het] at hb
          have hk := bind_ok (f := fun db => do
            let dirs' ← Any.copyDirs O depth0 (L.C k) ig fl (L.at_ k q) db (L.dirNames s k q) (L.dirNames s k q)
            Any.copyFiles O (L.C k) fl (L.at_ k q) db (L.fileNames s k q)
            pure dirs') hb
          rw [bind_ok a1, bind_ok b1] at hk
          rw [← pure_apply, ← hk]
          dsimp only
          split <;> rfl
      rw [bind_ok this]
      exact c1
    · funext j p
      by_cases hp : j = k' ∧ e <+: p ∧ p ≠ e
      · obtain ⟨rfl, ⟨x, rfl⟩, hx⟩ := hp
        cases x with
        | nil => simp at hx
        | cons n x =>
          rw [over_in (by simp)]
          rw [show e ++ n :: x = e ++ [n] ++ x by simp]
          by_cases hdir : L.V s0 k (q ++ [n]) = some .dir
          · by_cases hig : n ∈ ig
            · rw [kept_ignored hig hdir, c4, b3, fill_out]
              · rfl
              · rintro ⟨-, m, hm', h⟩
                simp only [List.append_assoc, List.append_cancel_left_eq, List.singleton_append, List.cons.injEq] at h
                obtain ⟨rfl, rfl⟩ := h
                rcases List.mem_append.1 hm' with hm' | hm'
                · exact (memD.1 hm').1 hig
                · obtain ⟨dd, hv⟩ := (L.mem_fileNames hs hsub).1 hm'
                  rw [hq, hdir] at hv; simp at hv
              · rintro ⟨-, m, hm', y, -, h⟩
                simp only [List.append_assoc, List.append_cancel_left_eq, List.singleton_append, List.cons.injEq] at h
                obtain ⟨rfl, -⟩ := h
                exact (memD.1 hm').1 hig
            · rw [kept_cons (fun h => hig h.1)]
              by_cases hx' : x = []
              · subst hx'
                rw [List.append_nil, kept_nil, c4, b3, fill_in, hq, hdir]
                · rfl
                · exact List.mem_append_left _ (memD.2 ⟨hig, hdir⟩)
                · rintro ⟨-, m, -, y, hy, h⟩
                  simp only [List.append_assoc, List.append_cancel_left_eq, List.singleton_append, List.cons.injEq] at h
                  exact hy h.2.symm
              · rw [c3 n (memD.2 ⟨hig, hdir⟩) x hx', hs2]
                rintro ⟨-, m, h⟩
                simp only [List.append_assoc, List.append_cancel_left_eq, List.singleton_append, List.cons.injEq] at h
                exact hx' h.2
          · rw [kept_cons (fun h => hdir h.2), c4]
            · cases hv : L.V s0 k (q ++ [n]) with
              | none =>
                have h5 : L.V s0 k (q ++ [n] ++ x) = none := L.none_below h0 hv
                have : kept (L.V s0 k) ig (q ++ [n]) x = none := by unfold kept; rw [h5]; simp
                rw [this, b3, fill_out]
                · rfl
                · rintro ⟨-, m, hm', h⟩
                  simp only [List.append_assoc, List.append_cancel_left_eq, List.singleton_append, List.cons.injEq] at h
                  obtain ⟨rfl, rfl⟩ := h
                  rcases List.mem_append.1 hm' with hm' | hm'
                  · exact hdir (memD.1 hm').2
                  · obtain ⟨dd, hv'⟩ := (L.mem_fileNames hs hsub).1 hm'
                    rw [hq, hv] at hv'; simp at hv'
              | some o =>
                cases o with
                | dir => exact absurd hv hdir
                | other => exact absurd hv (hsub0.noLink [n])
                | file dd =>
                  by_cases hx' : x = []
                  · subst hx'
                    rw [List.append_nil, kept_nil, b3, fill_in, hq, hv]
                    · rfl
                    refine List.mem_append_right _ ((L.mem_fileNames hs hsub).2 ⟨dd, ?_⟩)
                    rw [hq]; exact hv
                  · have h5 : L.V s0 k (q ++ [n] ++ x) = none := L.leaf h0 hv hx'
                    have : kept (L.V s0 k) ig (q ++ [n]) x = none := by unfold kept; rw [h5]; simp
                    rw [this, hs2]
                    · rfl
                    rintro ⟨-, m, h⟩
                    simp only [List.append_assoc, List.append_cancel_left_eq, List.singleton_append, List.cons.injEq] at h
                    exact hx' h.2
            · rintro ⟨-, m, hm', y, -, h⟩
              simp only [List.append_assoc, List.append_cancel_left_eq, List.singleton_append, List.cons.injEq] at h
              obtain ⟨rfl, -⟩ := h
              exact hdir (memD.1 hm').2
      · rw [over_out hp, c4, hs2]
        · rintro ⟨hj, n, h⟩; exact hp ⟨hj, ⟨[n], h.symm⟩, by rw [h]; simp⟩
        · rintro ⟨hj, n, -, x, -, h⟩; exact hp ⟨hj, ⟨n :: x, by rw [h]; simp⟩, by rw [h]; simp⟩

theorem mergeTree {init : List Str} {n : Str} {ds e ig : List Str} {fl : Bool} {depth : Nat} (hm : may k k') (hs : I s)
    (H : Copyable (L.V s k) (init ++ [n])) (hds : Nm ds) (he : Nm e)
    (ht : Target (L.V s k') ds n e) (hclear : ∀ p, p <+: e → L.V s k' p = some .dir ∨ L.V s k' p = none) (he0 : e ≠ [])
    (hfit : ∀ x, x ≠ [] → Fits (kept (L.V s k) ig (init ++ [n]) x) (L.V s k' (e ++ x)))
    (hse : ¬ (k = k' ∧ (init ++ [n] <+: e ∨ e <+: init ++ [n]))) (hl : e.length < depth)
    (hh : ∀ x, L.V s k (init ++ [n] ++ x) = some .dir → x.length < depth) :
    ∃ s', uCopy O depth (L.at_ k (init ++ [n])) (L.at_ k' ds) true ig fl s = (.ok (), s') ∧ I s' ∧
      L.V s' = over (mkdirs (L.V s) k' e) k' e (kept (L.V s k) ig (init ++ [n])) := by
  have hn : Nm (init ++ [n]) := H.sub.nm0 (by rw [H.dir]; simp)
  have hc := L.clear_dir hs H.dir
  have hcds : Clear (L.V s k') ds := by
    cases ht with
    | into h => exact L.clear_dir hs h
    | new h => exact ⟨fun p hp _ => hclear p hp, by rw [h]; simp⟩
  obtain ⟨s1, a1, a2, a3⟩ := L.uMakedirs (k := k') hs he hclear hl
  have hsame : ∀ x, L.V s1 k (init ++ [n] ++ x) = L.V s k (init ++ [n] ++ x) := by
    intro x
    rw [a3]
    unfold mkdirs
    rw [if_neg]
    rintro ⟨rfl, h⟩
    exact hse ⟨rfl, .inl ((List.prefix_append _ _).trans h)⟩
  obtain ⟨s2, b1, b2, b3⟩ := L.merge_walk (ig := ig) (fl := fl) hs hm H he he0 hse (Nat.zero_lt_of_lt hl) depth [] (init ++ [n]) e
    (by simp) (by simp) a2 hsame H.dir (by rw [a3]; simp [mkdirs]) (by
      intro x hx
      rw [a3]
      unfold mkdirs
      rw [if_neg]
      · exact hfit x hx
      rintro ⟨-, h⟩
      have := h.length_le
      have h2 : 0 < x.length := List.length_pos_iff.2 hx
      simp only [List.length_append] at this
      omega) hh
  have hnm1 : Sub (L.V s1 k) (init ++ [n]) :=
    ⟨fun x hx => H.sub.nm x (by rwa [hsame] at hx), fun x => by rw [hsame]; exact H.sub.noLink x⟩
  refine ⟨s2, ?_, b2, by rw [b3, a3]⟩
  unfold Any.uCopy Any.copy
  rw [L.withConn hs hn, bind_ok (L.uExists hs hn hc), H.dir]
  have fin : (do
      if (← Any.uIslink O (L.at_ k (init ++ [n]))) && !fl then copyLink O (L.C k) (L.at_ k (init ++ [n])) (L.at_ k' e)
      else
        Any.uMakedirs O depth (L.at_ k' e)
        copyWalk O depth (L.C k) ig fl (L.at_ k (init ++ [n])) (L.at_ k' e) : OM σ Unit) s = (.ok (), s2) := by
    rw [bind_ok (L.uIslink hs hn hc (by rw [H.dir]; simp)), Bool.false_and, if_neg Bool.false_ne_true, bind_ok a1]
    unfold copyWalk
    rw [L.withConn a2 hn]
    exact b1
  show ((do if !(← Any.uIsdir O (L.at_ k (init ++ [n]))) then _ else _ : OM σ Unit)) s = _
  rw [bind_ok (L.uIsdir hs hn hc), H.dir]
  show ((do if ← Any.uIsdir O (L.at_ k' ds) then _ else _ : OM σ Unit)) s = _
  rw [bind_ok (L.uIsdir hs hds hcds)]
  cases ht with
  | into h =>
    have : isD (L.V s k' ds) = true := by rw [h]; rfl
    rw [this, if_pos rfl, L.last hn, L.div1 he]
    exact fin
  | new h =>
    have : isD (L.V s k' ds) = false := by rw [h]; rfl
    rw [this, if_neg Bool.false_ne_true]
    exact fin

/-- moving a directory over another is copying it over that one and removing it -/
theorem mergeMove {init : List Str} {n : Str} {ds e : List Str} {depth : Nat} (hm : may k k') (hs : I s)
    (hself : O.moveSelf (L.C k) (L.at_ k (init ++ [n])) (L.at_ k' ds) = none)
    (H : Copyable (L.V s k) (init ++ [n])) (hds : Nm ds) (he : Nm e)
    (ht : Target (L.V s k') ds n e) (hclear : ∀ p, p <+: e → L.V s k' p = some .dir ∨ L.V s k' p = none) (he0 : e ≠ [])
    (hfit : ∀ x, x ≠ [] → Fits (L.V s k (init ++ [n] ++ x)) (L.V s k' (e ++ x)))
    (hse : ¬ (k = k' ∧ (init ++ [n] <+: e ∨ e <+: init ++ [n]))) (hl : e.length < depth)
    (hh : ∀ x, L.V s k (init ++ [n] ++ x) = some .dir → x.length < depth) :
    ∃ s', uMove O depth (L.at_ k (init ++ [n])) (L.at_ k' ds) s = (.ok (), s') ∧ I s' ∧
      L.V s' = wipe (over (mkdirs (L.V s) k' e) k' e (fun x => L.V s k (init ++ [n] ++ x))) k (fun p => init ++ [n] <+: p) := by
  have hn : Nm (init ++ [n]) := H.sub.nm0 (by rw [H.dir]; simp)
  have hc := L.clear_dir hs H.dir
  have hk : kept (L.V s k) [] (init ++ [n]) = fun x => L.V s k (init ++ [n] ++ x) := funext fun x => kept_noIgnore
  obtain ⟨s1, a1, a2, a3⟩ := L.mergeTree (ig := []) (fl := true) hm hs H hds he ht hclear he0 (by rw [hk]; exact hfit) hse hl hh
  rw [hk] at a3
  have hsame : ∀ x, L.V s1 k (init ++ [n] ++ x) = L.V s k (init ++ [n] ++ x) := by
    intro x
    rw [a3, over_out]
    · unfold mkdirs
      rw [if_neg]
      rintro ⟨rfl, h⟩
      exact hse ⟨rfl, .inl ((List.prefix_append _ _).trans h)⟩
    · rintro ⟨rfl, h, -⟩
      rcases List.prefix_or_prefix_of_prefix h (List.prefix_append (init ++ [n]) x) with h' | h'
      · exact hse ⟨rfl, .inr h'⟩
      · exact hse ⟨rfl, .inl h'⟩
  obtain ⟨s2, b1, b2, b3⟩ := L.uRemove_tree (depth := depth) (k := k) (q := init ++ [n]) a2
    ⟨fun x hx => H.sub.nm x (by rwa [hsame] at hx), fun x => by rw [hsame]; exact H.sub.noLink x⟩ (by simp)
    (by have := hsame []; simp only [List.append_nil] at this; rw [this, H.dir])
    (fun x hx => hh x (by rwa [hsame] at hx))
  refine ⟨s2, ?_, b2, by rw [b3, a3]⟩
  unfold Any.uMove
  rw [L.withConn hs hn, hself]
  show Any.move O depth _ _ s = _
  unfold Any.move
  rw [bind_ok (L.uIsfile hs hn hc), H.dir]
  show (uCopy O depth _ _ true >>= fun _ => _) s = _
  rw [bind_ok a1]
  exact b1

end Laws
end Verif.Any
