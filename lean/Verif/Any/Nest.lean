import Verif.Any.Merge
/-! # Copying a directory to a place inside itself -/
namespace Verif.Any
open Mem (Meth)
open Verif.Spec Verif.Gen

/-- names that go round and round `e` -/
theorem round_subset {e : List Str} (he : e ≠ []) : ∀ (l : Nat) (t : List Str), t.length = l → t <+: e ++ t → ∀ n ∈ t, n ∈ e := by
  intro l
  induction l using Nat.strongRecOn with
  | ind l ih =>
    intro t hl hp n hn
    rcases List.prefix_or_prefix_of_prefix hp (List.prefix_append e t) with h | ⟨t', h⟩
    · exact h.subset hn
    · subst h
      rw [List.prefix_append_right_inj] at hp
      rcases List.mem_append.1 hn with hn | hn
      · exact hn
      · refine ih t'.length ?_ t' rfl hp n hn
        have h2 : 0 < e.length := List.length_pos_iff.2 he
        simp only [List.length_append] at hl
        omega

namespace Laws
variable {σ : Type} {O : Ops σ} {κ : Type} {I : σ → Prop} {may : κ → κ → Prop} (L : Laws O κ I may)
variable {s : σ} {k : κ}

/-- The states on the way of copying `src` to `src ++ e`: what is in the destination already is of the same kind as what it
    is a copy of. -/
structure Nested (k : κ) (src e : List Str) (s : σ) : Prop where
  inv : I s
  ok : Copyable (L.V s k) src
  dest : L.V s k (src ++ e) = some .dir
  mirror : ∀ x, L.V s k (src ++ e ++ x) ≠ none →
    L.V s k (src ++ x) ≠ none ∧ (L.V s k (src ++ e ++ x) = some .dir ↔ L.V s k (src ++ x) = some .dir)

/-- only things below `d` are added -/
structure Grows (k : κ) (d : List Str) (s s' : σ) : Prop where
  dirs : ∀ p, L.V s k p = some .dir → L.V s' k p = some .dir
  same : ∀ j p, ¬ (j = k ∧ d <+: p ∧ p ≠ d) → L.V s' j p = L.V s j p

variable {L}

theorem Grows.refl {d : List Str} : L.Grows k d s s := ⟨fun _ h => h, fun _ _ _ => rfl⟩

theorem Grows.trans {d : List Str} {s1 s2 : σ} (h : L.Grows k d s s1) (h' : L.Grows k d s1 s2) : L.Grows k d s s2 :=
  ⟨fun p hp => h'.dirs p (h.dirs p hp), fun j p hp => (h'.same j p hp).trans (h.same j p hp)⟩

/-- some names of a directory copied to its place in the destination -/
theorem Nested.fill {src e t l : List Str} {s' : σ} (H : L.Nested k src e s) (hs' : I s')
    (hv : L.V s' = fill (L.V s) k k (src ++ t) (src ++ e ++ t) l) (hl : ∀ n ∈ l, L.V s k (src ++ t ++ [n]) ≠ none) :
    L.Nested k src e s' ∧ L.Grows k (src ++ e) s s' := by
  have hin : ∀ n ∈ l, L.V s' k (src ++ e ++ t ++ [n]) = L.V s k (src ++ t ++ [n]) := fun n hn => by rw [hv, fill_in hn]
  have hout : ∀ p, ¬ (∃ n ∈ l, p = src ++ e ++ t ++ [n]) → L.V s' k p = L.V s k p := fun p hp => by
    rw [hv, fill_out fun c => hp c.2]
  -- what was there is of the same kind
  have key : ∀ p, L.V s k p ≠ none → L.V s' k p ≠ none ∧ (L.V s' k p = some .dir ↔ L.V s k p = some .dir) := by
    intro p hp
    by_cases h : ∃ n ∈ l, p = src ++ e ++ t ++ [n]
    · obtain ⟨n, hn, rfl⟩ := h
      rw [hin n hn]
      obtain ⟨h1, h2⟩ := H.mirror (t ++ [n]) (by simpa using hp)
      simp only [← List.append_assoc] at h1 h2
      exact ⟨h1, h2.symm⟩
    · rw [hout p h]; exact ⟨hp, Iff.rfl⟩
  have hd : ∀ p, L.V s k p = some .dir → L.V s' k p = some .dir := fun p hp => (key p (by rw [hp]; simp)).2.2 hp
  refine ⟨⟨hs', ⟨⟨fun y hy => ?_, fun y => ?_⟩, H.ok.ne, hd _ H.ok.dir, fun y m hy => ?_⟩, hd _ H.dest, fun x hx => ?_⟩,
    hd, fun j p hp => ?_⟩
  · by_cases h : ∃ n ∈ l, src ++ y = src ++ e ++ t ++ [n]
    · obtain ⟨n, hn, h⟩ := h
      rw [h]
      have h1 := H.ok.sub.nm (t ++ [n]) (by rw [← List.append_assoc]; exact hl n hn)
      have h2 := (H.ok.sub.nm e (by rw [H.dest]; simp)).append (by simp [H.ok.ne]) h1
      simpa using h2
    · rw [hout _ h] at hy; exact H.ok.sub.nm y hy
  · by_cases h : ∃ n ∈ l, src ++ y = src ++ e ++ t ++ [n]
    · obtain ⟨n, hn, h⟩ := h
      rw [h, hin n hn]
      have := H.ok.sub.noLink (t ++ [n])
      rwa [← List.append_assoc] at this
    · rw [hout _ h]; exact H.ok.sub.noLink y
  · by_cases h : ∃ n ∈ l, src ++ y ++ [m] = src ++ e ++ t ++ [n]
    · obtain ⟨n, hn, h⟩ := h
      rw [h, hin n hn] at hy
      have := (List.append_inj' h rfl).2
      simp only [List.cons.injEq, and_true] at this
      subst this
      exact H.ok.trim t m hy
    · rw [hout _ h] at hy; exact H.ok.trim y m hy
  · by_cases h : ∃ n ∈ l, src ++ e ++ x = src ++ e ++ t ++ [n]
    · obtain ⟨n, hn, h⟩ := h
      have hx' : x = t ++ [n] := by
        rw [List.append_assoc (src ++ e)] at h
        exact List.append_cancel_left h
      rw [h, hin n hn]
      obtain ⟨h1, h2⟩ := key (src ++ t ++ [n]) (hl n hn)
      rw [hx', ← List.append_assoc]
      exact ⟨h1, h2.symm⟩
    · rw [hout _ h] at hx ⊢
      obtain ⟨h1, h2⟩ := H.mirror x hx
      obtain ⟨h3, h4⟩ := key _ h1
      exact ⟨h3, h2.trans h4.symm⟩
  · rw [hv, fill_out]
    rintro ⟨rfl, n, -, rfl⟩
    exact hp ⟨rfl, ⟨t ++ [n], by simp⟩, fun c => by have := congrArg List.length c; simp at this⟩

/-- one directory is copied to its place -/
theorem Nested.body {src e t ig : List Str} {fl : Bool} {depth0 : Nat} (H : L.Nested k src e s) (he : e ≠ []) (hm : may k k)
    (hdep : 0 < depth0) (hd : L.V s k (src ++ t) = some .dir) (hd' : L.V s k (src ++ e ++ t) = some .dir) :
    ∃ s', L.copier k depth0 ig fl ((L.at_ k src).path.length + 1) (L.at_ k (src ++ e)) () (L.at_ k (src ++ t))
        (L.dirNames s k (src ++ t)) (L.fileNames s k (src ++ t)) s =
        (.ok ((), (L.dirNames s k (src ++ t)).filter (fun n => n ∉ ig)), s') ∧
      L.Nested k src e s' ∧ L.Grows k (src ++ e) s s' ∧
      ∀ n, n ∉ ig → L.V s k (src ++ t ++ [n]) = some .dir → L.V s' k (src ++ e ++ t ++ [n]) = some .dir := by
  have hs := H.inv
  have hqe : ∀ m m', ¬ (k = k ∧ src ++ t ++ [m] = src ++ e ++ t ++ [m']) := by
    rintro m m' ⟨-, h⟩
    have h1 := congrArg List.length h
    have h2 : 0 < e.length := List.length_pos_iff.2 he
    simp only [List.length_append, List.length_cons, List.length_nil] at h1; omega
  have hsub : Sub (L.V s k) (src ++ t) := H.ok.sub.below t
  have hnq : Nm (src ++ t) := hsub.nm0 (by rw [hd]; simp)
  have hne0 : Nm (src ++ e) := H.ok.sub.nm e (by rw [H.dest]; simp)
  have hne : ∀ {n}, L.V s k (src ++ t ++ [n]) ≠ none → Nm (src ++ e ++ t ++ [n]) := by
    intro n hn
    have h1 := H.ok.sub.nm (t ++ [n]) (by rw [← List.append_assoc]; exact hn)
    have h2 := hne0.append (by simp [H.ok.ne]) h1
    simpa using h2
  -- what is in the way is of the same kind
  have hmir : ∀ n, L.V s k (src ++ e ++ t ++ [n]) ≠ none →
      (L.V s k (src ++ e ++ t ++ [n]) = some .dir ↔ L.V s k (src ++ t ++ [n]) = some .dir) := by
    intro n hn
    have := (H.mirror (t ++ [n]) (by rw [← List.append_assoc]; exact hn)).2
    simpa only [← List.append_assoc] using this
  have hnl : ∀ n, L.V s k (src ++ e ++ t ++ [n]) ≠ some .other := by
    intro n
    have := H.ok.sub.noLink (e ++ t ++ [n])
    simpa only [← List.append_assoc] using this
  have hnD : (L.dirNames s k (src ++ t)).Nodup := (L.names_nodup hs).filter _
  have hnF : (L.fileNames s k (src ++ t)).Nodup := (L.names_nodup hs).filter _
  obtain ⟨s1, a1, a2, a3⟩ := L.mergeDirs (k := k) (k' := k) (q := src ++ t) (e := src ++ e ++ t) (ig := ig) (fl := fl) hdep hqe
    (L.dirNames s k (src ++ t)) (L.dirNames s k (src ++ t)) hs hd' hnD hnD (by
      intro n hn
      have hv := (L.mem_dirNames hs).1 hn
      refine ⟨hsub.nm [n] (by rw [hv]; simp), hne (by rw [hv]; simp), fun _ => ?_, hv⟩
      by_cases h : L.V s k (src ++ e ++ t ++ [n]) = none
      · exact .inl h
      · exact .inr ((hmir n h).2 hv))
  obtain ⟨s2, b1, b2, b3⟩ := L.mergeFiles (k := k) (k' := k) (q := src ++ t) (e := src ++ e ++ t) (fl := fl) hm hqe
    (L.fileNames s k (src ++ t)) a2 (by
      rw [a3, fill_out (by rintro ⟨-, n, -, h⟩; simp at h)]; exact hd') hnF (by
      intro n hn
      obtain ⟨dd, hv⟩ := (L.mem_fileNames hs hsub).1 hn
      refine ⟨hsub.nm [n] (by rw [hv]; simp), hne (by rw [hv]; simp), ?_, dd, ?_⟩
      · rw [a3, fill_out]
        · cases hx : L.V s k (src ++ e ++ t ++ [n]) with
          | none => exact .inl rfl
          | some o =>
            cases o with
            | dir => have := (hmir n (by rw [hx]; simp)).1 hx; rw [hv] at this; simp at this
            | file d => exact .inr rfl
            | other => exact absurd hx (hnl n)
        · rintro ⟨-, m, hm', h⟩
          simp only [List.append_cancel_left_eq, List.cons.injEq, and_true] at h
          subst h
          have := (L.mem_dirNames hs).1 (List.mem_filter.1 hm').1
          rw [hv] at this; simp at this
      · rw [a3, fill_out (by rintro ⟨h, m, -, h'⟩; exact hqe n m ⟨h, h'⟩)]; exact hv)
  rw [a3, fill_fill hqe] at b3
  have hDf : (L.dirNames s k (src ++ t)).filter (fun n => ¬ (n ∈ L.dirNames s k (src ++ t) ∧ n ∈ ig)) =
      (L.dirNames s k (src ++ t)).filter (fun n => n ∉ ig) := by
    apply List.filter_congr
    intro x hx
    simp [hx]
  rw [hDf] at a1
  obtain ⟨c1, c2⟩ := H.fill b2 b3 (by
    intro n hn
    rcases List.mem_append.1 hn with hn | hn
    · rw [(L.mem_dirNames hs).1 (List.mem_filter.1 hn).1]; simp
    · obtain ⟨dd, hv⟩ := (L.mem_fileNames hs hsub).1 hn
      rw [hv]; simp)
  refine ⟨s2, ?_, c1, c2, fun n hn hv => ?_⟩
  · unfold copier copyBody
    rw [bind_ok (a := (L.dirNames s k (src ++ t)).filter (fun n => n ∉ ig)) (s' := s2)]
    · rfl
    · have hb := L.dbase (s := s) (k := k) (k' := k) hnq H.ok.ne (d := src ++ e) (by
        have h1 := hne0.append (by simp [H.ok.ne]) hnq
        exact h1) (L.trims hs H.ok hd)
      have hk := bind_ok (f := fun db => do
        let dirs' ← Any.copyDirs O depth0 (L.C k) ig fl (L.at_ k (src ++ t)) db (L.dirNames s k (src ++ t)) (L.dirNames s k (src ++ t))
        Any.copyFiles O (L.C k) fl (L.at_ k (src ++ t)) db (L.fileNames s k (src ++ t))
        pure dirs') hb
      rw [bind_ok a1, bind_ok b1] at hk
      rw [← pure_apply, ← hk]
      dsimp only
      split <;> rfl
  · rw [b3, fill_in (List.mem_append_left _ (List.mem_filter.2 ⟨(L.mem_dirNames hs).2 hv, by simpa using hn⟩)), hv]

/-- The walk ends normally or runs into the limit, whatever that is; along `e`, `e` again, and so on (the names `t` with
    `t <+: e ++ t`) it runs into the limit. -/
theorem Nested.walk {src e ig : List Str} {fl : Bool} {depth0 : Nat} (he : e ≠ []) (hig : ∀ n ∈ e, n ∉ ig) (hm : may k k)
    (hdep : 0 < depth0) (depth : Nat) :
    ∀ (t : List Str) {s : σ}, L.Nested k src e s → L.V s k (src ++ t) = some .dir → L.V s k (src ++ e ++ t) = some .dir →
    ∃ r s', Any.walk O (L.C k) true fl (L.copier k depth0 ig fl ((L.at_ k src).path.length + 1) (L.at_ k (src ++ e))) depth
        (L.at_ k (src ++ t)) () s = (r, s') ∧
      (r = .ok () ∨ r = .error .recursionError) ∧ (t <+: e ++ t → r = .error .recursionError) ∧
      L.Nested k src e s' ∧ L.Grows k (src ++ e) s s' := by
  induction depth with
  | zero =>
    intro t s H _ _
    exact ⟨_, _, rfl, .inr rfl, fun _ => rfl, H, .refl⟩
  | succ depth ih =>
    intro t s H hd hd'
    obtain ⟨s1, a1, a2, a3, a4⟩ := H.body (ig := ig) (fl := fl) he hm hdep hd hd'
    have loop : ∀ (l : List Str) {s1 : σ}, L.Nested k src e s1 →
        (∀ n ∈ l, L.V s1 k (src ++ t ++ [n]) = some .dir ∧ L.V s1 k (src ++ e ++ t ++ [n]) = some .dir) →
        ∃ r s', walkDirs O fl (Any.walk O (L.C k) true fl
            (L.copier k depth0 ig fl ((L.at_ k src).path.length + 1) (L.at_ k (src ++ e))) depth) (L.at_ k (src ++ t)) l () s1 = (r, s') ∧
          (r = .ok () ∨ r = .error .recursionError) ∧ ((∃ n ∈ l, t ++ [n] <+: e ++ (t ++ [n])) → r = .error .recursionError) ∧
          L.Nested k src e s' ∧ L.Grows k (src ++ e) s1 s' := by
      intro l
      induction l with
      | nil => intro s1 H1 _; exact ⟨_, _, rfl, .inl rfl, by simp, H1, .refl⟩
      | cons n l ihl =>
        intro s1 H1 hl
        obtain ⟨g1, g2⟩ := hl n (by simp)
        rw [L.walkDirs_cons H1.inv (H1.ok.sub.below t) (by rw [g1]; simp)]
        obtain ⟨r, s2, b1, b2, b3, b4, b5⟩ := ih (t ++ [n]) H1 (by rw [← List.append_assoc]; exact g1)
          (by rw [← List.append_assoc]; exact g2)
        rw [← List.append_assoc] at b1
        rcases b2 with rfl | rfl
        · obtain ⟨r, s3, c1, c2, c3, c4, c5⟩ := ihl b4 (fun m hm' =>
            ⟨b5.dirs _ (hl m (by simp [hm'])).1, b5.dirs _ (hl m (by simp [hm'])).2⟩)
          refine ⟨r, s3, by rw [bind_ok b1, c1], c2, ?_, c4, b5.trans c5⟩
          rintro ⟨m, hm', hp⟩
          rcases List.mem_cons.1 hm' with rfl | hm'
          · have := b3 hp; simp at this
          · exact c3 ⟨m, hm', hp⟩
        · exact ⟨_, s2, bind_error b1, .inr rfl, fun _ => rfl, b4, b5⟩
    obtain ⟨r, s2, b1, b2, b3, b4, b5⟩ := loop ((L.dirNames s k (src ++ t)).filter (fun n => n ∉ ig)) a2 (by
      intro n hn
      have hv := (L.mem_dirNames H.inv).1 (List.mem_filter.1 hn).1
      exact ⟨a3.dirs _ hv, a4 n (by simpa using (List.mem_filter.1 hn).2) hv⟩)
    refine ⟨r, s2, ?_, b2, fun hp => b3 ?_, b4, a3.trans b5⟩
    · rw [L.walk_dir H.inv (H.ok.sub.below t) hd, if_pos rfl, bind_ok a1]
      exact b1
    · -- the next name on the way
      obtain ⟨u, hu⟩ := id hp
      cases u with
      | nil =>
        have h1 := congrArg List.length hu
        have h2 : 0 < e.length := List.length_pos_iff.2 he
        simp only [List.length_append, List.length_nil] at h1; omega
      | cons n u =>
        have hpre : t ++ [n] <+: e ++ t := ⟨u, by rw [← hu]; simp⟩
        refine ⟨n, List.mem_filter.2 ⟨(L.mem_dirNames H.inv).2 ?_, ?_⟩, hpre.trans ⟨[n], by simp⟩⟩
        · obtain ⟨v, hv⟩ := hpre
          apply L.dir_prefix H.inv (b := v)
          rw [List.append_assoc, List.append_assoc, ← List.append_assoc t, hv, ← List.append_assoc]
          exact hd'
        · have : n ∈ e ++ t := hpre.subset (by simp)
          rcases List.mem_append.1 this with h | h
          · simpa using hig n h
          · simpa using hig n (round_subset he t.length t rfl hp n h)

theorem _root_.Verif.Any.target_cases {T : List Str → Option Kind} {ds e : List Str} {n : Str} (h : Target T ds n e) :
    T ds = some .dir ∧ e = ds ++ [n] ∨ T ds = none ∧ e = ds := by
  cases h with
  | into h => exact .inl ⟨h, rfl⟩
  | new h => exact .inr ⟨h, rfl⟩

variable (L)

/-- Copying a directory to a place inside itself that is not there yet, or into a directory inside itself. -/
theorem copyInside {init : List Str} {n : Str} {ds e ig : List Str} {fl : Bool} {depth : Nat} (hm : may k k) (hs : I s)
    (H : Copyable (L.V s k) (init ++ [n])) (hds : Nm ds) (hn : Nm (init ++ [n] ++ e)) (ht : Target (L.V s k) ds n (init ++ [n] ++ e))
    (hclear : ∀ p, p <+: init ++ [n] ++ e → L.V s k p = some .dir ∨ L.V s k p = none)
    (hnew : L.V s k (init ++ [n] ++ e) = none) (hig : ∀ m ∈ e, m ∉ ig) (htr : ∀ m ∈ e, Trimmed m)
    (hl : (init ++ [n] ++ e).length < depth) :
    ∃ s', uCopy O depth (L.at_ k (init ++ [n])) (L.at_ k ds) true ig fl s = (.error .recursionError, s') ∧ I s' ∧
      (∀ p, p <+: init ++ [n] ++ e → L.V s' k p = some .dir) ∧
      ∀ j p, ¬ (j = k ∧ (init ++ [n] ++ e <+: p ∨ p <+: init ++ [n] ++ e)) → L.V s' j p = L.V s j p := by
  have he : e ≠ [] := by
    rintro rfl
    rw [List.append_nil, H.dir] at hnew; simp at hnew
  have hn1 : Nm (init ++ [n]) := H.sub.nm0 (by rw [H.dir]; simp)
  have hc := L.clear_dir hs H.dir
  have hcds : Clear (L.V s k) ds := by
    rcases target_cases ht with ⟨h, -⟩ | ⟨h, h'⟩
    · exact L.clear_dir hs h
    · exact ⟨fun p hp _ => hclear p (by rw [h']; exact hp), by rw [h]; simp⟩
  obtain ⟨s1, a1, a2, a3⟩ := L.uMakedirs (k := k) hs hn hclear hl
  have hin : ∀ p, p <+: init ++ [n] ++ e → L.V s1 k p = some .dir := fun p hp => by
    rw [a3]; unfold mkdirs; rw [if_pos ⟨rfl, hp⟩]
  have hout : ∀ j p, ¬ (j = k ∧ p <+: init ++ [n] ++ e) → L.V s1 j p = L.V s j p := fun j p hp => by
    rw [a3]; unfold mkdirs; rw [if_neg hp]
  have hbelow : ∀ x, x ≠ [] → L.V s1 k (init ++ [n] ++ e ++ x) = none := by
    intro x hx
    rw [hout, L.none_below hs hnew]
    rintro ⟨-, h⟩
    have := h.length_le
    have h2 : 0 < x.length := List.length_pos_iff.2 hx
    simp only [List.length_append] at this
    omega
  have hN : L.Nested k (init ++ [n]) e s1 := by
    refine ⟨a2, ⟨⟨fun y hy => ?_, fun y => ?_⟩, H.ne, hin _ (List.prefix_append _ _), fun y m hy => ?_⟩, hin _ List.prefix_rfl, fun x hx => ?_⟩
    · by_cases h : init ++ [n] ++ y <+: init ++ [n] ++ e
      · obtain ⟨v, hv⟩ := h
        rw [← hv] at hn; exact hn.of_prefix
      · rw [hout _ _ (fun c => h c.2)] at hy; exact H.sub.nm y hy
    · by_cases h : init ++ [n] ++ y <+: init ++ [n] ++ e
      · rw [hin _ h]; simp
      · rw [hout _ _ (fun c => h c.2)]; exact H.sub.noLink y
    · by_cases h : init ++ [n] ++ y ++ [m] <+: init ++ [n] ++ e
      · rw [List.append_assoc _ y, List.prefix_append_right_inj] at h
        exact htr m (h.subset (by simp))
      · rw [hout _ _ (fun c => h c.2)] at hy; exact H.trim y m hy
    · have : x = [] := by
        by_contra h
        exact hx (hbelow x h)
      subst this
      rw [List.append_nil, List.append_nil, hin _ List.prefix_rfl, hin _ (List.prefix_append _ _)]
      simp
  obtain ⟨r, s2, b1, -, b2, b3, b4⟩ := Nested.walk (ig := ig) (fl := fl) he hig hm (Nat.zero_lt_of_lt hl) depth [] hN
    (by rw [List.append_nil]; exact hN.ok.dir) (by rw [List.append_nil]; exact hN.dest)
  rw [b2 List.nil_prefix, List.append_nil] at b1
  refine ⟨s2, ?_, b3.inv, fun p hp => b4.dirs p (hin p hp), fun j p hp => ?_⟩
  · unfold Any.uCopy Any.copy
    rw [L.withConn hs hn1, bind_ok (L.uExists hs hn1 hc), H.dir]
    have fin : (do
        if (← Any.uIslink O (L.at_ k (init ++ [n]))) && !fl then copyLink O (L.C k) (L.at_ k (init ++ [n])) (L.at_ k (init ++ [n] ++ e))
        else
          Any.uMakedirs O depth (L.at_ k (init ++ [n] ++ e))
          copyWalk O depth (L.C k) ig fl (L.at_ k (init ++ [n])) (L.at_ k (init ++ [n] ++ e)) : OM σ Unit) s = (.error .recursionError, s2) := by
      rw [bind_ok (L.uIslink hs hn1 hc (by rw [H.dir]; simp)), Bool.false_and, if_neg Bool.false_ne_true, bind_ok a1]
      unfold copyWalk
      rw [L.withConn a2 hn1]
      exact b1
    show ((do if !(← Any.uIsdir O (L.at_ k (init ++ [n]))) then _ else _ : OM σ Unit)) s = _
    rw [bind_ok (L.uIsdir hs hn1 hc), H.dir]
    show ((do if ← Any.uIsdir O (L.at_ k ds) then _ else _ : OM σ Unit)) s = _
    rw [bind_ok (L.uIsdir hs hds hcds)]
    rcases target_cases ht with ⟨h, h'⟩ | ⟨h, h'⟩
    · have : isD (L.V s k ds) = true := by rw [h]; rfl
      rw [h'] at hn fin
      rw [this, if_pos rfl, L.last hn1, L.div1 hn]
      exact fin
    · have : isD (L.V s k ds) = false := by rw [h]; rfl
      rw [h'] at fin
      rw [this, if_neg Bool.false_ne_true]
      exact fin
  · rw [b4.same j p (fun c => hp ⟨c.1, .inl c.2.1⟩), hout j p (fun c => hp ⟨c.1, .inr c.2⟩)]

/-- The same moved. -/
theorem moveInside {init : List Str} {n : Str} {ds e : List Str} {depth : Nat} (hm : may k k) (hs : I s)
    (hself : O.moveSelf (L.C k) (L.at_ k (init ++ [n])) (L.at_ k ds) = none)
    (H : Copyable (L.V s k) (init ++ [n])) (hds : Nm ds) (hn : Nm (init ++ [n] ++ e)) (ht : Target (L.V s k) ds n (init ++ [n] ++ e))
    (hclear : ∀ p, p <+: init ++ [n] ++ e → L.V s k p = some .dir ∨ L.V s k p = none)
    (hnew : L.V s k (init ++ [n] ++ e) = none) (htr : ∀ m ∈ e, Trimmed m) (hl : (init ++ [n] ++ e).length < depth) :
    ∃ s', uMove O depth (L.at_ k (init ++ [n])) (L.at_ k ds) s = (.error .recursionError, s') ∧ I s' ∧
      (∀ p, p <+: init ++ [n] ++ e → L.V s' k p = some .dir) ∧
      ∀ j p, ¬ (j = k ∧ (init ++ [n] ++ e <+: p ∨ p <+: init ++ [n] ++ e)) → L.V s' j p = L.V s j p := by
  have hn1 : Nm (init ++ [n]) := H.sub.nm0 (by rw [H.dir]; simp)
  obtain ⟨s', h1, h2⟩ := L.copyInside (ig := []) (fl := true) hm hs H hds hn ht hclear hnew (by simp) htr hl
  refine ⟨s', ?_, h2⟩
  unfold Any.uMove
  rw [L.withConn hs hn1, hself]
  show Any.move O depth _ _ s = _
  unfold Any.move
  rw [bind_ok (L.uIsfile hs hn1 (L.clear_dir hs H.dir)), H.dir]
  show (uCopy O depth _ _ true >>= fun _ => _) s = _
  exact bind_error h1

end Laws
end Verif.Any
