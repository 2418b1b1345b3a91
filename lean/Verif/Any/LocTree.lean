import Verif.Any.LocFlow
/-!
# Local trees with links

The two ways in which the tree at a local path is read: with its links, or as it is seen through them.
-/
namespace Verif.Any
open Verif.Spec Verif.Gen

/-! ## What is found -/

theorem hop_there {d : Disk} (hd : DiskOk d) {fl : Bool} {j : List Str → List Str → Landing}
    (hj : ∀ a b q, (∃ p, d.tree a = some (.dir p)) → j a b = .here q → ∃ o, d.tree q = some o ∧ (fl = true → isLinkD (some o) = false)) (l : List Str) :
    ∀ cur q, (∃ p, d.tree cur = some (.dir p)) → d.hop fl j cur l = .here q → ∃ o, d.tree q = some o ∧ (fl = true → isLinkD (some o) = false) := by
  induction l with
  | nil =>
    intro cur q ⟨p, hp⟩ h
    rw [Disk.hop] at h
    cases h
    exact ⟨_, hp, fun _ => rfl⟩
  | cons n l ih =>
    intro cur q hc h
    rw [Disk.hop] at h
    split at h
    · refine ih _ _ ?_ h
      rcases List.eq_nil_or_concat cur with rfl | ⟨c, x, rfl⟩
      · exact hc
      · rw [List.concat_eq_append, List.dropLast_concat]
        rw [List.concat_eq_append] at hc
        obtain ⟨p, hp⟩ := hc
        exact hd.tree c x (by rw [hp]; simp)
    · cases hv : d.tree (cur ++ [n]) with
      | none => rw [hv] at h; simp only at h; split at h <;> simp at h
      | some o =>
        rw [hv] at h
        cases o with
        | dir p => exact ih _ _ ⟨p, hv⟩ h
        | file p b =>
          simp only at h
          split at h
          · cases h; exact ⟨_, hv, fun _ => rfl⟩
          · simp at h
        | link t =>
          simp only at h
          split at h
          · rename_i hc'
            cases h
            exact ⟨_, hv, fun hf => by rw [hf] at hc'; simp at hc'⟩
          · refine hj _ _ _ ?_ h
            split
            · exact hd.root
            · exact hc

theorem land_there {d : Disk} (hd : DiskOk d) {fl : Bool} : ∀ k cur l q, (∃ p, d.tree cur = some (.dir p)) → d.land fl k cur l = .here q →
    ∃ o, d.tree q = some o ∧ (fl = true → isLinkD (some o) = false)
  | 0, cur, l, q, hc, h => hop_there hd (by simp) l cur q hc h
  | k + 1, cur, l, q, hc, h => hop_there hd (fun a b q ha hq => land_there hd k a b q ha hq) l cur q hc h

/-- what is found is there, and no link -/
theorem find_there {d : Disk} (hd : DiskOk d) {p q : List Str} (hn : Nm p) (h : d.find true (loc p).path = .here q) :
    ∃ o, d.tree q = some o ∧ isLinkD (some o) = false := by
  rw [find_land hn] at h
  obtain ⟨o, h1, h2⟩ := land_there hd _ _ _ _ hd.root h
  exact ⟨o, h1, h2 rfl⟩

theorem stat_find {d : Disk} {p q : List Str} (h : d.find true (loc p).path = .here q) : d.stat true (loc p).path = d.tree q := by
  unfold Disk.stat; rw [h]

theorem stat_some {d : Disk} {fl : Bool} {p : Str} {o : DObj} (h : d.stat fl p = some o) : ∃ q, d.find fl p = .here q ∧ d.tree q = some o := by
  unfold Disk.stat at h
  cases hf : d.find fl p with
  | here q => rw [hf] at h; exact ⟨q, rfl, h⟩
  | free c n => rw [hf] at h; simp at h
  | fail e => rw [hf] at h; simp at h

/-- the same names in the same order -/
theorem sorted_names {d d' : Disk} (h : DiskOk d) (h' : DiskOk d') {q q' : List Str}
    (hs : ∀ n, d.tree (q ++ [n]) ≠ none ↔ d'.tree (q' ++ [n]) ≠ none) : sortStr (d.names q) = sortStr (d'.names q') := by
  have hp := pairwise_sortStr (diskNames_nodup h.nodup q)
  have hp' := pairwise_sortStr (diskNames_nodup h'.nodup q')
  refine pairwise_ext hp hp' fun n => ?_
  rw [mem_sortStr, mem_sortStr, mem_diskNames, mem_diskNames, hs]

/-! ## What `walk` and `copy` see -/

/-- isdir -/
def dirAt (s : Sys) (p : List Str) : Bool := isDirD (s.disk.stat true (loc p).path)

/-- listdir, or nothing -/
def listed (s : Sys) (p : List Str) : List Str :=
  match s.disk.find true (loc p).path with
  | .here q => sortStr (s.disk.names q)
  | _ => []

section
variable {ι : Type} {E : ι → Dict} {r : ι → Nat}

/-- what `walk` yields for a directory -/
def rowAt (E : ι → Dict) (s : Sys) (p : List Str) : Uri × List Str × List Str :=
  (siteAt E none p, (listed s p).filter fun n => dirAt s (p ++ [n]), (listed s p).filter fun n => !dirAt s (p ++ [n]))

theorem filter_eq_of {l l' : List Str} {f g : Str → Bool} (hl : l = l') (h : ∀ n ∈ l', f n = g n) : l.filter f = l'.filter g := by
  subst hl
  exact List.filter_congr fun x hx => h x hx

/-! ## With its links -/

/-- the tree at `src`, with its links -/
def asIs {s0 : Sys} (h0 : SysOk E r s0) {J : Sys → Prop} {src : List Str} (ok : ∀ {s}, J s → SysOk E r s)
    (same : ∀ {s}, J s → ∀ x, siteV r s none (src ++ x) = siteV r s0 none (src ++ x))
    (steady : ∀ {s}, J s → ∀ x t, s0.disk.tree (src ++ x) = some (.link t) → dirAt s (src ++ x) = dirAt s0 (src ++ x))
    (nm : ∀ x, siteV r s0 none (src ++ x) ≠ none → Nm (src ++ x)) : Reading E r J false src where
  ok := ok
  T x := siteE r s0 none (src ++ x)
  ld x := dirAt s0 (src ++ x)
  names x := siteNames r s0 none (src ++ x)
  parent {x n} h := by
    rw [siteE_dir]
    refine site_tree h0 (n := n) ?_
    rw [List.append_assoc]
    exact fun h' => h (siteE_none.2 h')
  sorted {x} := pairwise_sortStr (diskNames_nodup h0.disk.nodup _)
  mem_names {x n} := by
    rw [site_mem_names, List.append_assoc]
    exact not_congr siteE_none.symm
  nm {x} h := nm x fun h' => h (siteE_none.2 h')
  listing {s x} hs hd := by
    have hd0 := siteE_dir.1 hd
    obtain ⟨p, hp⟩ := siteV_ldir.1 ((same hs x).trans hd0)
    refine ⟨src ++ x, find_here (ok hs).disk (nm x (by rw [hd0]; simp)) hp (.inr rfl), by rw [hp]; rfl, ?_⟩
    refine sorted_names (ok hs).disk h0.disk fun n => not_congr ?_
    have := same hs (x ++ [n])
    rw [← List.append_assoc] at this
    rw [← siteV_lnone (r := r), ← siteV_lnone (r := r), this]
  isdir {s x o} hs ho := by
    cases o with
    | dir =>
      have hd0 := siteE_dir.1 ho
      obtain ⟨p, hp⟩ := siteV_ldir.1 ((same hs x).trans hd0)
      rw [stat_here (ok hs).disk (nm x (by rw [hd0]; simp)) hp (.inr rfl)]
      rfl
    | file d =>
      have hd0 := siteE_file.1 ho
      obtain ⟨p, hp⟩ := siteV_lfile.1 ((same hs x).trans hd0)
      rw [stat_here (ok hs).disk (nm x (by rw [hd0]; simp)) hp (.inr rfl)]
      rfl
    | link t => exact steady hs x t (siteE_link.1 ho)
  islink {s x o} hs ho := by
    have hv : siteV r s0 none (src ++ x) ≠ none := fun h => by rw [siteE_none.2 h] at ho; simp at ho
    obtain ⟨o', ho'⟩ : ∃ o', s.disk.tree (src ++ x) = some o' := by
      refine Option.ne_none_iff_exists'.1 fun h => hv ?_
      rw [← same hs x]; exact siteV_lnone.2 h
    rw [stat_here (ok hs).disk (nm x hv) ho' (.inl rfl), Bool.not_false, Bool.and_true]
    have hk : some (kindL o') = siteV r s0 none (src ++ x) := by rw [← same hs x]; simp [siteV, ho']
    unfold siteE at ho
    rw [← hk] at ho
    cases o' <;> simp only [kindL, Option.some.injEq] at ho <;> subst ho <;> rfl

/-! ## Seen through them -/

/-- the tree at `src`, seen through links; what is not found counts as an empty file -/
def seenT (s0 : Sys) (src x : List Str) : Option Ent :=
  if Nm (src ++ x) then
    match s0.disk.stat true (loc (src ++ x)).path with
    | some (.dir _) => some .dir
    | some (.file _ d) => some (.file d)
    | _ => if x ≠ [] ∧ dirAt s0 (src ++ x.dropLast) = true ∧ x.getLast?.getD [] ∈ listed s0 (src ++ x.dropLast) then some (.file []) else none
  else none

theorem seenT_dir {s0 : Sys} {src x : List Str} : seenT s0 src x = some .dir ↔ Nm (src ++ x) ∧ dirAt s0 (src ++ x) = true := by
  unfold seenT
  by_cases hn : Nm (src ++ x)
  · rw [if_pos hn, and_iff_right hn, show dirAt s0 (src ++ x) = isDirD (s0.disk.stat true (loc (src ++ x)).path) from rfl]
    cases hv : s0.disk.stat true (loc (src ++ x)).path with
    | none => simp only [isDirD, Bool.false_eq_true, iff_false]; split <;> simp
    | some o =>
      cases o with
      | dir p => simp [isDirD]
      | file p d => simp [isDirD]
      | link t => simp only [isDirD, Bool.false_eq_true, iff_false]; split <;> simp
  · rw [if_neg hn]; simp [hn]

theorem seenT_nm {s0 : Sys} {src x : List Str} (h : seenT s0 src x ≠ none) : Nm (src ++ x) := by
  by_contra hn
  unfold seenT at h
  rw [if_neg hn] at h
  exact h rfl

theorem seenT_nolink {s0 : Sys} {src x : List Str} {t : Str} : seenT s0 src x ≠ some (.link t) := by
  unfold seenT
  split
  · split
    · simp
    · simp
    · split <;> simp
  · simp

theorem mem_listed {s : Sys} {p : List Str} {n : Str} : n ∈ listed s p ↔ ∃ q, s.disk.find true (loc p).path = .here q ∧ s.disk.tree (q ++ [n]) ≠ none := by
  unfold listed
  cases s.disk.find true (loc p).path <;> simp [mem_sortStr, mem_diskNames]

theorem listed_dir {s : Sys} (h : DiskOk s.disk) {p : List Str} {n : Str} (hn : n ∈ listed s p) : dirAt s p = true := by
  obtain ⟨q, h1, h2⟩ := mem_listed.1 hn
  obtain ⟨m, hm⟩ := h.tree q n h2
  unfold dirAt
  rw [stat_find h1, hm]
  rfl

theorem seenT_mem {s0 : Sys} (h0 : SysOk E r s0) {src x : List Str} {n : Str}
    (hnm : Nm (src ++ x) → n ∈ listed s0 (src ++ x) → Nm (src ++ (x ++ [n]))) :
    seenT s0 src (x ++ [n]) ≠ none ↔ Nm (src ++ x) ∧ n ∈ listed s0 (src ++ x) := by
  constructor
  · intro h
    have hn := seenT_nm h
    have hn0 : Nm (src ++ x) := by rw [← List.append_assoc] at hn; exact hn.of_prefix
    refine ⟨hn0, ?_⟩
    unfold seenT at h
    rw [if_pos hn] at h
    have fin : ∀ o, s0.disk.stat true (loc (src ++ (x ++ [n]))).path = some o → n ∈ listed s0 (src ++ x) := by
      intro o ho
      rw [← List.append_assoc] at ho hn
      obtain ⟨q, pm, h1, h2, h3⟩ := find_snoc h0.disk hn ho
      exact mem_listed.2 ⟨q, h1, h3⟩
    split at h
    · rename_i hv; exact fin _ hv
    · rename_i hv; exact fin _ hv
    · split at h
      · rename_i hc
        rw [List.dropLast_concat, List.getLast?_append, List.getLast?_singleton] at hc
        exact hc.2.2
      · exact absurd rfl h
  · rintro ⟨h0', h2⟩
    have h1 := listed_dir h0.disk h2
    unfold seenT
    rw [if_pos (hnm h0' h2)]
    split
    · simp
    · simp
    · rw [if_pos ⟨by simp, by rw [List.dropLast_concat]; exact h1, by rw [List.dropLast_concat, List.getLast?_append, List.getLast?_singleton]; exact h2⟩]
      simp

/-- a path that leads to a directory -/
theorem dirAt_find {s : Sys} {p : List Str} (h : dirAt s p = true) : ∃ q pm, s.disk.find true (loc p).path = .here q ∧ s.disk.tree q = some (.dir pm) := by
  unfold dirAt at h
  cases hv : s.disk.stat true (loc p).path with
  | none => rw [hv] at h; simp [isDirD] at h
  | some o =>
    rw [hv] at h
    obtain ⟨q, h1, h2⟩ := stat_some hv
    cases o with
    | dir pm => exact ⟨q, pm, h1, h2⟩
    | file p d => simp [isDirD] at h
    | link t => simp [isDirD] at h

theorem dirAt_mono {s s' : Sys} (hg : Grows s.disk s'.disk) {p : List Str} (hn : Nm p) (h : dirAt s p = true) : dirAt s' p = true := by
  obtain ⟨q, pm, h1, h2⟩ := dirAt_find h
  obtain ⟨o', h3, h4, -⟩ := hg _ _ h2
  unfold dirAt
  rw [stat_find (find_mono hg hn h1), h3]
  cases o' <;> simp_all [kindL, isDirD]

/-- the tree at `src` as it is seen through links -/
def through {s0 : Sys} (h0 : SysOk E r s0) {J : Sys → Prop} {src : List Str} (ok : ∀ {s}, J s → SysOk E r s)
    (grows : ∀ {s}, J s → Grows s0.disk s.disk)
    (kids : ∀ {s}, J s → ∀ x q p m, Nm (src ++ x) → s0.disk.find true (loc (src ++ x)).path = .here q → s0.disk.tree q = some (.dir p) →
      s.disk.tree (q ++ [m]) ≠ none → s0.disk.tree (q ++ [m]) ≠ none)
    (steady : ∀ {s}, J s → ∀ x d, seenT s0 src x = some (.file d) → dirAt s (src ++ x) = false)
    (nm : ∀ x n, Nm (src ++ x) → n ∈ listed s0 (src ++ x) → Nm (src ++ (x ++ [n]))) : Reading E r J true src where
  ok := ok
  T := seenT s0 src
  ld _ := false
  names x := if Nm (src ++ x) then listed s0 (src ++ x) else []
  parent {x n} h := by
    obtain ⟨h1, h2⟩ := (seenT_mem h0 (nm x n)).1 h
    exact seenT_dir.2 ⟨h1, listed_dir h0.disk h2⟩
  sorted {x} := by
    split
    · unfold listed
      split
      · exact pairwise_sortStr (diskNames_nodup h0.disk.nodup _)
      · exact .nil
    · exact .nil
  mem_names {x n} := by
    rw [seenT_mem h0 (nm x n)]
    split
    · rename_i h; simp [h]
    · rename_i h; simp [h]
  nm {x} h := seenT_nm h
  listing {s x} hs hd := by
    obtain ⟨hn, hd0⟩ := seenT_dir.1 hd
    obtain ⟨q, pm, hq, hq'⟩ := dirAt_find hd0
    obtain ⟨o', ho', hk, -⟩ := grows hs _ _ hq'
    refine ⟨q, find_mono (grows hs) hn hq, ?_, ?_⟩
    · rw [ho']; cases o' <;> simp_all [isDirD, kindL]
    · rw [if_pos hn]
      unfold listed
      rw [hq]
      refine sorted_names (ok hs).disk h0.disk fun n => ⟨fun h => kids hs x q pm n hn hq hq' h, fun h => ?_⟩
      obtain ⟨o2, h2⟩ := Option.ne_none_iff_exists'.1 h
      obtain ⟨o3, h3, -⟩ := grows hs _ _ h2
      rw [h3]; simp
  isdir {s x o} hs ho := by
    cases o with
    | dir => obtain ⟨hn, hd⟩ := seenT_dir.1 ho; exact dirAt_mono (grows hs) hn hd
    | file d => exact steady hs x d ho
    | link t => exact absurd ho seenT_nolink
  islink {s x o} hs ho := by
    rw [Bool.not_true, Bool.and_false]
    cases o with
    | link t => exact absurd ho seenT_nolink
    | dir => rfl
    | file d => rfl

end

end Verif.Any
