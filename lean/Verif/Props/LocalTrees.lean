import Verif.Any.LocTree
import Verif.Props.LocalLinks
/-!
# C99, C100: local trees with links in them

`s.disk.tree p` is what the operating system has under the names `p`, links included; `s.disk.stat true` is what a path leads
to when links are followed.  `rowAt E s p` is what `walk` has to yield for the directory `p`: its URI, the names in it that
lead to directories, and the other names, both in order.
-/
namespace Verif.Props
open Verif.Spec Verif.Any Verif.Gen

section
variable {ι : Type} {E : ι → Dict} {r : ι → Nat} {s : Sys}

/-- on the way to `x` in the tree at `src` there is a name that is to be left out, and it leads to a directory -/
def Left (s : Sys) (src ig x : List Str) : Prop := ∃ a n, a ++ [n] <+: x ∧ n ∈ ig ∧ dirAt s (src ++ (a ++ [n])) = true

/-- Making things at and below `e` does not change whether the link `p` leads to a directory: it leads to something; or
    through more than 40 links; or to a place where there is nothing, and `e` is neither above nor below it. -/
def Steady (s : Sys) (e p : List Str) : Prop :=
  (∃ q, s.disk.find true (loc p).path = .here q) ∨
    ∃ n q, Leads s.disk true n p q ∧ (40 < n ∨ n ≤ 40 ∧ Nm q ∧ Direct s.disk q ∧ ¬ e <+: q ∧ ¬ q <+: e)

/-! ## C99: with the links -/

/-- `walk` without following links yields every directory of the tree once, and no link; links to directories are among
    the directories in the rows, other links among the files. -/
theorem C99_walk (h : SysOk E r s) {src : List Str} (hroot : siteV r s none src = some .dir)
    (hnm : ∀ x, siteV r s none (src ++ x) ≠ none → Nm (src ++ x)) {depth : Nat}
    (hh : ∀ x, siteV r s none (src ++ x) = some .dir → x.length < depth) (td : Bool) :
    ∃ ps : List (List Str), uWalk sysOps depth (siteAt E none src) td false s = (.ok (ps.map fun p => rowAt E s (src ++ p)), s) ∧
      (∀ p, p ∈ ps ↔ siteV r s none (src ++ p) = some .dir) ∧ ps.Pairwise (Order td) := by
  let R : Reading E r (· = s) false src := asIs h (J := (· = s)) (fun e => by rw [e]; exact h) (fun e x => by rw [e])
    (fun e x t _ => by rw [e]) hnm
  obtain ⟨ps, h1, h2, h3⟩ := R.uWalk (td := td) rfl (siteE_dir.2 (by rwa [List.append_nil]))
    (fun x hx => hh x (siteE_dir.1 hx))
  have h2' : ∀ p, p ∈ ps ↔ siteV r s none (src ++ p) = some .dir := fun p => (h2 p).trans siteE_dir
  refine ⟨ps, ?_, h2', h3⟩
  rw [h1]
  congr 2
  refine List.map_congr_left fun p hp => ?_
  have hd := (h2' p).1 hp
  obtain ⟨m, hm⟩ := siteV_ldir.1 hd
  have hl : listed s (src ++ p) = R.names p := by
    unfold listed
    rw [find_here h.disk (hnm p (by rw [hd]; simp)) hm (.inr rfl)]
    rfl
  have ha : ∀ n ∈ R.names p, R.source.asDir (p ++ [n]) = dirAt s (src ++ p ++ [n]) := by
    intro n hn
    have := (R.source.isdir' (s := s) rfl (R.mem_names.1 hn))
    have h5 : osAsk true isDirD (loc (src ++ (p ++ [n]))) s = _ := this
    unfold osAsk at h5
    rw [List.append_assoc]
    exact (Except.ok.inj (Prod.mk.inj h5).1).symm
  show (siteAt E none (src ++ p), (R.names p).filter _, (R.names p).filter _) = _
  unfold rowAt
  have hb : ∀ n ∈ R.names p, (!R.source.asDir (p ++ [n])) = !dirAt s (src ++ p ++ [n]) := fun n hn => by rw [ha n hn]
  rw [hl, List.filter_congr ha, List.filter_congr hb]

/-- what was said of links stays true while a tree is written at `e` -/
theorem steady_held {e : List Str} {s' : Sys} (h : SysOk E r s) (hh : Held E r none e s s') {p : List Str} (hn : Nm p) (hs : Steady s e p) :
    dirAt s' p = dirAt s p := by
  have fin : ∀ q, s.disk.find true (loc p).path = .here q → dirAt s' p = dirAt s p := by
    intro q hq
    obtain ⟨o, ho, -⟩ := find_there h.disk hn hq
    obtain ⟨o', ho', hk, -⟩ := hh.grows _ _ ho
    unfold dirAt
    rw [stat_find hq, stat_find (hh.find hn hq), ho, ho']
    cases o <;> cases o' <;> simp_all [kindL, isDirD]
  rcases hs with ⟨q, hq⟩ | ⟨n, q, hl, hc⟩
  · exact fin q hq
  · rcases hc with hc | ⟨hk, hnq, hd, h1, h2⟩
    · unfold dirAt Disk.stat
      rw [find_loop h.disk hl hc hn, find_loop hh.ok.disk (hl.mono hh.links) hc hn]
    · have hf := find_leads h.disk hl hk hn hnq fun p hp _ => hd p hp
      cases hv : s.disk.tree q with
      | some o =>
        refine fin q ?_
        rw [hf]
        exact find_here h.disk hnq hv (.inr (by have := hd q (List.prefix_refl _); rwa [hv] at this))
      | none =>
        have hv' : s'.disk.tree q = none := by
          have := hh.rest none q (fun c => c.2.elim h1 h2)
          rw [siteV_lnone.2 hv] at this
          exact siteV_lnone.1 this
        have hd' : Direct s'.disk q := by
          intro x hx
          rw [isLink_siteV (r := r)]
          by_cases hxn : siteV r s none x = none
          · by_cases hxe : x <+: e
            · rcases hh.way x hxe with h | h <;> rw [h] <;> simp
            · rw [hh.rest none x (fun c => c.2.elim (fun c => h1 (c.trans hx)) hxe), hxn]; simp
          · rw [hh.old none x hxn]; exact isLink_siteV.1 (hd x hx)
        have hf' := find_leads hh.ok.disk (hl.mono hh.links) hk hn hnq fun p hp _ => hd' p hp
        have a := stat_none (fl := true) h.disk hnq hv hd
        have b := stat_none (fl := true) hh.ok.disk hnq hv' hd'
        unfold dirAt
        unfold Disk.stat at a b ⊢
        rw [hf, hf', a, b]

/-- Copying a directory with links in it as links to a new local name: the links have the same texts, files the same bytes,
    what is to be left out is left out, nothing else is there, and nothing else changes. -/
theorem C99_copy (h : SysOk E r s) (hr : Function.Injective r) {init ds e ig : List Str} {n : Str} {depth : Nat}
    (hroot : siteV r s none (init ++ [n]) = some .dir)
    (hnm : ∀ x, siteV r s none (init ++ [n] ++ x) ≠ none → Nm (init ++ [n] ++ x))
    (htrim : ∀ x m, siteV r s none (init ++ [n] ++ (x ++ [m])) = some .dir → Trimmed m)
    (hlink : ∀ x t, s.disk.tree (init ++ [n] ++ x) = some (.link t) → (∃ ts, Nm ts ∧ t = pathOf ts) ∧ Steady s e (init ++ [n] ++ x))
    (hds : Nm ds) (he : Nm e) (ht : Target (siteV r s none) ds n e)
    (hclear : ∀ p, p <+: e → siteV r s none p = some .dir ∨ siteV r s none p = none) (hnew : siteV r s none e = none)
    (hout : ¬ init ++ [n] <+: e) (hl : e.length < depth) (hh : ∀ x, siteV r s none (init ++ [n] ++ x) = some .dir → x.length < depth) :
    ∃ s', uCopy sysOps depth (siteAt E none (init ++ [n])) (siteAt E none ds) true ig false s = (.ok (), s') ∧ SysOk E r s' ∧
      (∀ p, p <+: e → siteV r s' none p = some .dir) ∧
      (∀ x, x ≠ [] → Left s (init ++ [n]) ig x → s'.disk.tree (e ++ x) = none) ∧
      (∀ x, x ≠ [] → ¬ Left s (init ++ [n]) ig x → siteV r s' none (e ++ x) = siteV r s none (init ++ [n] ++ x) ∧
        ∀ t, s.disk.tree (init ++ [n] ++ x) = some (.link t) → s'.disk.tree (e ++ x) = some (.link t)) ∧
      (∀ j p, ¬ (j = none ∧ (e <+: p ∨ p <+: e)) → siteV r s' j p = siteV r s j p) ∧
      ∀ p t, s.disk.tree p = some (.link t) → s'.disk.tree p = some (.link t) := by
  have hnone : ∀ x, siteV r s none (e ++ x) = none := fun x => (sysLaws E r hr).none_below (k := none) (s := s) h hnew
  have same : ∀ {s' : Sys}, Held E r none e s s' → ∀ x, siteV r s' none (init ++ [n] ++ x) = siteV r s none (init ++ [n] ++ x) := by
    intro s' hs x
    refine hs.rest none _ ?_
    rintro ⟨-, hp | hp⟩
    · rcases List.prefix_or_prefix_of_prefix hp (List.prefix_append (init ++ [n]) x) with hc | hc
      · obtain ⟨y, hy⟩ := hc
        rw [← hy, hnone] at hroot
        simp at hroot
      · exact hout hc
    · exact hout ((List.prefix_append _ _).trans hp)
  let R : Reading E r (Held E r none e s) false (init ++ [n]) := asIs h (J := Held E r none e s) (fun hs => hs.ok) same
    (fun hs x t hx => steady_held h hs (hnm x (fun hv => by rw [siteV_lnone.1 hv] at hx; simp at hx)) (hlink x t hx).2) hnm
  have W : Writing R := by
    refine ⟨fun {x m} hx => htrim x m (siteE_dir.1 hx), fun {s' x d} hs hx => ?_, fun {x t} hx => ⟨rfl, siteE_link.1 hx, (hlink x t (siteE_link.1 hx)).1⟩⟩
    have hd := siteE_file.1 hx
    have hd' := (same hs x).trans hd
    obtain ⟨pm, hp⟩ := siteV_lfile.1 hd'
    have hn := hnm x (by rw [hd]; simp)
    exact ⟨_, find_here hs.ok.disk hn hp (.inr rfl), hn, hd'⟩
  obtain ⟨s', h1, h2, h3, h4⟩ := Reading.copy W h hr (ds := ds) (ig := ig) (depth := depth) (siteE_dir.2 (by rwa [List.append_nil])) hds he ht hclear
    hnew hl (fun x hx => hh x (siteE_dir.1 hx))
  have h00 : Held E r none e s s := ⟨h, LinksStay.refl _, fun _ _ _ => rfl, fun _ _ _ => rfl, hclear⟩
  have hcut : ∀ x, R.T x ≠ none → (R.source.Cut ig x ↔ Left s (init ++ [n]) ig x) := by
    intro x hx
    have hx0 : siteV r s none (init ++ [n] ++ x) ≠ none := fun h => hx (siteE_none.2 h)
    refine exists_congr fun a => exists_congr fun m => and_congr_right fun ha => and_congr_right fun _ => ?_
    have hv : R.T (a ++ [m]) ≠ none := by
      refine fun h' => hx0 ?_
      obtain ⟨y, rfl⟩ := ha
      rw [← List.append_assoc]
      exact (sysLaws E r hr).none_below (k := none) (s := s) h (siteE_none.1 h')
    have h5 : osAsk true isDirD (loc (init ++ [n] ++ (a ++ [m]))) s = _ := R.source.isdir' (s := s) h00 hv
    unfold osAsk at h5
    have := Except.ok.inj (Prod.mk.inj h5).1
    unfold dirAt
    rw [this]
  refine ⟨s', h1, h2.ok, fun p hp => ?_, fun x hx hL => ?_, fun x hx hL => ?_, h2.rest, h2.links⟩
  · by_cases hpe : p = e
    · rw [hpe]; exact h3
    · obtain ⟨y, rfl⟩ := hp
      have := h2.ok.disk.above (q := p ++ y) (c := p) (fun hv => by rw [siteV_lnone.2 hv] at h3; simp at h3) (List.prefix_append _ _) hpe
      exact siteV_ldir.2 this
  · rw [← siteV_lnone (r := r), ← siteE_none, h4 x hx]
    unfold Source.kept
    split
    · rfl
    · rename_i hc
      by_contra hne
      exact hc ((hcut x hne).2 hL)
  · have e4 : siteE r s' none (e ++ x) = siteE r s none (init ++ [n] ++ x) := by
      rw [h4 x hx]
      unfold Source.kept
      split
      · rename_i hc
        by_contra hne
        exact hL ((hcut x (fun h => hne h.symm)).1 hc)
      · rfl
    refine ⟨?_, fun t htx => siteE_link.1 (e4.trans (siteE_link.2 htx))⟩
    cases hv : siteV r s none (init ++ [n] ++ x) with
    | none => exact siteE_none.1 (e4.trans (siteE_none.2 hv))
    | some o =>
      cases o with
      | dir => exact siteE_dir.1 (e4.trans (siteE_dir.2 hv))
      | file d => exact siteE_file.1 (e4.trans (siteE_file.2 hv))
      | other =>
        obtain ⟨t, ht⟩ := siteV_lother.1 hv
        exact siteV_lother.2 ⟨t, siteE_link.1 (e4.trans (siteE_link.2 ht))⟩

/-! ## C100: seen through the links -/

/-- `walk` following links yields every directory that can be reached by a path below the first one, once for every path;
    links that lead nowhere are among the files. -/
theorem C100_walk (h : SysOk E r s) {src : List Str} (hn : Nm src) (hroot : dirAt s src = true)
    (hnm : ∀ x n, Nm (src ++ x) → n ∈ listed s (src ++ x) → Nm (src ++ (x ++ [n]))) {depth : Nat}
    (hh : ∀ x, Nm (src ++ x) → dirAt s (src ++ x) = true → x.length < depth) (td : Bool) :
    ∃ ps : List (List Str), uWalk sysOps depth (siteAt E none src) td true s = (.ok (ps.map fun p => rowAt E s (src ++ p)), s) ∧
      (∀ p, p ∈ ps ↔ Nm (src ++ p) ∧ dirAt s (src ++ p) = true) ∧ ps.Pairwise (Order td) := by
  let R : Reading E r (· = s) true src := through h (J := (· = s)) (fun e => by rw [e]; exact h)
    (fun e => by rw [e]; exact fun p o ho => ⟨o, ho, rfl, fun t ht => ht⟩) (fun e x q p m _ _ _ hm => by rw [e] at hm; exact hm)
    (fun {s'} e x d hx => by
      rw [e]
      by_contra hc
      rw [Bool.not_eq_false] at hc
      rw [seenT_dir.2 ⟨seenT_nm (by rw [hx]; simp), hc⟩] at hx
      simp at hx) hnm
  obtain ⟨ps, h1, h2, h3⟩ := R.uWalk (td := td) rfl (seenT_dir.2 (by rw [List.append_nil]; exact ⟨hn, hroot⟩))
    (fun x hx => hh x (seenT_dir.1 hx).1 (seenT_dir.1 hx).2)
  have h2' : ∀ p, p ∈ ps ↔ Nm (src ++ p) ∧ dirAt s (src ++ p) = true := fun p => (h2 p).trans seenT_dir
  refine ⟨ps, ?_, h2', h3⟩
  rw [h1]
  congr 2
  refine List.map_congr_left fun p hp => ?_
  obtain ⟨hnp, hd⟩ := (h2' p).1 hp
  have hl : listed s (src ++ p) = R.names p := (if_pos hnp).symm
  have ha : ∀ n ∈ R.names p, R.source.asDir (p ++ [n]) = dirAt s (src ++ p ++ [n]) := by
    intro n hn
    have := (R.source.isdir' (s := s) rfl (R.mem_names.1 hn))
    have h5 : osAsk true isDirD (loc (src ++ (p ++ [n]))) s = _ := this
    unfold osAsk at h5
    rw [List.append_assoc]
    exact (Except.ok.inj (Prod.mk.inj h5).1).symm
  show (siteAt E none (src ++ p), (R.names p).filter _, (R.names p).filter _) = _
  unfold rowAt
  have hb : ∀ n ∈ R.names p, (!R.source.asDir (p ++ [n])) = !dirAt s (src ++ p ++ [n]) := fun n hn => by rw [ha n hn]
  rw [hl, List.filter_congr ha, List.filter_congr hb]

/-- Copying a tree as it is seen through links, to a new name here or in memory: directories and files with the bytes
    there are behind the links, no links; what is to be left out is left out, and nothing else changes.  No link may lead
    nowhere, and the copy may not be in what is copied. -/
theorem C100_copy (h : SysOk E r s) (hr : Function.Injective r) {k' : Option ι} {init ds e ig : List Str} {n : Str} {depth : Nat}
    (hn : Nm (init ++ [n])) (hroot : dirAt s (init ++ [n]) = true)
    (hnm : ∀ x m, Nm (init ++ [n] ++ x) → m ∈ listed s (init ++ [n] ++ x) → Nm (init ++ [n] ++ (x ++ [m])))
    (htrim : ∀ x m, Nm (init ++ [n] ++ (x ++ [m])) → dirAt s (init ++ [n] ++ (x ++ [m])) = true → Trimmed m)
    (hwhole : ∀ x m, Nm (init ++ [n] ++ x) → m ∈ listed s (init ++ [n] ++ x) → s.disk.stat true (loc (init ++ [n] ++ (x ++ [m]))).path ≠ none)
    (hplain : ∀ x q, Nm (init ++ [n] ++ x) → s.disk.find true (loc (init ++ [n] ++ x)).path = .here q → isFileD (s.disk.tree q) = true → Nm q)
    (hout : k' = none → ∀ x q, Nm (init ++ [n] ++ x) → s.disk.find true (loc (init ++ [n] ++ x)).path = .here q →
      isDirD (s.disk.tree q) = true → ¬ q <+: e)
    (hds : Nm ds) (he : Nm e) (ht : Target (siteV r s k') ds n e)
    (hclear : ∀ p, p <+: e → siteV r s k' p = some .dir ∨ siteV r s k' p = none) (hnew : siteV r s k' e = none)
    (hl : e.length < depth) (hh : ∀ x, Nm (init ++ [n] ++ x) → dirAt s (init ++ [n] ++ x) = true → x.length < depth) :
    ∃ s', uCopy sysOps depth (siteAt E none (init ++ [n])) (siteAt E k' ds) true ig true s = (.ok (), s') ∧ SysOk E r s' ∧
      (∀ p, p <+: e → siteV r s' k' p = some .dir) ∧
      (∀ x, x ≠ [] → (¬ Nm (init ++ [n] ++ x) ∨ Left s (init ++ [n]) ig x) → siteV r s' k' (e ++ x) = none) ∧
      (∀ x, x ≠ [] → Nm (init ++ [n] ++ x) → ¬ Left s (init ++ [n]) ig x →
        siteV r s' k' (e ++ x) = (s.disk.stat true (loc (init ++ [n] ++ x)).path).map kindL) ∧
      (∀ j p, ¬ (j = k' ∧ (e <+: p ∨ p <+: e)) → siteV r s' j p = siteV r s j p) ∧
      ∀ p t, s.disk.tree p = some (.link t) → s'.disk.tree p = some (.link t) := by
  have hnone : ∀ x, siteV r s k' (e ++ x) = none := fun x => (sysLaws E r hr).none_below (k := k') (s := s) h hnew
  -- what counts as a file is one
  have isfile : ∀ x d, seenT s (init ++ [n]) x = some (.file d) → ∃ q p, s.disk.find true (loc (init ++ [n] ++ x)).path = .here q ∧
      s.disk.tree q = some (.file p d) := by
    intro x d hx
    have hnx := seenT_nm (s0 := s) (src := init ++ [n]) (x := x) (by rw [hx]; simp)
    unfold seenT at hx
    rw [if_pos hnx] at hx
    cases hv : s.disk.stat true (loc (init ++ [n] ++ x)).path with
    | some o =>
      rw [hv] at hx
      obtain ⟨q, h1, h2⟩ := stat_some hv
      cases o with
      | dir p => simp at hx
      | file p d' => simp only [Option.some.injEq, Ent.file.injEq] at hx; subst hx; exact ⟨q, p, h1, h2⟩
      | link t =>
        obtain ⟨o, ho, ho'⟩ := find_there h.disk hnx h1
        rw [h2] at ho; cases ho; simp [isLinkD] at ho'
    | none =>
      exfalso
      rw [hv] at hx
      simp only at hx
      split at hx
      · rename_i hc
        obtain ⟨hx0, -, hc2⟩ := hc
        obtain ⟨y, m, rfl⟩ : ∃ y m, x = y ++ [m] := by
          rcases List.eq_nil_or_concat x with rfl | ⟨y, m, rfl⟩
          · exact absurd rfl hx0
          · exact ⟨y, m, by rw [List.concat_eq_append]⟩
        rw [List.dropLast_concat, List.getLast?_append, List.getLast?_singleton] at hc2
        refine hwhole y m ?_ hc2 hv
        rw [← List.append_assoc] at hnx
        exact hnx.of_prefix
      · simp at hx
  let R : Reading E r (Held E r k' e s) true (init ++ [n]) := through h (J := Held E r k' e s) (fun hs => hs.ok) (fun hs => hs.grows)
    (fun {s'} hs x q pm m hnx hq hd hm => by
      intro hm0
      by_cases hk : k' = none
      · subst hk
        have ho := hout rfl x q hnx hq (by rw [hd]; rfl)
        refine hm (siteV_lnone.1 ((hs.rest none (q ++ [m]) ?_).trans (siteV_lnone.2 hm0)))
        rintro ⟨-, hp | hp⟩
        · rcases prefix_snoc_iff.1 hp with hp | hp
          · obtain ⟨y, rfl⟩ := hp
            have := hnone y
            rw [siteV_ldir.2 ⟨pm, hd⟩] at this
            simp at this
          · exact ho (by rw [hp]; exact List.prefix_append _ _)
        · exact ho ((List.prefix_append _ _).trans hp)
      · exact hm (siteV_lnone.1 ((hs.rest none (q ++ [m]) (fun c => hk c.1.symm)).trans (siteV_lnone.2 hm0))))
    (fun {s'} hs x d hx => by
      obtain ⟨q, p, h1, h2⟩ := isfile x d hx
      obtain ⟨o', ho', hk, -⟩ := hs.grows _ _ h2
      unfold dirAt
      rw [stat_find (hs.find (seenT_nm (by rw [hx]; simp)) h1), ho']
      cases o' <;> simp_all [kindL, isDirD]) hnm
  have W : Writing R := by
    refine ⟨fun {x m} hx => htrim x m (seenT_dir.1 hx).1 (seenT_dir.1 hx).2, fun {s' x d} hs hx => ?_, fun {x t} hx => absurd hx seenT_nolink⟩
    obtain ⟨q, p, h1, h2⟩ := isfile x d hx
    have hnx := seenT_nm (s0 := s) (src := init ++ [n]) (x := x) (by
      have : seenT s (init ++ [n]) x = _ := hx
      rw [this]; simp)
    have hv : siteV r s none q = some (.file d) := siteV_lfile.2 ⟨p, h2⟩
    exact ⟨q, hs.find hnx h1, hplain x q hnx h1 (by rw [h2]; rfl), (hs.old none q (by rw [hv]; simp)).trans hv⟩
  obtain ⟨s', h1, h2, h3, h4⟩ := Reading.copy W h hr (ds := ds) (ig := ig) (depth := depth)
    (seenT_dir.2 (by rw [List.append_nil]; exact ⟨hn, hroot⟩)) hds he ht hclear hnew hl (fun x hx => hh x (seenT_dir.1 hx).1 (seenT_dir.1 hx).2)
  have h00 : Held E r k' e s s := ⟨h, LinksStay.refl _, fun _ _ _ => rfl, fun _ _ _ => rfl, hclear⟩
  have hcut : ∀ x, R.T x ≠ none → (R.source.Cut ig x ↔ Left s (init ++ [n]) ig x) := by
    intro x hx
    refine exists_congr fun a => exists_congr fun m => and_congr_right fun ha => and_congr_right fun _ => ?_
    have hv : R.T (a ++ [m]) ≠ none := by
      obtain ⟨y, rfl⟩ := ha
      by_cases hy : y = []
      · subst hy; rwa [List.append_nil] at hx
      · intro h'
        exact hx (R.source.below (x := a ++ [m]) (by rw [show R.source.T (a ++ [m]) = none from h']; simp) hy)
    have h5 : osAsk true isDirD (loc (init ++ [n] ++ (a ++ [m]))) s = _ := R.source.isdir' (s := s) h00 hv
    unfold osAsk at h5
    have := Except.ok.inj (Prod.mk.inj h5).1
    unfold dirAt
    rw [this]
  refine ⟨s', h1, h2.ok, fun p hp => ?_, fun x hx hL => ?_, fun x hx hnx hL => ?_, h2.rest, h2.links⟩
  · by_cases hpe : p = e
    · rw [hpe]; exact h3
    · rcases h2.way p hp with hd | hd
      · exact hd
      · obtain ⟨y, rfl⟩ := hp
        have hb : siteV r s' k' (p ++ y) = none := (sysLaws E r hr).none_below (k := k') (s := s') h2.ok hd
        rw [hb] at h3
        simp at h3
  · rw [← siteE_none, h4 x hx]
    unfold Source.kept
    split
    · rfl
    · rename_i hc
      by_contra hne
      rcases hL with hL | hL
      · exact hL (seenT_nm hne)
      · exact hc ((hcut x hne).2 hL)
  · have e4 : siteE r s' k' (e ++ x) = seenT s (init ++ [n]) x := by
      rw [h4 x hx]
      unfold Source.kept
      split
      · rename_i hc
        by_contra hne
        exact hL ((hcut x (fun h => hne h.symm)).1 hc)
      · rfl
    cases hv : seenT s (init ++ [n]) x with
    | none =>
      rw [siteE_none.1 (e4.trans hv)]
      unfold seenT at hv
      rw [if_pos hnx] at hv
      cases hst : s.disk.stat true (loc (init ++ [n] ++ x)).path with
      | none => rfl
      | some o =>
        rw [hst] at hv
        cases o with
        | dir p => simp at hv
        | file p d => simp at hv
        | link t =>
          obtain ⟨q, g1, g2⟩ := stat_some hst
          obtain ⟨o, ho, ho'⟩ := find_there h.disk hnx g1
          rw [g2] at ho; cases ho; simp [isLinkD] at ho'
    | some o =>
      cases o with
      | dir =>
        rw [siteE_dir.1 (e4.trans hv)]
        obtain ⟨q, pm, g1, g2⟩ := dirAt_find (seenT_dir.1 hv).2
        rw [stat_find g1, g2]
        rfl
      | file d =>
        rw [siteE_file.1 (e4.trans hv)]
        obtain ⟨q, p, g1, g2⟩ := isfile x d hv
        rw [stat_find g1, g2]
        rfl
      | link t => exact absurd hv seenT_nolink

end

/-! ## Concrete cases -/

/-- /p has a link to the directory /t, a link to nothing, a link to itself and below it a link to a file; /s has a link to
    /t with a relative text and a link to a file; /b has a link that leads nowhere; /o has a link with a relative text -/
def treeDisk : Disk :=
  ⟨[([], .dir 0o755), ([cl!"t"], .dir 0o755), ([cl!"t", cl!"g"], .file 0o644 [1, 2, 3]),
    ([cl!"p"], .dir 0o755), ([cl!"p", cl!"x"], .link cl!"/t"), ([cl!"p", cl!"y"], .file 0o600 [8]), ([cl!"p", cl!"z"], .link cl!"/nope"),
    ([cl!"p", cl!"c"], .link cl!"/p/c"), ([cl!"p", cl!"v"], .dir 0o755), ([cl!"p", cl!"v", cl!"w"], .link cl!"/t/g"),
    ([cl!"s"], .dir 0o755), ([cl!"s", cl!"x"], .link cl!"../t"), ([cl!"s", cl!"y"], .link cl!"/t/g"), ([cl!"s", cl!"f"], .file 0o644 [9]),
    ([cl!"b"], .dir 0o755), ([cl!"b", cl!"z"], .link cl!"/nope"), ([cl!"o"], .dir 0o755), ([cl!"o", cl!"k"], .link cl!"../t/g")], [], 0o22, []⟩

/-- these and the sample memory file system -/
def treeSys : Sys := ⟨sample, treeDisk⟩

theorem treeSys_ok : SysOk (fun _ : Unit => []) (fun _ => 0) treeSys :=
  ⟨sampleSys_ok.inv, sampleSys_ok.fs, diskOk_of (by decide) (by decide) (by decide)⟩

/-- what there is -/
abbrev tV := siteV (fun _ : Unit => 0) treeSys

theorem tThere {q x : List Str} {P : List Str → Prop} (h : ∀ p ∈ treeDisk.ents.map (·.1), q <+: p → P p) (hx : tV none (q ++ x) ≠ none) :
    P (q ++ x) := by
  refine h _ ?_ (List.prefix_append _ _)
  obtain ⟨e, he, e1⟩ := (lookup_isSome treeDisk.ents (q ++ x)).2 fun e => hx (siteV_lnone.2 e)
  exact List.mem_map.2 ⟨e, he, e1⟩

theorem tNm : ∀ x, tV none ([cl!"p"] ++ x) ≠ none → Nm ([cl!"p"] ++ x) := fun _ hx => tThere (by decide +kernel) hx

theorem tDepth : ∀ x, tV none ([cl!"p"] ++ x) = some .dir → x.length < 9 := by
  intro x hx
  have := tThere (q := [cl!"p"]) (x := x) (P := fun p => p.length < 10) (by decide +kernel) (by rw [hx]; simp)
  simp only [List.singleton_append, List.length_cons] at this
  omega

/-- /p and /p/v, in this order, with the links -/
example : ∃ ps : List (List Str), uWalk sysOps 9 (sAt none [cl!"p"]) true false treeSys =
    (.ok (ps.map fun p => rowAt (fun _ : Unit => []) treeSys ([cl!"p"] ++ p)), treeSys) ∧ [cl!"v"] ∈ ps ∧ [cl!"x"] ∉ ps := by
  obtain ⟨ps, h1, h2, -⟩ := C99_walk treeSys_ok (src := [cl!"p"]) (by decide +kernel) tNm tDepth true
  exact ⟨ps, h1, (h2 _).2 (by decide +kernel), fun h => absurd ((h2 _).1 h) (by decide +kernel)⟩

example : rowAt (fun _ : Unit => []) treeSys [cl!"p"] = (sAt none [cl!"p"], [cl!"v", cl!"x"], [cl!"c", cl!"y", cl!"z"]) := by decide +kernel

theorem tSteady : ∀ x t, treeSys.disk.tree ([cl!"p"] ++ x) = some (.link t) →
    (∃ ts, Nm ts ∧ t = pathOf ts) ∧ Steady treeSys [cl!"n", cl!"p"] ([cl!"p"] ++ x) := by
  intro x t hx
  have hp : [cl!"p"] ++ x ∈ treeDisk.ents.map (·.1) := by
    obtain ⟨e, he, e1⟩ := (lookup_isSome treeDisk.ents ([cl!"p"] ++ x)).2 fun e => by
      have : treeSys.disk.tree ([cl!"p"] ++ x) = none := e
      rw [this] at hx; simp at hx
    exact List.mem_map.2 ⟨e, he, e1⟩
  have hc : x = [cl!"x"] ∨ x = [cl!"z"] ∨ x = [cl!"c"] ∨ x = [cl!"v", cl!"w"] := by
    have h5 : ∀ p ∈ treeDisk.ents.map (·.1), [cl!"p"] <+: p → isLinkD (treeDisk.tree p) = true →
      p = [cl!"p", cl!"x"] ∨ p = [cl!"p", cl!"z"] ∨ p = [cl!"p", cl!"c"] ∨ p = [cl!"p", cl!"v", cl!"w"] := by decide +kernel
    have := h5 _ hp (List.prefix_append _ _) (by rw [show treeDisk.tree ([cl!"p"] ++ x) = _ from hx]; rfl)
    simpa using this
  rcases hc with rfl | rfl | rfl | rfl
  · rw [show treeSys.disk.tree ([cl!"p"] ++ [cl!"x"]) = some (.link cl!"/t") by decide +kernel] at hx
    cases hx
    exact ⟨⟨[cl!"t"], by decide +kernel, by decide +kernel⟩, .inl ⟨[cl!"t"], by decide +kernel⟩⟩
  · rw [show treeSys.disk.tree ([cl!"p"] ++ [cl!"z"]) = some (.link cl!"/nope") by decide +kernel] at hx
    cases hx
    refine ⟨⟨[cl!"nope"], by decide +kernel, by decide +kernel⟩, .inr ⟨1, [cl!"nope"], ?_, .inr ⟨by decide, by decide +kernel, ?_, by decide, by decide⟩⟩⟩
    · exact .link (c := [cl!"p", cl!"z"]) (t := [cl!"nope"]) (x := []) (by decide +kernel) (by decide +kernel) (by decide +kernel) (.inr rfl) (.here _)
    · exact all_prefixes (by decide +kernel)
  · rw [show treeSys.disk.tree ([cl!"p"] ++ [cl!"c"]) = some (.link cl!"/p/c") by decide +kernel] at hx
    cases hx
    have hl : Leads treeSys.disk true 1 [cl!"p", cl!"c"] [cl!"p", cl!"c"] :=
      .link (c := [cl!"p", cl!"c"]) (t := [cl!"p", cl!"c"]) (x := []) (by decide +kernel) (by decide +kernel) (by decide +kernel) (.inr rfl) (.here _)
    obtain ⟨m, hm, hl'⟩ := hl.circle 40
    exact ⟨⟨[cl!"p", cl!"c"], by decide +kernel, by decide +kernel⟩, .inr ⟨m, _, hl', .inl hm⟩⟩
  · rw [show treeSys.disk.tree ([cl!"p"] ++ [cl!"v", cl!"w"]) = some (.link cl!"/t/g") by decide +kernel] at hx
    cases hx
    exact ⟨⟨[cl!"t", cl!"g"], by decide +kernel, by decide +kernel⟩, .inl ⟨[cl!"t", cl!"g"], by decide +kernel⟩⟩

/-- /p copied to /n/p, where /n is new, without the link x to a directory -/
example : ∃ s', uCopy sysOps 9 (sAt none [cl!"p"]) (sAt none [cl!"n", cl!"p"]) true [cl!"x"] false treeSys = (.ok (), s') ∧
    s'.disk.tree [cl!"n", cl!"p", cl!"z"] = some (.link cl!"/nope") ∧ s'.disk.tree [cl!"n", cl!"p", cl!"v", cl!"w"] = some (.link cl!"/t/g") ∧
    s'.disk.tree [cl!"n", cl!"p", cl!"x"] = none ∧ siteV (fun _ : Unit => 0) s' none [cl!"n", cl!"p", cl!"y"] = some (.file [8]) := by
  obtain ⟨s', h1, -, -, h2, h3, -⟩ := C99_copy treeSys_ok unit_inj (init := []) (n := cl!"p") (ds := [cl!"n", cl!"p"]) (e := [cl!"n", cl!"p"]) (ig := [cl!"x"])
    (depth := 9) (by decide +kernel) tNm
    (fun x m hx => by
      have := tThere (q := [cl!"p"]) (P := fun p => p = [cl!"p"] ∨ Trimmed (p.getLast?.getD [])) (by decide +kernel) (x := x ++ [m]) (by
        intro hc
        have hx' : tV none ([cl!"p"] ++ (x ++ [m])) = some .dir := hx
        rw [hc] at hx'; simp at hx')
      rcases this with h | h
      · simp at h
      · rw [← List.append_assoc, List.getLast?_append, List.getLast?_singleton] at h
        exact h)
    tSteady (by decide +kernel) (by decide +kernel) (.new (by decide +kernel)) (all_prefixes (by decide +kernel)) (by decide +kernel) (by decide)
    (by decide) tDepth
  have notLeft : ∀ x : List Str, cl!"x" ∉ x → ¬ Left treeSys [cl!"p"] [cl!"x"] x := by
    rintro x hx ⟨a, n, h1, h2, -⟩
    rw [List.mem_singleton] at h2
    subst h2
    exact hx (h1.subset (by simp))
  refine ⟨s', h1, (h3 [cl!"z"] (by simp) (notLeft _ (by decide))).2 _ (by decide +kernel),
    (h3 [cl!"v", cl!"w"] (by simp) (notLeft _ (by decide))).2 _ (by decide +kernel),
    h2 [cl!"x"] (by simp) ⟨[], cl!"x", by simp, by simp, by decide +kernel⟩,
    (h3 [cl!"y"] (by simp) (notLeft _ (by decide))).1.trans (by decide +kernel)⟩

/-- what can be reached from a directory -/
theorem reach {s : Sys} (h : DiskOk s.disk) {src : List Str} {L : List (List Str)} (h0 : [] ∈ L)
    (hs : ∀ x ∈ L, ∀ n ∈ listed s (src ++ x), dirAt s (src ++ (x ++ [n])) = true → x ++ [n] ∈ L) :
    ∀ x, Nm (src ++ x) → dirAt s (src ++ x) = true → x ∈ L := by
  intro x
  induction x using List.reverseRecOn with
  | nil => intro _ _; exact h0
  | append_singleton x n ih =>
    intro hn hd
    obtain ⟨q, pm, h1, h2⟩ := dirAt_find hd
    have hst := stat_find h1
    rw [h2] at hst
    have hn' := hn
    rw [← List.append_assoc] at hst hn'
    obtain ⟨q', pm', g1, g2, g3⟩ := find_snoc h hn' hst
    refine hs x (ih hn'.of_prefix ?_) n (mem_listed.2 ⟨q', g1, g3⟩) hd
    unfold dirAt
    rw [stat_find g1, g2]
    rfl

theorem sReach : ∀ x, Nm ([cl!"s"] ++ x) → dirAt treeSys ([cl!"s"] ++ x) = true → x ∈ [[], [cl!"x"]] :=
  reach treeSys_ok.disk (by decide) (by decide +kernel)

theorem sNames {P : List Str → Str → Prop} (h : ∀ x ∈ [[], [cl!"x"]], ∀ n ∈ listed treeSys ([cl!"s"] ++ x), P x n) :
    ∀ x n, Nm ([cl!"s"] ++ x) → n ∈ listed treeSys ([cl!"s"] ++ x) → P x n :=
  fun x n hx hn => h x (sReach x hx (listed_dir treeSys_ok.disk hn)) n hn

/-- /s and, through the link, /s/x -/
example : ∃ ps : List (List Str), uWalk sysOps 9 (sAt none [cl!"s"]) false true treeSys =
    (.ok (ps.map fun p => rowAt (fun _ : Unit => []) treeSys ([cl!"s"] ++ p)), treeSys) ∧ [cl!"x"] ∈ ps := by
  obtain ⟨ps, h1, h2, -⟩ := C100_walk treeSys_ok (src := [cl!"s"]) (depth := 9) (by decide +kernel) (by decide +kernel)
    (sNames (by decide +kernel)) (fun x h1 h2 => by
      have := sReach x h1 h2
      simp only [List.mem_cons, List.not_mem_nil, or_false] at this
      rcases this with rfl | rfl <;> decide) false
  exact ⟨ps, h1, (h2 _).2 (by decide +kernel)⟩

/-- /s copied into memory: the link x is a directory there, the link y a file -/
theorem sCopy (k' : Option Unit) (hnew : tV k' [cl!"n"] = none) : ∃ s', uCopy sysOps 9 (sAt none [cl!"s"]) (sAt k' [cl!"n"]) true [] true treeSys = (.ok (), s') ∧
    siteV (fun _ : Unit => 0) s' k' [cl!"n", cl!"x"] = some .dir ∧ siteV (fun _ : Unit => 0) s' k' [cl!"n", cl!"x", cl!"g"] = some (.file [1, 2, 3]) ∧
    siteV (fun _ : Unit => 0) s' k' [cl!"n", cl!"y"] = some (.file [1, 2, 3]) := by
  have found : ∀ x q, Nm ([cl!"s"] ++ x) → treeSys.disk.find true (loc ([cl!"s"] ++ x)).path = .here q →
      x ∈ [[], [cl!"x"], [cl!"y"], [cl!"f"], [cl!"x", cl!"g"]] := by
    intro x q hn hq
    rcases List.eq_nil_or_concat x with rfl | ⟨y, m, rfl⟩
    · simp
    · rw [List.concat_eq_append] at *
      obtain ⟨o, ho, -⟩ := find_there treeSys_ok.disk hn hq
      have hst := stat_find hq
      rw [ho] at hst
      rw [← List.append_assoc] at hst hn
      obtain ⟨q', pm', g1, g2, g3⟩ := find_snoc treeSys_ok.disk hn hst
      exact sNames (P := fun x n => x ++ [n] ∈ [[], [cl!"x"], [cl!"y"], [cl!"f"], [cl!"x", cl!"g"]]) (by decide +kernel) y m hn.of_prefix
        (mem_listed.2 ⟨q', g1, g3⟩)
  have foundq : ∀ x q, Nm ([cl!"s"] ++ x) → treeSys.disk.find true (loc ([cl!"s"] ++ x)).path = .here q →
      q ∈ [[cl!"s"], [cl!"t"], [cl!"t", cl!"g"], [cl!"s", cl!"f"]] := by
    intro x q hn hq
    have hx := found x q hn hq
    simp only [List.mem_cons, List.not_mem_nil, or_false] at hx
    rcases hx with rfl | rfl | rfl | rfl | rfl
    · rw [show treeSys.disk.find true (loc ([cl!"s"] ++ [])).path = .here [cl!"s"] by decide +kernel] at hq; cases hq; decide
    · rw [show treeSys.disk.find true (loc ([cl!"s"] ++ [cl!"x"])).path = .here [cl!"t"] by decide +kernel] at hq; cases hq; decide
    · rw [show treeSys.disk.find true (loc ([cl!"s"] ++ [cl!"y"])).path = .here [cl!"t", cl!"g"] by decide +kernel] at hq; cases hq; decide
    · rw [show treeSys.disk.find true (loc ([cl!"s"] ++ [cl!"f"])).path = .here [cl!"s", cl!"f"] by decide +kernel] at hq; cases hq; decide
    · rw [show treeSys.disk.find true (loc ([cl!"s"] ++ [cl!"x", cl!"g"])).path = .here [cl!"t", cl!"g"] by decide +kernel] at hq; cases hq; decide
  obtain ⟨s', h1, -, -, -, h3, -⟩ := C100_copy treeSys_ok unit_inj (k' := k') (init := []) (n := cl!"s") (ds := [cl!"n"]) (e := [cl!"n"]) (ig := [])
    (depth := 9) (by decide +kernel) (by decide +kernel) (sNames (by decide +kernel))
    (fun x m h1 h2 => by
      have := sReach (x ++ [m]) h1 h2
      simp only [List.mem_cons, List.not_mem_nil, or_false] at this
      rcases this with hx | hx
      · simp at hx
      · obtain ⟨-, hm⟩ := List.append_inj' (s₁ := x) (s₂ := []) hx rfl
        simp only [List.cons.injEq, and_true] at hm
        subst hm; decide)
    (sNames (by decide +kernel))
    (fun x q hn hq _ => (by decide +kernel : ∀ q ∈ [[cl!"s"], [cl!"t"], [cl!"t", cl!"g"], [cl!"s", cl!"f"]], Nm q) q (foundq x q hn hq))
    (fun _ x q hn hq _ => (by decide +kernel : ∀ q ∈ [[cl!"s"], [cl!"t"], [cl!"t", cl!"g"], [cl!"s", cl!"f"]], ¬ q <+: [cl!"n"]) q (foundq x q hn hq))
    (by decide +kernel) (by decide +kernel) (.new hnew)
    (fun p hp => by
      rcases List.prefix_cons_iff.1 hp with rfl | ⟨p', rfl, hp'⟩
      · exact .inl (site_root treeSys_ok)
      · rw [List.prefix_nil.1 hp']; exact .inr hnew) hnew (by decide)
    (fun x h1 h2 => by
      have := sReach x h1 h2
      simp only [List.mem_cons, List.not_mem_nil, or_false] at this
      rcases this with rfl | rfl <;> decide)
  have notLeft : ∀ x : List Str, ¬ Left treeSys [cl!"s"] [] x := by
    rintro x ⟨a, n, -, h2, -⟩; simp at h2
  exact ⟨s', h1, (h3 [cl!"x"] (by simp) (by decide +kernel) (notLeft _)).trans (by decide +kernel),
    (h3 [cl!"x", cl!"g"] (by simp) (by decide +kernel) (notLeft _)).trans (by decide +kernel),
    (h3 [cl!"y"] (by simp) (by decide +kernel) (notLeft _)).trans (by decide +kernel)⟩

example : ∃ s', uCopy sysOps 9 (sAt none [cl!"s"]) (sAt none [cl!"n"]) true [] true treeSys = (.ok (), s') ∧
    siteV (fun _ : Unit => 0) s' none [cl!"n", cl!"x", cl!"g"] = some (.file [1, 2, 3]) := by
  obtain ⟨s', h1, -, h2, -⟩ := sCopy none (by decide +kernel)
  exact ⟨s', h1, h2⟩

example : ∃ s', uCopy sysOps 9 (sAt none [cl!"s"]) (sAt (some ()) [cl!"n"]) true [] true treeSys = (.ok (), s') ∧
    siteV (fun _ : Unit => 0) s' (some ()) [cl!"n", cl!"y"] = some (.file [1, 2, 3]) := by
  obtain ⟨s', h1, -, -, h2⟩ := sCopy (some ()) (by decide +kernel)
  exact ⟨s', h1, h2⟩

/-! ## What does not hold -/

/-- A link with a relative text in a tree that is copied as it is leads elsewhere in the copy. -/
theorem C99_relative_refuted : ∃ s : Sys, SysOk (fun _ : Unit => []) (fun _ => 0) s ∧
    s.disk.tree [cl!"o", cl!"k"] = some (.link cl!"../t/g") ∧ (uIsfile sysOps (sAt none [cl!"o", cl!"k"]) s).1 = .ok true ∧
    (uCopy sysOps 9 (sAt none [cl!"o"]) (sAt none [cl!"n"]) true [] false s).1 = .ok () ∧
    (uCopy sysOps 9 (sAt none [cl!"o"]) (sAt none [cl!"n"]) true [] false s).2.disk.tree [cl!"n", cl!"k"] ≠ some (.link cl!"../t/g") :=
  ⟨treeSys, treeSys_ok, by decide +kernel, by decide +kernel, by decide +kernel, by decide +kernel⟩

/-- Copying a tree with a link that leads nowhere, following links, raises after the directory has been made. -/
theorem C100_dangling_refuted : ∃ s : Sys, SysOk (fun _ : Unit => []) (fun _ => 0) s ∧ s.disk.tree [cl!"b", cl!"z"] = some (.link cl!"/nope") ∧
    (uCopy sysOps 9 (sAt none [cl!"b"]) (sAt none [cl!"n"]) true [] true s).1 = .error (.os .ENOENT) ∧
    siteV (fun _ : Unit => 0) (uCopy sysOps 9 (sAt none [cl!"b"]) (sAt none [cl!"n"]) true [] true s).2 none [cl!"n"] = some .dir :=
  ⟨treeSys, treeSys_ok, by decide +kernel, by decide +kernel, by decide +kernel⟩

end Verif.Props
