import Verif.Any.LocLink
import Verif.Local.Lemmas
/-! # Moving local files and directories, links among them -/
namespace Verif.Any
open Verif.Spec Verif.Gen

/-! ## Renaming -/

/-- what it means that the object at `s`, with all below it, is now at `t`, and nothing else has changed -/
structure Shifted (d d' : Disk) (s t : List Str) : Prop where
  there : ∀ x, d'.tree (t ++ x) = d.tree (s ++ x)
  gone : ∀ q, s <+: q → ¬ t <+: q → d'.tree q = none
  rest : ∀ q, ¬ s <+: q → ¬ t <+: q → d'.tree q = d.tree q

theorem lookup_nodup {β : Type} {l : List (List Str × β)} (h : (l.map (·.1)).Nodup) {q : List Str} {o : β} :
    l.lookup q = some o ↔ (q, o) ∈ l := by
  induction l with
  | nil => simp
  | cons x l ih =>
    obtain ⟨a, b⟩ := x
    rw [List.map_cons, List.nodup_cons] at h
    rw [List.lookup_cons]
    by_cases e : q = a
    · subst e
      simp only [beq_self_eq_true, List.mem_cons, Prod.mk.injEq, true_and]
      constructor
      · intro h'; exact .inl (Option.some.inj h').symm
      · rintro (h' | h')
        · rw [h']
        · exact absurd (List.mem_map.2 ⟨_, h', rfl⟩) h.1
    · have : (q == a) = false := by simpa using e
      rw [this, ih h.2]
      simp [e]

theorem prefix_cases {s t q : List Str} (h1 : s <+: q) (h2 : t <+: q) : s <+: t ∨ t <+: s := by
  rcases Nat.le_total s.length t.length with h | h
  · exact .inl (List.prefix_of_prefix_length_le h1 h2 h)
  · exact .inr (List.prefix_of_prefix_length_le h2 h1 h)

theorem rebase_inj {s t p q : List Str} (hp : ¬ t <+: p) (hq : ¬ t <+: q) (h : rebase s t p = rebase s t q) : p = q := by
  unfold rebase at h
  split at h <;> split at h
  · rename_i h1 h2
    obtain ⟨x, rfl⟩ := h1
    obtain ⟨y, rfl⟩ := h2
    simpa using h
  · exact absurd ⟨_, h⟩ hq
  · exact absurd ⟨_, h.symm⟩ hp
  · exact h

theorem rename_nodup {d : Disk} (h : DiskOk d) (s t : List Str) : ((d.rename s t).ents.map (·.1)).Nodup := by
  have h1 : ((d.ents.filter fun e => ¬ t <+: e.1).map (·.1)).Nodup := h.nodup.sublist ((List.filter_sublist).map _)
  have e : (d.rename s t).ents.map (·.1) = ((d.ents.filter fun e => ¬ t <+: e.1).map (·.1)).map (rebase s t) := by
    simp [Disk.rename]
  rw [e]
  refine List.pairwise_map.2 (h1.imp_of_mem fun {p q} hp hq hne he => hne ?_)
  obtain ⟨x, hx, rfl⟩ := List.mem_map.1 hp
  obtain ⟨y, hy, rfl⟩ := List.mem_map.1 hq
  exact rebase_inj (by simpa using (List.mem_filter.1 hx).2) (by simpa using (List.mem_filter.1 hy).2) he

theorem rename_some {d : Disk} (h : DiskOk d) {s t q : List Str} {o : DObj} :
    (d.rename s t).tree q = some o ↔ ∃ p, d.tree p = some o ∧ ¬ t <+: p ∧ q = rebase s t p := by
  unfold Disk.tree
  rw [lookup_nodup (rename_nodup h s t)]
  constructor
  · intro hm
    obtain ⟨⟨p, o'⟩, hp, he⟩ := List.mem_map.1 hm
    obtain ⟨rfl, rfl⟩ := by simpa using he
    obtain ⟨h1, h2⟩ := List.mem_filter.1 hp
    exact ⟨p, (lookup_nodup h.nodup).2 h1, by simpa using h2, rfl⟩
  · rintro ⟨p, h1, h2, rfl⟩
    exact List.mem_map.2 ⟨(p, o), List.mem_filter.2 ⟨(lookup_nodup h.nodup).1 h1, by simpa using h2⟩, rfl⟩

/-- a rename does what it should -/
theorem rename_shifted {d : Disk} (h : DiskOk d) {s t : List Str} (h1 : ¬ s <+: t) (h2 : ¬ t <+: s) :
    Shifted d (d.rename s t) s t := by
  refine ⟨fun x => Option.ext fun o => ?_, fun q hq hq' => Option.eq_none_iff_forall_ne_some.2 fun o ho => ?_,
    fun q hq hq' => Option.ext fun o => ?_⟩
  · rw [rename_some h]
    constructor
    · rintro ⟨p, e1, e2, e3⟩
      unfold rebase at e3
      split at e3
      · rename_i hp
        obtain ⟨y, rfl⟩ := hp
        rw [List.drop_left, List.append_cancel_left_eq] at e3
        rwa [e3]
      · exact absurd ⟨x, e3⟩ e2
    · intro ho
      refine ⟨s ++ x, ho, fun hp => ?_, by simp [rebase]⟩
      rcases prefix_cases (List.prefix_append s x) hp with c | c
      · exact h1 c
      · exact h2 c
  · obtain ⟨p, e1, e2, e3⟩ := (rename_some h).1 ho
    unfold rebase at e3
    split at e3
    · exact hq' ⟨_, e3.symm⟩
    · rename_i hp
      exact hp (e3 ▸ hq)
  · rw [rename_some h]
    constructor
    · rintro ⟨p, e1, e2, e3⟩
      unfold rebase at e3
      split at e3
      · exact absurd ⟨_, e3.symm⟩ hq'
      · rwa [e3]
    · intro ho
      exact ⟨q, ho, hq', by simp [rebase, hq]⟩

/-- after it, the objects still form a tree -/
theorem DiskOk.rename {d : Disk} (h : DiskOk d) {s e : List Str} {m : Str} (h1 : ¬ s <+: e ++ [m]) (h2 : ¬ e ++ [m] <+: s)
    {p : Nat} (hp : d.tree e = some (.dir p)) : DiskOk (d.rename s (e ++ [m])) := by
  have S := rename_shifted h h1 h2
  have hs : s ≠ [] := fun c => h1 (c ▸ List.nil_prefix)
  refine ⟨rename_nodup h _ _, ?_, fun q c hc => ?_⟩
  · rw [S.rest [] (by simpa using hs) (by simp)]
    exact h.root
  · by_cases ht : e ++ [m] <+: q ++ [c]
    · rcases prefix_snoc_iff.1 ht with ⟨x, rfl⟩ | e1
      · rw [List.append_assoc, S.there, ← List.append_assoc] at hc
        rw [S.there]; exact h.tree _ _ hc
      · obtain ⟨rfl, rfl⟩ : e = q ∧ m = c := by
          have := List.append_inj' e1 rfl
          exact ⟨this.1, by simpa using this.2⟩
        rw [S.rest e (fun c => h1 (c.trans (List.prefix_append _ _))) fun c => by
          have := c.length_le; simp at this; omega]
        exact ⟨p, hp⟩
    · have hq : ¬ e ++ [m] <+: q := fun c => ht (c.trans (List.prefix_append _ _))
      by_cases hs' : s <+: q ++ [c]
      · rw [S.gone _ hs' ht] at hc; exact absurd rfl hc
      · rw [S.rest _ hs' ht] at hc
        rw [S.rest q (fun c => hs' (c.trans (List.prefix_append _ _))) hq]
        exact h.tree _ _ hc

/-! ## Paths -/

theorem noOwnName_loc {a : List Str} {n : Str} (h : Nm (a ++ [n])) : noOwnName (loc (a ++ [n])).path = false := by
  unfold noOwnName
  rw [comps_loc h]
  simpa using h.dots n (by simp)

theorem absNames_loc {cs : List Str} (h : Nm cs) (d : Disk) : absNames d (loc cs).path = cs := by
  have e : startsWith (loc cs).path cl!"/" = true := by
    rw [loc_path h]
    cases cs <;> simp [pathOf, startsWith, slash]
  unfold absNames
  rw [if_pos e, comps_loc h, List.nil_append]
  have key : ∀ (l acc : List Str), (∀ n ∈ l, n ≠ cl!"..") →
      l.foldl (fun l n => if n = cl!".." then l.dropLast else l ++ [n]) acc = acc ++ l := by
    intro l
    induction l with
    | nil => intro acc _; simp
    | cons n l ih =>
      intro acc hl
      rw [List.foldl_cons, if_neg (hl n (by simp)), ih _ fun x hx => hl x (by simp [hx])]
      simp
  simpa using key cs [] h.dots

theorem join_loc {q : List Str} {a : List Str} {n : Str} (h : Nm (a ++ [n])) (hq : Nm (q ++ [n])) :
    Local.osJoin (loc q).path (Local.shBasename (loc (a ++ [n])).path) = (loc (q ++ [n])).path := by
  rw [loc_path h, loc_path hq.of_prefix, loc_path hq, Local.shBasename_pathOf h.ok.clean, Local.osJoin_pathOf hq.of_prefix.ok.clean]

theorem Nm.snoc {cs ds : List Str} {m : Str} (h : Nm cs) (hd : Nm (ds ++ [m])) (hne : cs ≠ []) : Nm (cs ++ [m]) := by
  obtain ⟨c, l, rfl⟩ := List.exists_cons_of_ne_nil hne
  refine ⟨⟨fun x hx => ?_, fun r hr => h.ok.head r (by simpa using hr)⟩, fun x hx => ?_, fun r hr => h.noColon r (by simpa using hr)⟩
  · rcases List.mem_append.1 hx with hx | hx
    · exact h.ok.clean x hx
    · exact hd.ok.clean x (by rw [List.mem_singleton.1 hx]; simp)
  · rcases List.mem_append.1 hx with hx | hx
    · exact h.noDots x hx
    · exact hd.noDots x (by rw [List.mem_singleton.1 hx]; simp)

theorem Leads.root {d : Disk} (h : DiskOk d) {fl : Bool} {k : Nat} {q : List Str} (hl : Leads d fl k [] q) : q = [] := by
  have key : ∀ z, z = [] → Leads d fl k z q → q = [] := fun z hz hl => by
    cases hl with
    | here => exact hz
    | link hc _ _ _ _ => exact absurd (List.append_eq_nil_iff.1 hz).1 (h.ne_root hc rfl)
  exact key _ rfl hl

/-- what the links in a path lead to, for a path below it -/
theorem Leads.under {d : Disk} (h : DiskOk d) {k : Nat} {q ds : List Str} (hl : Leads d true k q ds) (fl : Bool) {m : Str} (hd : Nm (ds ++ [m])) :
    Leads d fl k (q ++ [m]) (ds ++ [m]) := by
  induction hl with
  | here q => exact .here _
  | @link c t x q n hc hn hn' hx hl ih =>
    have hne : c ≠ [] := h.ne_root hc rfl
    have h1 : Nm (c ++ x ++ [m]) := hn.snoc hd (by simp [hne])
    have h2 : Nm (t ++ x ++ [m]) := by
      by_cases e : t ++ x = []
      · rw [e]
        rw [e] at hl
        rw [hl.root h] at hd
        exact hd
      · exact hn'.snoc hd e
    rw [List.append_assoc] at h1 h2 ⊢
    refine .link hc h1 h2 (.inl (by simp)) ?_
    rw [← List.append_assoc]
    exact ih hd

/-- the last name of a path is that of the object, unless a link at the end is followed -/
theorem Leads.last {d : Disk} {k : Nat} {p q : List Str} {n : Str} (hl : Leads d false k p (q ++ [n])) : ∃ a, p = a ++ [n] := by
  generalize hz : q ++ [n] = z at hl
  induction hl with
  | here => exact ⟨q, hz.symm⟩
  | @link c t x _ _ _ _ _ hx _ ih =>
    obtain ⟨a, ha⟩ := ih hz
    have hx : x ≠ [] := hx.resolve_right Bool.false_ne_true
    rcases List.eq_nil_or_concat x with rfl | ⟨y, b, rfl⟩
    · exact absurd rfl hx
    · rw [List.concat_eq_append, ← List.append_assoc] at ha
      have : b = n := by simpa using (List.append_inj' ha rfl).2
      subst this
      exact ⟨c ++ y, by simp⟩

section
variable {d : Disk} (h : DiskOk d)
include h

/-- a path to an object -/
theorem find_obj {fl : Bool} {k : Nat} {p q : List Str} (hl : Leads d fl k p q) (hk : k ≤ 40) (hn : Nm p) (hn' : Nm q) {o : DObj}
    (ho : d.tree q = some o) (hf : fl = false ∨ isLinkD (some o) = false) : d.find fl (loc p).path = .here q := by
  rw [find_leads h hl hk hn hn', find_here h hn' ho hf]
  intro c hc hor
  by_cases e : c = q
  · subst e
    rw [ho]
    rcases hf with hf | hf
    · exact absurd hor (by simp [hf])
    · exact hf
  · obtain ⟨p, hp⟩ := h.above (by rw [ho]; simp) hc e
    rw [hp]; rfl

/-- a path to a free name in a directory -/
theorem find_new {fl : Bool} {k : Nat} {q ds : List Str} (hl : Leads d true k q ds) (hk : k ≤ 40) {m : Str} (hn : Nm (q ++ [m]))
    (hn' : Nm (ds ++ [m])) {p : Nat} (hd : d.tree ds = some (.dir p)) (ho : d.tree (ds ++ [m]) = none) :
    d.find fl (loc (q ++ [m])).path = .free ds m := by
  rw [find_leads h (hl.under h fl hn') hk hn hn', find_free h hn' hd ho]
  intro c hc hor
  rcases prefix_snoc_iff.1 hc with hc | rfl
  · by_cases e : c = ds
    · rw [e, hd]; rfl
    · obtain ⟨p, hp⟩ := h.above (by rw [hd]; simp) hc e
      rw [hp]; rfl
  · rw [ho]; rfl

omit h in
/-- renaming to a free name -/
theorem osRename_new {P P' : Str} {s c : List Str} {m : Str} (h1 : noOwnName P = false) (h2 : noOwnName P' = false)
    (hp : d.find false P = .here s) (hq : d.find false P' = .free c m) (hne : ¬ s <+: c ++ [m]) :
    osRename P P' d = (.ok (), d.rename s (c ++ [m])) := by
  unfold osRename
  rw [h1, h2, if_neg (by simp), hp]
  simp only [hq, if_neg hne]

/-- renaming something that is no directory, to the name of something that is none -/
theorem osRename_onto {P P' : Str} {s t : List Str} (h1 : noOwnName P = false) (h2 : noOwnName P' = false)
    (hp : d.find false P = .here s) (hq : d.find false P' = .here t) {o o' : DObj} (ho : d.tree s = some o)
    (ho' : d.tree t = some o') (hd : isDirD (some o) = false) (hd' : isDirD (some o') = false) (hne : s ≠ t) :
    osRename P P' d = (.ok (), d.rename s t) ∧ ¬ s <+: t ∧ ¬ t <+: s := by
  have k1 : ¬ s <+: t := fun c => by
    obtain ⟨x, hx⟩ := h.above (by rw [ho']; simp) c hne
    rw [ho] at hx; rw [hx] at hd; simp [isDirD] at hd
  have k2 : ¬ t <+: s := fun c => by
    obtain ⟨x, hx⟩ := h.above (by rw [ho]; simp) c hne.symm
    rw [ho'] at hx; rw [hx] at hd'; simp [isDirD] at hd'
  have k3 : d.names t = [] := by
    rw [List.eq_nil_iff_forall_not_mem]
    intro x hx
    exact mem_diskNames.1 hx (h.leaf ho' hd' x)
  refine ⟨?_, k1, k2⟩
  unfold osRename
  rw [h1, h2, if_neg (by simp), hp]
  simp only [hq]
  rw [if_neg hne, if_neg k1, if_neg k2, ho, ho', hd, hd', k3]
  simp

/-- renaming a directory to the name of something that is none -/
theorem osRename_dir_onto {P P' : Str} {s t : List Str} (h1 : noOwnName P = false) (h2 : noOwnName P' = false)
    (hp : d.find false P = .here s) (hq : d.find false P' = .here t) {x : Nat} {o' : DObj} (ho : d.tree s = some (.dir x))
    (ho' : d.tree t = some o') (hd' : isDirD (some o') = false) :
    ∃ e, osRename P P' d = (.error e, d) ∧ e ≠ .outside := by
  have hne : s ≠ t := by rintro rfl; rw [ho] at ho'; rw [← ho'] at hd'; simp [isDirD] at hd'
  have k2 : ¬ t <+: s := fun c => by
    obtain ⟨x, hx⟩ := h.above (by rw [ho]; simp) c hne.symm
    rw [ho'] at hx; rw [hx] at hd'; simp [isDirD] at hd'
  unfold osRename
  rw [h1, h2, if_neg (by simp), hp]
  simp only [hq]
  rw [if_neg hne]
  by_cases k1 : s <+: t
  · rw [if_pos k1]; exact ⟨_, rfl, by simp⟩
  · rw [if_neg k1, if_neg k2, ho, ho', hd', if_pos (by simp [isDirD])]
    exact ⟨_, rfl, by simp⟩

/-- renaming a directory to the name of an empty one -/
theorem osRename_empty {P P' : Str} {s t : List Str} (h1 : noOwnName P = false) (h2 : noOwnName P' = false)
    (hp : d.find false P = .here s) (hq : d.find false P' = .here t) {x y : Nat} (ho : d.tree s = some (.dir x))
    (ho' : d.tree t = some (.dir y)) (he : ∀ n, d.tree (t ++ [n]) = none) (k1 : ¬ s <+: t) :
    osRename P P' d = (.ok (), d.rename s t) ∧ ¬ t <+: s := by
  have hne : s ≠ t := fun c => k1 (c ▸ List.prefix_refl _)
  have k2 : ¬ t <+: s := by
    rintro ⟨z, rfl⟩
    cases z with
    | nil => simp at hne
    | cons c z =>
      by_cases hz : z = []
      · subst hz; rw [he c] at ho; cases ho
      · obtain ⟨w, hw⟩ := h.above (q := t ++ c :: z) (c := t ++ [c]) (by rw [ho]; simp) ⟨z, by simp⟩ (by simpa using Ne.symm hz)
        rw [he c] at hw; cases hw
  have k3 : d.names t = [] := by
    rw [List.eq_nil_iff_forall_not_mem]
    intro x hx
    exact mem_diskNames.1 hx (he x)
  refine ⟨?_, k2⟩
  unfold osRename
  rw [h1, h2, if_neg (by simp), hp]
  simp only [hq]
  rw [if_neg hne, if_neg k1, if_neg k2, ho, ho', k3]
  simp [isDirD]

omit h in
theorem shDirname_loc {q : List Str} {m : Str} (hn : Nm (q ++ [m])) : shDirname (loc (q ++ [m])).path = (loc q).path := by
  have hc := hn.ok.clean
  rw [loc_path hn, loc_path hn.of_prefix]
  have e : (splitC '/' (pathOf (q ++ [m]))).getLast?.getD [] = m := by
    rw [pathOf_ne (by simp), Local.splitC_slash fun c hx => (hc c hx).chars.not_mem (by simp),
      show ([] : Str) :: (q ++ [m]) = ([] :: q) ++ [m] from rfl, List.getLast?_concat]
    rfl
  unfold shDirname
  rw [e, pathOf_snoc]
  have e2 : (slash q ++ '/' :: m).take ((slash q ++ '/' :: m).length - m.length) = slash q ++ cl!"/" := by
    have : slash q ++ '/' :: m = (slash q ++ cl!"/") ++ m := by simp
    rw [this, List.length_append, Nat.add_sub_cancel, List.take_left]
  simp only [e2, rstripC_append_self]
  cases q with
  | nil => rfl
  | cons c q =>
    have := rstrip_pathOf hn.of_prefix.ok.clean
    rw [pathOf_ne (by simp)] at this ⊢
    rw [this, if_neg (by simp [slash_cons])]

omit h in
/-- making the directories above a place: what is not there is made -/
theorem osMakedirs_ok : ∀ (w : List Str) (k : Nat) (_ : w.length ≤ k) (d : Disk) (_ : DiskOk d) (_ : Nm w)
    (_ : ∀ p, p <+: w → isDirD (d.tree p) = true ∨ d.tree p = none) (_ : d.tree w = none),
    ∃ d', osMakedirs k (loc w).path d = (.ok (), d') ∧ DiskOk d' ∧ d'.umask = d.umask ∧
      ∀ p, d'.tree p = if p <+: w ∧ d.tree p = none then some (.dir (Local.clearBits 0o777 d.umask)) else d.tree p := by
  intro w
  induction w using List.reverseRecOn with
  | nil =>
    intro k _ d h _ _ hv
    obtain ⟨x, hx⟩ := h.root
    rw [hx] at hv; cases hv
  | append_singleton q m ih =>
    intro k hk d h hn hc hv
    obtain ⟨k, rfl⟩ : ∃ k', k = k' + 1 := ⟨k - 1, by simp at hk; omega⟩
    have hnl : ∀ p, p <+: q ++ [m] → isLinkD (d.tree p) = false := fun p hp => by
      rcases hc p hp with e | e
      · cases e2 : d.tree p with
        | none => rfl
        | some o => rw [e2] at e; cases o <;> simp_all [isDirD, isLinkD]
      · rw [e]; rfl
    have hpq : q <+: q ++ [m] := List.prefix_append _ _
    unfold osMakedirs
    rw [shDirname_loc hn]
    cases hq : d.tree q with
    | none =>
      have e0 : (d.stat true (loc q).path) = none := stat_none h hn.of_prefix hq fun p hp => hnl p (hp.trans hpq)
      rw [if_pos ⟨loc_path_ne hn.of_prefix, by rw [e0]; rfl⟩]
      obtain ⟨d1, m1, ok1, u1, t1⟩ := ih k (by simp at hk; omega) d h hn.of_prefix (fun p hp => hc p (hp.trans hpq)) hq
      rw [m1]
      simp only
      have hq1 : d1.tree q = some (.dir (Local.clearBits 0o777 d.umask)) := by rw [t1, if_pos ⟨List.prefix_refl _, hq⟩]
      have hnp : ¬ q ++ [m] <+: q := fun c => by have := c.length_le; simp at this; omega
      have hv1 : d1.tree (q ++ [m]) = none := by rw [t1, if_neg (fun c => hnp c.1), hv]
      refine ⟨d1.set (q ++ [m]) (.dir (Local.clearBits 0o777 d1.umask)), by unfold osMkdir; rw [find_free ok1 hn hq1 hv1], ?_, u1, fun p => ?_⟩
      · refine ok1.set (fun c n hcn => ?_) (.inl ⟨_, rfl⟩)
        rw [← (List.append_inj' hcn rfl).1]; exact ⟨_, hq1⟩
      · rw [tree_set, u1]
        by_cases e : p = q ++ [m]
        · subst e; rw [if_pos rfl, if_pos ⟨List.prefix_refl _, hv⟩]
        · rw [if_neg e, t1]
          have : p <+: q ++ [m] ↔ p <+: q := by
            rw [prefix_snoc_iff]; simp [e]
          simp only [this]
    | some o =>
      have ho : ∃ x, o = .dir x := by
        rcases hc q hpq with e | e
        · rw [hq] at e; cases o <;> simp_all [isDirD]
        · rw [hq] at e; cases e
      obtain ⟨x, rfl⟩ := ho
      rw [if_neg (fun c => by rw [stat_here h hn.of_prefix hq (.inr rfl)] at c; simp at c)]
      refine ⟨d.set (q ++ [m]) (.dir (Local.clearBits 0o777 d.umask)), by unfold osMkdir; rw [find_free h hn hq hv], ?_, rfl, fun p => ?_⟩
      · refine h.set (fun c n hcn => ?_) (.inl ⟨_, rfl⟩)
        rw [← (List.append_inj' hcn rfl).1]; exact ⟨_, hq⟩
      · rw [tree_set]
        by_cases e : p = q ++ [m]
        · subst e; rw [if_pos rfl, if_pos ⟨List.prefix_refl _, hv⟩]
        · rw [if_neg e, if_neg]
          rintro ⟨hp, hpn⟩
          rcases prefix_snoc_iff.1 hp with c | c
          · by_cases e2 : p = q
            · rw [e2, hq] at hpn; cases hpn
            · obtain ⟨y, hy⟩ := h.above (by rw [hq]; simp) c e2
              rw [hy] at hpn; cases hpn
          · exact e c

omit h in
theorem path_length {w : List Str} (hn : Nm w) : w.length ≤ (loc w).path.length := by
  rw [loc_path hn]
  have key : ∀ l : List Str, l.length ≤ (slash l).length := fun l => by
    induction l with
    | nil => simp
    | cons c l ih => rw [slash_cons]; simp; omega
  cases w with
  | nil => simp
  | cons c l => rw [pathOf_ne (by simp)]; exact key _

end

end Verif.Any
