import Verif.Any.LocUri
import Verif.Py.SortLemmas
/-! # The operating system's objects in a list -/
namespace Verif.Any
open Verif.Spec Verif.Gen

theorem lookup_filter_ne {β : Type} (l : List (List Str × β)) {q p : List Str} (h : p ≠ q) :
    (l.filter (·.1 ≠ q)).lookup p = l.lookup p := by
  induction l with
  | nil => rfl
  | cons x l ih =>
    obtain ⟨a, b⟩ := x
    by_cases ha : a = q
    · subst ha
      have : (p == a) = false := by simpa using h
      rw [List.filter_cons_of_neg (by simp), ih, List.lookup_cons, this]
    · rw [List.filter_cons_of_pos (by simpa using ha), List.lookup_cons, List.lookup_cons, ih]

theorem lookup_filter_eq {β : Type} (l : List (List Str × β)) (q : List Str) :
    (l.filter (·.1 ≠ q)).lookup q = none := by
  rw [List.lookup_eq_none_iff]
  intro p hp
  have : p.1 ≠ q := by simpa using (List.mem_filter.1 hp).2
  simpa using Ne.symm this

theorem tree_set (d : Disk) (q : List Str) (o : DObj) (p : List Str) :
    (d.set q o).tree p = if p = q then some o else d.tree p := by
  unfold Disk.set Disk.tree
  split
  · rename_i h; subst h; simp
  · rename_i h
    have : (p == q) = false := by simpa using h
    rw [List.lookup_cons, this]
    exact lookup_filter_ne _ h

theorem tree_del (d : Disk) (q p : List Str) : (d.del q).tree p = if p = q then none else d.tree p := by
  unfold Disk.del Disk.tree
  split
  · rename_i h; subst h; exact lookup_filter_eq _ _
  · rename_i h; exact lookup_filter_ne _ h

theorem lookup_isSome {β : Type} (l : List (List Str × β)) (q : List Str) :
    (∃ x ∈ l, x.1 = q) ↔ l.lookup q ≠ none := by
  rw [ne_eq, List.lookup_eq_none_iff]
  constructor
  · rintro ⟨x, h1, h2⟩ h; have := h x h1; simp [h2] at this
  · intro h
    by_contra hc
    refine h fun p hp => ?_
    by_contra h'
    have : q = p.1 := by simpa using h'
    exact hc ⟨p, hp, this.symm⟩

theorem mem_diskNames {d : Disk} {q : List Str} {n : Str} : n ∈ d.names q ↔ d.tree (q ++ [n]) ≠ none := by
  unfold Disk.names Disk.tree
  rw [← lookup_isSome, List.mem_filterMap]
  constructor
  · rintro ⟨x, h1, h2⟩
    split at h2
    · rename_i h
      refine ⟨x, h1, ?_⟩
      have := List.dropLast_append_getLast? n h2
      rw [← this, h.2]
    · simp at h2
  · rintro ⟨x, h1, h2⟩
    exact ⟨x, h1, by rw [h2]; simp⟩

/-- the operating system's objects form a tree -/
structure DiskOk (d : Disk) : Prop where
  nodup : (d.ents.map (·.1)).Nodup
  root : ∃ p, d.tree [] = some (.dir p)
  tree : ∀ q n, d.tree (q ++ [n]) ≠ none → ∃ p, d.tree q = some (.dir p)

theorem diskNames_nodup {d : Disk} (h : (d.ents.map (·.1)).Nodup) (q : List Str) : (d.names q).Nodup := by
  unfold Disk.names
  generalize d.ents = l at h
  induction l with
  | nil => simp
  | cons x l ih =>
    rw [List.map_cons, List.nodup_cons] at h
    rw [List.filterMap_cons]
    split
    · exact ih h.2
    · rename_i b hb
      refine List.nodup_cons.2 ⟨?_, ih h.2⟩
      intro hm
      obtain ⟨y, h1, h2⟩ := List.mem_filterMap.1 hm
      split at hb
      · rename_i hx
        split at h2
        · rename_i hy
          have e1 := List.dropLast_append_getLast? b hb
          have e2 := List.dropLast_append_getLast? b h2
          rw [hx.2] at e1
          rw [hy.2] at e2
          exact h.1 (List.mem_map.2 ⟨y, h1, by rw [← e1, ← e2]⟩)
        · simp at h2
      · simp at hb

theorem filter_keys_nodup {β : Type} {l : List (List Str × β)} (h : (l.map (·.1)).Nodup) (q : List Str) :
    ((l.filter (·.1 ≠ q)).map (·.1)).Nodup ∧ q ∉ (l.filter (·.1 ≠ q)).map (·.1) := by
  refine ⟨h.sublist ((List.filter_sublist).map _), ?_⟩
  simp

/-- a new object in a directory, or another object of the same sort -/
theorem DiskOk.set {d : Disk} (h : DiskOk d) {q : List Str} {o : DObj}
    (hp : ∀ c n, q = c ++ [n] → ∃ p, d.tree c = some (.dir p))
    (hk : (∃ p, o = .dir p) ∨ (q ≠ [] ∧ ∀ n, d.tree (q ++ [n]) = none)) : DiskOk (d.set q o) := by
  refine ⟨?_, ?_, ?_⟩
  · obtain ⟨h1, h2⟩ := filter_keys_nodup h.nodup q
    exact List.nodup_cons.2 ⟨h2, h1⟩
  · rw [tree_set]
    split
    · rename_i hq
      rcases hk with ⟨p, rfl⟩ | ⟨hne, -⟩
      · exact ⟨p, rfl⟩
      · exact absurd hq.symm hne
    · exact h.root
  · intro c n hn
    rw [tree_set] at hn ⊢
    have : ∃ p, d.tree c = some (.dir p) := by
      split at hn
      · rename_i e; exact hp c n e.symm
      · exact h.tree c n hn
    split
    · rename_i e
      subst e
      rcases hk with ⟨p, rfl⟩ | ⟨-, hk⟩
      · exact ⟨p, rfl⟩
      · rw [if_neg (by simp), hk n] at hn
        exact absurd rfl hn
    · exact this

/-- taking away an object below which there is nothing -/
theorem DiskOk.del {d : Disk} (h : DiskOk d) {q : List Str} (hq : q ≠ []) (hk : ∀ n, d.tree (q ++ [n]) = none) :
    DiskOk (d.del q) := by
  refine ⟨(filter_keys_nodup h.nodup q).1, ?_, ?_⟩
  · rw [tree_del, if_neg hq.symm]; exact h.root
  · intro c n hn
    rw [tree_del] at hn ⊢
    split at hn
    · exact absurd rfl hn
    · split
      · rename_i e; subst e; exact absurd (hk n) hn
      · exact h.tree c n hn

theorem DiskOk.fds {d : Disk} (h : DiskOk d) (l : List (List Str × Nat)) : DiskOk { d with fds := l } :=
  ⟨h.nodup, h.root, h.tree⟩

/-- nothing is below what is no directory -/
theorem DiskOk.leaf {d : Disk} (h : DiskOk d) {q : List Str} {o : DObj} (hf : d.tree q = some o) (ho : isDirD (some o) = false) (n : Str) :
    d.tree (q ++ [n]) = none := by
  by_contra hc
  obtain ⟨p', hp⟩ := h.tree q n hc
  rw [hf] at hp
  rw [hp] at ho
  simp [isDirD] at ho

theorem DiskOk.ne_root {d : Disk} (h : DiskOk d) {q : List Str} {o : DObj} (hf : d.tree q = some o) (ho : isDirD (some o) = false) :
    q ≠ [] := by
  rintro rfl
  obtain ⟨p', hp⟩ := h.root
  rw [hf] at hp
  rw [hp] at ho
  simp [isDirD] at ho

/-- the directory of an object -/
theorem DiskOk.parent {d : Disk} (h : DiskOk d) {q : List Str} (hq : d.tree q ≠ none) (c : List Str) (n : Str) (e : q = c ++ [n]) :
    ∃ p, d.tree c = some (.dir p) := by
  subst e; exact h.tree c n hq

/-- what is above an object are directories -/
theorem DiskOk.above {d : Disk} (h : DiskOk d) {q : List Str} (hq : d.tree q ≠ none) {c : List Str} (hp : c <+: q) (hne : c ≠ q) :
    ∃ p, d.tree c = some (.dir p) := by
  obtain ⟨t, rfl⟩ := hp
  induction t using List.reverseRecOn with
  | nil => simp at hne
  | append_singleton t n ih =>
    rw [← List.append_assoc] at hq
    obtain ⟨p, hp⟩ := h.tree _ _ hq
    by_cases ht : t = []
    · subst ht; rw [List.append_nil] at hp; exact ⟨p, hp⟩
    · exact ih (by rw [hp]; simp) (by simpa using ht)

/-! ## Where paths lead -/

/-- through directories -/
theorem hop_dirs {d : Disk} {fl : Bool} {jump : List Str → List Str → Landing} (b rest : List Str) :
    ∀ cur, (∀ n ∈ b, n ≠ cl!"..") → (∀ p, p <+: b → p ≠ [] → ∃ m, d.tree (cur ++ p) = some (.dir m)) →
    d.hop fl jump cur (b ++ rest) = d.hop fl jump (cur ++ b) rest := by
  induction b with
  | nil => intro cur _ _; simp
  | cons n b ih =>
    intro cur hn hd
    obtain ⟨m, hm⟩ := hd [n] ⟨b, rfl⟩ (by simp)
    rw [List.cons_append, Disk.hop, if_neg (hn n (by simp)), hm]
    simp only
    rw [ih (cur ++ [n]) (fun x hx => hn x (by simp [hx])) fun p hp hp0 => ?_]
    · simp
    · obtain ⟨m', hm'⟩ := hd (n :: p) (List.cons_prefix_cons.2 ⟨rfl, hp⟩) (by simp)
      exact ⟨m', by simpa using hm'⟩

/-- to the directory that holds a name -/
theorem hop_parent {d : Disk} (h : DiskOk d) {fl : Bool} {jump : List Str → List Str → Landing} {c rest : List Str}
    (hn : ∀ n ∈ c, n ≠ cl!"..") {m : Nat} (hc : d.tree c = some (.dir m)) :
    d.hop fl jump [] (c ++ rest) = d.hop fl jump c rest := by
  refine hop_dirs c rest [] hn fun p hp _ => ?_
  rw [List.nil_append]
  by_cases e : p = c
  · subst e; exact ⟨m, hc⟩
  · exact h.above (by rw [hc]; simp) hp e

theorem Nm.dots {cs : List Str} (h : Nm cs) : ∀ n ∈ cs, n ≠ cl!".." := fun n hn => (h.noDots n hn).2

/-- to an object -/
theorem find_here {d : Disk} (h : DiskOk d) {cs : List Str} (hn : Nm cs) {fl : Bool} {o : DObj} (ho : d.tree cs = some o)
    (hl : fl = false ∨ isLinkD (some o) = false) : d.find fl (loc cs).path = .here cs := by
  rw [find_loc hn]
  rcases List.eq_nil_or_concat cs with rfl | ⟨c, n, rfl⟩
  · rfl
  · rw [List.concat_eq_append] at *
    obtain ⟨m, hm⟩ := h.tree c n (by rw [ho]; simp)
    rw [hop_parent h (fun x hx => hn.dots x (by simp [hx])) hm, Disk.hop, if_neg (hn.dots n (by simp)), ho]
    cases o with
    | dir p => rfl
    | file p b => simp
    | link t =>
      rcases hl with rfl | hl
      · simp
      · simp [isLinkD] at hl

/-- to a link, when links are followed -/
theorem find_link {d : Disk} (h : DiskOk d) {c : List Str} {n : Str} (hn : Nm (c ++ [n])) {t : Str} (ho : d.tree (c ++ [n]) = some (.link t)) :
    d.find true (loc (c ++ [n])).path = d.land true 39 (if startsWith t cl!"/" then [] else c) (comps t) := by
  rw [find_loc hn]
  obtain ⟨m, hm⟩ := h.tree c n (by rw [ho]; simp)
  rw [hop_parent h (fun x hx => hn.dots x (by simp [hx])) hm, Disk.hop, if_neg (hn.dots n (by simp)), ho]
  simp

/-- to a free name -/
theorem find_free {d : Disk} (h : DiskOk d) {c : List Str} {n : Str} (hn : Nm (c ++ [n])) {fl : Bool} {m : Nat}
    (hc : d.tree c = some (.dir m)) (ho : d.tree (c ++ [n]) = none) : d.find fl (loc (c ++ [n])).path = .free c n := by
  rw [find_loc hn, hop_parent h (fun x hx => hn.dots x (by simp [hx])) hc, Disk.hop, if_neg (hn.dots n (by simp)), ho]
  simp

/-- nowhere -/
theorem find_fail {d : Disk} (h : DiskOk d) {cs : List Str} (hn : Nm cs) {fl : Bool} (ho : d.tree cs = none)
    (hl : ∀ p, p <+: cs → isLinkD (d.tree p) = false) (hp : isDirD (d.tree cs.dropLast) = false) :
    ∃ e, d.find fl (loc cs).path = .fail e ∧
      ((e = .os .ENOTDIR ∧ ∃ p, p <+: cs ∧ isFileD (d.tree p) = true) ∨
       (e = .os .ENOENT ∧ ∀ p, p <+: cs → isFileD (d.tree p) = false)) := by
  rw [find_loc hn]
  have key : ∀ (b a : List Str), a ++ b = cs → (∃ m, d.tree a = some (.dir m)) →
      ∃ e, d.hop fl (d.land fl 39) a b = .fail e ∧
      ((e = .os .ENOTDIR ∧ ∃ p, p <+: cs ∧ isFileD (d.tree p) = true) ∨
       (e = .os .ENOENT ∧ ∀ p, p <+: cs → isFileD (d.tree p) = false)) := by
    intro b
    induction b with
    | nil =>
      intro a ha ⟨m, hm⟩
      rw [List.append_nil] at ha
      subst ha
      rw [ho] at hm; simp at hm
    | cons n b ih =>
      intro a ha ⟨m, hm⟩
      have hpre : a ++ [n] <+: cs := ⟨b, by rw [← ha]; simp⟩
      have hb : b ≠ [] := by
        rintro rfl
        rw [← ha, List.dropLast_concat, hm] at hp
        simp [isDirD] at hp
      rw [Disk.hop, if_neg (hn.dots n (by rw [← ha]; simp))]
      cases hv : d.tree (a ++ [n]) with
      | none =>
        refine ⟨.os .ENOENT, by simp [hb], .inr ⟨rfl, fun p hpp => ?_⟩⟩
        by_cases e : d.tree p = none
        · rw [e]; rfl
        · have hlen : p.length ≤ a.length := by
            by_contra hc
            have h1 : a ++ [n] <+: p := List.prefix_of_prefix_length_le hpre hpp (by simp; omega)
            by_cases e2 : a ++ [n] = p
            · rw [← e2] at e; exact e hv
            · obtain ⟨m', hm'⟩ := h.above e h1 e2
              rw [hv] at hm'; simp at hm'
          have h1 : p <+: a := List.prefix_of_prefix_length_le hpp ⟨n :: b, ha⟩ hlen
          by_cases e2 : p = a
          · rw [e2, hm]; rfl
          · obtain ⟨m', hm'⟩ := h.above (by rw [hm]; simp) h1 e2
            rw [hm']; rfl
      | some o =>
        cases o with
        | dir m' => exact ih (a ++ [n]) (by rw [← ha]; simp) ⟨m', hv⟩
        | file q c => exact ⟨.os .ENOTDIR, by simp [hb], .inl ⟨rfl, _, hpre, by rw [hv]; rfl⟩⟩
        | link t =>
          have := hl _ hpre
          rw [hv] at this; simp [isLinkD] at this
  obtain ⟨m, hm⟩ := h.root
  exact key cs [] rfl ⟨m, hm⟩

/-- the object at the end of a path without links -/
theorem stat_here {d : Disk} (h : DiskOk d) {cs : List Str} (hn : Nm cs) {fl : Bool} {o : DObj} (ho : d.tree cs = some o)
    (hl : fl = false ∨ isLinkD (some o) = false) : d.stat fl (loc cs).path = some o := by
  unfold Disk.stat
  rw [find_here h hn ho hl]
  exact ho

theorem stat_none {d : Disk} (h : DiskOk d) {cs : List Str} (hn : Nm cs) {fl : Bool} (ho : d.tree cs = none)
    (hl : ∀ p, p <+: cs → isLinkD (d.tree p) = false) : d.stat fl (loc cs).path = none := by
  unfold Disk.stat
  cases hp : isDirD (d.tree cs.dropLast) with
  | false =>
    obtain ⟨e, he, -⟩ := find_fail h hn (fl := fl) ho hl hp
    rw [he]
  | true =>
    rcases List.eq_nil_or_concat cs with rfl | ⟨c, n, rfl⟩
    · obtain ⟨m, hm⟩ := h.root
      rw [ho] at hm; simp at hm
    · rw [List.concat_eq_append] at *
      rw [List.dropLast_concat] at hp
      cases e : d.tree c with
      | none => rw [e] at hp; simp [isDirD] at hp
      | some o =>
        rw [e] at hp
        cases o with
        | dir m => rw [find_free h hn e ho]
        | file _ _ => simp [isDirD] at hp
        | link _ => simp [isDirD] at hp

theorem stat_eq {d : Disk} (h : DiskOk d) {cs : List Str} (hn : Nm cs) {fl : Bool} (hl : ∀ p, p <+: cs → isLinkD (d.tree p) = false) :
    d.stat fl (loc cs).path = d.tree cs := by
  cases e : d.tree cs with
  | none => exact stat_none h hn e hl
  | some o => exact stat_here h hn e (.inr (by have := hl cs (List.prefix_refl _); rwa [e] at this))

end Verif.Any
