import Verif.Zip.Lemmas
/-! # C61-C64: what the zip backend sees and stores -/
namespace Verif.Zip

/-- a connection that was used on an archive shows what is in the file -/
theorem handle_archive {s : St} {es : List Entry} (hs : Ok s) (hh : s.handle ≠ none) (hf : s.file = .archive es) :
    ∃ h, s.handle = some h ∧ h.entries = es := by
  cases e : s.handle with
  | none => exact absurd e hh
  | some h =>
    refine ⟨h, rfl, ?_⟩
    rcases hs h e with h1 | h1
    · have := h1.2.symm.trans hf
      simpa using this
    · rw [h1.2.2.2.2] at hf; cases hf

theorem ispart_of_handle {s : St} {h : ZHandle} {p : Str} {ex : List Cmp} (hh : s.handle = some h)
    (hp : p ≠ ['/']) :
    ispart p ex s = (.ok (h.entries.any fun e => comparePathStrings p e.name ∈ ex), s) := by
  simp [ispart, hp, hh]

/-! ## C61 -/

/-- C61: a path is a file iff it is the name of a member -/
theorem C61_isfile {s : St} {es : List Entry} {p : Str} (hs : Reachable s) (hh : s.handle ≠ none)
    (hf : s.file = .archive es) (hp : p ≠ ['/']) :
    ∃ b, isfile p s = (.ok b, s) ∧ (b = true ↔ ∃ e ∈ es, e.name = p) := by
  obtain ⟨h, h1, rfl⟩ := handle_archive hs.ok hh hf
  refine ⟨_, ispart_of_handle h1 hp, ?_⟩
  simp [comparePathStrings_isfile]

/-- C61: a path is a directory iff some member lies below it, by whole components -/
theorem C61_isdir {s : St} {es : List Entry} {p : Str} (hs : Reachable s) (hh : s.handle ≠ none)
    (hf : s.file = .archive es) (hp : p ≠ ['/']) :
    ∃ b, isdir p s = (.ok b, s) ∧ (b = true ↔ ∃ e ∈ es, ∃ rest, e.name = p ++ '/' :: rest) := by
  obtain ⟨h, h1, rfl⟩ := handle_archive hs.ok hh hf
  refine ⟨_, ispart_of_handle h1 hp, ?_⟩
  simp [comparePathStrings_isdir]

/-- C61: a path exists iff it is a file or a directory -/
theorem C61_exists {s : St} {es : List Entry} {p : Str} (hs : Reachable s) (hh : s.handle ≠ none)
    (hf : s.file = .archive es) (hp : p ≠ ['/']) :
    ∃ b, exists_ p s = (.ok b, s) ∧
      (b = true ↔ (∃ e ∈ es, e.name = p) ∨ ∃ e ∈ es, ∃ rest, e.name = p ++ '/' :: rest) := by
  obtain ⟨h, h1, rfl⟩ := handle_archive hs.ok hh hf
  refine ⟨_, ispart_of_handle h1 hp, ?_⟩
  simp only [List.any_eq_true, List.mem_cons, List.not_mem_nil, or_false, decide_eq_true_eq,
    comparePathStrings_isfile, comparePathStrings_isdir]
  constructor
  · rintro ⟨e, he, h | h⟩
    · exact .inr ⟨e, he, h⟩
    · exact .inl ⟨e, he, h⟩
  · rintro (⟨e, he, h⟩ | ⟨e, he, h⟩)
    · exact ⟨e, he, .inr h⟩
    · exact ⟨e, he, .inl h⟩

/-- C61: whatever the state, the root is there, and is both a directory and (sic) a file -/
theorem C61_root (s : St) :
    exists_ ['/'] s = (.ok true, s) ∧ isdir ['/'] s = (.ok true, s) ∧ isfile ['/'] s = (.ok true, s) :=
  ⟨rfl, rfl, rfl⟩

/-- C61 without the first use fails: a new connection cannot answer, though the archive has the member -/
theorem C61_unopened_refuted {c : Container} {p : Str} (hp : p ≠ ['/']) :
    isfile p ⟨c, none⟩ = (.error .attributeError, ⟨c, none⟩) ∧
    isdir p ⟨c, none⟩ = (.error .attributeError, ⟨c, none⟩) ∧
    exists_ p ⟨c, none⟩ = (.error .attributeError, ⟨c, none⟩) := by
  simp [isfile, isdir, exists_, ispart, hp]

/-- a small archive: '/foo/x', '/foofoo' -/
def two : List Entry := [⟨cl!"/foo/x", [1]⟩, ⟨cl!"/foofoo", [2]⟩]

/-- the state after listing the root of the small archive -/
def seen : St := ⟨.archive two, some ⟨.r, two, false, false⟩⟩

theorem seen_reachable : Reachable seen := ⟨.archive two, [.listdir ['/']], by decide +kernel⟩

example : ∃ b, isfile cl!"/foo" seen = (.ok b, seen) ∧ (b = true ↔ ∃ e ∈ two, e.name = cl!"/foo") :=
  C61_isfile seen_reachable (by decide +kernel) rfl (by decide +kernel)
example : (isfile cl!"/foo" seen).1 = .ok false ∧ (isdir cl!"/foo" seen).1 = .ok true ∧
    (isfile cl!"/foofoo" seen).1 = .ok true ∧ (isdir cl!"/foofoo" seen).1 = .ok false ∧
    (exists_ cl!"/fo" seen).1 = .ok false := by decide +kernel

/-! ## C62 -/

theorem listdirOpen_of {s : St} {h : ZHandle} {p : Str} (hh : s.handle = some h)
    (hd : p = ['/'] ∨ ∃ e ∈ h.entries, ∃ rest, e.name = p ++ '/' :: rest) :
    listdirOpen p s =
      (.ok (sortStr ((h.entries.map fun e => contentItem p e.name).filter fun c => c ≠ []).dedup), s) := by
  have : isdir p s = (.ok true, s) := by
    by_cases hp : p = ['/']
    · rw [hp]; rfl
    · refine (ispart_of_handle hh hp).trans ?_
      have h2 := hd.resolve_left hp
      rw [show (h.entries.any fun e => decide (comparePathStrings p e.name ∈ [Cmp.isdir])) = true from by
        simpa [comparePathStrings_isdir] using h2]
  simp [listdirOpen, hh, this]

/-- after `listdir` got hold of the archive -/
theorem listdir_open {s : St} {es : List Entry} (p : Str) (hs : Ok s) (hf : s.file = .archive es) :
    ∃ s' h, listdir p s = listdirOpen p s' ∧ s'.handle = some h ∧ h.entries = es ∧ s'.file = .archive es ∧
      (s.handle ≠ none → s' = s) := by
  unfold listdir
  rw [if_neg (by simp [hf])]
  cases hh : s.handle with
  | none =>
    refine ⟨{ s with handle := some ⟨.r, es, false, false⟩ }, _, ?_, rfl, rfl, hf, by simp⟩
    simp [openZip, closeZip, hh, hf]
  | some h =>
    obtain ⟨h', h1, h2⟩ := handle_archive hs (by simp [hh]) hf
    exact ⟨s, h', rfl, h1, h2, hf, fun _ => rfl⟩

/-- C62: `listdir` of a directory is sorted, without duplicates, and has exactly the non-empty components that
    follow the path in the name of a member.  For the root, all names have to begin with '/', as those written
    through this backend do. -/
theorem C62_listdir {s : St} {es : List Entry} {p : Str} (hs : Reachable s) (hf : s.file = .archive es)
    (hn : p = ['/'] → ∀ e ∈ es, ∃ r, e.name = '/' :: r)
    (hd : p = ['/'] ∨ ∃ e ∈ es, ∃ rest, e.name = p ++ '/' :: rest) :
    ∃ l s', listdir p s = (.ok l, s') ∧ s'.file = s.file ∧ l.Pairwise strLt ∧ l.Nodup ∧
      ∀ c, c ∈ l ↔ c ≠ [] ∧ '/' ∉ c ∧ ∃ e ∈ es, Next p c e.name := by
  obtain ⟨s', h, h1, h2, h3, h4, _⟩ := listdir_open p hs.ok hf
  subst h3
  refine ⟨_, s', h1.trans (listdirOpen_of h2 hd), h4.trans hf.symm, pairwise_sortStr (List.nodup_dedup _),
    nodup_sortStr (List.nodup_dedup _), fun c => ?_⟩
  rw [mem_sortStr, List.mem_dedup, List.mem_filter, List.mem_map]
  constructor
  · rintro ⟨⟨e, he, hc⟩, h6⟩
    have h6 : c ≠ [] := by simpa using h6
    have := (contentItem_iff h6 (fun h7 => hn h7 e he)).mp hc
    exact ⟨h6, this.1, e, he, this.2⟩
  · rintro ⟨h6, h7, e, he, h8⟩
    exact ⟨⟨e, he, (contentItem_iff h6 (fun h9 => hn h9 e he)).mpr ⟨h7, h8⟩⟩, by simpa using h6⟩

/-- C62: what is listed is what exists below the directory -/
theorem C62_exists {s : St} {es : List Entry} {p : Str} (hs : Reachable s) (hf : s.file = .archive es)
    (hn : p = ['/'] → ∀ e ∈ es, ∃ r, e.name = '/' :: r)
    (hd : p = ['/'] ∨ ∃ e ∈ es, ∃ rest, e.name = p ++ '/' :: rest) :
    ∃ l s', listdir p s = (.ok l, s') ∧ ∀ c, c ≠ [] → '/' ∉ c →
      ∃ b, exists_ ((if p = ['/'] then [] else p) ++ '/' :: c) s' = (.ok b, s') ∧ (b = true ↔ c ∈ l) := by
  obtain ⟨l, s', h1, h2, _, _, h3⟩ := C62_listdir hs hf hn hd
  refine ⟨l, s', h1, fun c hc hc' => ?_⟩
  have hr : Reachable s' := by
    obtain ⟨f, ops, rfl⟩ := hs
    exact ⟨f, ops ++ [.listdir p], by rw [runAll, List.foldl_append]; exact congrArg Prod.snd h1⟩
  have hh : s'.handle ≠ none := by
    obtain ⟨s'', h, g1, g2, _⟩ := listdir_open p hs.ok hf
    have : s' = s'' := by rw [← listdirOpen_same p s'', ← g1, h1]
    rw [this, g2]; simp
  obtain ⟨b, h4, h5⟩ := C61_exists (p := (if p = ['/'] then [] else p) ++ '/' :: c) hr hh (h2.trans hf) (by
    intro h6
    have := congrArg List.length h6
    simp only [List.length_append, List.length_cons, List.length_nil] at this
    exact hc (List.length_eq_zero_iff.mp (by omega)))
  refine ⟨b, h4, h5.trans ?_⟩
  rw [h3]
  constructor
  · rintro (⟨e, he, h6⟩ | ⟨e, he, r, h6⟩)
    · exact ⟨hc, hc', e, he, [], by simp [h6], .inl rfl⟩
    · exact ⟨hc, hc', e, he, '/' :: r, by simp [h6], .inr ⟨r, rfl⟩⟩
  · rintro ⟨_, _, e, he, t, h6, rfl | ⟨r, rfl⟩⟩
    · exact .inl ⟨e, he, by simp [h6]⟩
    · exact .inr ⟨e, he, r, by simp [h6]⟩

/-- C62: a path without members below it is refused -/
theorem C62_not_dir {s : St} {es : List Entry} {p : Str} (hs : Reachable s) (hf : s.file = .archive es)
    (hp : p ≠ ['/']) (hd : ¬ ∃ e ∈ es, ∃ rest, e.name = p ++ '/' :: rest) :
    (listdir p s).1 = .error .fileDoesNotExist := by
  obtain ⟨s', h, h1, h2, h3, _⟩ := listdir_open p hs.ok hf
  subst h3
  rw [h1]
  have : isdir p s' = (.ok false, s') := by
    refine (ispart_of_handle h2 hp).trans ?_
    rw [show (h.entries.any fun e => decide (comparePathStrings p e.name ∈ [Cmp.isdir])) = false from by
      rw [Bool.eq_false_iff]
      intro h4
      exact hd (by simpa [comparePathStrings_isdir] using h4)]
  simp [listdirOpen, h2, this]

/-- C62: without the archive file nothing is listed -/
theorem C62_missing {h : Option ZHandle} {p : Str} : listdir p ⟨.missing, h⟩ = (.ok [], ⟨.missing, h⟩) := by
  simp [listdir]

/-- C62 without the condition on names fails: of the member 'a/b' the root lists 'b', which does not exist, and not
    'a' -/
theorem C62_foreign_refuted :
    let s : St := ⟨.archive [⟨cl!"a/b", []⟩], none⟩
    (listdir ['/'] s).1 = .ok [cl!"b"] ∧ (exists_ cl!"/b" (listdir ['/'] s).2).1 = .ok false := by
  decide +kernel

example : ∃ l s', listdir ['/'] seen = (.ok l, s') ∧ s'.file = seen.file ∧ l.Pairwise strLt ∧ l.Nodup ∧
      ∀ c, c ∈ l ↔ c ≠ [] ∧ '/' ∉ c ∧ ∃ e ∈ two, Next ['/'] c e.name :=
  C62_listdir seen_reachable rfl (fun _ => by simp [two]) (.inl rfl)
example : (listdir ['/'] seen).1 = .ok [cl!"foo", cl!"foofoo"] ∧ (listdir cl!"/foo" seen).1 = .ok [cl!"x"] ∧
    (listdir cl!"/foofoo" seen).1 = .error .fileDoesNotExist := by decide +kernel

/-! ## C63 -/

theorem zipName_of {p : Str} (h : '\x00' ∉ p) : zipName p = p := by
  unfold zipName
  have := takeWhile_stop (p := fun c => decide (c ≠ '\x00')) (a := p) (b := [])
    (fun c hc => by simpa using fun e : c = '\x00' => h (e ▸ hc)) (by simp)
  simpa using this

/-- opening for writing, in a state without a directory in the way -/
theorem openW_of {s : St} (hs : Ok s) (hd : s.file ≠ .dir) (p : Str) :
    ∃ s' h, open_ p (some cl!"w") s = (.ok .statement, s') ∧ s'.handle = some h ∧ h.closed = false ∧ h.mode ≠ .r ∧
      h.entries = stored s := by
  have hw : (Option.all (fun o => o.contains 'r') (some cl!"w")) = false := by decide +kernel
  have hw' : (Option.any (fun o => o.contains 'w') (some cl!"w")) = true := by decide +kernel
  have hw'' : ((some cl!"w").getD cl!"r").contains 'r' = false := by decide +kernel
  unfold open_ openZip
  rcases closeZip_file hs with h | ⟨h, h1⟩
  · simp only [hw, hw', hw'', h, if_true, Bool.false_eq_true, if_false]
    exact ⟨_, _, rfl, rfl, rfl, by simp, rfl⟩
  · simp only [hw, hw', hw'', h1, if_true, Bool.false_eq_true, if_false]
    cases hf : s.file with
    | archive es => exact ⟨_, _, rfl, rfl, rfl, by simp, by simp [stored, hf]⟩
    | raw => exact ⟨_, _, rfl, rfl, rfl, by simp, by simp [stored, hf]⟩
    | missing => exact ⟨_, _, rfl, rfl, rfl, by simp, by simp [stored, hf]⟩
    | dir => exact absurd hf hd

theorem exitW_of {s : St} {h : ZHandle} {p : Str} (hh : s.handle = some h) (hc : h.closed = false)
    (hm : h.mode ≠ .r) (hp : p ≠ []) (hz : '\x00' ∉ p) (d : Bytes) :
    exitWriting p d s = (.ok (), ⟨.archive (h.entries ++ [⟨p, d⟩]),
      some ⟨.r, h.entries ++ [⟨p, d⟩], false, false⟩⟩) := by
  unfold exitWriting
  rw [hh]
  dsimp only
  rw [if_neg (by simp [hc]), if_neg hm, zipName_of hz, if_neg hp, closeZip_add hc]
  simp [openZip, closeZip_closed]

/-- what writing a member does -/
theorem write_of {s : St} {p : Str} (hs : Ok s) (hd : s.file ≠ .dir) (hp : p ≠ []) (hz : '\x00' ∉ p)
    (d : Bytes) :
    write p d s = (.ok (), ⟨.archive (stored s ++ [⟨p, d⟩]), some ⟨.r, stored s ++ [⟨p, d⟩], false, false⟩⟩) := by
  obtain ⟨s', h, h1, h2, h3, h4, h5⟩ := openW_of hs hd p
  unfold write
  rw [h1]
  dsimp only
  rw [exitW_of h2 h3 h4 hp hz, h5]

theorem write_reachable {s : St} {p : Str} (hs : Reachable s) (hd : s.file ≠ .dir) (d : Bytes) :
    Reachable (write p d s).2 := by
  obtain ⟨s', h, h1, _⟩ := openW_of hs.ok hd p
  obtain ⟨f, ops, rfl⟩ := hs
  refine ⟨f, ops ++ [.open_ p (some cl!"w"), .exitWriting p d], ?_⟩
  simp only [write, h1]
  rw [runAll, List.foldl_append]
  change (exitWriting p d (open_ p (some cl!"w") (runAll ops ⟨f, none⟩)).2).2 = _
  rw [h1]

theorem read_of {s : St} {es : List Entry} (hs : Ok s) (hf : s.file = .archive es) (q : Str) :
    (read q s).1 = match getinfo es q with | some e => .ok e.data | none => .error .fileDoesNotExist := by
  have hc : (closeZip s).file = .archive es := by
    rcases closeZip_file hs with h | ⟨h, h1⟩
    · rw [h]; simp [stored, hf]
    · rw [h1, hf]
  have hr : ((none : Option Str).getD cl!"r").contains 'r' = true := by decide +kernel
  simp only [read, open_, openZip, hc, Option.all_none, if_true, hr, openForReading]
  cases getinfo es q <;> rfl

/-- C63: what was written is read back, whatever was there before, the archive file included -/
theorem C63_write_read {s : St} {p : Str} {d : Bytes} (hs : Reachable s) (hd : s.file ≠ .dir) (hp : p ≠ [])
    (hz : '\x00' ∉ p) :
    (write p d s).1 = .ok () ∧ (read p (write p d s).2).1 = .ok d := by
  have h := write_of hs.ok hd hp hz d
  refine ⟨by rw [h], ?_⟩
  rw [read_of (write_reachable hs hd d).ok (es := stored s ++ [⟨p, d⟩]) (by rw [h])]
  simp [getinfo]

/-- C63: every other member reads as before -/
theorem C63_others {s : St} {p q : Str} {d : Bytes} (hs : Reachable s) (hp : p ≠ []) (hz : '\x00' ∉ p)
    {es : List Entry} (hf : s.file = .archive es) (hq : q ≠ p) :
    (read q (write p d s).2).1 = (read q s).1 := by
  have hd : s.file ≠ .dir := by simp [hf]
  have h := write_of hs.ok hd hp hz d
  rw [read_of (write_reachable hs hd d).ok (es := stored s ++ [⟨p, d⟩]) (by rw [h]), read_of hs.ok hf]
  simp [getinfo, stored, hf, Ne.symm hq]

/-- C63: a new archive has nothing but what was written -/
theorem C63_new {s : St} {p q : Str} {d : Bytes} (hs : Reachable s) (hp : p ≠ []) (hz : '\x00' ∉ p)
    (hf : s.file = .missing) (hq : q ≠ p) :
    (read q (write p d s).2).1 = .error .fileDoesNotExist := by
  have hd : s.file ≠ .dir := by simp [hf]
  have h := write_of hs.ok hd hp hz d
  rw [read_of (write_reachable hs hd d).ok (es := stored s ++ [⟨p, d⟩]) (by rw [h])]
  simp [getinfo, stored, hf, Ne.symm hq]

/-- a sequence of writes -/
def writes : List (Str × Bytes) → St → St
  | [], s => s
  | (p, d) :: ws, s => writes ws (write p d s).2

theorem writes_append {a b : List (Str × Bytes)} {s : St} : writes (a ++ b) s = writes b (writes a s) := by
  induction a generalizing s with
  | nil => rfl
  | cons w a ih => exact ih

theorem writes_ok {ws : List (Str × Bytes)} {s : St} (hs : Reachable s) (hd : s.file ≠ .dir)
    (hw : ∀ w ∈ ws, w.1 ≠ [] ∧ '\x00' ∉ w.1) :
    Reachable (writes ws s) ∧ (writes ws s).file ≠ .dir := by
  induction ws generalizing s with
  | nil => exact ⟨hs, hd⟩
  | cons w ws ih =>
    have hw1 := hw w (by simp)
    refine ih (write_reachable hs hd _) ?_ (fun v hv => hw v (by simp [hv]))
    rw [write_of hs.ok hd hw1.1 hw1.2]; simp

/-- members not written by a sequence of writes read as before -/
theorem C63_writes_others {ws : List (Str × Bytes)} {s : St} {q : Str} (hs : Reachable s) {es : List Entry}
    (hf : s.file = .archive es) (hw : ∀ w ∈ ws, w.1 ≠ [] ∧ '\x00' ∉ w.1) (hq : ∀ w ∈ ws, w.1 ≠ q) :
    (read q (writes ws s)).1 = (read q s).1 := by
  induction ws generalizing s es with
  | nil => rfl
  | cons w ws ih =>
    have hw1 := hw w (by simp)
    have hd : s.file ≠ .dir := by simp [hf]
    refine (ih (write_reachable hs hd _) (es := stored s ++ [⟨w.1, w.2⟩]) ?_ (fun v hv => hw v (by simp [hv]))
      (fun v hv => hq v (by simp [hv]))).trans ?_
    · rw [write_of hs.ok hd hw1.1 hw1.2]
    · exact C63_others hs hw1.1 hw1.2 hf (hq w (by simp)).symm

/-- C63: after any sequence of writes, the last write to a member is what is read -/
theorem C63_last {pre post : List (Str × Bytes)} {s : St} {p : Str} {d : Bytes} (hs : Reachable s)
    (hd : s.file ≠ .dir) (hw : ∀ w ∈ pre ++ (p, d) :: post, w.1 ≠ [] ∧ '\x00' ∉ w.1) (hp : ∀ w ∈ post, w.1 ≠ p) :
    (read p (writes (pre ++ (p, d) :: post) s)).1 = .ok d := by
  rw [writes_append]
  obtain ⟨h1, h2⟩ := writes_ok hs hd (ws := pre) (fun w h => hw w (by simp [h]))
  have hp1 := hw (p, d) (by simp)
  have h3 := write_of h1.ok h2 hp1.1 hp1.2 d
  refine (C63_writes_others (ws := post) (write_reachable h1 h2 d) (es := stored (writes pre s) ++ [⟨p, d⟩])
    (by rw [h3]) (fun w h => hw w (by simp [h])) hp).trans ?_
  exact (C63_write_read h1 h2 hp1.1 hp1.2).2

/-- C63 for nested statements fails: the inner one closes the archive the outer one writes to, and the outer one
    raises ValueError; its data is lost -/
theorem C63_nested_refuted :
    let s0 : St := ⟨.missing, none⟩
    let s1 := (open_ cl!"/x" (some cl!"w") s0).2
    let s2 := (open_ cl!"/y" (some cl!"w") s1).2
    let s3 := (exitWriting cl!"/y" [2] s2).2
    (exitWriting cl!"/x" [1] s3).1 = .error .valueError ∧
    (read cl!"/x" (exitWriting cl!"/x" [1] s3).2).1 = .error .fileDoesNotExist := by
  decide +kernel

/-- C63 fails if a member is read before the statement is left, for any archive and member: ValueError, and nothing
    is written -/
theorem C63_read_inside_refuted {s : St} {es : List Entry} {p q : Str} {d : Bytes} (hs : Reachable s)
    (hf : s.file = .archive es) :
    let s1 := (open_ p (some cl!"w") s).2
    let s2 := (read q s1).2
    (exitWriting p d s2).1 = .error .valueError ∧ (exitWriting p d s2).2.file = .archive es := by
  have hc : (closeZip s).file = .archive es := by
    rcases closeZip_file hs.ok with h | ⟨h, h1⟩
    · rw [h]; simp [stored, hf]
    · rw [h1, hf]
  have hw : (Option.all (fun o => o.contains 'r') (some cl!"w")) = false := by decide +kernel
  have hw' : (Option.any (fun o => o.contains 'w') (some cl!"w")) = true := by decide +kernel
  have hw'' : ((some cl!"w").getD cl!"r").contains 'r' = false := by decide +kernel
  have h1 : open_ p (some cl!"w") s = (.ok .statement, ⟨.archive es, some ⟨.a, es, false, false⟩⟩) := by
    simp only [open_, openZip, hw, hw', hw'', hc, if_true, Bool.false_eq_true, if_false]
  have h2 : (read q ⟨.archive es, some ⟨.a, es, false, false⟩⟩).2 =
      ⟨.archive es, some ⟨.r, es, false, false⟩⟩ := by
    have hr : ((none : Option Str).getD cl!"r").contains 'r' = true := by decide +kernel
    simp only [read, open_, openZip, closeZip, Option.all_none, if_true, hr, openForReading, Bool.false_eq_true,
      if_false]
    cases getinfo es q <;> rfl
  simp only [h1, h2]
  simp [exitWriting]

/-- C63 for a name with a NUL fails: the member gets a shorter name -/
theorem C63_nul_refuted :
    let s := (write cl!"/a\x00b" [1] ⟨.missing, none⟩).2
    (read cl!"/a\x00b" s).1 = .error .fileDoesNotExist ∧ (read cl!"/a" s).1 = .ok [1] := by
  decide +kernel

/-- C63: an exception in the body of a write statement goes on, but what was written until then is stored -/
theorem C63_body_raises {s : St} {p : Str} {d : Bytes} {e : PyErr} (hs : Reachable s) (hd : s.file ≠ .dir) (hp : p ≠ [])
    (hz : '\x00' ∉ p) : (writeRaising p d e s).1 = .error e ∧ (writeRaising p d e s).2 = (write p d s).2 ∧
      (read p (writeRaising p d e s).2).1 = .ok d := by
  obtain ⟨s', h, h1, h2, h3, h4, h5⟩ := openW_of hs.ok hd p
  have h6 : writeRaising p d e s = (.error e, (write p d s).2) := by
    unfold writeRaising write
    rw [h1]
    simp only
    rw [exitW_of h2 h3 h4 hp hz]
  rw [h6]
  exact ⟨rfl, rfl, (C63_write_read hs hd hp hz).2⟩

/-- C63: members cannot be appended to: for every archive file that is there, mode 'a' raises UnboundLocalError; the
    entries stay -/
theorem C63_append_refused {s : St} (hs : Reachable s) (p o : Str) (ho : o = cl!"a" ∨ o = cl!"ab") {es : List Entry}
    (hf : s.file = .archive es) :
    (open_ p (some o) s).1 = .error .unboundLocal ∧ (open_ p (some o) s).2.file = .archive es := by
  have hc : (closeZip s).file = .archive es := by
    rcases closeZip_file hs.ok with h | ⟨h, h1⟩
    · rw [h]; simp [stored, hf]
    · rw [h1, hf]
  have h1 : (Option.all (fun o => o.contains 'r') (some o)) = false := by rcases ho with rfl | rfl <;> decide +kernel
  have h2 : (Option.any (fun o => o.contains 'w') (some o)) = false := by rcases ho with rfl | rfl <;> decide +kernel
  have h3 : some o = some cl!"a" ∨ some o = some cl!"ab" := by rcases ho with rfl | rfl <;> simp
  have h4 : openZip (some o) s = (.error .unboundLocal, closeZip s) := by
    simp only [openZip, h1, h2, h3, hc, if_true, Bool.false_eq_true, if_false]
  simp only [open_, h4, hc, and_self]

/-- C63 fails if mode 'a' was tried before the statement is left: the archive is closed, ValueError, nothing is written -/
theorem C63_append_inside_refuted {s : St} {es : List Entry} {p q o : Str} {d : Bytes} (hs : Reachable s) (ho : o = cl!"a" ∨ o = cl!"ab")
    (hf : s.file = .archive es) :
    let s1 := (open_ p (some cl!"w") s).2
    let s2 := (open_ q (some o) s1).2
    (exitWriting p d s2).1 = .error .valueError ∧ (exitWriting p d s2).2.file = .archive es := by
  have hc : (closeZip s).file = .archive es := by
    rcases closeZip_file hs.ok with h | ⟨h, h1⟩
    · rw [h]; simp [stored, hf]
    · rw [h1, hf]
  have hw : (Option.all (fun o => o.contains 'r') (some cl!"w")) = false := by decide +kernel
  have hw' : (Option.any (fun o => o.contains 'w') (some cl!"w")) = true := by decide +kernel
  have hw'' : ((some cl!"w").getD cl!"r").contains 'r' = false := by decide +kernel
  have h1 : open_ p (some cl!"w") s = (.ok .statement, ⟨.archive es, some ⟨.a, es, false, false⟩⟩) := by
    simp only [open_, openZip, hw, hw', hw'', hc, if_true, Bool.false_eq_true, if_false]
  have h2 : (open_ q (some o) ⟨.archive es, some ⟨.a, es, false, false⟩⟩).2 = ⟨.archive es, some ⟨.a, es, false, true⟩⟩ := by
    rcases ho with rfl | rfl <;> rfl
  simp only [h1, h2]
  simp [exitWriting]

example : (read cl!"/foo/x" (writeRaising cl!"/foo/x" [7] .keyError seen).2).1 = .ok [7] :=
  (C63_body_raises seen_reachable (by simp [seen]) (by simp) (by decide +kernel)).2.2
example : (exitWriting cl!"/x" [1] (open_ cl!"/y" (some cl!"ab") (open_ cl!"/x" (some cl!"w") seen).2).2).1 = .error .valueError :=
  (C63_append_inside_refuted seen_reachable (.inr rfl) (es := two) rfl).1
example : (open_ cl!"/foo/x" (some cl!"a") seen).1 = .error .unboundLocal :=
  (C63_append_refused seen_reachable _ _ (.inl rfl) (es := two) rfl).1
example : (write cl!"/foo/x" [7] seen).1 = .ok () ∧ (read cl!"/foo/x" (write cl!"/foo/x" [7] seen).2).1 = .ok [7] :=
  C63_write_read seen_reachable (by simp [seen]) (by simp) (by decide +kernel)
example : (read cl!"/foofoo" (write cl!"/foo/x" [7] seen).2).1 = (read cl!"/foofoo" seen).1 :=
  C63_others seen_reachable (by simp) (by decide +kernel) (es := two) rfl (by decide +kernel)
example : (read cl!"/foofoo" seen).1 = .ok [2] := by decide +kernel
example : (read cl!"/n" (writes ([(cl!"/n", [1])] ++ (cl!"/n", [2]) :: [(cl!"/m", [3])]) ⟨.missing, none⟩)).1 = .ok [2] :=
  C63_last ⟨.missing, [], rfl⟩ (by simp) (by decide +kernel) (by decide +kernel)
example : (read cl!"/q" (write cl!"/n" [1] ⟨.missing, none⟩).2).1 = .error .fileDoesNotExist :=
  C63_new ⟨.missing, [], rfl⟩ (by simp) (by decide +kernel) rfl (by decide +kernel)

/-! ## C64 -/

/-- the path with the given components; without any it is the root -/
def pathOf (cs : List Str) : Str := if cs = [] then ['/'] else cs.flatMap fun c => '/' :: c

theorem pathOf_ne_root {cs : List Str} (h : cs ≠ []) (hc : ∀ c ∈ cs, c ≠ []) : pathOf cs ≠ ['/'] := by
  unfold pathOf
  rw [if_neg h]
  cases cs with
  | nil => exact absurd rfl h
  | cons c cs =>
    intro e
    have h1 := hc c (by simp)
    cases c with
    | nil => exact h1 rfl
    | cons x c => simp at e

theorem pathOf_base {a : List Str} (h : ∀ c ∈ a, c ≠ []) :
    (if pathOf a = ['/'] then [] else pathOf a) = a.flatMap fun c => '/' :: c := by
  by_cases ha : a = []
  · simp [ha, pathOf]
  · rw [if_neg (pathOf_ne_root ha h), pathOf, if_neg ha]

/-- C64: after a member is written it is a file, every proper prefix of its path is a directory, and each of those
    lists the component that follows; whatever else is in the archive -/
theorem C64_visible {s : St} {cs : List Str} {d : Bytes} (hs : Reachable s) (hd : s.file ≠ .dir) (hne : cs ≠ [])
    (hc : ∀ c ∈ cs, c ≠ [] ∧ '/' ∉ c ∧ '\x00' ∉ c) :
    let s' := (write (pathOf cs) d s).2
    isfile (pathOf cs) s' = (.ok true, s') ∧ exists_ (pathOf cs) s' = (.ok true, s') ∧
    ∀ a c b, cs = a ++ c :: b →
      isdir (pathOf a) s' = (.ok true, s') ∧ exists_ (pathOf a) s' = (.ok true, s') ∧
      ∃ l, listdir (pathOf a) s' = (.ok l, s') ∧ c ∈ l := by
  intro s'
  have hp : pathOf cs = cs.flatMap fun c => '/' :: c := by rw [pathOf, if_neg hne]
  have hpn : pathOf cs ≠ [] := by
    rw [hp]; cases cs with
    | nil => exact absurd rfl hne
    | cons c cs => simp
  have hz : '\x00' ∉ pathOf cs := by
    rw [hp, List.mem_flatMap]
    rintro ⟨c, h1, h2⟩
    rcases List.mem_cons.mp h2 with h2 | h2
    · exact absurd h2 (by decide)
    · exact (hc c h1).2.2 h2
  have hr := write_reachable (p := pathOf cs) hs hd d
  have hw := write_of hs.ok hd hpn hz d
  have hf : s'.file = .archive (stored s ++ [⟨pathOf cs, d⟩]) := by simp [s', hw]
  have hh : s'.handle ≠ none := by simp [s', hw]
  have hroot := pathOf_ne_root hne (fun c h => (hc c h).1)
  refine ⟨?_, ?_, fun a c b he => ?_⟩
  · obtain ⟨v, h1, h2⟩ := C61_isfile hr hh hf hroot
    rw [h2.mpr ⟨⟨pathOf cs, d⟩, by simp, rfl⟩] at h1; exact h1
  · obtain ⟨v, h1, h2⟩ := C61_exists hr hh hf hroot
    rw [h2.mpr (.inl ⟨⟨pathOf cs, d⟩, by simp, rfl⟩)] at h1; exact h1
  · have ha : ∀ x ∈ a, x ≠ [] := fun x h => (hc x (by simp [he, h])).1
    have hcc := hc c (by simp [he])
    have hnext : Next (pathOf a) c (pathOf cs) := by
      refine ⟨b.flatMap fun c => '/' :: c, ?_, ?_⟩
      · rw [pathOf_base ha, hp, he]; simp
      · cases b with
        | nil => exact .inl rfl
        | cons y b => exact .inr ⟨_, by simp; rfl⟩
    have hdir : pathOf a = ['/'] ∨ ∃ e ∈ stored s ++ [⟨pathOf cs, d⟩], ∃ rest, e.name = pathOf a ++ '/' :: rest := by
      by_cases h : pathOf a = ['/']
      · exact .inl h
      · obtain ⟨t, h1, _⟩ := hnext
        rw [if_neg h] at h1
        exact .inr ⟨⟨pathOf cs, d⟩, by simp, _, h1⟩
    have hdd : isdir (pathOf a) s' = (.ok true, s') ∧ exists_ (pathOf a) s' = (.ok true, s') := by
      rcases hdir with h | h
      · rw [h]; exact ⟨rfl, rfl⟩
      · by_cases h0 : pathOf a = ['/']
        · rw [h0]; exact ⟨rfl, rfl⟩
        · constructor
          · obtain ⟨v, h1, h2⟩ := C61_isdir hr hh hf h0
            rw [h2.mpr h] at h1; exact h1
          · obtain ⟨v, h1, h2⟩ := C61_exists hr hh hf h0
            rw [h2.mpr (.inr h)] at h1; exact h1
    refine ⟨hdd.1, hdd.2, ?_⟩
    obtain ⟨s'', h, g1, g2, g3, g4, g5⟩ := listdir_open (pathOf a) hr.ok hf
    obtain rfl := g5 hh
    refine ⟨_, g1.trans (listdirOpen_of g2 (by rw [← g3] at hdir; exact hdir)), ?_⟩
    rw [mem_sortStr, List.mem_dedup, List.mem_filter, List.mem_map]
    refine ⟨⟨⟨pathOf cs, d⟩, by rw [g3]; simp, ?_⟩, by simpa using hcc.1⟩
    refine (contentItem_iff hcc.1 fun _ => ?_).mpr ⟨hcc.2.1, hnext⟩
    rw [hp]
    cases cs with
    | nil => exact absurd rfl hne
    | cons y cs => exact ⟨_, by simp; rfl⟩

example : let s' := (write (pathOf [cl!"a", cl!"b"]) [9] seen).2
    isfile (pathOf [cl!"a", cl!"b"]) s' = (.ok true, s') ∧ exists_ (pathOf [cl!"a", cl!"b"]) s' = (.ok true, s') ∧
    ∀ a c b, [cl!"a", cl!"b"] = a ++ c :: b →
      isdir (pathOf a) s' = (.ok true, s') ∧ exists_ (pathOf a) s' = (.ok true, s') ∧
      ∃ l, listdir (pathOf a) s' = (.ok l, s') ∧ c ∈ l :=
  C64_visible seen_reachable (by simp [seen]) (by simp) (by decide +kernel)
example : pathOf [cl!"a", cl!"b"] = cl!"/a/b" := by decide +kernel

end Verif.Zip
