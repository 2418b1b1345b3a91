import Verif.Any.Files
import Verif.Any.Same
/-!
# Lemmas on open files
-/
namespace Verif.Any
open Verif.Spec Verif.Gen
open Mem (World FileObj)

/-- the file object as one that reads -/
def Hd.plain : Hd → Hd
  | .mem h => .mem ⟨h.id, true, true⟩
  | .loc fd => .loc fd

/-- the file object is at place `k`, name `q`, which has the bytes `data`, at position `pos` -/
structure FAt {ι : Type} (r : ι → Nat) (s : Sys) (k : Option ι) (q : List Str) (hd : Hd) (m : OMode) (data : Bytes) (pos : Nat) : Prop where
  at_ : RdAt r s k q hd.plain data pos
  flags : ∀ h, hd = .mem h → h.readable = m.reads ∧ h.binary = true
  last : m = .a → pos = data.length

section
variable {ι : Type} {E : ι → Dict} {r : ι → Nat} {s : Sys}

/-- a file object of memory.py after a change -/
theorem mem_step (h : SysOk E r s) (hr : Function.Injective r) {i : ι} {q : List Str} {id : Nat} {f f' : FileObj} {t : Nat}
    (hp : phys s.mem (r i) q = some id) (hf : s.mem.node id = .file f) :
    SysOk E r { s with mem := s.mem.put id f' t } ∧
      siteV r { s with mem := s.mem.put id f' t } = upd (siteV r s) (some i) q (some (.file f'.data)) ∧
      RdAt r { s with mem := s.mem.put id f' t } (some i) q (.mem ⟨id, true, true⟩) f'.data f'.pos ∧
      ∀ {k' q' hd' g pos}, ¬ (k' = some i ∧ q' = q) → RdAt r s k' q' hd' g pos → RdAt r { s with mem := s.mem.put id f' t } k' q' hd' g pos := by
  have hb := Mem.becomes_put h.inv (h.fs i).isRoot (k := t) (f' := f') hp hf
  obtain ⟨h5, h6⟩ := h.set_mem hr hb
  refine ⟨h5, by rw [h6]; rfl, ⟨rfl, rfl, (Mem.phys_put hf (r i) q).trans hp, f', Mem.put_node _ _ _ _, rfl, rfl⟩, ?_⟩
  intro k' q' hd' g pos hne hw
  cases k' with
  | none => cases hd' <;> exact hw
  | some j =>
    cases hd' with
    | loc _ => exact hw.elim
    | mem h' =>
      obtain ⟨h7, h8, h9, g', h10, h11⟩ := hw
      exact ⟨h7, h8, (Mem.phys_put hf (r j) q').trans h9, g', (Mem.put_node_ne _ _ _ (ids_ne h hr h9 hp hne)).trans h10, h11⟩

/-- other open local files, when the position of one changes -/
theorem fds_ne {fds : List (List Str × Nat)} {fd fd' : Nat} {q q' : List Str} {pos pos' : Nat} {y : List Str × Nat} (h : fds[fd]? = some (q, pos))
    (h' : fds[fd']? = some (q', pos')) (hq : q' ≠ q) : (fds.set fd y)[fd']? = some (q', pos') := by
  have : fd ≠ fd' := by
    rintro rfl
    rw [h] at h'
    simp only [Option.some.injEq, Prod.mk.injEq] at h'
    exact hq h'.1.symm
  rw [List.getElem?_set_ne this]
  exact h'

/-- an open local file after a change of its position -/
theorem look_step (h : SysOk E r s) {q : List Str} {fd : Nat} {data : Bytes} {pos pos' : Nat}
    (hat : RdAt r s none q (.loc fd) data pos) {α : Type} {f : Bytes → Nat → Except PyErr (α × Nat)} {x : α} (hf : f data pos = .ok (x, pos')) :
    ∃ s', onDisk (fdLook fd f) s = (.ok x, s') ∧ SysOk E r s' ∧ siteV r s' = siteV r s ∧ RdAt r s' none q (.loc fd) data pos' ∧
      ∀ {k' q' hd' g pos}, ¬ (k' = none ∧ q' = q) → RdAt r s k' q' hd' g pos → RdAt r s' k' q' hd' g pos := by
  obtain ⟨h1, p, h2⟩ := hat
  have e : fdLook fd f s.disk = (.ok x, { s.disk with fds := s.disk.fds.set fd (q, pos') }) := by
    unfold fdLook
    simp only [h1, h2, hf]
  refine ⟨_, onDisk_ok e, h.dsk (h.disk.fds _), ?_, ⟨?_, p, h2⟩, ?_⟩
  · funext k p; cases k <;> rfl
  · have : fd < s.disk.fds.length := (List.getElem?_eq_some_iff.1 h1).1
    simp [this]
  · intro k' q' hd' g pos hne hw
    cases k' with
    | some j => cases hd' <;> exact hw
    | none =>
      cases hd' with
      | mem _ => exact hw.elim
      | loc fd' => exact ⟨fds_ne h1 hw.1 fun e => hne ⟨rfl, e⟩, hw.2⟩

/-- an open local file after a change of its bytes -/
theorem change_step (h : SysOk E r s) {q : List Str} {fd : Nat} {data data' : Bytes} {pos pos' : Nat}
    (hat : RdAt r s none q (.loc fd) data pos) {α : Type} {f : Bytes → Nat → Except PyErr (α × Bytes × Nat)} {x : α}
    (hf : f data pos = .ok (x, data', pos')) :
    ∃ s', onDisk (fdChange fd f) s = (.ok x, s') ∧ SysOk E r s' ∧ siteV r s' = upd (siteV r s) none q (some (.file data')) ∧
      RdAt r s' none q (.loc fd) data' pos' ∧
      ∀ {k' q' hd' g pos}, ¬ (k' = none ∧ q' = q) → RdAt r s k' q' hd' g pos → RdAt r s' k' q' hd' g pos := by
  obtain ⟨h1, p, h2⟩ := hat
  have e : fdChange fd f s.disk = (.ok x, { s.disk.set q (.file p data') with fds := s.disk.fds.set fd (q, pos') }) := by
    unfold fdChange
    simp only [h1, h2, hf]
  have hset : DiskOk (s.disk.set q (.file p data')) :=
    h.disk.set (h.disk.parent (by rw [h2]; simp)) (.inr ⟨h.disk.ne_root h2 rfl, h.disk.leaf h2 rfl⟩)
  refine ⟨_, onDisk_ok e, h.dsk (hset.fds _), ?_, ⟨?_, p, ?_⟩, ?_⟩
  · exact siteV_disk (x := some (.file p data')) fun p => tree_set _ _ _ p
  · have : fd < s.disk.fds.length := (List.getElem?_eq_some_iff.1 h1).1
    simp [this]
  · show (s.disk.set q _).tree q = _
    rw [tree_set, if_pos rfl]
  · intro k' q' hd' g pos hne hw
    cases k' with
    | some j => cases hd' <;> exact hw
    | none =>
      cases hd' with
      | mem _ => exact hw.elim
      | loc fd' =>
        obtain ⟨h3, p', h4⟩ := hw
        have hq : q' ≠ q := fun e => hne ⟨rfl, e⟩
        refine ⟨fds_ne h1 h3 hq, p', ?_⟩
        show (s.disk.set q _).tree q' = _
        rw [tree_set, if_neg hq]
        exact h4

/-! ## The methods -/

theorem firstLine_eq (b : Bytes) : BytesIO.firstLine b = lineOf b := by
  unfold lineOf
  induction b with
  | nil => rfl
  | cons x b ih =>
    unfold BytesIO.firstLine
    by_cases hx : x = 10
    · simp [hx]
    · simp only [if_neg hx, ih, List.takeWhile_cons, decide_eq_true_eq]
      simp [hx]

theorem write_eq_putAt {d b : Bytes} {pos : Nat} (hb : b ≠ []) : BytesIO.write d pos b = (putAt d pos b, pos + b.length) := by
  unfold BytesIO.write putAt
  rw [if_neg hb]
  simp only [Prod.mk.injEq, and_true]
  by_cases h : pos ≤ d.length
  · rw [Nat.sub_eq_zero_of_le h]; simp
  · have h' : d.length ≤ pos := by omega
    rw [List.take_of_length_le (by simp; omega), List.take_of_length_le h', List.drop_eq_nil_of_le (by simp; omega), List.drop_eq_nil_of_le (by omega)]

theorem lineOf_nil {b : Bytes} : lineOf b = [] ↔ b = [] := by
  cases b with
  | nil => simp [lineOf]
  | cons x b =>
    simp only [lineOf, reduceCtorEq, iff_false]
    by_cases hx : x = 10
    · simp [hx]
    · simp [hx]

/-- what a method of an open file did: the result `y`, the bytes and the position after it; other open files stay -/
def Done (E : ι → Dict) (r : ι → Nat) (s : Sys) (k : Option ι) (q : List Str) (hd : Hd) (m : OMode) (y : FAns) (d' : Bytes) (pos' : Nat)
    (z : Except PyErr FAns × Sys) : Prop :=
  z.1 = .ok y ∧ SysOk E r z.2 ∧ siteV r z.2 = upd (siteV r s) k q (some (.file d')) ∧ FAt r z.2 k q hd m d' pos' ∧
    ∀ {k' q' hd' m' g pos}, ¬ (k' = k ∧ q' = q) → FAt r s k' q' hd' m' g pos → FAt r z.2 k' q' hd' m' g pos

theorem mem_done (h : SysOk E r s) (hr : Function.Injective r) {i : ι} {q : List Str} {hh : Mem.Handle} {m : OMode} {f f' : FileObj} {t : Nat}
    (hp : phys s.mem (r i) q = some hh.id) (hf : s.mem.node hh.id = .file f) (hfl : hh.readable = m.reads ∧ hh.binary = true)
    (hl : m = .a → f'.pos = f'.data.length) {o : FOp} {y : FAns} (e : memOp hh o s.mem = (.ok y, s.mem.put hh.id f' t)) {d' : Bytes} {pos' : Nat}
    (hd : f'.data = d') (hpos : f'.pos = pos') : Done E r s (some i) q (.mem hh) m y d' pos' (FObj.op ⟨.mem hh, m, false⟩ o s) := by
  subst hd hpos
  obtain ⟨h1, h2, h3, h4⟩ := mem_step h hr (f' := f') (t := t) hp hf
  have e' : FObj.op ⟨.mem hh, m, false⟩ o s = (.ok y, { s with mem := s.mem.put hh.id f' t }) := onMem_ok e
  rw [e']
  exact ⟨rfl, h1, h2, ⟨h3, fun h' e => by cases e; exact hfl, hl⟩, fun hne hw => ⟨h4 hne hw.at_, hw.flags, hw.last⟩⟩

theorem look_done (h : SysOk E r s) {q : List Str} {fd : Nat} {m : OMode} {data : Bytes} {pos pos' : Nat}
    (hat : RdAt r s none q (.loc fd) data pos) (hl : m = .a → pos' = data.length) {o : FOp} {f : Bytes → Nat → Except PyErr (FAns × Nat)} {y : FAns}
    (e : fdOp fd m o = fdLook fd f) (hf : f data pos = .ok (y, pos')) :
    Done E r s none q (.loc fd) m y data pos' (FObj.op ⟨.loc fd, m, false⟩ o s) := by
  obtain ⟨s', h1, h2, h3, h4, h5⟩ := look_step h hat hf
  have e' : FObj.op ⟨.loc fd, m, false⟩ o s = (.ok y, s') := by
    show onDisk (fdOp fd m o) s = _
    rw [e, h1]
  rw [e']
  exact ⟨rfl, h2, by rw [h3, upd_self (RdAt.siteV hat)], ⟨h4, (fun _ e => by cases e), hl⟩, fun hne hw => ⟨h5 hne hw.at_, hw.flags, hw.last⟩⟩

theorem change_done (h : SysOk E r s) {q : List Str} {fd : Nat} {m : OMode} {data data' : Bytes} {pos pos' : Nat}
    (hat : RdAt r s none q (.loc fd) data pos) (hl : m = .a → pos' = data'.length) {o : FOp} {f : Bytes → Nat → Except PyErr (FAns × Bytes × Nat)} {y : FAns}
    (e : fdOp fd m o = fdChange fd f) (hf : f data pos = .ok (y, data', pos')) :
    Done E r s none q (.loc fd) m y data' pos' (FObj.op ⟨.loc fd, m, false⟩ o s) := by
  obtain ⟨s', h1, h2, h3, h4, h5⟩ := change_step h hat hf
  have e' : FObj.op ⟨.loc fd, m, false⟩ o s = (.ok y, s') := by
    show onDisk (fdOp fd m o) s = _
    rw [e, h1]
  rw [e']
  exact ⟨rfl, h2, h3, ⟨h4, (fun _ e => by cases e), hl⟩, fun hne hw => ⟨h5 hne hw.at_, hw.flags, hw.last⟩⟩

theorem not_a {m : OMode} (h : m.reads = true) : m ≠ .a := by rintro rfl; cases h

theorem read_n {d : Bytes} {pos : Nat} {n : Int} (hn : -1 ≤ n) :
    BytesIO.read d pos n = ((if n = -1 then d.drop pos else (d.drop pos).take n.toNat),
      pos + (if n = -1 then d.drop pos else (d.drop pos).take n.toNat).length) := by
  unfold BytesIO.read
  have : n < 0 ↔ n = -1 := by omega
  simp only [this]

theorem readline_n {d : Bytes} {pos : Nat} : BytesIO.readline d pos = (lineOf (d.drop pos), pos + (lineOf (d.drop pos)).length) := by
  unfold BytesIO.readline
  rw [firstLine_eq]

theorem firstLine_le (b : Bytes) : (BytesIO.firstLine b).length ≤ b.length := by
  obtain ⟨r, h⟩ := BytesIO.firstLine_append b
  have := congrArg List.length h
  rw [List.length_append] at this
  omega

theorem linesOf_cons {b : Bytes} (hb : b ≠ []) : linesOf b = lineOf b :: linesOf (b.drop (lineOf b).length) := by
  rw [← firstLine_eq]
  induction b with
  | nil => exact absurd rfl hb
  | cons c b ih =>
    unfold BytesIO.firstLine
    by_cases hc : c = 10
    · simp [linesOf, hc]
    · rw [if_neg hc, linesOf, if_neg hc]
      by_cases hb : b = []
      · subst hb
        rfl
      · rw [ih hb]
        simp

theorem fdLines_eq {d : Bytes} {n : Nat} {pos : Nat} (hn : (d.drop pos).length < n) : fdLines d n pos = (linesOf (d.drop pos), pos + (d.drop pos).length) := by
  induction n generalizing pos with
  | zero => omega
  | succ n ih =>
    unfold fdLines
    simp only [readline_n]
    by_cases hb : d.drop pos = []
    · rw [if_pos (lineOf_nil.2 hb), hb]
      rfl
    · rw [if_neg (mt lineOf_nil.1 hb), linesOf_cons hb]
      have h1 := List.length_pos_of_ne_nil (mt lineOf_nil.1 hb)
      have h2 : (lineOf (d.drop pos)).length ≤ (d.drop pos).length := by rw [← firstLine_eq]; exact firstLine_le _
      rw [ih (by rw [← List.drop_drop, List.length_drop]; omega), ← List.drop_drop, List.length_drop]
      simp only [Prod.mk.injEq, true_and]
      omega

theorem lines_mem {hh : Mem.Handle} (hb : hh.binary = true) {n : Nat} {w : World} {f : FileObj} (hf : w.node hh.id = .file f) (hn : (f.data.drop f.pos).length < n) :
    hh.lines n w = (.ok ((linesOf (f.data.drop f.pos)).map .bytes), w.put hh.id { f with pos := f.pos + (f.data.drop f.pos).length } w.tick) := by
  have hdec : ∀ b, hh.decode b = .ok (.bytes b) := fun b => by unfold Mem.Handle.decode; rw [if_pos hb]
  induction n generalizing w f with
  | zero => omega
  | succ n ih =>
    have e := Mem.next_eq (h := hh) hf
    rw [readline_n] at e
    simp only [lineOf_nil, hdec] at e
    unfold Mem.Handle.lines
    by_cases hz : f.data.drop f.pos = []
    · rw [if_pos hz] at e
      refine (Mem.bind_ok e).trans ?_
      rw [hz]
      rfl
    · rw [if_neg hz] at e
      refine (Mem.bind_ok e).trans ?_
      have h1 := List.length_pos_of_ne_nil (mt lineOf_nil.1 hz)
      have h2 : (lineOf (f.data.drop f.pos)).length ≤ (f.data.drop f.pos).length := by rw [← firstLine_eq]; exact firstLine_le _
      have e2 := ih (Mem.put_node w hh.id { f with pos := f.pos + (lineOf (f.data.drop f.pos)).length } w.tick)
        (by show (f.data.drop (f.pos + (lineOf (f.data.drop f.pos)).length)).length < n
            rw [← List.drop_drop, List.length_drop]; omega)
      refine (Mem.bind_ok e2).trans ?_
      rw [Mem.put_put, linesOf_cons hz]
      show ((.ok _, w.put _ _ _) : Except PyErr (List Mem.PyData) × World) = (.ok _, w.put _ _ _)
      have h3 : f.pos + (lineOf (f.data.drop f.pos)).length + (f.data.drop (f.pos + (lineOf (f.data.drop f.pos)).length)).length =
          f.pos + (f.data.drop f.pos).length := by
        rw [← List.drop_drop, List.length_drop]
        omega
      simp only [h3]
      rw [← List.drop_drop]
      rfl

/-- a method of an open local file does what is expected -/
theorem op_loc (h : SysOk E r s) {q : List Str} {fd : Nat} {m : OMode} {data d' : Bytes} {pos pos' : Nat}
    {o : FOp} {x : FAns} (hat : FAt r s none q (.loc fd) m data pos) (he : o.expect m data pos = some (x, d', pos')) :
    ∃ y, o.heard y = x ∧ Done E r s none q (.loc fd) m y d' pos' (FObj.op ⟨.loc fd, m, false⟩ o s) := by
  obtain ⟨hat, -, hlast⟩ := hat
  change RdAt r s none q (.loc fd) data pos at hat
  cases o with
  | read n =>
    simp only [FOp.expect, Option.ite_none_right_eq_some, Option.some.injEq, Prod.mk.injEq] at he
    obtain ⟨⟨hm, hn⟩, rfl, rfl, rfl⟩ := he
    refine ⟨_, rfl, look_done h hat (fun e => absurd e (not_a hm)) (if_neg (by rw [hm]; simp only [Bool.true_eq_false, false_or]; omega)) ?_⟩
    rw [read_n hn]
  | readline =>
    simp only [FOp.expect, Option.ite_none_right_eq_some, Option.some.injEq, Prod.mk.injEq] at he
    obtain ⟨hm, rfl, rfl, rfl⟩ := he
    refine ⟨_, rfl, look_done h hat (fun e => absurd e (not_a hm)) (if_neg (by rw [hm]; simp)) ?_⟩
    rw [readline_n]
  | next =>
    simp only [FOp.expect, Option.ite_none_right_eq_some, Option.some.injEq, Prod.mk.injEq] at he
    obtain ⟨hm, rfl, rfl, rfl⟩ := he
    refine ⟨if data.length ≤ pos then .stop else .bytes (lineOf (data.drop pos)), rfl,
      look_done h hat (fun e => absurd e (not_a hm)) (if_neg (by rw [hm]; simp)) ?_⟩
    rw [readline_n]
    by_cases hc : data.length ≤ pos
    · rw [if_pos hc, if_pos (by rw [lineOf_nil, List.drop_eq_nil_iff]; exact hc)]
    · rw [if_neg hc, if_neg (by rw [lineOf_nil, List.drop_eq_nil_iff]; exact hc)]
  | tell =>
    simp only [FOp.expect, Option.some.injEq, Prod.mk.injEq] at he
    obtain ⟨rfl, rfl, rfl⟩ := he
    exact ⟨_, rfl, look_done h hat hlast (f := fun _ pos => .ok (.num pos, pos)) rfl rfl⟩
  | readlines =>
    simp only [FOp.expect, Option.ite_none_right_eq_some, Option.some.injEq, Prod.mk.injEq] at he
    obtain ⟨hm, rfl, rfl, rfl⟩ := he
    refine ⟨_, rfl, look_done h hat (fun e => absurd e (not_a hm)) (if_neg (by rw [hm]; simp)) ?_⟩
    rw [fdLines_eq (by rw [List.length_drop]; omega)]
  | flush =>
    simp only [FOp.expect, Option.some.injEq, Prod.mk.injEq] at he
    obtain ⟨rfl, rfl, rfl⟩ := he
    exact ⟨_, rfl, look_done h hat hlast (f := fun _ pos => .ok (.unit, pos)) rfl rfl⟩
  | seekable =>
    simp only [FOp.expect, Option.some.injEq, Prod.mk.injEq] at he
    obtain ⟨rfl, rfl, rfl⟩ := he
    exact ⟨_, rfl, look_done h hat hlast (f := fun _ pos => .ok (.bool true, pos)) rfl rfl⟩
  | seek off wh =>
    simp only [FOp.expect, Option.ite_none_right_eq_some, Option.some.injEq, Prod.mk.injEq] at he
    obtain ⟨⟨hm, hn⟩, rfl, rfl, rfl⟩ := he
    refine ⟨_, rfl, look_done h hat (fun e => absurd e hm) rfl (y := .num (if wh = 0 then off else if wh = 1 then pos + off else if wh = 2 then data.length + off else -1)) ?_⟩
    split_ifs at hn ⊢ with h1 h2 h3 h4 <;> first | omega | (simp_all; try omega)
  | write b =>
    have hw : m.writes = true → fdOp fd m (.write b) = fdChange fd fun d pos =>
        .ok (.num b.length, (BytesIO.write d (if m = .a then d.length else pos) b).1, (BytesIO.write d (if m = .a then d.length else pos) b).2) :=
      fun hm => if_neg (by rw [hm]; simp)
    have key : m ≠ .a → m.writes = true → (if b = [] then some (FAns.unit, data, pos) else some (.unit, putAt data pos b, pos + b.length)) = some (x, d', pos') →
        ∃ y, (FOp.write b).heard y = x ∧ Done E r s none q (.loc fd) m y d' pos' (FObj.op ⟨.loc fd, m, false⟩ (.write b) s) := by
      intro hm hm' he
      have hx : BytesIO.write data pos b = (d', pos') ∧ x = .unit := by
        by_cases hb : b = []
        · rw [if_pos hb] at he
          rw [hb]
          simp only [Option.some.injEq, Prod.mk.injEq] at he
          obtain ⟨rfl, rfl, rfl⟩ := he
          exact ⟨rfl, rfl⟩
        · rw [if_neg hb] at he
          simp only [Option.some.injEq, Prod.mk.injEq] at he
          obtain ⟨rfl, rfl, rfl⟩ := he
          exact ⟨write_eq_putAt hb, rfl⟩
      refine ⟨_, hx.2.symm, change_done h hat (fun e => absurd e hm) (hw hm') ?_ (y := .num b.length)⟩
      rw [if_neg hm, hx.1]
    cases m with
    | r => cases he
    | a =>
      simp only [FOp.expect, Option.some.injEq, Prod.mk.injEq] at he
      obtain ⟨rfl, rfl, rfl⟩ := he
      refine ⟨_, rfl, change_done h hat (by simp) (hw rfl) ?_ (y := .num b.length)⟩
      simp only [if_true, BytesIO.write_end]
    | w => exact key (by simp) rfl he
    | rw => exact key (by simp) rfl he
  | truncate size =>
    simp only [FOp.expect, Option.ite_none_right_eq_some, Option.some.injEq, Prod.mk.injEq] at he
    obtain ⟨⟨hm, hn, hn'⟩, rfl, rfl, rfl⟩ := he
    have hm1 : m ≠ .a := by rcases hm with rfl | rfl <;> simp
    have hm2 : m.writes = true := by rcases hm with rfl | rfl <;> rfl
    refine ⟨_, rfl, change_done h hat (fun e => absurd e hm1) (if_neg (by rw [hm2]; simp)) ?_⟩
    have h1 : ¬ size.getD ↑pos < 0 := by omega
    have h2 : (size.getD (pos : Int)).toNat - data.length = 0 := by omega
    simp only [if_neg h1, h2, List.replicate_zero, List.append_nil]

theorem mem_bind {α β : Type} {m : Mem.M α} {f : α → Mem.M β} {w w' : World} {a : α} (e : m w = (.ok a, w')) : (m >>= f) w = f a w' := Mem.bind_ok e

/-- a method of an open file of memory.py does what is expected -/
theorem op_mem (h : SysOk E r s) (hr : Function.Injective r) {i : ι} {q : List Str} {hh : Mem.Handle} {m : OMode} {data d' : Bytes} {pos pos' : Nat}
    {o : FOp} {x : FAns} (hat : FAt r s (some i) q (.mem hh) m data pos) (he : o.expect m data pos = some (x, d', pos')) :
    ∃ y, o.heard y = x ∧ Done E r s (some i) q (.mem hh) m y d' pos' (FObj.op ⟨.mem hh, m, false⟩ o s) := by
  obtain ⟨⟨-, -, hp, f, hf, rfl, rfl⟩, hfl, hlast⟩ := hat
  change phys s.mem (r i) q = some hh.id at hp
  change s.mem.node hh.id = .file f at hf
  have hfl := hfl hh rfl
  have hdec : ∀ b, hh.decode b = .ok (.bytes b) := fun b => by unfold Mem.Handle.decode; rw [if_pos hfl.2]
  cases o with
  | read n =>
    simp only [FOp.expect, Option.ite_none_right_eq_some, Option.some.injEq, Prod.mk.injEq] at he
    obtain ⟨⟨hm, hn⟩, rfl, rfl, rfl⟩ := he
    have e := Mem.read_eq (n := n) (hfl.1.trans hm) hf
    rw [read_n hn, hdec] at e
    have e2 : memOp hh (.read n) s.mem = _ := mem_bind e
    exact ⟨_, rfl, mem_done h hr hp hf hfl (fun e => absurd e (not_a hm)) e2 rfl rfl⟩
  | readline =>
    simp only [FOp.expect, Option.ite_none_right_eq_some, Option.some.injEq, Prod.mk.injEq] at he
    obtain ⟨hm, rfl, rfl, rfl⟩ := he
    have e : hh.readline s.mem = (.ok (.bytes (lineOf (f.data.drop f.pos))),
        s.mem.put hh.id { f with pos := f.pos + (lineOf (f.data.drop f.pos)).length } s.mem.tick) := by
      have e1 : (Mem.withFile hh.id fun f => do
          let r := BytesIO.readline f.data f.pos
          Mem.setNode hh.id (.file { f with pos := r.2 })
          pure r.1) s.mem = (.ok (lineOf (f.data.drop f.pos)), s.mem.put hh.id { f with pos := f.pos + (lineOf (f.data.drop f.pos)).length } s.mem.tick) := by
        unfold Mem.withFile
        rw [hf]
        show ((.ok (BytesIO.readline f.data f.pos).1, s.mem.put hh.id { f with pos := (BytesIO.readline f.data f.pos).2 } s.mem.tick) : Except PyErr Bytes × World) = _
        rw [readline_n]
      refine (Mem.bind_ok e1).trans ?_
      rw [hdec]
      rfl
    have e2 : memOp hh .readline s.mem = _ := mem_bind e
    exact ⟨_, rfl, mem_done h hr hp hf hfl (fun e => absurd e (not_a hm)) e2 rfl rfl⟩
  | next =>
    simp only [FOp.expect, Option.ite_none_right_eq_some, Option.some.injEq, Prod.mk.injEq] at he
    obtain ⟨hm, rfl, rfl, rfl⟩ := he
    have e := Mem.next_eq (h := hh) hf
    rw [readline_n] at e
    simp only [lineOf_nil, List.drop_eq_nil_iff, hdec] at e
    split at e
    · rename_i hc
      rw [if_pos hc]
      have e2 : memOp hh (.next) s.mem = _ := mem_bind e
      exact ⟨_, rfl, mem_done h hr hp hf hfl (fun e => absurd e (not_a hm)) e2 rfl rfl⟩
    · rename_i hc
      rw [if_neg hc]
      have e2 : memOp hh (.next) s.mem = _ := mem_bind e
      exact ⟨_, rfl, mem_done h hr hp hf hfl (fun e => absurd e (not_a hm)) e2 rfl rfl⟩
  | tell =>
    simp only [FOp.expect, Option.some.injEq, Prod.mk.injEq] at he
    obtain ⟨rfl, rfl, rfl⟩ := he
    have e2 : memOp hh .tell s.mem = (.ok (.num f.pos), s.mem.put hh.id f s.mem.tick) := by
      rw [Mem.put_self hf]
      exact mem_bind (Mem.tell_eq (h := hh) hf)
    exact ⟨_, rfl, mem_done h hr hp hf hfl hlast e2 rfl rfl⟩
  | readlines =>
    simp only [FOp.expect, Option.ite_none_right_eq_some, Option.some.injEq, Prod.mk.injEq] at he
    obtain ⟨hm, rfl, rfl, rfl⟩ := he
    have e : memLines hh s.mem = _ := (Mem.bind_ok (Mem.size_eq (h := hh) hf)).trans (lines_mem hfl.2 hf (by rw [List.length_drop]; omega))
    have e2 : memOp hh .readlines s.mem = _ := mem_bind e
    exact ⟨_, rfl, mem_done h hr hp hf hfl (fun e => absurd e (not_a hm)) e2 rfl rfl⟩
  | flush =>
    simp only [FOp.expect, Option.some.injEq, Prod.mk.injEq] at he
    obtain ⟨rfl, rfl, rfl⟩ := he
    have e2 : memOp hh .flush s.mem = (.ok .unit, s.mem.put hh.id f s.mem.tick) := by
      rw [Mem.put_self hf]
      exact mem_bind (a := ()) (by unfold memFlush Mem.withFile; rw [hf]; rfl)
    exact ⟨_, rfl, mem_done h hr hp hf hfl hlast e2 rfl rfl⟩
  | seekable =>
    simp only [FOp.expect, Option.some.injEq, Prod.mk.injEq] at he
    obtain ⟨rfl, rfl, rfl⟩ := he
    have e2 : memOp hh .seekable s.mem = (.ok (.bool true), s.mem.put hh.id f s.mem.tick) := by
      rw [Mem.put_self hf]
      exact mem_bind (a := true) (by unfold memSeekable Mem.withFile; rw [hf]; rfl)
    exact ⟨_, rfl, mem_done h hr hp hf hfl hlast e2 rfl rfl⟩
  | seek off wh =>
    simp only [FOp.expect, Option.ite_none_right_eq_some, Option.some.injEq, Prod.mk.injEq] at he
    obtain ⟨⟨hm, hn⟩, rfl, rfl, rfl⟩ := he
    have e := Mem.seek_eq (h := hh) (t := off) (wh := wh) hf
    have e' : BytesIO.seek f.data f.pos off wh =
        .ok (if wh = 0 then off else if wh = 1 then f.pos + off else if wh = 2 then f.data.length + off else -1).toNat := by
      unfold BytesIO.seek
      split_ifs at hn ⊢ with h1 h2 h3 h4 <;> first | omega | rfl
    rw [e'] at e
    have e2 : memOp hh (.seek off wh) s.mem = _ := mem_bind e
    exact ⟨_, rfl, mem_done h hr hp hf hfl (fun e => absurd e hm) e2 rfl rfl⟩
  | write b =>
    have e := Mem.write_eq (h := hh) (d := .bytes b) rfl hf
    have hx : BytesIO.write f.data f.pos b = (d', pos') ∧ x = .unit ∧ (m = .a → pos' = d'.length) := by
      have key : m ≠ .a → (if b = [] then some (FAns.unit, f.data, f.pos) else some (.unit, putAt f.data f.pos b, f.pos + b.length)) = some (x, d', pos') →
          BytesIO.write f.data f.pos b = (d', pos') ∧ x = .unit ∧ (m = .a → pos' = d'.length) := by
        intro hm he
        by_cases hb : b = []
        · rw [if_pos hb] at he
          rw [hb]
          simp only [Option.some.injEq, Prod.mk.injEq] at he
          obtain ⟨rfl, rfl, rfl⟩ := he
          exact ⟨rfl, rfl, fun e => absurd e hm⟩
        · rw [if_neg hb] at he
          simp only [Option.some.injEq, Prod.mk.injEq] at he
          obtain ⟨rfl, rfl, rfl⟩ := he
          exact ⟨write_eq_putAt hb, rfl, fun e => absurd e hm⟩
      cases m with
      | r => cases he
      | a =>
        simp only [FOp.expect, Option.some.injEq, Prod.mk.injEq] at he
        obtain ⟨rfl, rfl, rfl⟩ := he
        rw [hlast rfl, BytesIO.write_end]
        exact ⟨rfl, rfl, by simp⟩
      | w => exact key (by simp) he
      | rw => exact key (by simp) he
    obtain ⟨h1, h2, h3⟩ := hx
    rw [h1] at e
    have e2 : memOp hh (.write b) s.mem = _ := mem_bind e
    exact ⟨_, h2.symm, mem_done h hr hp hf hfl h3 e2 rfl rfl⟩
  | truncate size =>
    simp only [FOp.expect, Option.ite_none_right_eq_some, Option.some.injEq, Prod.mk.injEq] at he
    obtain ⟨⟨hm, hn, hn'⟩, rfl, rfl, rfl⟩ := he
    have hm1 : m ≠ .a := by rcases hm with rfl | rfl <;> simp
    have e := Mem.truncate_eq (h := hh) (n := size) hf
    have e' : BytesIO.truncate f.data f.pos size = .ok (f.data.take (size.getD ↑f.pos).toNat, size.getD ↑f.pos) := by
      unfold BytesIO.truncate
      rw [if_neg (by omega)]
    rw [e'] at e
    have e2 : memOp hh (.truncate size) s.mem = _ := mem_bind e
    exact ⟨_, rfl, mem_done h hr hp hf hfl (fun e => absurd e hm1) e2 rfl rfl⟩

/-! ## Opening -/

/-- what opening a file that is there leaves -/
def FOpened (E : ι → Dict) (r : ι → Nat) (s : Sys) (k : Option ι) (q : List Str) (m : OMode) (data : Bytes) (pos : Nat)
    (V : Option ι → List Str → Option Kind) (z : Except PyErr Hd × Sys) : Prop :=
  ∃ hd s', z = (.ok hd, s') ∧ SysOk E r s' ∧ siteV r s' = V ∧ FAt r s' k q hd m data pos ∧
    ∀ {k' q' hd' m' g pos}, ¬ (k' = k ∧ q' = q) → FAt r s k' q' hd' m' g pos → FAt r s' k' q' hd' m' g pos

theorem sOpen_eq (h : SysOk E r s) {k : Option ι} {cs : List Str} (hn : Nm cs) (m : OMode) :
    sOpen m (siteAt E k cs) s = match k with
      | some i => (do let h ← onMem (Mem.open_ (r i) (mem (E i) cs) (some m.text)); pure (Hd.mem h) : OM Sys Hd) s
      | none => (do let fd ← onDisk (osOpen (loc cs).path m); pure (Hd.loc fd) : OM Sys Hd) s := by
  unfold sOpen
  refine (Props.site_wc h hn _ _).trans ?_
  cases k <;> rfl

/-- the first position in a local file -/
theorem newfd_opened (h : SysOk E r s) {cs : List Str} {m : OMode} {p : Nat} {d : Bytes} {pos : Nat} (hp : s.disk.tree cs = some (.file p d))
    (hl : m = .a → pos = d.length) {z : Except PyErr Hd × Sys}
    (e : z = (.ok (.loc s.disk.fds.length), { s with disk := { s.disk with fds := s.disk.fds ++ [(cs, pos)] } })) :
    FOpened E r s none cs m d pos (siteV r s) z := by
  refine ⟨_, _, e, h.dsk (h.disk.fds _), ?_, ⟨⟨by simp, p, hp⟩, (fun _ e => by cases e), hl⟩, ?_⟩
  · funext k p; cases k <;> rfl
  · intro k' q' hd' m' g pos hne hw
    refine ⟨?_, hw.flags, hw.last⟩
    have hw := hw.at_
    cases k' with
    | some j => cases hd' <;> exact hw
    | none =>
      cases hd' with
      | mem _ => exact hw.elim
      | loc fd' =>
        obtain ⟨h3, h4⟩ := hw
        refine ⟨?_, h4⟩
        have : fd' < s.disk.fds.length := (List.getElem?_eq_some_iff.1 h3).1
        show (s.disk.fds ++ _)[fd']? = _
        rw [List.getElem?_append_left this]
        exact h3

/-- opening a file that is there, without changing it -/
theorem opened_there (h : SysOk E r s) (hr : Function.Injective r) {k : Option ι} {cs : List Str} {d : Bytes} (hn : Nm cs)
    (hv : siteV r s k cs = some (.file d)) {m : OMode} (hm : m ≠ .w) (hd : m = .a → d ≠ []) :
    FOpened E r s k cs m d (if m = .a then d.length else 0) (siteV r s) (sOpen m (siteAt E k cs) s) := by
  rw [sOpen_eq h hn]
  cases k with
  | none =>
    obtain ⟨p, hp⟩ := siteV_lfile.1 hv
    refine newfd_opened h hp (fun e => by rw [if_pos e]) ?_
    have e : osOpen (loc cs).path m s.disk = (.ok s.disk.fds.length, { s.disk with fds := s.disk.fds ++ [(cs, if m = .a then d.length else 0)] }) := by
      cases m with
      | w => exact absurd rfl hm
      | r =>
        unfold osOpen osOpenR Disk.newFd
        simp only [find_here h.disk hn hp (.inr rfl), hp, isDirD, Bool.false_eq_true, if_false, reduceCtorEq]
      | rw =>
        unfold osOpen osOpenR Disk.newFd
        simp only [find_here h.disk hn hp (.inr rfl), hp, isDirD, Bool.false_eq_true, if_false, reduceCtorEq]
      | a =>
        unfold osOpen osOpenA
        simp only [find_here h.disk hn hp (.inr rfl), hp, if_true]
    exact bind_ok (onDisk_ok e)
  | some i =>
    obtain ⟨mo, t, hf⟩ := siteV_file.1 hv
    obtain ⟨j, f, hj, hjf⟩ := Mem.isFile_view ⟨_, _, _, hf⟩
    have hg : Goes (view s.mem (r i)) maxDepth [] cs (.found cs) := Mem.Plain.goes (plain_of_view hf) hf rfl
    have hdf : f.data = d := by
      have := Mem.view_of_phys hj
      rw [hjf, hf] at this
      simp only [objOf, Option.some.injEq, Obj.file.injEq] at this
      exact this.1.symm
    subst hdf
    obtain ⟨eR, eA⟩ := Mem.openRead_found h.inv (h.fs i).isRoot (b := true) (stepsOf_mem hn.ok (E i)) hg hj hjf
    have hlen : m = .a → f.len = f.data.length := by
      intro e
      have := List.length_pos_iff.2 (hd e)
      unfold Mem.FileObj.len
      omega
    have e : Mem.open_ (r i) (mem (E i) cs) (some m.text) s.mem =
        (.ok ⟨j, m.reads, true⟩, s.mem.put j { f with pos := if m = .a then f.data.length else 0 } s.mem.tick) := by
      cases m with
      | w => exact absurd rfl hm
      | r => exact eR
      | rw => exact eR
      | a =>
        rw [if_pos rfl, ← hlen rfl]
        exact eA
    obtain ⟨h1, h2, h3, h4⟩ := mem_step h hr (f' := { f with pos := if m = .a then f.data.length else 0 }) (t := s.mem.tick) hj hjf
    refine ⟨_, _, bind_ok (onMem_ok e), h1, ?_, ⟨?_, (fun h' e => by cases e; exact ⟨rfl, rfl⟩), fun e => by rw [if_pos e]⟩,
      fun hne hw => ⟨h4 hne hw.at_, hw.flags, hw.last⟩⟩
    · rw [h2]
      exact upd_self hv
    · exact h3

/-- opening a file for writing -/
theorem opened_new (h : SysOk E r s) (hr : Function.Injective r) {k : Option ι} {ds : List Str} {n : Str} (hn : Nm (ds ++ [n]))
    (hd : siteV r s k ds = some .dir) (hv : siteV r s k (ds ++ [n]) = none ∨ isF (siteV r s k (ds ++ [n])) = true) :
    FOpened E r s k (ds ++ [n]) .w [] 0 (upd (siteV r s) k (ds ++ [n]) (some (.file []))) (sOpen .w (siteAt E k (ds ++ [n])) s) := by
  obtain ⟨s', hd', e, h1, h2, h3, h4⟩ := site_openW (E := E) h hr hn hd hv
  rw [sOpen_eq h hn]
  cases k with
  | none =>
    refine ⟨hd', s', e, h1, h2, ⟨?_, ?_, by simp⟩, fun hne hw => ⟨h4 hne hw.at_, hw.flags, hw.last⟩⟩
    · cases hd' with
      | mem _ => exact h3.elim
      | loc fd => exact h3
    · rintro hh rfl; exact h3.elim
  | some i =>
    cases hd' with
    | loc _ => exact h3.elim
    | mem hh =>
      obtain ⟨h5, f, h6, h7, h8⟩ := h3
      refine ⟨.mem hh, s', e, h1, h2, ⟨⟨rfl, rfl, h5, f, h6, h7, h8⟩, ?_, by simp⟩, fun hne hw => ⟨h4 hne hw.at_, hw.flags, hw.last⟩⟩
      rintro h' e'
      cases e'
      rcases Mem.openWrite_cases h.inv (h.fs i).isRoot (mem (E i) (ds ++ [n])) true with ⟨x, ho⟩ | ⟨a, g, -, ho⟩ | ⟨_, _, _, _, _, _, -, -, -, -, -, -, -, ho⟩
      all_goals
        have ho' : Mem.open_ (r i) (mem (E i) (ds ++ [n])) (some cl!"wb") s.mem = _ := ho
      · have e' := (bind_error (onMem_ok ho')).symm.trans e
        cases e'
      · have e' := (bind_ok (onMem_ok ho')).symm.trans e
        cases e'
        exact ⟨rfl, rfl⟩
      · have e' := (bind_ok (onMem_ok ho')).symm.trans e
        cases e'
        exact ⟨rfl, rfl⟩

/-! ## Closing -/

theorem close_step (h : SysOk E r s) (hr : Function.Injective r) {k : Option ι} {q : List Str} {f : FObj} {data : Bytes} {pos : Nat}
    (hat : FAt r s k q f.hd f.mode data pos) :
    ∃ s', f.close s = (.ok (), s') ∧ SysOk E r s' ∧ siteV r s' = siteV r s ∧
      ∀ {k' q' hd' m' g pos}, ¬ (k' = k ∧ q' = q) → FAt r s k' q' hd' m' g pos → FAt r s' k' q' hd' m' g pos := by
  have hv := hat.at_.siteV
  obtain ⟨hat, -, -⟩ := hat
  unfold FObj.close
  cases k with
  | none =>
    cases hd : f.hd with
    | mem hh => rw [hd] at hat; exact hat.elim
    | loc fd => exact ⟨s, rfl, h, rfl, fun _ hw => hw⟩
  | some i =>
    cases hd : f.hd with
    | loc fd => rw [hd] at hat; exact hat.elim
    | mem hh =>
      rw [hd] at hat
      obtain ⟨-, -, hp, g, hg, rfl, rfl⟩ := hat
      obtain ⟨h1, h2, -, h4⟩ := mem_step h hr (f' := { g with pos := 0 }) (t := s.mem.tick) hp hg
      exact ⟨_, onMem_ok (Mem.close_eq (h := hh) hg), h1, by rw [h2]; exact upd_self hv, fun hne hw => ⟨h4 hne hw.at_, hw.flags, hw.last⟩⟩

/-- a method of an open file does what is expected -/
theorem op_done (h : SysOk E r s) (hr : Function.Injective r) {k : Option ι} {q : List Str} {hd : Hd} {m : OMode} {data d' : Bytes} {pos pos' : Nat}
    {o : FOp} {x : FAns} (hat : FAt r s k q hd m data pos) (he : o.expect m data pos = some (x, d', pos')) :
    ∃ y, o.heard y = x ∧ Done E r s k q hd m y d' pos' (FObj.op ⟨hd, m, false⟩ o s) := by
  cases k with
  | none =>
    cases hd with
    | mem hh => exact hat.at_.elim
    | loc fd => exact op_loc h hat he
  | some i =>
    cases hd with
    | loc fd => exact hat.at_.elim
    | mem hh => exact op_mem h hr hat he

/-! ## Whole files and directories beside the open files -/

/-- open files at other names than `q` of place `k` are as before -/
def Beside (r : ι → Nat) (s s' : Sys) (k : Option ι) (q : List Str) : Prop :=
  ∀ (k' : Option ι) (q' : List Str) (hd : Hd) (g : Bytes) (pos : Nat), ¬ (k' = k ∧ q' = q) → RdAt r s k' q' hd g pos → RdAt r s' k' q' hd g pos

theorem Beside.refl {k : Option ι} {q : List Str} : Beside r s s k q := fun _ _ _ _ _ _ h => h

theorem Beside.trans {s' s'' : Sys} {k : Option ι} {q : List Str} (h : Beside r s s' k q) (h' : Beside r s' s'' k q) : Beside r s s'' k q :=
  fun _ _ _ _ _ hne hw => h' _ _ _ _ _ hne (h _ _ _ _ _ hne hw)

theorem Beside.fat {s' : Sys} {k k' : Option ι} {q q' : List Str} {hd : Hd} {m : OMode} {g : Bytes} {pos : Nat} (h : Beside r s s' k q)
    (hne : ¬ (k' = k ∧ q' = q)) (hw : FAt r s k' q' hd m g pos) : FAt r s' k' q' hd m g pos :=
  ⟨h _ _ _ _ _ hne hw.at_, hw.flags, hw.last⟩

/-- opening for reading -/
theorem beside_openR (h : SysOk E r s) (hr : Function.Injective r) {k : Option ι} {q : List Str} {d : Bytes} (hn : Nm q)
    (hv : siteV r s k q = some (.file d)) : Beside r s (sysOps.openR (siteC r k) (siteAt E k q) s).2 k q := by
  cases k with
  | none =>
    obtain ⟨p, hp⟩ := siteV_lfile.1 hv
    have e : osOpenR (loc q).path s.disk = (.ok s.disk.fds.length, { s.disk with fds := s.disk.fds ++ [(q, 0)] }) := by
      unfold osOpenR Disk.newFd
      simp only [find_here h.disk hn hp (.inr rfl), hp, isDirD, Bool.false_eq_true, if_false]
    have e' : sysOps.openR (siteC r none) (siteAt E none q) s = _ := bind_ok (onDisk_ok e)
    rw [e']
    intro k' q' hd' g pos hne hw
    cases k' with
    | some j => cases hd' <;> exact hw
    | none =>
      cases hd' with
      | mem _ => exact hw.elim
      | loc fd' =>
        obtain ⟨h3, h4⟩ := hw
        refine ⟨?_, h4⟩
        have : fd' < s.disk.fds.length := (List.getElem?_eq_some_iff.1 h3).1
        show (s.disk.fds ++ _)[fd']? = _
        rw [List.getElem?_append_left this]
        exact h3
  | some i =>
    obtain ⟨mo, t, hf⟩ := siteV_file.1 hv
    obtain ⟨j, f, hj, hjf⟩ := Mem.isFile_view ⟨_, _, _, hf⟩
    have hg : Goes (view s.mem (r i)) maxDepth [] q (.found q) := Mem.Plain.goes (plain_of_view hf) hf rfl
    have eR := (Mem.openRead_found h.inv (h.fs i).isRoot (b := true) (stepsOf_mem hn.ok (E i)) hg hj hjf).1
    have e : Mem.open_ (r i) (mem (E i) q) (some cl!"rb") s.mem = (.ok ⟨j, true, true⟩, s.mem.put j { f with pos := 0 } s.mem.tick) := eR
    have e' : sysOps.openR (siteC r (some i)) (siteAt E (some i) q) s = _ := bind_ok (onMem_ok e)
    rw [e']
    exact fun _ _ _ _ _ hne hw => (mem_step h hr (f' := { f with pos := 0 }) (t := s.mem.tick) hj hjf).2.2.2 hne hw

/-- reading on -/
theorem beside_read (h : SysOk E r s) (hr : Function.Injective r) {k : Option ι} {q : List Str} {hd : Hd} {data : Bytes} {pos : Nat}
    (hrd : RdAt r s k q hd data pos) (n : Nat) : Beside r s (hRead n hd s).2 k q := by
  cases k with
  | none =>
    cases hd with
    | mem _ => exact hrd.elim
    | loc fd =>
      obtain ⟨h1, p, h2⟩ := hrd
      have e : fdRead fd n s.disk = (.ok ((data.drop pos).take n),
          { s.disk with fds := s.disk.fds.set fd (q, pos + ((data.drop pos).take n).length) }) := by
        unfold fdRead
        simp only [h1, h2]
      have e' : hRead n (.loc fd) s = _ := bind_ok (onDisk_ok e)
      rw [e']
      intro k' q' hd' g pos' hne hw
      cases k' with
      | some j => cases hd' <;> exact hw
      | none =>
        cases hd' with
        | mem _ => exact hw.elim
        | loc fd' =>
          obtain ⟨h3, h4⟩ := hw
          exact ⟨fds_ne h1 h3 fun c => hne ⟨rfl, c⟩, h4⟩
  | some i =>
    cases hd with
    | loc _ => exact hrd.elim
    | mem hh =>
      obtain ⟨h1, h2, hp, f, hf, rfl, rfl⟩ := hrd
      have e := Mem.read_eq (n := n) h1 hf
      have e' : (hRead n (.mem hh) s).2 = { s with mem := (hh.read n s.mem).2 } := rfl
      rw [e', e]
      exact fun _ _ _ _ _ hne hw => (mem_step h hr hp hf).2.2.2 hne hw

/-- the blocks that `md5` reads -/
theorem beside_blocks (hr : Function.Injective r) {k : Option ι} {q : List Str} {hd : Hd} {data : Bytes} (n : Nat) :
    ∀ {s : Sys} {pos : Nat}, SysOk E r s → RdAt r s k q hd data pos → Beside r s (blockLoop hd n s).2 k q := by
  induction n with
  | zero => intro s pos _ _; exact Beside.refl
  | succ n ih =>
    intro s pos h hrd
    obtain ⟨s1, e1, ok1, v1, rd1, -⟩ := read_step h hr hrd 4096
    have b1 := beside_read h hr hrd 4096
    rw [e1] at b1
    unfold blockLoop
    rw [bind_ok e1]
    dsimp only
    split
    · exact b1
    · have := ih ok1 rd1
      refine b1.trans ?_
      show Beside r s1 (OM.bnd (blockLoop hd n) _ s1).2 k q
      unfold OM.bnd
      revert this
      rcases blockLoop hd n s1 with ⟨x | x, s'⟩ <;> exact fun c => c

/-- writing pieces -/
theorem beside_writes (hr : Function.Injective r) {k : Option ι} {q : List Str} {hd : Hd} (l : List Bytes) :
    ∀ {s : Sys} {data : Bytes}, SysOk E r s → WrAt r s k q hd data → Beside r s (sWrites hd l s).2 k q := by
  induction l with
  | nil => intro s data _ _; exact Beside.refl
  | cons b l ih =>
    intro s data h hw
    obtain ⟨s1, e1, ok1, v1, w1, b1⟩ := write_step h hr hw b
    unfold sWrites
    rw [bind_ok e1]
    exact Beside.trans (fun _ _ _ _ _ hne hw => b1 hne hw) (ih ok1 w1)

/-- a new directory -/
theorem beside_mkdir (h : SysOk E r s) (hr : Function.Injective r) {k : Option ι} {cs : List Str} {n : Str} (hn : Nm (cs ++ [n]))
    (hd : siteV r s k cs = some .dir) (hv : siteV r s k (cs ++ [n]) = none) :
    Beside r s (sysOps.mkdir (siteC r k) (siteAt E k (cs ++ [n])) s).2 k (cs ++ [n]) := by
  cases k with
  | none =>
    obtain ⟨p, hp⟩ := siteV_ldir.1 hd
    rw [siteV_lnone] at hv
    have e : sysOps.mkdir (siteC r none) (siteAt E none (cs ++ [n])) s =
        (.ok (), { s with disk := s.disk.set (cs ++ [n]) (.dir (Local.clearBits 0o777 s.disk.umask)) }) := by
      show (if (loc (cs ++ [n])).path = [] then pure () else onDisk (osMkdir (loc (cs ++ [n])).path)) s = _
      rw [if_neg (loc_path_ne hn)]
      apply onDisk_ok
      unfold osMkdir
      rw [find_free h.disk hn hp hv]
    rw [e]
    intro k' q' hd' g pos hne hw
    cases k' with
    | some j => cases hd' <;> exact hw
    | none =>
      cases hd' with
      | mem _ => exact hw.elim
      | loc fd' =>
        obtain ⟨h3, p', h4⟩ := hw
        refine ⟨h3, p', ?_⟩
        show (s.disk.set _ _).tree q' = _
        rw [tree_set, if_neg fun e => hne ⟨rfl, e⟩]
        exact h4
  | some i =>
    rw [siteV_none] at hv
    have hdir := siteV_dir.1 hd
    obtain ⟨nd, d, h1, h2, h3, h4⟩ := Mem.mkdir_new h.inv (h.fs i).isRoot (stepsOf_mem hn.ok (E i)) (isDir_goes hdir) hdir hv
    have e : sysOps.mkdir (siteC r (some i)) (siteAt E (some i) (cs ++ [n])) s = _ := onMem_ok h4
    rw [e]
    intro k' q' hd' g pos hne hw
    cases k' with
    | none => cases hd' <;> exact hw
    | some j =>
      cases hd' with
      | loc _ => exact hw.elim
      | mem h' =>
        obtain ⟨h7, h8, h9, f, h10, h11⟩ := hw
        have hlt := Mem.phys_lt h.inv (h.fs j).isRoot h9
        have hin : h'.id ≠ nd := by intro e; rw [e, h2] at h10; simp at h10
        refine ⟨h7, h8, ?_, f, ?_, h11⟩
        · show phys (World.addChild _ _ _ _ _) _ _ = _
          rw [Mem.phys_addChild h.inv (h.fs i).isRoot h1 h2 h3 (n := s.mem.freshDir) rfl (r j) (h.fs j).isRoot, if_neg]
          · exact h9
          · rintro ⟨e1, e2⟩; exact hne ⟨by rw [hr e1], e2⟩
        · simp only [World.addChild]
          rw [if_neg hin, if_neg (by omega)]
          exact h10

/-- what a removed name without anything below it leaves of a memory file system -/
theorem beside_delEntry (h : SysOk E r s) (hr : Function.Injective r) {i : ι} {q : List Str} {n : Str} {nd : Nat} {d : Mem.DirObj}
    (h1 : phys s.mem (r i) q = some nd) (h2 : s.mem.node nd = .dir d) (he : ∀ m, siteV r s (some i) (q ++ [n] ++ [m]) = none) :
    Beside r s { s with mem := s.mem.delEntry nd d n } (some i) (q ++ [n]) := by
  intro k' q' hd' g pos hne hw
  cases k' with
  | none => cases hd' <;> exact hw
  | some j =>
    have hsv := hw.siteV
    cases hd' with
    | loc _ => exact hw.elim
    | mem h' =>
      obtain ⟨h7, h8, h9, f, h10, h11⟩ := hw
      have hin : h'.id ≠ nd := by intro e; rw [e, h2] at h10; simp at h10
      refine ⟨h7, h8, ?_, f, ?_, h11⟩
      · show phys (World.delEntry _ _ _ _) _ _ = _
        rw [Mem.phys_delEntry h.inv (h.fs i).isRoot h1 h2 (r j) (h.fs j).isRoot, if_neg]
        · exact h9
        · rintro ⟨e1, x, e2⟩
          obtain rfl : j = i := hr e1
          cases x with
          | nil => exact hne ⟨rfl, by rw [← e2, List.append_nil]⟩
          | cons m x =>
            rw [show q ++ [n] ++ m :: x = q ++ [n] ++ [m] ++ x by simp] at e2
            have : ∀ x : List Str, siteV r s (some j) (q ++ [n] ++ [m] ++ x) = none := by
              intro x
              induction x using List.reverseRecOn with
              | nil => rw [List.append_nil]; exact he m
              | append_singleton x y ih =>
                by_contra hc
                rw [← List.append_assoc] at hc
                rw [site_tree h hc] at ih
                cases ih
            rw [← e2, this] at hsv
            cases hsv
      · show (World.setNode _ _ _).node _ = _
        unfold World.setNode
        dsimp only
        rw [if_neg hin]
        exact h10

/-- the same on the disk -/
theorem beside_del {q : List Str} : Beside r s { s with disk := s.disk.del q } none q := by
  intro k' q' hd' g pos hne hw
  cases k' with
  | some j => cases hd' <;> exact hw
  | none =>
    cases hd' with
    | mem _ => exact hw.elim
    | loc fd' =>
      obtain ⟨h3, p', h4⟩ := hw
      refine ⟨h3, p', ?_⟩
      show (s.disk.del _).tree q' = _
      rw [tree_del, if_neg fun e => hne ⟨rfl, e⟩]
      exact h4

/-- removing a file -/
theorem beside_removefile (h : SysOk E r s) (hr : Function.Injective r) {k : Option ι} {cs : List Str} {d : Bytes} (hn : Nm cs)
    (hv : siteV r s k cs = some (.file d)) : Beside r s (sysOps.removefile (siteC r k) (siteAt E k cs) s).2 k cs := by
  cases k with
  | none =>
    obtain ⟨p, hp⟩ := siteV_lfile.1 hv
    have e : sysOps.removefile (siteC r none) (siteAt E none cs) s = (.ok (), { s with disk := s.disk.del cs }) := by
      refine onDisk_ok (?_ : osUnlink (loc cs).path s.disk = _)
      unfold osUnlink
      rw [find_here h.disk hn hp (.inr rfl)]
      simp only [hp, isDirD, Bool.false_eq_true, if_false]
    rw [e]
    exact beside_del
  | some i =>
    have he : ∀ m, siteV r s (some i) (cs ++ [m]) = none := by
      intro m
      by_contra hc
      rw [site_tree h hc] at hv
      cases hv
    obtain ⟨m, t, hf⟩ := siteV_file.1 hv
    rcases List.eq_nil_or_concat cs with rfl | ⟨q, n, rfl⟩
    · obtain ⟨m', t', e⟩ := Mem.isDir_root h.inv (h.fs i).isRoot
      rw [hf] at e; simp at e
    · rw [List.concat_eq_append] at *
      have hq := Mem.view_parent hf
      obtain ⟨nd, d, c, k1, k2, -, k4⟩ := Mem.removefile_found h.inv (h.fs i).isRoot (stepsOf_mem hn.ok (E i)) (Mem.filter_clean hn.ok.nil_not_mem)
        (mem_last (hn.ok.clean n (by simp)) (E i)) (isDir_goes hq) (.inr (plain_snoc hq n)) hf
      have e : sysOps.removefile (siteC r (some i)) (siteAt E (some i) (q ++ [n])) s = _ := onMem_ok k4
      rw [e]
      exact beside_delEntry h hr k1 k2 he

/-- removing an empty directory -/
theorem beside_removedir (h : SysOk E r s) (hr : Function.Injective r) {k : Option ι} {cs : List Str} (hn : Nm cs) (hne : cs ≠ [])
    (hv : siteV r s k cs = some .dir) (he : ∀ n, siteV r s k (cs ++ [n]) = none) :
    Beside r s (sysOps.removedir (siteC r k) (siteAt E k cs) s).2 k cs := by
  cases k with
  | none =>
    obtain ⟨p, hp⟩ := siteV_ldir.1 hv
    have he' : ∀ n, s.disk.tree (cs ++ [n]) = none := fun n => siteV_lnone.1 (he n)
    have e : sysOps.removedir (siteC r none) (siteAt E none cs) s = (.ok (), { s with disk := s.disk.del cs }) := by
      have hl : osAsk false isLinkD (loc cs) s = (.ok false, s) := by
        simp only [osAsk, stat_here h.disk hn hp (.inr rfl), isLinkD]
      refine (bind_ok hl).trans ?_
      rw [if_neg Bool.false_ne_true]
      refine onDisk_ok (?_ : osRmdir (loc cs).path s.disk = _)
      have hnm : s.disk.names cs = [] := by
        rw [List.eq_nil_iff_forall_not_mem]
        intro n hm
        exact mem_diskNames.1 hm (he' n)
      unfold osRmdir
      rw [find_here h.disk hn hp (.inr rfl)]
      simp only [hp, isDirD, if_true, hnm, ne_eq, not_true, if_false, if_neg hne]
    rw [e]
    exact beside_del
  | some i =>
    have hd := siteV_dir.1 hv
    rcases List.eq_nil_or_concat cs with rfl | ⟨q, n, rfl⟩
    · exact absurd rfl hne
    · rw [List.concat_eq_append] at *
      obtain ⟨o, o1, o2⟩ := NS.isDir_iff.1 hd
      have hq := Mem.view_parent o1
      have hl' : o.isLink = false := by cases o <;> simp_all [Obj.isDir, Obj.isLink]
      obtain ⟨nd, d, c, m, k1, k2, -, -, k5⟩ := Mem.removedir_found h.inv (h.fs i).isRoot (stepsOf_mem hn.ok (E i))
        (Mem.filter_clean hn.ok.nil_not_mem) (mem_last (hn.ok.clean n (by simp)) (E i)) (isDir_goes hq) hq ((isDir_goes hq).snoc hq o1 hl')
      have e : (sysOps.removedir (siteC r (some i)) (siteAt E (some i) (q ++ [n])) s).2 = { s with mem := (Mem.removedir (r i) (mem (E i) (q ++ [n])) s.mem).2 } := rfl
      rw [e, k5]
      have b := beside_delEntry h hr k1 k2 he
      split
      · split
        · exact b
        · exact Beside.refl
      · exact Beside.refl

end
end Verif.Any
