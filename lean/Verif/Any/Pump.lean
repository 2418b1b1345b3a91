import Verif.Any.SysLemmas
import Verif.Any.Copy
/-! # Copying the content of a file between backends -/
namespace Verif.Any
open Verif.Spec Verif.Gen
open Mem (World Becomes FileObj)

/-- the open file reads `data` at place `k`, name `q`, and is at `pos` -/
def RdAt {ι : Type} (r : ι → Nat) (s : Sys) (k : Option ι) (q : List Str) (h : Hd) (data : Bytes) (pos : Nat) : Prop :=
  match k, h with
  | some i, .mem h => h.readable = true ∧ h.binary = true ∧ phys s.mem (r i) q = some h.id ∧
      ∃ f, s.mem.node h.id = .file f ∧ f.data = data ∧ f.pos = pos
  | none, .loc fd => s.disk.fds[fd]? = some (q, pos) ∧ ∃ p, s.disk.tree q = some (.file p data)
  | _, _ => False

/-- the open file writes at place `k`, name `q`, after the `data` that is there -/
def WrAt {ι : Type} (r : ι → Nat) (s : Sys) (k : Option ι) (q : List Str) (h : Hd) (data : Bytes) : Prop :=
  match k, h with
  | some i, .mem h => phys s.mem (r i) q = some h.id ∧
      ∃ f, s.mem.node h.id = .file f ∧ f.data = data ∧ f.pos = data.length
  | none, .loc fd => s.disk.fds[fd]? = some (q, data.length) ∧ ∃ p, s.disk.tree q = some (.file p data)
  | _, _ => False

section
variable {ι : Type} {E : ι → Dict} {r : ι → Nat} {s : Sys}

theorem RdAt.siteV {k : Option ι} {q : List Str} {h : Hd} {data : Bytes} {pos : Nat} (hr : RdAt r s k q h data pos) :
    siteV r s k q = some (.file data) := by
  cases k with
  | none =>
    cases h with
    | mem h => exact hr.elim
    | loc fd => exact siteV_lfile.2 hr.2
  | some i =>
    cases h with
    | loc fd => exact hr.elim
    | mem h =>
      obtain ⟨-, -, hp, f, hf, rfl, rfl⟩ := hr
      refine siteV_file.2 ⟨f.mode, f.mtime, ?_⟩
      rw [Mem.view_of_phys hp, hf]; rfl

/-- files at different places are different objects -/
theorem ids_ne (h : SysOk E r s) (hr : Function.Injective r) {i j : ι} {q p : List Str} {a b : Nat}
    (ha : phys s.mem (r i) q = some a) (hb : phys s.mem (r j) p = some b) (hne : ¬ (some i = some j ∧ q = p)) : a ≠ b := by
  rintro rfl
  obtain ⟨h1, h2⟩ := Mem.phys_inj h.inv (h.fs i).isRoot (h.fs j).isRoot ha hb
  exact hne ⟨by rw [hr h1], h2⟩

theorem read_step (h : SysOk E r s) (hr : Function.Injective r) {k : Option ι} {q : List Str} {hd : Hd} {data : Bytes} {pos : Nat}
    (hrd : RdAt r s k q hd data pos) (n : Nat) :
    ∃ s', hRead n hd s = (.ok (.bytes ((data.drop pos).take n)), s') ∧ SysOk E r s' ∧ siteV r s' = siteV r s ∧
      RdAt r s' k q hd data (pos + ((data.drop pos).take n).length) ∧
      ∀ {k' q' hd' g}, ¬ (k' = k ∧ q' = q) → WrAt r s k' q' hd' g → WrAt r s' k' q' hd' g := by
  cases k with
  | none =>
    cases hd with
    | mem _ => exact hrd.elim
    | loc fd =>
      obtain ⟨h1, p, h2⟩ := hrd
      have e : fdRead fd n s.disk = (.ok ((data.drop pos).take n),
          { s.disk with fds := s.disk.fds.set fd (q, pos + ((data.drop pos).take n).length) }) := by
        unfold fdRead
        simp only [h1, h2]
      refine ⟨_, bind_ok (onDisk_ok e), h.dsk (h.disk.fds _), ?_, ⟨?_, p, h2⟩, ?_⟩
      · funext k p; cases k <;> rfl
      · have : fd < s.disk.fds.length := (List.getElem?_eq_some_iff.1 h1).1
        simp [this]
      · intro k' q' hd' g hne hw
        cases k' with
        | some j => cases hd' <;> exact hw
        | none =>
          cases hd' with
          | mem _ => exact hw.elim
          | loc fd' =>
            obtain ⟨h3, h4⟩ := hw
            refine ⟨?_, h4⟩
            have : fd ≠ fd' := by
              rintro rfl
              rw [h1] at h3
              simp only [Option.some.injEq, Prod.mk.injEq] at h3
              exact hne ⟨rfl, h3.1.symm⟩
            show (s.disk.fds.set fd _)[fd']? = _
            rw [List.getElem?_set_ne this]
            exact h3
  | some i =>
    cases hd with
    | loc _ => exact hrd.elim
    | mem hh =>
      obtain ⟨h1, h2, hp, f, hf, rfl, rfl⟩ := hrd
      have e : hh.read n s.mem = (.ok (.bytes ((f.data.drop f.pos).take n)),
          s.mem.put hh.id { f with pos := f.pos + ((f.data.drop f.pos).take n).length } s.mem.tick) := by
        have e := Mem.read_eq (n := n) h1 hf
        have e8 : BytesIO.read f.data f.pos (n : Int) =
            ((f.data.drop f.pos).take n, f.pos + ((f.data.drop f.pos).take n).length) := by
          unfold BytesIO.read
          have : ¬ ((n : Int) < 0) := by omega
          simp [this]
        rw [e8] at e
        have hdec : hh.decode ((f.data.drop f.pos).take n) = .ok (.bytes ((f.data.drop f.pos).take n)) := by
          unfold Mem.Handle.decode; rw [if_pos h2]
        simp only [hdec] at e
        exact e
      have hv : view s.mem (r i) q = some (.file f.data f.mode f.mtime) := by rw [Mem.view_of_phys hp, hf]; rfl
      have hb : Becomes s.mem (s.mem.put hh.id { f with pos := f.pos + ((f.data.drop f.pos).take n).length } s.mem.tick) (r i)
          (view s.mem (r i)) :=
        (Mem.becomes_put h.inv (h.fs i).isRoot hp hf).congr (Mem.NS.set_same hv)
      obtain ⟨h5, h6⟩ := h.same_mem hb
      refine ⟨_, onMem_ok e, h5, h6, ⟨h1, h2, ?_, _, Mem.put_node _ _ _ _, rfl, rfl⟩, ?_⟩
      · exact (Mem.phys_put hf (r i) q).trans hp
      · intro k' q' hd' g hne hw
        cases k' with
        | none => cases hd' <;> exact hw
        | some j =>
          cases hd' with
          | loc _ => exact hw.elim
          | mem h' =>
            obtain ⟨h7, g', h8, h9⟩ := hw
            refine ⟨(Mem.phys_put hf (r j) q').trans h7, g', ?_, h9⟩
            exact (Mem.put_node_ne _ _ _ (ids_ne h hr h7 hp hne)).trans h8

theorem write_step (h : SysOk E r s) (hr : Function.Injective r) {k : Option ι} {q : List Str} {hd : Hd} {data : Bytes}
    (hwr : WrAt r s k q hd data) (b : Bytes) :
    ∃ s', hWrite hd (.bytes b) s = (.ok (), s') ∧ SysOk E r s' ∧ siteV r s' = upd (siteV r s) k q (some (.file (data ++ b))) ∧
      WrAt r s' k q hd (data ++ b) ∧
      ∀ {k' q' hd' g pos}, ¬ (k' = k ∧ q' = q) → RdAt r s k' q' hd' g pos → RdAt r s' k' q' hd' g pos := by
  cases k with
  | none =>
    cases hd with
    | mem _ => exact hwr.elim
    | loc fd =>
      obtain ⟨h1, p, h2⟩ := hwr
      have e : fdWrite fd b s.disk = (.ok (),
          { s.disk.set q (.file p (data ++ b)) with fds := s.disk.fds.set fd (q, data.length + b.length) }) := by
        unfold fdWrite
        simp only [h1, h2, BytesIO.write_end]
      have hset : DiskOk (s.disk.set q (.file p (data ++ b))) :=
        h.disk.set (h.disk.parent (by rw [h2]; simp)) (.inr ⟨h.disk.ne_root h2 rfl, h.disk.leaf h2 rfl⟩)
      refine ⟨_, onDisk_ok e, h.dsk (hset.fds _), ?_, ⟨?_, p, ?_⟩, ?_⟩
      · exact siteV_disk (x := some (.file p (data ++ b))) fun p => tree_set _ _ _ p
      · have : fd < s.disk.fds.length := (List.getElem?_eq_some_iff.1 h1).1
        simp [this]
      · show (s.disk.set q _).tree q = _
        rw [tree_set, if_pos rfl]
      · intro k' q' hd' g pos hne hw
        cases k' with
        | some j => cases hd' <;> exact hw
        | none =>
          cases hd' with
          | mem _ => exact hw.elim
          | loc fd' =>
            obtain ⟨h3, p', h4⟩ := hw
            have hq : q' ≠ q := fun e => hne ⟨rfl, e⟩
            refine ⟨?_, p', ?_⟩
            · have : fd ≠ fd' := by
                rintro rfl
                rw [h1] at h3
                simp only [Option.some.injEq, Prod.mk.injEq] at h3
                exact hq h3.1.symm
              show (s.disk.fds.set fd _)[fd']? = _
              rw [List.getElem?_set_ne this]
              exact h3
            · show (s.disk.set q _).tree q' = _
              rw [tree_set, if_neg hq]
              exact h4
  | some i =>
    cases hd with
    | loc _ => exact hwr.elim
    | mem hh =>
      obtain ⟨hp, f, hf, rfl, hpos⟩ := hwr
      have e := Mem.write_eq (h := hh) (d := .bytes b) rfl hf
      rw [hpos, BytesIO.write_end] at e
      obtain ⟨G, hG⟩ : ∃ G : FileObj, G = { f with data := f.data ++ b, pos := f.data.length + b.length,
                                                   mtime := s.mem.clock s.mem.tick } := ⟨_, rfl⟩
      rw [← hG] at e
      have hb := Mem.becomes_put h.inv (h.fs i).isRoot (k := s.mem.tick + 1) (f' := G) hp hf
      obtain ⟨h5, h6⟩ := h.set_mem hr hb
      refine ⟨_, onMem_ok e, h5, ?_, ⟨(Mem.phys_put hf (r i) q).trans hp, G, Mem.put_node _ _ _ _, ?_, ?_⟩, ?_⟩
      · rw [h6, hG]; rfl
      · rw [hG]
      · rw [hG]; simp
      · intro k' q' hd' g pos hne hw
        cases k' with
        | none => cases hd' <;> exact hw
        | some j =>
          cases hd' with
          | loc _ => exact hw.elim
          | mem h' =>
            obtain ⟨h7, h8, h9, g', h10, h11⟩ := hw
            refine ⟨h7, h8, (Mem.phys_put hf (r j) q').trans h9, g', ?_, h11⟩
            exact (Mem.put_node_ne _ _ _ (ids_ne h hr h9 hp hne)).trans h10

theorem upd_upd {κ : Type} (V : κ → List Str → Option Kind) (k : κ) (p : List Str) (x y : Option Kind) :
    upd (upd V k p x) k p y = upd V k p y := by
  funext k' p'
  by_cases h : k' = k ∧ p' = p
  · obtain ⟨rfl, rfl⟩ := h; rw [upd_same, upd_same]
  · rw [upd_ne h, upd_ne h, upd_ne h]

/-- the rest of the source is appended to the destination -/
theorem pumpLoop_eq (hr : Function.Injective r) {k k' : Option ι} {q q' : List Str} {inf outf : Hd} {data : Bytes}
    (hne : ¬ (k' = k ∧ q' = q)) (n : Nat) : ∀ {s : Sys} {g : Bytes} {pos : Nat}, SysOk E r s → RdAt r s k q inf data pos →
    WrAt r s k' q' outf g → siteV r s k' q' = some (.file g) → data.length - pos < n →
    ∃ s', pumpLoop inf outf n s = (.ok (), s') ∧ SysOk E r s' ∧
      siteV r s' = upd (siteV r s) k' q' (some (.file (g ++ data.drop pos))) := by
  induction n with
  | zero => intro s g pos _ _ _ _ h; omega
  | succ n ih =>
    intro s g pos h hrd hwr hg hlen
    obtain ⟨s1, e1, ok1, v1, rd1, keep1⟩ := read_step h hr hrd 8192
    unfold pumpLoop
    rw [bind_ok e1]
    by_cases hd : data.drop pos = []
    · refine ⟨s1, ?_, ok1, ?_⟩
      · simp [hd, isEmptyData]
      · rw [hd, List.append_nil, v1, upd_self hg]
    · have hl : pos < data.length := by
        by_contra hc
        exact hd (List.drop_eq_nil_of_le (by omega))
      have hne' : ((data.drop pos).take 8192).isEmpty = false := by
        cases hx : (data.drop pos).take 8192 with
        | cons a b => rfl
        | nil =>
          have := congrArg List.length hx
          rw [List.length_take, List.length_drop, List.length_nil] at this
          omega
      obtain ⟨s2, e2, ok2, v2, wr2, keep2⟩ := write_step ok1 hr (keep1 hne hwr) ((data.drop pos).take 8192)
      obtain ⟨s3, e3, ok3, v3⟩ := ih ok2 (keep2 (fun e => hne ⟨e.1.symm, e.2.symm⟩) rd1) wr2 (by rw [v2, upd_same])
        (by simp only [List.length_take, List.length_drop]; omega)
      refine ⟨s3, ?_, ok3, ?_⟩
      · simp only [isEmptyData, hne', Bool.false_eq_true, if_false]
        rw [bind_ok e2]
        exact e3
      · rw [v3, v2, v1, upd_upd, List.append_assoc]
        congr 4
        have : data.drop (pos + ((data.drop pos).take 8192).length) = (data.drop pos).drop 8192 := by
          rw [List.drop_drop]
          rw [List.length_take, List.length_drop]
          by_cases hc : 8192 ≤ data.length - pos
          · rw [Nat.min_eq_left hc]
          · rw [Nat.min_eq_right (by omega), List.drop_eq_nil_of_le (by omega), List.drop_eq_nil_of_le (by omega)]
        rw [this]
        exact List.take_append_drop _ _

theorem hSize_eq {k : Option ι} {q : List Str} {hd : Hd} {data : Bytes} {pos : Nat} (hrd : RdAt r s k q hd data pos) :
    hSize hd s = (.ok data.length, s) := by
  cases k with
  | none =>
    cases hd with
    | mem _ => exact hrd.elim
    | loc fd =>
      obtain ⟨h1, p, h2⟩ := hrd
      refine onDisk_ok ?_
      unfold fdSize
      simp only [h1, h2]
  | some i =>
    cases hd with
    | loc _ => exact hrd.elim
    | mem hh =>
      obtain ⟨-, -, -, f, hf, rfl, rfl⟩ := hrd
      exact onMem_ok (Mem.size_eq hf)

/-! ## Opening -/

theorem site_openR (h : SysOk E r s) {k : Option ι} {cs : List Str} {d : Bytes} (hn : Nm cs)
    (hv : siteV r s k cs = some (.file d)) :
    ∃ s' hd, sysOps.openR (siteC r k) (siteAt E k cs) s = (.ok hd, s') ∧ SysOk E r s' ∧ siteV r s' = siteV r s ∧
      RdAt r s' k cs hd d 0 := by
  cases k with
  | none =>
    obtain ⟨p, hp⟩ := siteV_lfile.1 hv
    have e : osOpenR (loc cs).path s.disk = (.ok s.disk.fds.length, { s.disk with fds := s.disk.fds ++ [(cs, 0)] }) := by
      unfold osOpenR Disk.newFd
      simp only [find_here h.disk hn hp (.inr rfl), hp, isDirD, Bool.false_eq_true, if_false]
    refine ⟨_, .loc s.disk.fds.length, bind_ok (onDisk_ok e), h.dsk (h.disk.fds _), ?_, ?_, p, hp⟩
    · funext k p; cases k <;> rfl
    · simp
  | some i =>
    obtain ⟨m, t, hf⟩ := siteV_file.1 hv
    obtain ⟨j, f, hj, hjf⟩ := Mem.isFile_view ⟨_, _, _, hf⟩
    have hg : Goes (view s.mem (r i)) maxDepth [] cs (.found cs) := Mem.Plain.goes (plain_of_view hf) hf rfl
    have e := (Mem.openRead_found h.inv (h.fs i).isRoot (b := true) (stepsOf_mem hn.ok (E i)) hg hj hjf).1
    rw [Mem.put_eq_setNode] at e
    have e' : Mem.open_ (r i) (mem (E i) cs) (some cl!"rb") s.mem = _ := e
    have hd : f.data = d := by
      have := Mem.view_of_phys hj
      rw [hjf, hf] at this
      simp only [objOf, Option.some.injEq, Obj.file.injEq] at this
      exact this.1.symm
    have hvj : view s.mem (r i) cs = some (.file f.data f.mode f.mtime) := by rw [Mem.view_of_phys hj, hjf]; rfl
    obtain ⟨h5, h6⟩ := h.same_mem ((Mem.becomes_put h.inv (h.fs i).isRoot (k := s.mem.tick) (f' := { f with pos := 0 }) hj hjf).congr
      (Mem.NS.set_same hvj))
    exact ⟨_, .mem ⟨j, true, true⟩, bind_ok (onMem_ok e'), h5, h6, rfl, rfl, (Mem.phys_put hjf (r i) cs).trans hj, _,
      Mem.put_node _ _ _ _, hd, rfl⟩

theorem site_openW (h : SysOk E r s) (hr : Function.Injective r) {k : Option ι} {ds : List Str} {n : Str} (hn : Nm (ds ++ [n]))
    (hd : siteV r s k ds = some .dir) (hv : siteV r s k (ds ++ [n]) = none ∨ isF (siteV r s k (ds ++ [n])) = true) :
    ∃ s' hd, sysOps.openW (siteC r k) (siteAt E k (ds ++ [n])) s = (.ok hd, s') ∧ SysOk E r s' ∧
      siteV r s' = upd (siteV r s) k (ds ++ [n]) (some (.file [])) ∧ WrAt r s' k (ds ++ [n]) hd [] ∧
      ∀ {k' q' hd' g pos}, ¬ (k' = k ∧ q' = ds ++ [n]) → RdAt r s k' q' hd' g pos → RdAt r s' k' q' hd' g pos := by
  cases k with
  | none =>
    obtain ⟨pd, hpd⟩ := siteV_ldir.1 hd
    have hset : ∃ perm, osOpenW (loc (ds ++ [n])).path s.disk =
        (.ok s.disk.fds.length, { s.disk.set (ds ++ [n]) (.file perm []) with fds := s.disk.fds ++ [(ds ++ [n], 0)] }) ∧
        ∀ m, s.disk.tree (ds ++ [n] ++ [m]) = none := by
      rcases hv with hv | hv
      · rw [siteV_lnone] at hv
        refine ⟨Local.clearBits 0o666 s.disk.umask, ?_, fun m => ?_⟩
        · unfold osOpenW Disk.newFd
          simp only [find_free h.disk hn hpd hv]
          rfl
        · by_contra hc
          obtain ⟨p, hp⟩ := h.disk.tree _ _ hc
          rw [hv] at hp; simp at hp
      · cases ht : s.disk.tree (ds ++ [n]) with
        | none => simp [siteV, ht, isF] at hv
        | some o =>
          cases o with
          | dir p => simp [siteV, ht, isF, kindL] at hv
          | link t => simp [siteV, ht, isF, kindL] at hv
          | file p b =>
            refine ⟨p, ?_, h.disk.leaf ht rfl⟩
            unfold osOpenW Disk.newFd
            simp only [find_here h.disk hn ht (.inr rfl), ht]
            rfl
    obtain ⟨perm, e, hleaf⟩ := hset
    have hok : DiskOk (s.disk.set (ds ++ [n]) (.file perm [])) := by
      refine h.disk.set ?_ (.inr ⟨by simp, hleaf⟩)
      intro c m hc
      rw [← (List.append_inj' hc rfl).1]; exact ⟨pd, hpd⟩
    refine ⟨_, .loc s.disk.fds.length, bind_ok (onDisk_ok e), h.dsk (hok.fds _), ?_, ⟨by simp, perm, ?_⟩, ?_⟩
    · exact siteV_disk (x := some (.file perm [])) fun p => tree_set _ _ _ p
    · show (s.disk.set _ _).tree _ = _
      rw [tree_set, if_pos rfl]
    · intro k' q' hd' g pos hne hw
      cases k' with
      | some j => cases hd' <;> exact hw
      | none =>
        cases hd' with
        | mem _ => exact hw.elim
        | loc fd' =>
          obtain ⟨h3, p', h4⟩ := hw
          refine ⟨?_, p', ?_⟩
          · have : fd' < s.disk.fds.length := (List.getElem?_eq_some_iff.1 h3).1
            show (s.disk.fds ++ _)[fd']? = _
            rw [List.getElem?_append_left this]
            exact h3
          · show (s.disk.set _ _).tree q' = _
            rw [tree_set, if_neg fun e => hne ⟨rfl, e⟩]
            exact h4
  | some i =>
    have hdir := siteV_dir.1 hd
    have hw := h.inv
    have hroot := (h.fs i).isRoot
    have hs := stepsOf_mem hn.ok (E i)
    obtain ⟨p, h1, -, h3⟩ := Mem.stepsOf_snoc hs
    have hopen : ∀ w, Mem.open_ (r i) (mem (E i) (ds ++ [n])) (some cl!"wb") w = Mem.openWrite (r i) (mem (E i) (ds ++ [n])) true w :=
      fun w => rfl
    rcases hv with hv | hv
    · rw [siteV_none] at hv
      obtain ⟨w', g, e, ho⟩ := Mem.openWrite_new' hw ((h.fs i).serves _) true hs (isDir_goes hdir) hdir hv
      obtain ⟨nd, d, a, b', c, e'⟩ := Mem.openWrite_new hw hroot (b := true) h1 h3 (isDir_goes hdir) hdir hv
      rw [e] at e'
      simp only [Prod.mk.injEq, true_and] at e'
      obtain ⟨h5, h6⟩ := h.set_mem hr ho.becomes
      refine ⟨_, .mem ⟨s.mem.next, false, true⟩, bind_ok (onMem_ok ((hopen _).trans e)), h5, h6, ⟨ho.phys, g, ho.node, ho.data, ho.pos⟩, ?_⟩
      intro k' q' hd' gd pos hne hrd
      cases k' with
      | none => cases hd' <;> exact hrd
      | some j =>
        cases hd' with
        | loc _ => exact hrd.elim
        | mem h' =>
          obtain ⟨h7, h8, h9, f, h10, h11⟩ := hrd
          have hlt := Mem.phys_lt hw (h.fs j).isRoot h9
          have hin : h'.id ≠ nd := by intro e; rw [e, b'] at h10; simp at h10
          refine ⟨h7, h8, ?_, f, ?_, h11⟩
          · show phys w' _ _ = _
            rw [e', Mem.phys_addChild hw hroot a b' c (n := s.mem.freshFile p) trivial (r j) (h.fs j).isRoot, if_neg]
            · exact h9
            · rintro ⟨e1, e2⟩; exact hne ⟨by rw [hr e1], e2⟩
          · show w'.node _ = _
            rw [e']
            simp only [World.addChild]
            rw [if_neg hin, if_neg (by omega)]
            exact h10
    · have hfile : ∃ b m t, view s.mem (r i) (ds ++ [n]) = some (.file b m t) := by
        cases ht : view s.mem (r i) (ds ++ [n]) with
        | none => simp [siteV, ht, isF] at hv
        | some o => cases o <;> simp [siteV, ht, isF, kindO] at hv ⊢
      obtain ⟨bo, mo, tm, hvo⟩ := hfile
      have hgo : Goes (view s.mem (r i)) maxDepth [] (ds ++ [n]) (.found (ds ++ [n])) := Mem.Plain.goes (plain_of_view hvo) hvo rfl
      obtain ⟨w', o, g, e, ho, hpo⟩ := Mem.openWrite_found' hw ((h.fs i).serves _) true hs (isDir_goes hdir) hvo hgo ⟨_, _, _, hvo⟩
      obtain ⟨o', a, e'⟩ := Mem.openWrite_found hw hroot (b := true) h1 h3 (isDir_goes hdir) hvo hgo
      have : o' = o := by rw [a] at hpo; simpa using hpo
      subst this
      obtain ⟨o2, fo, a2, hfo⟩ := Mem.isFile_view ⟨_, _, _, hvo⟩
      have : o2 = o' := by rw [a] at a2; simpa using a2.symm
      subst this
      rw [hfo] at e'
      have e'' := e.symm.trans e'
      simp only [Prod.mk.injEq, true_and] at e''
      change w' = s.mem.put o2 _ (s.mem.tick + 1) at e''
      obtain ⟨h5, h6⟩ := h.set_mem hr ho.becomes
      refine ⟨_, .mem ⟨o2, false, true⟩, bind_ok (onMem_ok ((hopen _).trans e)), h5, h6, ⟨ho.phys, g, ho.node, ho.data, ho.pos⟩, ?_⟩
      intro k' q' hd' gd pos hne hrd
      cases k' with
      | none => cases hd' <;> exact hrd
      | some j =>
        cases hd' with
        | loc _ => exact hrd.elim
        | mem h' =>
          obtain ⟨h7, h8, h9, f, h10, h11⟩ := hrd
          refine ⟨h7, h8, ?_, f, ?_, h11⟩
          · show phys w' _ _ = _
            rw [e'', Mem.phys_put hfo]; exact h9
          · show w'.node _ = _
            rw [e'', Mem.put_node_ne _ _ _ (ids_ne h hr h9 a hne)]; exact h10

/-- fs.py:926-927 between any two places, whatever the lengths of the files -/
theorem site_content (h : SysOk E r s) (hr : Function.Injective r) {k k' : Option ι} {cs ds : List Str} {n : Str} {d : Bytes}
    (hn : Nm cs) (hn' : Nm (ds ++ [n])) (hv : siteV r s k cs = some (.file d)) (hd : siteV r s k' ds = some .dir)
    (hv' : siteV r s k' (ds ++ [n]) = none ∨ isF (siteV r s k' (ds ++ [n])) = true) (hne : ¬ (k = k' ∧ cs = ds ++ [n])) :
    ∃ s', copyContent sysOps (siteAt E k cs) (siteAt E k' (ds ++ [n])) s = (.ok (), s') ∧ SysOk E r s' ∧
      siteV r s' = upd (siteV r s) k' (ds ++ [n]) (some (.file d)) := by
  obtain ⟨s1, inf, e1, ok1, v1, rd1⟩ := site_openR h hn hv
  obtain ⟨s2, outf, e2, ok2, v2, wr2, keep2⟩ := site_openW ok1 hr hn' (by rw [v1]; exact hd) (by rw [v1]; exact hv')
  have rd2 := keep2 hne rd1
  obtain ⟨s3, e3, ok3, v3⟩ := pumpLoop_eq hr (fun e => hne ⟨e.1.symm, e.2.symm⟩) (d.length + 1) ok2 rd2 wr2 (by rw [v2, upd_same]) (by omega)
  refine ⟨s3, ?_, ok3, ?_⟩
  · have c1 : uOpenR sysOps (siteAt E k cs) s = (.ok inf, s1) := by
      unfold uOpenR Any.withConn
      have a1 : sysOps.conn (siteAt E k cs) s = _ := site_conn h
      have a2 : sysOps.hook (siteC r k) (siteAt E k cs) .open_ s = _ := site_hook h hn _
      rw [bind_ok a1, bind_ok a2]
      exact e1
    have c2 : uOpenW sysOps (siteAt E k' (ds ++ [n])) s1 = (.ok outf, s2) := by
      unfold uOpenW Any.withConn
      have a1 : sysOps.conn (siteAt E k' (ds ++ [n])) s1 = _ := site_conn ok1
      have a2 : sysOps.hook (siteC r k') (siteAt E k' (ds ++ [n])) .open_ s1 = _ := site_hook ok1 hn' _
      rw [bind_ok a1, bind_ok a2]
      exact e2
    unfold copyContent
    rw [bind_ok c1, bind_ok c2]
    show (hSize inf >>= fun n => pumpLoop inf outf (n + 1)) s2 = _
    rw [bind_ok (hSize_eq rd2)]
    exact e3
  · rw [v3, v2, v1, upd_upd]; rfl

/-- `copystat` inside one memory file system, or on the disk, keeps what the copy contains -/
theorem site_copystat (h : SysOk E r s) (hr : Function.Injective r) {k : Option ι} {cs ds : List Str} {d d' : Bytes}
    (hn : Nm cs) (hn' : Nm ds) (hv : siteV r s k cs = some (.file d)) (hv' : siteV r s k ds = some (.file d')) :
    ∃ s', sysOps.copystat (siteC r k) (siteAt E k cs) (siteAt E k ds) s = (.ok (), s') ∧ SysOk E r s' ∧
      siteV r s' = siteV r s := by
  cases k with
  | none =>
    obtain ⟨p, hp⟩ := siteV_lfile.1 hv
    obtain ⟨p', hp'⟩ := siteV_lfile.1 hv'
    have e : osCopystat (loc cs).path (loc ds).path s.disk =
        (.ok (), s.disk.set ds ((DObj.file p d).withPermOf (.file p' d'))) := by
      unfold osCopystat
      simp only [find_here h.disk hn hp (.inr rfl), find_here h.disk hn' hp' (.inr rfl), hp, hp']
    refine ⟨_, onDisk_ok e, h.dsk (h.disk.set (h.disk.parent (by rw [hp']; simp)) (.inr ⟨h.disk.ne_root hp' rfl, h.disk.leaf hp' rfl⟩)), ?_⟩
    rw [siteV_disk (x := some _) fun p => tree_set _ _ _ p]
    exact upd_self hv'
  | some i =>
    obtain ⟨m, t, hf⟩ := siteV_file.1 hv
    obtain ⟨m', t', hf'⟩ := siteV_file.1 hv'
    obtain ⟨w, h5, h6⟩ := Mem.copystat_at h.inv ((h.fs i).serves cs) (stepsOf_mem hn.ok (E i)) (stepsOf_mem hn'.ok (E i))
      (Mem.Plain.goes (plain_of_view hf) hf rfl) (Mem.Plain.goes (plain_of_view hf') hf' rfl) hf hf'
    obtain ⟨h7, h8⟩ := h.set_mem hr h6
    refine ⟨_, onMem_ok h5, h7, ?_⟩
    rw [h8]
    exact upd_self hv'

/-- files can be copied from the first place to the second: not between different memory file systems, where `copystat`
    looks for the copy in the file system of the source -/
def May : Option ι → Option ι → Prop := fun k k' => k = none ∨ k' = none ∨ k = k'

theorem site_copy (h : SysOk E r s) (hr : Function.Injective r) {k k' : Option ι} (hm : May k k') {cs ds : List Str} {n : Str} {d : Bytes}
    (hn : Nm cs) (hn' : Nm (ds ++ [n])) (hv : siteV r s k cs = some (.file d)) (hd : siteV r s k' ds = some .dir)
    (hv' : siteV r s k' (ds ++ [n]) = none ∨ isF (siteV r s k' (ds ++ [n])) = true) (hne : ¬ (k = k' ∧ cs = ds ++ [n])) :
    ∃ s', (do
        copyContent sysOps (siteAt E k cs) (siteAt E k' (ds ++ [n]))
        if (siteAt E k cs).scheme = (siteAt E k' (ds ++ [n])).scheme then
          sysOps.copystat (siteC r k) (siteAt E k cs) (siteAt E k' (ds ++ [n])) : OM Sys Unit) s = (.ok (), s') ∧ SysOk E r s' ∧
      siteV r s' = upd (siteV r s) k' (ds ++ [n]) (some (.file d)) := by
  obtain ⟨s1, e1, ok1, v1⟩ := site_content h hr hn hn' hv hd hv' hne
  rw [bind_ok e1]
  by_cases hk : k = k'
  · subst hk
    obtain ⟨s2, e2, ok2, v2⟩ := site_copystat ok1 hr hn hn' (d := d) (d' := d)
      (by rw [v1, upd_ne (fun e => hne ⟨rfl, e.2⟩)]; exact hv) (by rw [v1, upd_same])
    refine ⟨s2, ?_, ok2, by rw [v2, v1]⟩
    rw [if_pos]
    · exact e2
    · cases k <;> rfl
  · refine ⟨s1, ?_, ok1, v1⟩
    rw [if_neg]
    · rfl
    · cases k with
      | none =>
        cases k' with
        | none => exact absurd rfl hk
        | some j => simp [siteAt, Gen.mem, loc, Uri.scheme]
      | some i =>
        cases k' with
        | none => simp [siteAt, Gen.mem, loc, Uri.scheme]
        | some j =>
          rcases hm with h | h | h
          · simp at h
          · simp at h
          · exact absurd h hk

end

/-- both backends obey the laws -/
def sysLaws {ι : Type} (E : ι → Dict) (r : ι → Nat) (hr : Function.Injective r) :
    Laws sysOps (Option ι) (SysOk E r) May where
  at_ := siteAt E
  C := siteC r
  V := siteV r
  names := siteNames r
  conn h _ := site_conn h
  hook h hn := site_hook h hn _
  exists_ h hn hc := site_exists h hn hc
  isfile h hn hc := site_isfile h hn hc
  isdir h hn hc := site_isdir h hn hc
  islink h hn hc hv := site_islink h hn hc hv
  listdir h hn hd := site_listdir h hn hd
  names_sorted h := site_names_sorted h
  mem_names _ := site_mem_names
  mkdir h hn hd hv := site_mkdir h hr hn hd hv
  removefile h hn hv := site_removefile h hr hn hv
  removedir h hn hne hv he := site_removedir h hr hn hne hv he
  copy hm h hn hn' hv hd hv' hne := site_copy h hr hm hn hn' hv hd hv' hne
  root h := site_root h
  tree h hv := site_tree h hv
  div hn hne hp := site_div hn hne hp
  split hn := site_split hn
  last hn := site_last hn
  path hn := site_path hn

end Verif.Any
