import Verif.Any.Pump
import Verif.Spec.Sample
import Verif.Spec.Paths
import Mathlib.Data.List.Infix
/-!
# C74–C81: the same operations on local files, and between backends

The algorithms of `FileSystem` (fs.py) run over a table of backend operations.  Here the table is the one of
Verif/Any/Sys.lean, with any number of memory file systems (`some i`) and the local file system (`none`).
`siteV r s k p` is what there is at place `k` under the names `p`: a directory, a file with its bytes, or something
else (a link).
-/
namespace Verif.Props
open Verif.Spec Verif.Any
open Verif.Mem (runAll World)
open Verif.Gen (Order stepsOf_mem plain_of_view)

section
variable {ι : Type} {E : ι → Dict} {r : ι → Nat} (hr : Function.Injective r) {s : Sys}
include hr

/-! ## C74 -/

/-- makedirs makes the missing directories of a path, in the place asked for, and nothing else -/
theorem C74_makedirs (h : SysOk E r s) {k : Option ι} {cs : List Str} (hn : Nm cs)
    (hp : ∀ p, p <+: cs → siteV r s k p = some .dir ∨ siteV r s k p = none) {depth : Nat} (hl : cs.length < depth) :
    ∃ s', uMakedirs sysOps depth (siteAt E k cs) s = (.ok (), s') ∧ SysOk E r s' ∧
      (∀ p, p <+: cs → siteV r s' k p = some .dir) ∧
      ∀ j p, ¬ (j = k ∧ p <+: cs) → siteV r s' j p = siteV r s j p := by
  obtain ⟨s', h1, h2, h3⟩ := (sysLaws E r hr).uMakedirs h hn hp hl
  change siteV r s' = mkdirs (siteV r s) k cs at h3
  refine ⟨s', h1, h2, fun p hp => ?_, fun j p hj => ?_⟩
  · rw [h3]; simp [mkdirs, hp]
  · rw [h3]; simp [mkdirs, hj]

/-- a directory that is there already stays as it is -/
theorem C74_idempotent (h : SysOk E r s) {k : Option ι} {cs : List Str} (hn : Nm cs) (hd : siteV r s k cs = some .dir) {depth : Nat}
    (hl : 0 < depth) : uMakedirs sysOps depth (siteAt E k cs) s = (.ok (), s) := by
  obtain ⟨depth, rfl⟩ := Nat.exists_eq_succ_of_ne_zero (Nat.pos_iff_ne_zero.1 hl)
  let L := sysLaws E r hr
  have e1 : Any.withConn sysOps (siteAt E k cs) .makedirs (fun _ => makedirs sysOps (depth + 1) (siteAt E k cs)) s = _ :=
    L.withConn h hn _ _
  have e2 := L.uIsdir h hn (L.clear_dir h hd)
  unfold Any.uMakedirs
  rw [e1]
  unfold makedirs
  have e2' : uIsdir sysOps (siteAt E k cs) s = (.ok (isD (siteV r s k cs)), s) := e2
  rw [bind_ok e2', hd]
  rfl

/-! ## C75 -/

/-- what walk yields for a directory: its URI, the names of its directories, its other names -/
def siteRow (E : ι → Dict) (r : ι → Nat) (s : Sys) (k : Option ι) (p : List Str) : Uri × List Str × List Str :=
  (siteAt E k p, (siteNames r s k p).filter (fun n => isD (siteV r s k (p ++ [n]))),
    (siteNames r s k p).filter (fun n => !isD (siteV r s k (p ++ [n]))))

/-- walk visits every directory below the start once, parents before (bottom-up: after) what is in them -/
theorem C75_walk (h : SysOk E r s) {k : Option ι} {q : List Str} (hsub : Sub (siteV r s k) q) (hd : siteV r s k q = some .dir)
    (td fl : Bool) {depth : Nat} (hh : ∀ x, siteV r s k (q ++ x) = some .dir → x.length < depth) :
    ∃ ps : List (List Str), uWalk sysOps depth (siteAt E k q) td fl s = (.ok (ps.map (siteRow E r s k)), s) ∧
      (∀ p, p ∈ ps ↔ q <+: p ∧ siteV r s k p = some .dir) ∧ ps.Pairwise (Order td) :=
  (sysLaws E r hr).uWalk h hsub hd hh

omit hr in
/-- the names in a directory are sorted, and are exactly the names under which there is something -/
theorem C75_names (h : SysOk E r s) {k : Option ι} {q : List Str} : (siteNames r s k q).Pairwise strLt ∧
    ∀ n, n ∈ siteNames r s k q ↔ siteV r s k (q ++ [n]) ≠ none :=
  ⟨site_names_sorted h, fun _ => site_mem_names⟩

/-! ## C76 -/

/-- recursive remove removes the tree, and nothing else -/
theorem C76_tree (h : SysOk E r s) {k : Option ι} {q : List Str} (hsub : Sub (siteV r s k) q) (hq : q ≠ [])
    (hd : siteV r s k q = some .dir) {depth : Nat} (hh : ∀ x, siteV r s k (q ++ x) = some .dir → x.length < depth) :
    ∃ s', uRemove sysOps depth (siteAt E k q) true s = (.ok (), s') ∧ SysOk E r s' ∧
      (∀ p, q <+: p → siteV r s' k p = none) ∧ ∀ j p, ¬ (j = k ∧ q <+: p) → siteV r s' j p = siteV r s j p := by
  obtain ⟨s', h1, h2, h3⟩ := (sysLaws E r hr).uRemove_tree h hsub hq hd hh
  change siteV r s' = wipe (siteV r s) k (fun p => q <+: p) at h3
  refine ⟨s', h1, h2, fun p hp => ?_, fun j p hj => ?_⟩
  · rw [h3]; simp [wipe, hp]
  · rw [h3]; simp only [wipe, if_neg hj]

/-- remove of a file removes it, and nothing else -/
theorem C76_file (h : SysOk E r s) {k : Option ι} {q : List Str} (hn : Nm q) {d : Bytes} (hd : siteV r s k q = some (.file d))
    (depth : Nat) (rec : Bool) :
    ∃ s', uRemove sysOps depth (siteAt E k q) rec s = (.ok (), s') ∧ SysOk E r s' ∧ siteV r s' k q = none ∧
      ∀ j p, ¬ (j = k ∧ p = q) → siteV r s' j p = siteV r s j p := by
  obtain ⟨s', h1, h2, h3⟩ := (sysLaws E r hr).uRemove_file (depth := depth) (rec := rec) h hn hd
  change siteV r s' = upd (siteV r s) k q none at h3
  exact ⟨s', h1, h2, by rw [h3, upd_same], fun j p hj => by rw [h3, upd_ne hj]⟩

/-! ## C77 -/

/-- copying a file: the destination, or the name of the source in it if it is a directory, is a file with the same bytes;
    nothing else changes -/
theorem C77_file (h : SysOk E r s) {k k' : Option ι} (hm : May k k') {init : List Str} {n m : Str} {ds e : List Str} {d : Bytes}
    (hn : Nm (init ++ [n])) (hd : siteV r s k (init ++ [n]) = some (.file d)) (hds : Nm ds) (he : Nm (e ++ [m]))
    (ht : FileTarget (siteV r s k') ds n (e ++ [m])) (hp : siteV r s k' e = some .dir)
    (hf : siteV r s k' (e ++ [m]) = none ∨ isF (siteV r s k' (e ++ [m])) = true)
    (hne : ¬ (k = k' ∧ init ++ [n] = e ++ [m])) (depth : Nat) (ig : List Str) (fl : Bool) :
    ∃ s', uCopy sysOps depth (siteAt E k (init ++ [n])) (siteAt E k' ds) false ig fl s = (.ok (), s') ∧ SysOk E r s' ∧
      siteV r s' k' (e ++ [m]) = some (.file d) ∧ ∀ j p, ¬ (j = k' ∧ p = e ++ [m]) → siteV r s' j p = siteV r s j p := by
  obtain ⟨s', h1, h2, h3⟩ := (sysLaws E r hr).copyFile (depth := depth) (ig := ig) (fl := fl) hm h hn hd hds he ht hp hf hne
  change siteV r s' = upd (siteV r s) k' (e ++ [m]) (some (.file d)) at h3
  exact ⟨s', h1, h2, by rw [h3, upd_same], fun j p hj => by rw [h3, upd_ne hj]⟩

/-- Between two memory file systems the bytes arrive, but then the permissions are set on whatever has the name of the
    destination in the file system of the *source*: if nothing has, the call ends with an error, after copying. -/
theorem C77_between_memories (h : SysOk E r s) {i j : ι} (hij : i ≠ j) {init : List Str} {n m : Str} {ds e : List Str} {d : Bytes}
    (hn : Nm (init ++ [n])) (hd : siteV r s (some i) (init ++ [n]) = some (.file d)) (hds : Nm ds) (he : Nm (e ++ [m]))
    (ht : FileTarget (siteV r s (some j)) ds n (e ++ [m])) (hp : siteV r s (some j) e = some .dir)
    (hf : siteV r s (some j) (e ++ [m]) = none ∨ isF (siteV r s (some j) (e ++ [m])) = true) (depth : Nat) (ig : List Str) (fl : Bool) :
    ∃ res s', uCopy sysOps depth (siteAt E (some i) (init ++ [n])) (siteAt E (some j) ds) false ig fl s = (res, s') ∧ SysOk E r s' ∧
      siteV r s' (some j) (e ++ [m]) = some (.file d) ∧
      (∀ k p, ¬ (k = some j ∧ p = e ++ [m]) → siteV r s' k p = siteV r s k p) ∧
      (Clear (siteV r s (some i)) (e ++ [m]) → siteV r s (some i) (e ++ [m]) = none → res = .error (.os .ENOENT)) ∧
      ∀ d', siteV r s (some i) (e ++ [m]) = some (.file d') → res = .ok () := by
  have hne : ¬ ((some i : Option ι) = some j ∧ init ++ [n] = e ++ [m]) := fun c => hij (Option.some.inj c.1)
  have hne' : ∀ p, ¬ ((some i : Option ι) = some j ∧ p = e ++ [m]) := fun p c => hij (Option.some.inj c.1)
  let L := sysLaws E r hr
  have e0 : uCopy sysOps depth (siteAt E (some i) (init ++ [n])) (siteAt E (some j) ds) false ig fl s =
      copyOne sysOps (siteC r (some i)) (siteAt E (some i) (init ++ [n])) (siteAt E (some j) (e ++ [m])) fl s :=
    L.copyFile_one h hn hd hds he ht hp hf
  have e1 : uIslink sysOps (siteAt E (some i) (init ++ [n])) s = (.ok false, s) :=
    L.uIslink h hn (L.clear_of h (by rw [show L.V s (some i) (init ++ [n]) = _ from hd]; simp) (by rw [show L.V s (some i) (init ++ [n]) = _ from hd]; simp))
      (by rw [show L.V s (some i) (init ++ [n]) = _ from hd]; simp)
  obtain ⟨s1, e2, ok1, v1⟩ := site_content h hr hn he hd hp hf hne
  have e3 : copyOne sysOps (siteC r (some i)) (siteAt E (some i) (init ++ [n])) (siteAt E (some j) (e ++ [m])) fl s =
      onMem (Mem.copystat (r i) (Gen.mem (E i) (init ++ [n])) (Gen.mem (E j) (e ++ [m]))) s1 := by
    unfold Any.copyOne
    rw [bind_ok e1, Bool.false_and, if_neg Bool.false_ne_true, bind_ok e2]
    rfl
  rw [e0, e3]
  unfold onMem
  have st := stepsOf_mem hn.ok (E i)
  have st' := stepsOf_mem he.ok (E j)
  have hsrc : siteV r s1 (some i) (init ++ [n]) = some (.file d) := by rw [v1, upd_ne (hne' _)]; exact hd
  obtain ⟨mo, ti, hsv⟩ := siteV_file.1 hsrc
  have hgo := Mem.Plain.goes (d := maxDepth) (plain_of_view hsv) hsv rfl
  have hv : ∀ k p, ¬ (k = some j ∧ p = e ++ [m]) → siteV r s1 k p = siteV r s k p := fun k p c => by rw [v1, upd_ne c]
  by_cases hg : ∃ q, Spec.Goes (view s1.mem (r i)) maxDepth [] (e ++ [m]) (.found q) ∧ view s1.mem (r i) q ≠ none
  · obtain ⟨q, hg, hq⟩ := hg
    obtain ⟨o', ho'⟩ := Option.ne_none_iff_exists'.1 hq
    obtain ⟨w, h5, h6⟩ := Mem.copystat_at ok1.inv ((ok1.fs i).serves (init ++ [n])) st st' hgo hg hsv ho'
    obtain ⟨h7, h8⟩ := ok1.set_mem hr h6
    rw [h5]
    have h9 : siteV r { s1 with mem := w } = siteV r s1 := by
      rw [h8]
      refine upd_self ?_
      simp only [siteV, ho']
      cases o' <;> rfl
    refine ⟨_, _, rfl, h7, by rw [h9, v1, upd_same], fun k p c => by rw [h9]; exact hv k p c, fun hc hx => ?_, fun _ _ => rfl⟩
    exfalso
    have hx1 : siteV r s1 (some i) (e ++ [m]) = none := by rw [hv _ _ (hne' _)]; exact hx
    have hc1 : Clear (siteV r s1 (some i)) (e ++ [m]) := by
      have : siteV r s1 (some i) = siteV r s (some i) := funext fun p => hv _ _ (fun c => hij (Option.some.inj c.1))
      rw [this]; exact hc
    have := (site_goes ok1 hc1).2 (siteV_none.1 hx1)
    exact absurd (this.det hg) (by simp)
  · have hno : ∀ x, Mem.nodeForPath s1.mem (r i) true true (Gen.mem (E j) (e ++ [m])) ≠ .ok (some x) := by
      intro x hx
      obtain ⟨q, hq1, hq2⟩ := Mem.nodeForPath_some ok1.inv (ok1.fs i).isRoot st' hx
      exact hg ⟨q, hq1, by rw [Mem.view_of_phys hq2]; simp⟩
    obtain ⟨er, h5⟩ : ∃ er, Mem.copystat (r i) (Gen.mem (E i) (init ++ [n])) (Gen.mem (E j) (e ++ [m])) s1.mem = (.error er, s1.mem) := by
      rcases Mem.copystat_cases (w := s1.mem) (r := r i) (Gen.mem (E i) (init ++ [n])) (Gen.mem (E j) (e ++ [m])) with h5 | ⟨_, x, -, hx, -⟩
      · exact h5
      · exact absurd hx (hno x)
    rw [h5]
    refine ⟨_, _, rfl, ok1, by rw [v1, upd_same], hv, fun hc hx => ?_, fun d' hx => ?_⟩
    · have hx1 : siteV r s1 (some i) (e ++ [m]) = none := by rw [hv _ _ (hne' _)]; exact hx
      have hc1 : Clear (siteV r s1 (some i)) (e ++ [m]) := by
        have : siteV r s1 (some i) = siteV r s (some i) := funext fun p => hv _ _ (fun c => hij (Option.some.inj c.1))
        rw [this]; exact hc
      have g := (site_goes ok1 hc1).2 (siteV_none.1 hx1)
      have a1 := Mem.nodeForPath_goes ok1.inv (ok1.fs i).isRoot st (throw := true) hgo
      have a2 := Mem.nodeForPath_goes ok1.inv (ok1.fs i).isRoot st' (throw := true) g
      unfold Mem.copystat at h5
      rw [a1, a2] at h5
      obtain ⟨x, hx'⟩ : ∃ x, Mem.outResult s1.mem (r i) true (.found (init ++ [n])) = .ok x := ⟨_, rfl⟩
      rw [hx'] at h5
      cases x <;> simpa [Mem.outResult] using h5.symm
    · exfalso
      have hx1 : siteV r s1 (some i) (e ++ [m]) = some (.file d') := by rw [hv _ _ (hne' _)]; exact hx
      obtain ⟨a, b, hx2⟩ := siteV_file.1 hx1
      exact hg ⟨_, Mem.Plain.goes (plain_of_view hx2) hx2 rfl, by rw [hx2]; simp⟩

/-! ## C78 -/

/-- `x` goes through a directory with an ignored name -/
def Ignored (T : List Str → Option Any.Kind) (ig q x : List Str) : Prop :=
  ∃ a n b, x = a ++ n :: b ∧ n ∈ ig ∧ T (q ++ a ++ [n]) = some .dir

/-- copying a tree: below the destination there is what is below the source, except ignored directories; the missing
    directories on the way are made; nothing else changes -/
theorem C78_tree (h : SysOk E r s) {k k' : Option ι} (hm : May k k') {init : List Str} {n : Str} {ds e : List Str}
    (H : Laws.Copyable (siteV r s k) (init ++ [n])) (hds : Nm ds) (he : Nm e) (ht : Target (siteV r s k') ds n e)
    (hclear : ∀ p, p <+: e → siteV r s k' p = some .dir ∨ siteV r s k' p = none) (hnew : siteV r s k' e = none)
    (hsd : ¬ (k = k' ∧ init ++ [n] <+: e)) {depth : Nat} (hl : e.length < depth)
    (hh : ∀ x, siteV r s k (init ++ [n] ++ x) = some .dir → x.length < depth) (ig : List Str) (fl : Bool) :
    ∃ s', uCopy sysOps depth (siteAt E k (init ++ [n])) (siteAt E k' ds) true ig fl s = (.ok (), s') ∧ SysOk E r s' ∧
      (∀ p, p <+: e → siteV r s' k' p = some .dir) ∧
      (∀ x, x ≠ [] → ¬ Ignored (siteV r s k) ig (init ++ [n]) x → siteV r s' k' (e ++ x) = siteV r s k (init ++ [n] ++ x)) ∧
      (∀ x, x ≠ [] → Ignored (siteV r s k) ig (init ++ [n]) x → siteV r s' k' (e ++ x) = none) ∧
      ∀ j p, ¬ (j = k' ∧ (p <+: e ∨ e <+: p)) → siteV r s' j p = siteV r s j p := by
  obtain ⟨s', h1, h2, h3⟩ := (sysLaws E r hr).copyTree (ig := ig) (fl := fl) hm h H hds he ht hclear hnew hsd hl hh
  change siteV r s' = graft (mkdirs (siteV r s) k' e) k' e (kept (siteV r s k) ig (init ++ [n])) at h3
  refine ⟨s', h1, h2, fun p hp => ?_, fun x hx hi => ?_, fun x hx hi => ?_, fun j p hj => ?_⟩
  · rw [h3, graft_out]
    · simp [mkdirs, hp]
    · rintro ⟨-, h4, h5⟩
      exact h5 (hp.eq_of_length_le h4.length_le)
  · rw [h3, graft_in hx]; exact if_neg hi
  · rw [h3, graft_in hx]; exact if_pos hi
  · rw [h3, graft_out (fun c => hj ⟨c.1, .inr c.2.1⟩)]
    unfold mkdirs
    rw [if_neg (fun c => hj ⟨c.1, .inl c.2⟩)]

/-! ## C79 -/

omit hr in
/-- moving within the local file system is left to `shutil.move` (C66) -/
theorem noMoveSelf {k k' : Option ι} (hkk : k ≠ none ∨ k' ≠ none) (cs ds : List Str) :
    sysOps.moveSelf (siteC r k) (siteAt E k cs) (siteAt E k' ds) = none := by
  cases k with
  | some i => rfl
  | none =>
    cases k' with
    | none => simp at hkk
    | some j => simp [sysOps, siteC, siteAt, Gen.mem, Uri.scheme]

/-- moving a file -/
theorem C79_file (h : SysOk E r s) {k k' : Option ι} (hm : May k k') (hkk : k ≠ none ∨ k' ≠ none) {init : List Str} {n m : Str}
    {ds e : List Str} {d : Bytes}
    (hn : Nm (init ++ [n])) (hd : siteV r s k (init ++ [n]) = some (.file d)) (hds : Nm ds) (he : Nm (e ++ [m]))
    (ht : FileTarget (siteV r s k') ds n (e ++ [m])) (hp : siteV r s k' e = some .dir)
    (hf : siteV r s k' (e ++ [m]) = none ∨ isF (siteV r s k' (e ++ [m])) = true)
    (hne : ¬ (k = k' ∧ init ++ [n] = e ++ [m])) (depth : Nat) :
    ∃ s', uMove sysOps depth (siteAt E k (init ++ [n])) (siteAt E k' ds) s = (.ok (), s') ∧ SysOk E r s' ∧
      siteV r s' k' (e ++ [m]) = some (.file d) ∧ siteV r s' k (init ++ [n]) = none ∧
      ∀ j p, ¬ (j = k' ∧ p = e ++ [m]) → ¬ (j = k ∧ p = init ++ [n]) → siteV r s' j p = siteV r s j p := by
  obtain ⟨s', h1, h2, h3⟩ := (sysLaws E r hr).moveFile (depth := depth) hm h (noMoveSelf hkk _ _) hn hd hds he ht hp hf hne
  change siteV r s' = upd (upd (siteV r s) k' (e ++ [m]) (some (.file d))) k (init ++ [n]) none at h3
  refine ⟨s', h1, h2, ?_, by rw [h3, upd_same], fun j p h4 h5 => by rw [h3, upd_ne h5, upd_ne h4]⟩
  rw [h3, upd_ne (fun c => hne ⟨c.1.symm, c.2.symm⟩), upd_same]

/-- moving a tree -/
theorem C79_tree (h : SysOk E r s) {k k' : Option ι} (hm : May k k') (hkk : k ≠ none ∨ k' ≠ none) {init : List Str} {n : Str}
    {ds e : List Str}
    (H : Laws.Copyable (siteV r s k) (init ++ [n])) (hds : Nm ds) (he : Nm e) (ht : Target (siteV r s k') ds n e)
    (hclear : ∀ p, p <+: e → siteV r s k' p = some .dir ∨ siteV r s k' p = none) (hnew : siteV r s k' e = none)
    (hsd : ¬ (k = k' ∧ init ++ [n] <+: e)) {depth : Nat} (hl : e.length < depth)
    (hh : ∀ x, siteV r s k (init ++ [n] ++ x) = some .dir → x.length < depth) :
    ∃ s', uMove sysOps depth (siteAt E k (init ++ [n])) (siteAt E k' ds) s = (.ok (), s') ∧ SysOk E r s' ∧
      (∀ x, siteV r s' k' (e ++ x) = siteV r s k (init ++ [n] ++ x)) ∧
      (∀ x, siteV r s' k (init ++ [n] ++ x) = none) ∧
      (∀ p, p <+: e → siteV r s' k' p = some .dir) ∧
      ∀ j p, ¬ (j = k' ∧ (p <+: e ∨ e <+: p)) → ¬ (j = k ∧ init ++ [n] <+: p) → siteV r s' j p = siteV r s j p := by
  obtain ⟨s', h1, h2, h3⟩ := (sysLaws E r hr).moveTree hm h (noMoveSelf hkk _ _) H hds he ht hclear hnew hsd hl hh
  change siteV r s' = wipe (graft (mkdirs (siteV r s) k' e) k' e (fun x => siteV r s k (init ++ [n] ++ x))) k
    (fun p => init ++ [n] <+: p) at h3
  -- the destination is not below the source, nor the source below the destination
  have apart : ∀ {p : List Str}, e <+: p ∨ p <+: e → ¬ (k' = k ∧ init ++ [n] <+: p) := by
    rintro p hp ⟨rfl, h4⟩
    apply hsd
    refine ⟨rfl, ?_⟩
    rcases hp with hp | hp
    · rcases List.prefix_or_prefix_of_prefix h4 hp with h5 | h5
      · exact h5
      · exfalso
        obtain ⟨t, ht'⟩ := h5
        have := (sysLaws E r hr).none_below (k := k') (t := t) h hnew
        change siteV r s k' (e ++ t) = none at this
        rw [ht', H.dir] at this
        simp at this
    · exact h4.trans hp
  have hpre : ∀ p, p <+: e → siteV r s' k' p = some .dir := by
    intro p hp
    rw [h3]
    unfold wipe
    rw [if_neg (apart (.inr hp)), graft_out]
    · simp [mkdirs, hp]
    · rintro ⟨-, h4, h5⟩
      exact h5 (hp.eq_of_length_le h4.length_le)
  refine ⟨s', h1, h2, fun x => ?_, fun x => ?_, hpre, fun j p hj hj' => ?_⟩
  · by_cases hx : x = []
    · subst hx
      rw [List.append_nil, List.append_nil, H.dir]
      exact hpre e (List.prefix_refl _)
    · rw [h3]
      unfold wipe
      rw [if_neg (apart (.inl (List.prefix_append _ _))), graft_in hx]
  · rw [h3]; simp [wipe]
  · rw [h3]
    unfold wipe
    rw [if_neg hj', graft_out (fun c => hj ⟨c.1, .inr c.2.1⟩)]
    unfold mkdirs
    rw [if_neg (fun c => hj ⟨c.1, .inl c.2⟩)]

/-! ## C80 -/

/-- the pieces of 4096 bytes in which a file is fed to the hash -/
def pieces (d : Bytes) : List Bytes :=
  if _h : d = [] then [] else d.take 4096 :: pieces (d.drop 4096)
termination_by d.length
decreasing_by
  have : 0 < d.length := List.length_pos_iff.2 ‹_›
  simp; omega

omit hr in
theorem pieces_flatten (d : Bytes) : (pieces d).flatten = d := by
  fun_induction pieces d with
  | case1 => simp
  | case2 d _ ih => rw [List.flatten_cons, ih, List.take_append_drop]

omit hr in
theorem blockLoop_eq (hr : Function.Injective r) {k : Option ι} {q : List Str} {hd : Hd} {data : Bytes} (n : Nat) :
    ∀ {s : Sys} {pos : Nat}, SysOk E r s → RdAt r s k q hd data pos → data.length - pos < n →
    ∃ s', blockLoop hd n s = (.ok (pieces (data.drop pos)), s') ∧ SysOk E r s' ∧ siteV r s' = siteV r s := by
  induction n with
  | zero => intro s pos _ _ h; omega
  | succ n ih =>
    intro s pos h hrd hlen
    obtain ⟨s1, e1, ok1, v1, rd1, -⟩ := read_step h hr hrd 4096
    unfold blockLoop
    rw [bind_ok e1]
    by_cases hnil : data.drop pos = []
    · refine ⟨s1, ?_, ok1, v1⟩
      rw [hnil]
      simp [pieces]
    · have hl : pos < data.length := by
        by_contra hc
        exact hnil (List.drop_eq_nil_of_le (by omega))
      have hne : (data.drop pos).take 4096 ≠ [] := by
        intro hx
        have := congrArg List.length hx
        rw [List.length_take, List.length_drop, List.length_nil] at this
        omega
      obtain ⟨s2, e2, ok2, v2⟩ := ih ok1 rd1 (by simp only [List.length_take, List.length_drop]; omega)
      refine ⟨s2, ?_, ok2, by rw [v2, v1]⟩
      have : data.drop (pos + ((data.drop pos).take 4096).length) = (data.drop pos).drop 4096 := by
        rw [List.drop_drop]
        rw [List.length_take, List.length_drop]
        by_cases hc : 4096 ≤ data.length - pos
        · rw [Nat.min_eq_left hc]
        · rw [Nat.min_eq_right (by omega), List.drop_eq_nil_of_le (by omega), List.drop_eq_nil_of_le (by omega)]
      rw [this] at e2
      dsimp only
      rw [if_neg hne, bind_ok e2]
      conv => rhs; unfold pieces
      rw [dif_neg hnil]
      rfl

/-- `md5()` hashes the bytes of the file, in the same pieces wherever the file is, and changes nothing -/
theorem C80_md5 (h : SysOk E r s) {k : Option ι} {cs : List Str} (hn : Nm cs) {d : Bytes} (hd : siteV r s k cs = some (.file d)) :
    (pieces d).flatten = d ∧ ∃ s', uMd5 sysOps (siteAt E k cs) s = (.ok (pieces d), s') ∧ SysOk E r s' ∧ siteV r s' = siteV r s := by
  refine ⟨pieces_flatten d, ?_⟩
  obtain ⟨s1, inf, e1, ok1, v1, rd1⟩ := site_openR h hn hd
  obtain ⟨s2, e2, ok2, v2⟩ := blockLoop_eq hr (d.length + 1) ok1 rd1 (by omega)
  refine ⟨s2, ?_, ok2, by rw [v2, v1]⟩
  let L := sysLaws E r hr
  have a1 : Any.withConn sysOps (siteAt E k cs) .md5 (fun _ => do
      let h ← uOpenR sysOps (siteAt E k cs)
      sysOps.blocks h) s = _ := L.withConn h hn _ _
  have a2 : uOpenR sysOps (siteAt E k cs) s = _ := (L.withConn h hn _ _).trans e1
  unfold Any.uMd5
  rw [a1, bind_ok a2]
  show (hSize inf >>= fun n => blockLoop inf (n + 1)) s1 = _
  rw [bind_ok (hSize_eq rd1)]
  exact e2

/-- a file and its copy have the same digest, whatever the places -/
theorem C80_copy (h : SysOk E r s) {k k' : Option ι} (hm : May k k') {init : List Str} {n m : Str} {ds e : List Str} {d : Bytes}
    (hn : Nm (init ++ [n])) (hd : siteV r s k (init ++ [n]) = some (.file d)) (hds : Nm ds) (he : Nm (e ++ [m]))
    (ht : FileTarget (siteV r s k') ds n (e ++ [m])) (hp : siteV r s k' e = some .dir)
    (hf : siteV r s k' (e ++ [m]) = none ∨ isF (siteV r s k' (e ++ [m])) = true)
    (hne : ¬ (k = k' ∧ init ++ [n] = e ++ [m])) (depth : Nat) (ig : List Str) (fl : Bool) :
    ∃ s' bs, uCopy sysOps depth (siteAt E k (init ++ [n])) (siteAt E k' ds) false ig fl s = (.ok (), s') ∧
      (uMd5 sysOps (siteAt E k (init ++ [n])) s').1 = .ok bs ∧ (uMd5 sysOps (siteAt E k' (e ++ [m])) s').1 = .ok bs := by
  obtain ⟨s', h1, h2, h3, h4⟩ := C77_file hr h hm hn hd hds he ht hp hf hne depth ig fl
  refine ⟨s', pieces d, h1, ?_, ?_⟩
  · obtain ⟨-, s2, e, -⟩ := C80_md5 hr h2 hn ((h4 k _ hne).trans hd)
    rw [e]
  · obtain ⟨-, s2, e, -⟩ := C80_md5 hr h2 he h3
    rw [e]

/-! ## C81 -/

omit hr in
theorem glob_map' (hr : Function.Injective r) {k : Option ι} {q : List Str} : ∀ l : List Str, (∀ n ∈ l, Nm (q ++ [n])) →
    (l.mapM fun f => OM.lift ((siteAt E k q).div f) : OM Sys (List Uri)) s =
      (.ok (l.map fun n => siteAt E k (q ++ [n])), s) := by
  intro l
  induction l with
  | nil => intro _; rfl
  | cons n l ih =>
    intro hl
    have e1 : (siteAt E k q).div n = .ok (siteAt E k (q ++ [n])) := (sysLaws E r hr).div1 (hl n (by simp))
    rw [List.mapM_cons, bind_lift e1, bind_ok (ih fun m hm => hl m (by simp [hm]))]
    rfl

/-- glob returns exactly the matching children, in the order of their names -/
theorem C81_glob (h : SysOk E r s) {k : Option ι} {q : List Str} (hn : Nm q) (hd : siteV r s k q = some .dir)
    (hc : ∀ n, siteV r s k (q ++ [n]) ≠ none → Nm (q ++ [n])) (match_ : Str → Bool) :
    uGlob sysOps (siteAt E k q) match_ s =
      (.ok (((siteNames r s k q).filter match_).map fun n => siteAt E k (q ++ [n])), s) := by
  let L := sysLaws E r hr
  have a1 : Any.withConn sysOps (siteAt E k q) .glob (fun _ => do
      let l ← uListdir sysOps (siteAt E k q)
      (l.filter match_).mapM fun f => OM.lift ((siteAt E k q).div f)) s = _ := L.withConn h hn _ _
  have a2 : uListdir sysOps (siteAt E k q) s = _ := (L.withConn h hn _ _).trans (site_listdir h hn hd)
  unfold Any.uGlob
  rw [a1, bind_ok a2]
  exact glob_map' hr _ fun n hm => hc n (site_mem_names.1 (List.mem_filter.1 hm).1)

end

/-! ## A state with a memory file system and a local one -/

/-- local files: /t/ with an empty directory /t/d/ and a file /t/g, and a link /l to /t -/
def sampleDisk : Disk :=
  ⟨[([], .dir 0o755), ([cl!"t"], .dir 0o755), ([cl!"t", cl!"d"], .dir 0o700), ([cl!"t", cl!"g"], .file 0o644 [1, 2, 3]),
    ([cl!"l"], .link cl!"/t")], [], 0o22, []⟩

/-- the sample memory file system and the local files -/
def sampleSys : Sys := ⟨sample, sampleDisk⟩

theorem diskOk_of {d : Disk} (h1 : (d.ents.map (·.1)).Nodup) (h2 : isDirD (d.tree []) = true)
    (h3 : ∀ e ∈ d.ents, e.1 = [] ∨ isDirD (d.tree e.1.dropLast) = true) : DiskOk d := by
  have hdir : ∀ {x}, isDirD x = true → ∃ p, x = some (.dir p) := by
    intro x hx
    cases x with
    | none => simp [isDirD] at hx
    | some o => cases o <;> simp_all [isDirD]
  refine ⟨h1, hdir h2, fun q n hn => ?_⟩
  obtain ⟨e, he, e1⟩ := (lookup_isSome d.ents (q ++ [n])).2 hn
  have := h3 e he
  rw [e1] at this
  simp at this
  exact hdir this

theorem sampleSys_ok : SysOk (fun _ : Unit => []) (fun _ => 0) sampleSys :=
  ⟨sample_reachable.inv,
   fun _ => ⟨by decide +kernel, by decide +kernel, by
     intro p cb m h
     have : sample.hooks 0 = [] := by decide +kernel
     change (sample.hooks 0).lookup p = _ at h
     rw [this] at h; simp at h⟩,
   diskOk_of (by decide) (by decide) (by decide)⟩

theorem unit_inj : Function.Injective (fun _ : Unit => 0) := fun _ _ _ => rfl

/-- the places of the sample -/
abbrev sAt := siteAt (fun _ : Unit => ([] : Dict))
/-- what there is in the sample -/
abbrev sV := siteV (fun _ : Unit => 0) sampleSys

instance (cs : List Str) : Decidable (Nm cs) :=
  decidable_of_iff (Gen.Ok cs ∧ (∀ c ∈ cs, c ≠ cl!"." ∧ c ≠ cl!"..") ∧ (cs.head?.bind List.head?) ≠ some ':') <| by
    constructor
    · rintro ⟨a, b, c⟩
      refine ⟨a, b, fun r hr => c ?_⟩
      rw [hr]; rfl
    · rintro ⟨a, b, c⟩
      refine ⟨a, b, fun h => ?_⟩
      cases cs with
      | nil => simp at h
      | cons x cs =>
        cases x with
        | nil => simp at h
        | cons y x =>
          simp only [List.head?_cons, Option.bind_some, Option.some.injEq] at h
          exact c x (by rw [h]; rfl)

theorem all_prefixes {P : List Str → Prop} {cs : List Str} (h : ∀ p ∈ cs.inits, P p) : ∀ p, p <+: cs → P p :=
  fun p hp => h p ((List.mem_inits _ _).2 hp)

/-- every location where there is something -/
def sPaths : Option Unit → List (List Str)
  | none => sampleDisk.ents.map (·.1)
  | some _ => allPaths sample sample.next 0

theorem mem_sPaths {k : Option Unit} {p : List Str} (h : sV k p ≠ none) : p ∈ sPaths k := by
  cases k with
  | none =>
    have : (sampleDisk.tree p) ≠ none := by
      intro hc; apply h; simp only [sV, siteV]; rw [show sampleSys.disk.tree p = none from hc]; rfl
    obtain ⟨e, he, e1⟩ := (lookup_isSome sampleDisk.ents p).2 this
    exact List.mem_map.2 ⟨e, he, e1⟩
  | some u =>
    refine view_mem_allPaths sample_reachable.inv (sampleSys_ok.fs ()).isRoot ?_
    intro hc; apply h; simp only [sV, siteV]; rw [show view sampleSys.mem 0 p = none from hc]; rfl

theorem sSub {k : Option Unit} {q : List Str} (h : ∀ p ∈ sPaths k, q <+: p → Nm p ∧ sV k p ≠ some .other) : Sub (sV k) q :=
  ⟨fun t ht => (h _ (mem_sPaths ht) (List.prefix_append _ _)).1, fun t ht =>
    (h _ (mem_sPaths (by rw [ht]; simp)) (List.prefix_append _ _)).2 ht⟩

theorem sDepth {k : Option Unit} {q : List Str} {n : Nat} (h : ∀ p ∈ sPaths k, p.length < n + q.length) :
    ∀ x, sV k (q ++ x) = some .dir → x.length < n := by
  intro x hx
  have := h _ (mem_sPaths (k := k) (p := q ++ x) (by rw [hx]; simp))
  rw [List.length_append] at this
  omega

theorem sCopyable {k : Option Unit} {q : List Str} (h : ∀ p ∈ sPaths k, q <+: p → Nm p ∧ sV k p ≠ some .other) (hq : q ≠ [])
    (hd : sV k q = some .dir) (ht : ∀ p ∈ sPaths k, ∀ n ∈ p.getLast?, Trimmed n) : Laws.Copyable (sV k) q :=
  ⟨sSub h, hq, hd, fun t n hn => ht _ (mem_sPaths (k := k) (p := q ++ t ++ [n]) (by rw [hn]; simp)) n (by simp)⟩

/-- new local directories -/
example : ∃ s', uMakedirs sysOps 100 (sAt none [cl!"t", cl!"x", cl!"y"]) sampleSys = (.ok (), s') ∧
    siteV (fun _ : Unit => 0) s' none [cl!"t", cl!"x"] = some .dir ∧ siteV (fun _ : Unit => 0) s' none [cl!"t", cl!"g"] = some (.file [1, 2, 3]) := by
  obtain ⟨s', h1, -, h2, h3⟩ := C74_makedirs unit_inj sampleSys_ok (k := none) (cs := [cl!"t", cl!"x", cl!"y"]) (depth := 100)
    (by decide +kernel) (all_prefixes (by decide +kernel)) (by decide)
  exact ⟨s', h1, h2 _ (by decide), (h3 _ _ (by decide)).trans (by decide)⟩

example : uMakedirs sysOps 1 (sAt none [cl!"t", cl!"d"]) sampleSys = (.ok (), sampleSys) :=
  C74_idempotent unit_inj sampleSys_ok (by decide +kernel) (by decide +kernel) (by decide)

/-- walking local directories -/
example : ∃ ps : List (List Str), uWalk sysOps 100 (sAt none [cl!"t"]) false true sampleSys =
    (.ok (ps.map (siteRow (fun _ : Unit => []) (fun _ => 0) sampleSys none)), sampleSys) ∧ [cl!"t", cl!"d"] ∈ ps := by
  obtain ⟨ps, h1, h2, -⟩ := C75_walk unit_inj sampleSys_ok (k := none) (q := [cl!"t"]) (sSub (by decide +kernel)) (by decide +kernel)
    false true (depth := 100) (sDepth (by decide +kernel))
  exact ⟨ps, h1, (h2 _).2 (by decide +kernel)⟩

example : siteNames (fun _ : Unit => 0) sampleSys none [cl!"t"] = [cl!"d", cl!"g"] := by decide +kernel

/-- removing local directories, and a file in memory -/
example : ∃ s', uRemove sysOps 100 (sAt none [cl!"t"]) true sampleSys = (.ok (), s') ∧
    siteV (fun _ : Unit => 0) s' none [cl!"t", cl!"g"] = none := by
  obtain ⟨s', h1, -, h2, -⟩ := C76_tree unit_inj sampleSys_ok (k := none) (q := [cl!"t"]) (sSub (by decide +kernel)) (by decide)
    (by decide +kernel) (depth := 100) (sDepth (by decide +kernel))
  exact ⟨s', h1, h2 _ (by decide)⟩

example : ∃ s', uRemove sysOps 100 (sAt none [cl!"t", cl!"g"]) false sampleSys = (.ok (), s') ∧
    siteV (fun _ : Unit => 0) s' none [cl!"t", cl!"g"] = none := by
  obtain ⟨s', h1, -, h2, -⟩ := C76_file unit_inj sampleSys_ok (k := none) (q := [cl!"t", cl!"g"]) (d := [1, 2, 3]) (by decide +kernel)
    (by decide +kernel) 100 false
  exact ⟨s', h1, h2⟩

/-- /a/f in memory to the local directory /t/d -/
example : ∃ s', uCopy sysOps 100 (sAt (some ()) [cl!"a", cl!"f"]) (sAt none [cl!"t", cl!"d"]) false [] true sampleSys = (.ok (), s') ∧
    siteV (fun _ : Unit => 0) s' none [cl!"t", cl!"d", cl!"f"] = some (.file [104, 105]) := by
  obtain ⟨s', h1, -, h2, -⟩ := C77_file unit_inj sampleSys_ok (k := some ()) (k' := none) (.inr (.inl rfl)) (init := [cl!"a"]) (n := cl!"f")
    (m := cl!"f") (ds := [cl!"t", cl!"d"]) (e := [cl!"t", cl!"d"]) (d := [104, 105]) (by decide +kernel) (by decide +kernel) (by decide +kernel)
    (by decide +kernel) (.into (by decide +kernel)) (by decide +kernel) (.inl (by decide +kernel)) (by simp) 100 [] true
  exact ⟨s', h1, h2⟩

/-- the local /t to /n/t in memory, without /t/d -/
example : ∃ s', uCopy sysOps 100 (sAt none [cl!"t"]) (sAt (some ()) [cl!"n", cl!"t"]) true [cl!"d"] true sampleSys = (.ok (), s') ∧
    siteV (fun _ : Unit => 0) s' (some ()) [cl!"n", cl!"t", cl!"g"] = some (.file [1, 2, 3]) ∧
    siteV (fun _ : Unit => 0) s' (some ()) [cl!"n", cl!"t", cl!"d"] = none := by
  obtain ⟨s', h1, -, -, h3, h4, -⟩ := C78_tree unit_inj sampleSys_ok (k := none) (k' := some ()) (.inl rfl) (init := []) (n := cl!"t")
    (ds := [cl!"n", cl!"t"]) (e := [cl!"n", cl!"t"]) (sCopyable (by decide +kernel) (by decide) (by decide +kernel) (by decide +kernel))
    (by decide +kernel) (by decide +kernel) (.new (by decide +kernel)) (all_prefixes (by decide +kernel)) (by decide +kernel) (by simp)
    (depth := 100) (by decide) (sDepth (by decide +kernel)) [cl!"d"] true
  refine ⟨s', h1, (h3 [cl!"g"] (by decide) ?_).trans (by decide +kernel),
    h4 [cl!"d"] (by decide) ⟨[], cl!"d", [], rfl, by simp, by decide +kernel⟩⟩
  rintro ⟨a, m, b, e, hm, -⟩
  rw [List.mem_singleton] at hm
  subst hm
  cases a with
  | nil => simp at e
  | cons y a => simp at e

/-- /a/f in memory moved to the local /t/h, and the local /t moved into /a in memory -/
example : ∃ s', uMove sysOps 100 (sAt (some ()) [cl!"a", cl!"f"]) (sAt none [cl!"t", cl!"h"]) sampleSys = (.ok (), s') ∧
    siteV (fun _ : Unit => 0) s' none [cl!"t", cl!"h"] = some (.file [104, 105]) ∧
    siteV (fun _ : Unit => 0) s' (some ()) [cl!"a", cl!"f"] = none := by
  obtain ⟨s', h1, -, h2, h3, -⟩ := C79_file unit_inj sampleSys_ok (k := some ()) (k' := none) (.inr (.inl rfl)) (.inl (by simp)) (init := [cl!"a"])
    (n := cl!"f") (m := cl!"h") (ds := [cl!"t", cl!"h"]) (e := [cl!"t"]) (d := [104, 105]) (by decide +kernel) (by decide +kernel) (by decide +kernel)
    (by decide +kernel) (.at_ (by decide +kernel)) (by decide +kernel) (.inl (by decide +kernel)) (by simp) 100
  exact ⟨s', h1, h2, h3⟩

example : ∃ s', uMove sysOps 100 (sAt none [cl!"t"]) (sAt (some ()) [cl!"a"]) sampleSys = (.ok (), s') ∧
    siteV (fun _ : Unit => 0) s' (some ()) [cl!"a", cl!"t", cl!"g"] = some (.file [1, 2, 3]) ∧
    siteV (fun _ : Unit => 0) s' none [cl!"t", cl!"g"] = none := by
  obtain ⟨s', h1, -, h3, h4, -⟩ := C79_tree unit_inj sampleSys_ok (k := none) (k' := some ()) (.inl rfl) (.inr (by simp)) (init := [])
    (n := cl!"t") (ds := [cl!"a"]) (e := [cl!"a", cl!"t"]) (sCopyable (by decide +kernel) (by decide) (by decide +kernel) (by decide +kernel))
    (by decide +kernel) (by decide +kernel) (.into (by decide +kernel)) (all_prefixes (by decide +kernel)) (by decide +kernel) (by simp)
    (depth := 100) (by decide) (sDepth (by decide +kernel))
  exact ⟨s', h1, (h3 [cl!"g"]).trans (by decide +kernel), h4 [cl!"g"]⟩

example : ∃ s', uMd5 sysOps (sAt none [cl!"t", cl!"g"]) sampleSys = (.ok (pieces [1, 2, 3]), s') := by
  obtain ⟨-, s', h1, -⟩ := C80_md5 unit_inj sampleSys_ok (k := none) (cs := [cl!"t", cl!"g"]) (d := [1, 2, 3]) (by decide +kernel) (by decide +kernel)
  exact ⟨s', h1⟩

example : ∃ s' bs, uCopy sysOps 100 (sAt (some ()) [cl!"a", cl!"f"]) (sAt none [cl!"t", cl!"d"]) false [] true sampleSys = (.ok (), s') ∧
    (uMd5 sysOps (sAt (some ()) [cl!"a", cl!"f"]) s').1 = .ok bs ∧ (uMd5 sysOps (sAt none [cl!"t", cl!"d", cl!"f"]) s').1 = .ok bs :=
  C80_copy unit_inj sampleSys_ok (k := some ()) (k' := none) (.inr (.inl rfl)) (init := [cl!"a"]) (n := cl!"f")
    (m := cl!"f") (ds := [cl!"t", cl!"d"]) (e := [cl!"t", cl!"d"]) (d := [104, 105]) (by decide +kernel) (by decide +kernel) (by decide +kernel)
    (by decide +kernel) (.into (by decide +kernel)) (by decide +kernel) (.inl (by decide +kernel)) (by simp) 100 [] true

example : uGlob sysOps (sAt none [cl!"t"]) (fun n => n == cl!"g") sampleSys = (.ok [sAt none [cl!"t", cl!"g"]], sampleSys) := by
  have := C81_glob unit_inj sampleSys_ok (k := none) (q := [cl!"t"]) (by decide +kernel) (by decide +kernel)
    (fun n hn => (show ∀ p ∈ sPaths none, Nm p by decide +kernel) _ (mem_sPaths hn)) (fun n => n == cl!"g")
  rw [show siteNames (fun _ : Unit => 0) sampleSys none [cl!"t"] = [cl!"d", cl!"g"] by decide +kernel] at this
  exact this

/-! ## Links -/

/-- Copying a link as a link writes to the file system of the source: a link in memory "copied" to a local path arrives in
    the memory file system, and nothing arrives at the local path. -/
theorem C77_link_refuted : ∃ s : Sys, SysOk (fun _ : Unit => []) (fun _ => 0) s ∧ s.mem = sample ∧
    (uCopy sysOps 100 (mu cl!"/m") (sAt none [cl!"x"]) false [] false s).1 = .ok () ∧
    siteV (fun _ : Unit => 0) (uCopy sysOps 100 (mu cl!"/m") (sAt none [cl!"x"]) false [] false s).2 none [cl!"x"] = none ∧
    siteV (fun _ : Unit => 0) (uCopy sysOps 100 (mu cl!"/m") (sAt none [cl!"x"]) false [] false s).2 (some ()) [cl!"x"] = some .other :=
  ⟨sampleSys, sampleSys_ok, rfl, by decide +kernel, by decide +kernel, by decide +kernel⟩

/-! ## Two memory file systems -/

/-- /f, "hi", in the first memory file system; /x/ in the second -/
def twoMem : World := runAll [.open_ (Gen.mem [] [cl!"f"]) (some cl!"w"), .write ⟨1, false, false⟩ (.str cl!"hi"), .mkdir (Gen.mem [(cl!"k", cl!"v")] [cl!"x"])] (World.init fun n => n)

/-- the query parts of the two -/
def twoE (b : Bool) : Dict := if b then [(cl!"k", cl!"v")] else []

/-- the roots of the two -/
def twoR (b : Bool) : Nat := if b then 2 else 0

theorem twoMem_reachable : Mem.Reachable twoMem := ⟨_, _, rfl⟩

theorem twoMem_ok : SysOk twoE twoR ⟨twoMem, sampleDisk⟩ :=
  ⟨twoMem_reachable.inv, by
    have h0 : ∀ i, twoMem.hooks (twoR i) = [] := by decide +kernel
    refine fun i => ⟨?_, ?_, fun p cb m h => ?_⟩
    · revert i; decide +kernel
    · revert i; decide +kernel
    · rw [show (Sys.mk twoMem sampleDisk).mem.hooks (twoR i) = [] from h0 i] at h; simp at h,
   diskOk_of (by decide) (by decide) (by decide)⟩

/-- /f copied to the directory /x of the other file system: the bytes are there, the call fails -/
example : ∃ s', uCopy sysOps 100 (siteAt twoE (some false) [cl!"f"]) (siteAt twoE (some true) [cl!"x"]) false [] true ⟨twoMem, sampleDisk⟩ =
      (.error (.os .ENOENT), s') ∧ siteV twoR s' (some true) [cl!"x", cl!"f"] = some (.file [104, 105]) := by
  obtain ⟨res, s', h1, -, h2, -, h3, -⟩ := C77_between_memories (r := twoR) (by intro a b; revert a b; decide) twoMem_ok (i := false) (j := true) (by decide)
    (init := []) (n := cl!"f") (m := cl!"f") (ds := [cl!"x"]) (e := [cl!"x"]) (d := [104, 105]) (by decide +kernel) (by decide +kernel)
    (by decide +kernel) (by decide +kernel) (.into (by decide +kernel)) (by decide +kernel) (.inl (by decide +kernel)) 100 [] true
  have := h3 ⟨fun p hp hne => by revert hne; revert p; exact all_prefixes (by decide +kernel), by decide +kernel⟩ (by decide +kernel)
  subst this
  exact ⟨s', h1, h2⟩

end Verif.Props
