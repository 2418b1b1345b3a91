import Verif.Gen.Tidy
import Verif.Props.Isolation
import Verif.Props.Walk
import Verif.Props.CopyTree
/-!
# C71: which names get into a file system; C70 for copying and moving
-/
namespace Verif.Props
open Verif.Spec Verif.Mem Verif.Mem.M Verif.Gen

/-! ## Vocabulary -/

/-- The names a call may create are fine (can be written in a URI, no white space at the ends).  What is not created
    does not matter: reading, removing, links' targets, ….  `open` and `lock` are not called for the root directory
    (C28_root_refuted: `open` would make an entry with an empty name), which is not copied or moved either
    (C48_root_refuted). -/
def Neat : Op → Prop
  | .mkdir u | .symlink _ u => FineUri u
  | .open_ u _ | .lockEnter u _ _ => FineUri u ∧ NotRoot u
  | .makedirs _ u => ∃ E cs, FineAll cs ∧ u = mem E cs
  | .copy _ u v _ _ _ | .move _ u v => ∃ E F s d, Ok s ∧ s ≠ [] ∧ FineAll s ∧ FineAll d ∧ u = mem E s ∧ v = mem F d
  | _ => True

theorem tidy_run {w : World} (hw : Mem.Inv w) (ht : Tidy w) {o : Op} (h : Neat o) : Tidy (o.run w) := by
  cases o with
  | exists_ u => exact tidy_query_conn u .exists_ (fun r w => exists_ w r u) w hw ht
  | isfile u => exact tidy_query_conn u .isfile (fun r w => isfile w r u) w hw ht
  | isdir u => exact tidy_query_conn u .isdir (fun r w => isdir w r u) w hw ht
  | islink u => exact tidy_query_conn u .islink (fun r w => islink w r u) w hw ht
  | readlink u => exact tidy_query_conn u .readlink (fun r w => readlink w r u) w hw ht
  | isexec u k => exact tidy_query_conn u .isexec (fun r w => isexec w r u k) w hw ht
  | setExec u m => exact TidyAll.withConn (m := .set_exec) (fun r => tidy_setExec r u m) w hw ht
  | symlink t u => exact TidyAll.withConn (u := t) (m := .symlink) (fun r => tidy_symlink t h) w hw ht
  | mtime u => exact tidy_query_conn u .mtime (fun r w => mtime w r u) w hw ht
  | listdir u => exact tidy_query_conn u .listdir (fun r w => listdir w r u) w hw ht
  | info u f => exact tidy_query_conn u .info (fun r w => info w r u f) w hw ht
  | setInfo u i f => exact TidyAll.withConn (u := u) (m := .info) (fun r => tidy_setInfo r u i f) w hw ht
  | copystat u v => exact TidyAll.withConn (u := u) (m := .copystat) (fun r => tidy_copystat r u v) w hw ht
  | open_ u o => exact tidy_uOpen h.1 h.2 o w hw ht
  | mkdir u => exact tidy_uMkdir h w hw ht
  | manipulate u a => exact TidyAll.withConn (u := u) (m := .manipulate) (fun r => tidy_manipulate r u a) w hw ht
  | makedirs n u => obtain ⟨E, cs, hc, rfl⟩ := h; exact tidy_uMakedirs n hc w hw ht
  | walk n u td f => exact tidy_uWalk n u td f w hw ht
  | glob u m => exact tidy_uGlob u m w hw ht
  | remove n u rec => exact tidy_uRemove n u rec w hw ht
  | copy n u v rec ig f =>
    obtain ⟨E, F, s, d, h1, h2, h3, h4, rfl, rfl⟩ := h
    exact (good_uCopy (P := fun _ => True) (fun _ _ => trivial) (fun _ _ => trivial) n rec ig f h1 h2 h3 h4).tidy w hw ht
  | move n u v =>
    obtain ⟨E, F, s, d, h1, h2, h3, h4, rfl, rfl⟩ := h
    exact (good_uMove (P := fun _ => True) (fun _ _ => trivial) (fun _ _ => trivial) n h1 h2 h3 h4).tidy w hw ht
  | md5 u => exact tidy_uMd5 u w hw ht
  | lockEnter u a b => exact tidy_uLockEnter h.1 h.2 a b w hw ht
  | lockExit n g => exact tidy_lockExit n g w hw ht
  | write g d => exact ht.of_entries (quiet_write g d w)
  | read g n => exact ht.of_entries (quiet_read g n w)
  | seek g t wh => exact ht.of_entries (quiet_seek g t wh w)
  | tell g => exact ht.of_entries (quiet_tell g w)
  | size g => exact ht.of_entries (quiet_size g w)
  | truncate g n => exact ht.of_entries (quiet_truncate g n w)
  | close g => exact ht.of_entries (quiet_close g w)
  | readline g => exact ht.of_entries (quiet_readline g w)
  | next g => exact ht.of_entries (quiet_next g w)
  | forget rs => exact ht.of_node rfl

theorem tidy_runAll {w : World} (hw : Mem.Inv w) (ht : Tidy w) {ops : List Op} (h : ∀ o ∈ ops, Neat o) :
    Tidy (runAll ops w) := by
  induction ops generalizing w with
  | nil => exact ht
  | cons o ops ih => exact ih (o.inv hw) (tidy_run hw ht (h o (by simp))) fun o' ho' => h o' (by simp [ho'])

theorem tidy_init (clock : Nat → Int) : Tidy (World.init clock) := by
  intro j n c hc
  simp [World.init, World.entries] at hc

theorem Tidy.phys {w : World} (h : Tidy w) {r : Nat} {q : List Str} {i : Nat} (hp : Spec.phys w r q = some i) :
    FineAll q := by
  induction q using List.reverseRecOn generalizing i with
  | nil => simp [FineAll]
  | append_singleton q n ih =>
    rw [phys_snoc, Option.bind_eq_some_iff] at hp
    obtain ⟨c, h1, h2⟩ := hp
    exact (ih h1).snoc (h c n i (lookup_mem h2))

/-! ## The theorems -/

/-- **C71**: after any history of calls that are to create fine names, all names in all file systems are fine. -/
theorem C71_names {clock : Nat → Int} {ops : List Op} (h : ∀ o ∈ ops, Neat o) (r : Nat) (q : List Str)
    (hq : view (runAll ops (World.init clock)) r q ≠ none) : ∀ n ∈ q, CleanName n ∧ Trimmed n := by
  unfold view at hq
  cases hp : phys (runAll ops (World.init clock)) r q with
  | none => simp [hp] at hq
  | some i => exact Tidy.phys (tidy_runAll (inv_init clock) (tidy_init clock) h) hp

/-- What is below a directory other than the root, whose name is not that of a hidden file in the root directory, can
    be named by URIs: the hypothesis of the properties of walking, removing and copying (C43–C51). -/
theorem C71_writable {clock : Nat → Int} {ops : List Op} (h : ∀ o ∈ ops, Neat o) (r : Nat) {q : List Str} (hq : Ok q)
    (hne : q ≠ []) : Writable (view (runAll ops (World.init clock)) r) q := by
  intro s hs
  exact hq.append hne fun c hc => (C71_names h r _ hs c (by simp [hc])).1

/-- the walk of C43 for such histories -/
theorem C71_walk {clock : Nat → Int} {ops : List Op} (h : ∀ o ∈ ops, Neat o) {E : Dict} {r : Nat}
    (hf : Fs (runAll ops (World.init clock)) E r) {q : List Str} (hok : Ok q) (hne : q ≠ [])
    (ha : Answers (view (runAll ops (World.init clock)) r) q) (hd : (view (runAll ops (World.init clock)) r).isDir q)
    {depth : Nat} (hdepth : (runAll ops (World.init clock)).next ≤ depth) :
    ∃ ps : List (List Str), uWalk depth (mem E q) true false (runAll ops (World.init clock)) =
        (.ok (ps.map (row E (runAll ops (World.init clock)) r)), runAll ops (World.init clock)) ∧
      (∀ p, p ∈ ps ↔ q <+: p ∧ (view (runAll ops (World.init clock)) r).isDir p) ∧ ps.Nodup ∧
      ps.Pairwise (fun a b => ¬ b <+: a) ∧ ps.Pairwise (Order true) := by
  have hR : Mem.Reachable (runAll ops (World.init clock)) := ⟨clock, ops, rfl⟩
  exact C43_walk hR hf (C71_writable h r hok hne) ha hd fun t ht =>
    Nat.lt_of_lt_of_le (C43_depth hR hf.isRoot q t ht) hdepth

/-- the conditions of C48 about names for such histories -/
theorem C71_copyable {clock : Nat → Int} {ops : List Op} (h : ∀ o ∈ ops, Neat o) (r : Nat) {s d : List Str}
    (hs : Ok s) (s_ne : s ≠ []) (hd : Ok d) (d_ne : d ≠ []) (s_d : ¬ s <+: d) (d_s : ¬ d <+: s)
    (hl : ∀ t, ¬ (view (runAll ops (World.init clock)) r).isLink (s ++ t)) (fl : Bool) :
    Copyable (view (runAll ops (World.init clock)) r) s d fl where
  writable := C71_writable h r hs s_ne
  quiet := fun t ht => absurd ht (hl t)
  noLinks := fun _ => hl
  trim := fun t n ⟨m, x, ht⟩ => (C71_names h r (s ++ t ++ [n]) (by rw [ht]; simp) n (by simp)).2
  ok := hd
  s_ne := s_ne
  d_ne := d_ne
  s_d := s_d
  d_s := d_s

/-- **C70** for `copy`: after such a history, copying inside one file system or from one to another leaves every third
    one alone. -/
theorem C70_copy {clock : Nat → Int} {ops : List Op} (h : ∀ o ∈ ops, Neat o) {w : World}
    (hw : w = runAll ops (World.init clock)) {k : ConnKey} {t : Nat} (hk : (k, t) ∈ w.conns) {E F : Dict} {s d : List Str}
    (hs : Ok s) (hne : s ≠ []) (hfs : FineAll s) (hd : FineAll d) (hE : k.same (connKey (mem E s)) = false)
    (hF : k.same (connKey (mem F d)) = false) (n : Nat) (rec : Bool) (ig : List Str) (f : Bool) {w' : World}
    (hw' : w' = (uCopy n (mem E s) (mem F d) rec ig f w).2) :
    (∀ q, phys w' t q = phys w t q) ∧ (∀ q i, phys w t q = some i → w'.node i = w.node i) ∧ view w' t = view w t := by
  have hI : Mem.Inv w := hw ▸ inv_runAll (inv_init clock) ops
  have hT : Tidy w := hw ▸ tidy_runAll (inv_init clock) (tidy_init clock) h
  have key : Same t w w' := by
    rw [hw']
    refine (good_uCopy (P := fun v => (∃ cs, v = mem E cs) ∨ ∃ cs, v = mem F cs) (fun cs _ => .inl ⟨cs, rfl⟩)
      (fun cs _ => .inr ⟨cs, rfl⟩) n rec ig f hs hne hfs hd w hI hT).2 t ⟨k, hk⟩ ?_
    rintro v (⟨cs, rfl⟩ | ⟨cs, rfl⟩)
    · rw [mem_key E cs s]; exact connOf_key hI hk hE
    · rw [mem_key F cs d]; exact connOf_key hI hk hF
  exact ⟨key.phys, fun q i hq => key i ⟨q, hq⟩, key.view⟩

/-- **C70** for `move`. -/
theorem C70_move {clock : Nat → Int} {ops : List Op} (h : ∀ o ∈ ops, Neat o) {w : World}
    (hw : w = runAll ops (World.init clock)) {k : ConnKey} {t : Nat} (hk : (k, t) ∈ w.conns) {E F : Dict} {s d : List Str}
    (hs : Ok s) (hne : s ≠ []) (hfs : FineAll s) (hd : FineAll d) (hE : k.same (connKey (mem E s)) = false)
    (hF : k.same (connKey (mem F d)) = false) (n : Nat) {w' : World}
    (hw' : w' = (uMove n (mem E s) (mem F d) w).2) :
    (∀ q, phys w' t q = phys w t q) ∧ (∀ q i, phys w t q = some i → w'.node i = w.node i) ∧ view w' t = view w t := by
  have hI : Mem.Inv w := hw ▸ inv_runAll (inv_init clock) ops
  have hT : Tidy w := hw ▸ tidy_runAll (inv_init clock) (tidy_init clock) h
  have key : Same t w w' := by
    rw [hw']
    refine (good_uMove (P := fun v => (∃ cs, v = mem E cs) ∨ ∃ cs, v = mem F cs) (fun cs _ => .inl ⟨cs, rfl⟩)
      (fun cs _ => .inr ⟨cs, rfl⟩) n hs hne hfs hd w hI hT).2 t ⟨k, hk⟩ ?_
    rintro v (⟨cs, rfl⟩ | ⟨cs, rfl⟩)
    · rw [mem_key E cs s]; exact connOf_key hI hk hE
    · rw [mem_key F cs d]; exact connOf_key hI hk hF
  exact ⟨key.phys, fun q i hq => key i ⟨q, hq⟩, key.view⟩

/-- A name that is not fine: a hidden file in the root directory made through a link to the root directory, after which
    the root directory cannot be walked. -/
theorem C71_hidden_refuted : ∃ ops, (∀ o ∈ ops, Neat o) ∧
    (uWalk 100 (mem [] []) true false (runAll ops (World.init fun n => n))).1 = .error .assertionError :=
  ⟨[.mkdir (mem [] [cl!"a"]), .symlink (mem [] []) (mem [] [cl!"l"]), .mkdir (mem [] [cl!"l", cl!".x"])], by
    intro o ho
    simp at ho
    rcases ho with rfl | rfl | rfl <;> exact fineUri_mem (by decide +kernel), by decide +kernel⟩

/-! ## Examples -/

/-- a history: two file systems, a copy from one to the other -/
def neatOps : List Op :=
  [.makedirs 9 (mem [] [cl!"a", cl!"b"]), .open_ (mem [] [cl!"a", cl!"f"]) (some cl!"w"),
   .mkdir (mem [(cl!"x", cl!"y")] [cl!"d"]), .mkdir (mem [(cl!"x", cl!"z")] [cl!"e"]),
   .copy 9 (mem [] [cl!"a"]) (mem [(cl!"x", cl!"y")] [cl!"d", cl!"c"]) true [] true]

theorem neatOps_neat : ∀ o ∈ neatOps, Neat o := by
  intro o ho
  simp only [neatOps, List.mem_cons, List.not_mem_nil, or_false] at ho
  rcases ho with rfl | rfl | rfl | rfl | rfl
  · exact ⟨_, _, by decide +kernel, rfl⟩
  · exact ⟨fineUri_mem (by decide +kernel), notRoot_mem (by decide +kernel) (by simp)⟩
  · exact fineUri_mem (by decide +kernel)
  · exact fineUri_mem (by decide +kernel)
  · exact ⟨_, _, _, _, ⟨by decide +kernel, by simp⟩, by simp, by decide +kernel, by decide +kernel, rfl, rfl⟩

/-- the copy has been made; the third file system is there -/
example : view (runAll neatOps (World.init fun n => n)) 4 [cl!"d", cl!"c", cl!"f"] ≠ none ∧
    (runAll neatOps (World.init fun n => n)).connOf (connKey (mem [(cl!"x", cl!"z")] [])) = some 6 ∧
    view (runAll neatOps (World.init fun n => n)) 6 [cl!"e"] ≠ none := by decide +kernel
example : (connKey (mem [(cl!"x", cl!"z")] [])).same (connKey (mem [] [cl!"a"])) = false ∧
    (connKey (mem [(cl!"x", cl!"z")] [])).same (connKey (mem [(cl!"x", cl!"y")] [cl!"d"])) = false := by decide +kernel
example : FineAll [cl!"a b", cl!".x"] ∧ ¬ FineAll [cl!" a"] ∧ ¬ FineAll [cl!"a?b"] := by decide +kernel

end Verif.Props
