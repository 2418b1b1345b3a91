import Verif.Gen.Frame
import Verif.Gen.MemUri
import Verif.Spec.Sample
/-!
# C70: memory file systems do not disturb each other
-/
namespace Verif.Props
open Verif.Spec Verif.Mem Verif.Mem.M

/-! ## Vocabulary -/

/-- The URIs in whose file system a call works.  A link is made in the file system of its target (fs.py:712-724),
    `copystat` is a method of the source (fs.py:540-553), `makedirs` also works on the parents.  `copy` and `move`
    work on URIs built from names found in directories and are left out: see `local_`. -/
def worksOn : Op → Uri → Prop
  | .exists_ u, v | .isfile u, v | .isdir u, v | .islink u, v | .readlink u, v | .isexec u _, v | .setExec u _, v
  | .symlink u _, v | .mtime u, v | .listdir u, v | .info u _, v | .setInfo u _ _, v | .copystat u _, v | .open_ u _, v
  | .mkdir u, v | .manipulate u _, v | .walk _ u _ _, v | .glob u _, v | .remove _ u _, v | .md5 u, v
  | .lockEnter u _ _, v => v = u
  | .makedirs _ u, v => Gen.Ancestor u v
  | .lockExit _ g, v => v = g.path
  | _, _ => False

/-- the object behind the handle a call is made on -/
def handleOf : Op → Option Nat
  | .write h _ | .read h _ | .seek h _ _ | .tell h | .size h | .truncate h _ | .close h | .readline h | .next h => some h.id
  | _ => none

/-- neither `copy`, `move` nor a clean-up of the registry -/
def local_ : Op → Bool
  | .copy .. | .move .. | .forget _ => false
  | _ => true

/-- The call stays out of the file system registered under the key `k`, whose root directory is `s`: its URIs have
    other keys, its handle belongs to an object that is not in there. -/
structure Elsewhere (w : World) (k : ConnKey) (s : Nat) (o : Op) : Prop where
  loc : local_ o = true
  uris : ∀ v, worksOn o v → k.same (connKey v) = false
  handle : ∀ i, handleOf o = some i → ∀ q, phys w s q ≠ some i

/-! ## The theorems -/

theorem key_unique {l : List (ConnKey × Nat)} (h : (l.map Prod.snd).Nodup) {a b : ConnKey} {s : Nat} (ha : (a, s) ∈ l)
    (hb : (b, s) ∈ l) : a = b := by
  induction l with
  | nil => simp at ha
  | cons x l ih =>
    rw [List.map_cons, List.nodup_cons] at h
    have hm : ∀ {c}, (c, s) ∈ l → x.2 ≠ s := fun hc e => h.1 (e ▸ List.mem_map_of_mem (f := Prod.snd) hc)
    rcases List.mem_cons.1 ha with h1 | h1
    · rcases List.mem_cons.1 hb with h2 | h2
      · simpa using h1.trans h2.symm
      · exact absurd (by rw [← h1]) (hm h2)
    · rcases List.mem_cons.1 hb with h2 | h2
      · exact absurd (by rw [← h2]) (hm h1)
      · exact ih h.2 h1 h2

theorem connOf_key {w : World} (hw : Mem.Inv w) {k : ConnKey} {s : Nat} (hk : (k, s) ∈ w.conns) {k' : ConnKey}
    (h : k.same k' = false) : w.connOf k' ≠ some s := by
  intro hc
  unfold World.connOf at hc
  rw [Option.map_eq_some_iff] at hc
  obtain ⟨⟨k2, s'⟩, h1, h2⟩ := hc
  simp at h2
  subst h2
  have h3 := List.mem_of_find?_eq_some h1
  have h4 := List.find?_some h1
  rw [key_unique hw.roots h3 hk] at h4
  simp [h] at h4

theorem same_of_elsewhere {w : World} (hw : Mem.Inv w) {k : ConnKey} {s : Nat} (hk : (k, s) ∈ w.conns) {o : Op}
    (h : Elsewhere w k s o) : Same s w (o.run w) := by
  have hs : IsRoot w s := ⟨k, hk⟩
  have hav : ∀ v, worksOn o v → w.connOf (connKey v) ≠ some s := fun v hv => connOf_key hw hk (h.uris v hv)
  have hh : ∀ i, handleOf o = some i → ¬ Within w s i := fun i hi ⟨q, hq⟩ => h.handle i hi q hq
  have key : ∀ {α : Type} {m : M α}, Spares s (worksOn o) m → Same s w (m w).2 := fun hm => hm w hw hs hav
  have hl := h.loc
  cases o with
  | exists_ u => exact key (spares_query_conn _ _ _)
  | isfile u => exact key (spares_query_conn _ _ _)
  | isdir u => exact key (spares_query_conn _ _ _)
  | islink u => exact key (spares_query_conn _ _ _)
  | readlink u => exact key (spares_query_conn _ _ _)
  | isexec u k => exact key (spares_query_conn u .isexec fun r w => isexec w r u k)
  | setExec u m => exact key (.withConn rfl fun _ hn => sparesAt_setExec hn u m)
  | symlink t u => exact key (.withConn (u := t) rfl fun _ hn => sparesAt_symlink hn t u)
  | mtime u => exact key (spares_query_conn _ _ _)
  | listdir u => exact key (spares_query_conn _ _ _)
  | info u f => exact key (spares_query_conn u .info fun r w => info w r u f)
  | setInfo u i f => exact key (.withConn rfl fun _ hn => sparesAt_setInfo hn u i f)
  | copystat u v => exact key (.withConn (u := u) rfl fun _ hn => sparesAt_copystat hn u v)
  | open_ u o => exact key (.withConn rfl fun _ hn => sparesAt_open hn u o)
  | mkdir u => exact key (.withConn rfl fun _ hn => sparesAt_mkdir hn u)
  | manipulate u a => exact key (.withConn rfl fun _ hn => sparesAt_manipulate hn u a)
  | makedirs n u => exact key (Gen.spares_uMakedirs n u fun _ hv => hv)
  | walk n u td f => exact key (Gen.spares_uWalk (u := u) (P := (· = u)) rfl n td f)
  | glob u m => exact key (Gen.spares_uGlob u m)
  | remove n u rec => exact key (Gen.spares_uRemove (u := u) (P := (· = u)) rfl n rec)
  | copy n u v rec ig f => simp [local_] at hl
  | move n u v => simp [local_] at hl
  | md5 u => exact key (Gen.spares_uMd5 (u := u) (P := (· = u)) rfl)
  | lockEnter u a b => exact key (Gen.spares_uLockEnter (u := u) (P := (· = u)) rfl a b)
  | lockExit n g => exact key (Gen.spares_lockExit n g fun _ => rfl)
  | write g d => exact (only_write g d).same (hh _ rfl)
  | read g n => exact (only_read g n).same (hh _ rfl)
  | seek g t wh => exact (only_seek g t wh).same (hh _ rfl)
  | tell g => exact (only_tell g).same (hh _ rfl)
  | size g => exact (only_size g).same (hh _ rfl)
  | truncate g n => exact (only_truncate g n).same (hh _ rfl)
  | close g => exact (only_close g).same (hh _ rfl)
  | readline g => exact (only_readline g).same (hh _ rfl)
  | next g => exact (only_next g).same (hh _ rfl)
  | forget rs => simp [local_] at hl

/-- **C70**: a call that works elsewhere leaves the file system alone: everything is at the place where it was, and
    no object in it is changed in any way (contents, position, times, mode, entries). -/
theorem C70_isolated {w : World} (hw : Mem.Reachable w) {k : ConnKey} {s : Nat} (hk : (k, s) ∈ w.conns) {o : Op}
    (h : Elsewhere w k s o) :
    (∀ q, phys (o.run w) s q = phys w s q) ∧ (∀ q i, phys w s q = some i → (o.run w).node i = w.node i) ∧
      view (o.run w) s = view w s := by
  have := same_of_elsewhere hw.inv hk h
  exact ⟨this.phys, fun q i hq => this i ⟨q, hq⟩, this.view⟩

/-- a history of calls each of which works elsewhere when it is made -/
def Elsewheres (k : ConnKey) (s : Nat) : World → List Op → Prop
  | _, [] => True
  | w, o :: ops => Elsewhere w k s o ∧ Elsewheres k s (o.run w) ops

theorem same_history {w : World} (hw : Mem.Inv w) {k : ConnKey} {s : Nat} (hk : (k, s) ∈ w.conns) {ops : List Op}
    (h : Elsewheres k s w ops) : Same s w (runAll ops w) ∧ (k, s) ∈ (runAll ops w).conns := by
  induction ops generalizing w with
  | nil => exact ⟨.rfl' s w, hk⟩
  | cons o ops ih =>
    obtain ⟨h1, h2⟩ := h
    have hf : o.isForget = false := by
      have := h1.loc
      cases o <;> first | rfl | simp [local_] at this
    obtain ⟨h3, h4⟩ := o.ext hw hf
    obtain ⟨t, ht⟩ := h4.conns
    have h5 := ih (w := o.run w) h3 (by rw [← ht]; simp [hk]) h2
    exact ⟨(same_of_elsewhere hw hk h1).trans h5.1, h5.2⟩

/-- **C70**: the same for whole histories. -/
theorem C70_isolated_history {w : World} (hw : Mem.Reachable w) {k : ConnKey} {s : Nat} (hk : (k, s) ∈ w.conns)
    {ops : List Op} (h : Elsewheres k s w ops) :
    (∀ q, phys (runAll ops w) s q = phys w s q) ∧
      (∀ q i, phys w s q = some i → (runAll ops w).node i = w.node i) ∧ view (runAll ops w) s = view w s := by
  have := (same_history hw.inv hk h).1
  exact ⟨this.phys, fun q i hq => this i ⟨q, hq⟩, this.view⟩

/-- **C70**: handles opened through URIs with another key belong to objects outside the file system, … -/
theorem C70_handle_elsewhere {w w' : World} (hw : Mem.Reachable w) {k : ConnKey} {s : Nat} (hk : (k, s) ∈ w.conns)
    {u : Uri} (hu : k.same (connKey u) = false) {o : Option Str} {h : Handle} (ho : uOpen u o w = (.ok h, w')) :
    (∀ q, phys w' s q ≠ some h.id) ∧ h.id < w'.next := by
  obtain ⟨h1, h2⟩ := uOpen_not_within hw.inv ⟨k, hk⟩ (connOf_key hw.inv hk hu) ho
  exact ⟨fun q hq => h1 ⟨q, hq⟩, h2⟩

/-- … and stay outside whatever happens. -/
theorem C70_handle_stays_elsewhere {w : World} (hw : Mem.Reachable w) {s i : Nat} (hi : i < w.next)
    (h : ∀ q, phys w s q ≠ some i) (ops : List Op) (q : List Str) : phys (runAll ops w) s q ≠ some i :=
  fun hq => h q ((stays_runAll hw.inv ops).phys hw.inv hq hi)

/-- **C70**: no object belongs to two file systems. -/
theorem C70_disjoint {w : World} (hw : Mem.Reachable w) {r s : Nat} (hr : IsRoot w r) (hs : IsRoot w s) (hn : r ≠ s)
    {q q' : List Str} {i : Nat} (h : phys w r q = some i) : phys w s q' ≠ some i :=
  fun h' => hn (phys_inj hw.inv hr hs h h').1

/-- The parents of a URI `memory:///c1/c2/…` have its key, so `makedirs` is local too. -/
theorem C70_parents {E : Dict} {cs : List Str} (h : ∀ c ∈ cs, CleanName c) {v : Uri} (hv : Gen.Ancestor (Gen.mem E cs) v) :
    connKey v = connKey (Gen.mem E cs) := by
  have : ∃ ds, (∀ c ∈ ds, CleanName c) ∧ v = Gen.mem E ds := by
    induction hv with
    | refl => exact ⟨cs, h, rfl⟩
    | split _ hs ih =>
      obtain ⟨ds, hd, rfl⟩ := ih
      rcases List.eq_nil_or_concat ds with rfl | ⟨init, n, rfl⟩
      · rw [Gen.mem_split_root] at hs
        simp at hs
        exact ⟨[], by simp, hs.1.symm⟩
      · rw [List.concat_eq_append] at hs hd
        rw [Gen.mem_split (fun c hc => hd c (by simp [hc])) (hd n (by simp))] at hs
        simp at hs
        exact ⟨init, fun c hc => hd c (by simp [hc]), hs.1.symm⟩
  obtain ⟨ds, -, rfl⟩ := this
  exact Gen.mem_key E ds cs

/-! ## Examples -/

/-- a second file system beside the sample: `memory:///d?x=y` -/
def beside : World := runAll [.mkdir (uri! cl!"memory:///d?x=y"), .open_ (uri! cl!"memory:///d/f?x=y") (some cl!"w")] sample

example : (connKey (mu cl!"/")).same (connKey (uri! cl!"memory:///d?x=y")) = false := by decide +kernel
example : beside.connOf (connKey (mu cl!"/")) = some 0 ∧ beside.connOf (connKey (uri! cl!"memory:///?x=y")) = some 8 ∧
    view beside 8 [cl!"d", cl!"f"] ≠ none ∧ view beside 0 [cl!"d"] = none := by decide +kernel

example : Elsewhere beside (connKey (uri! cl!"memory:///?x=y")) 8 (.remove 5 (mu cl!"/a") true) := by
  refine ⟨rfl, ?_, by simp [handleOf]⟩
  rintro v rfl
  decide +kernel

/-- the removal does something -/
example : view (Op.run (.remove 5 (mu cl!"/a") true) beside) 0 [cl!"a"] = none ∧
    view beside 0 [cl!"a"] ≠ none := by decide +kernel

end Verif.Props
