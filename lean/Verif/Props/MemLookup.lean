import Verif.Spec.Sample
/-!
# Properties of the memory file system: shape, lookup and queries (C21-C24, C30, C33, C34)
-/
namespace Verif.Props
open Mem Spec

/-! ## C21 The namespace is a forest -/

/-- every directory object has distinct names, whatever the history -/
theorem C21_names_distinct {w : World} (h : Reachable w) {i : Nat} {d : DirObj} (hd : w.node i = .dir d) :
    d.keys.Nodup := keys_nodup h.inv hd

/-- an object is at one location of one file system at most -/
theorem C21_one_location {w : World} (h : Reachable w) {r r' c : Nat} {q q' : List Str} (hr : IsRoot w r)
    (hr' : IsRoot w r') (h1 : phys w r q = some c) (h2 : phys w r' q' = some c) : r = r' ∧ q = q' :=
  phys_inj h.inv hr hr' h1 h2

/-- no directory is (directly or not) inside itself -/
theorem C21_no_cycle {w : World} (h : Reachable w) {i : Nat} {q : List Str} (hq : q ≠ []) : phys w i q ≠ some i := by
  intro h1
  have := ((phys_ge h.inv h1).2 hq).1
  omega

/-- the root of every file system is a directory, and distinct connections have distinct roots -/
theorem C21_roots {w : World} (h : Reachable w) {k : ConnKey} {r : Nat} (hr : (k, r) ∈ w.conns) :
    (view w r).isDir [] ∧ (w.conns.map Prod.snd).Nodup :=
  ⟨isDir_root h.inv ⟨k, hr⟩, h.inv.roots⟩

example : phys sample 0 [cl!"a", cl!"f"] = some 3 ∧ phys sample 0 [cl!"l"] = some 4 ∧ IsRoot sample 0 := by
  refine ⟨by decide +kernel, by decide +kernel, connOf_mem (k := connKey (mu cl!"/")) (by decide +kernel)⟩

/-! ## C22 Path lookup -/

/-- If the path denotes a location, `info()` describes the object there. -/
theorem C22_found {w : World} (h : Reachable w) {u : Uri} {r : Nat} {ts q : List Str} (hu : Serves w u r)
    (hs : stepsOf u = some ts) (hg : Goes (view w r) maxDepth [] ts (.found q)) :
    ∃ i, phys w r q = some i ∧ nodeForPath w r true true u = .ok (some i) ∧
      uInfo u true w = (.ok (w.node i).info, w) := by
  obtain ⟨i, hi, -, -⟩ := Goes.phys h.inv hu.isRoot hg
  have h2 := nodeForPath_goes h.inv hu.isRoot hs hg (throw := true)
  refine ⟨i, hi, ?_, ?_⟩
  · rw [h2]; simp [outResult, hi]
  · unfold uInfo
    rw [withConn_serves hu hs]
    simp [info, h2, outResult, hi]

/-- Conversely a lookup that returns an object returns the one the path denotes. -/
theorem C22_only {w : World} (h : Reachable w) {u : Uri} {r i : Nat} (hr : IsRoot w r)
    (hl : nodeForPath w r true true u = .ok (some i)) :
    ∃ ts q, stepsOf u = some ts ∧ Goes (view w r) maxDepth [] ts (.found q) ∧ phys w r q = some i := by
  cases hs : stepsOf u with
  | none => rw [nodeForPath_bad hs] at hl; simp at hl
  | some ts =>
    obtain ⟨q, h1, h2⟩ := nodeForPath_some h.inv hr hs hl
    exact ⟨ts, q, rfl, h1, h2⟩

/-- Links nested more than 32 deep, in particular cycles, raise ELOOP: never a wrong object. -/
theorem C22_loop {w : World} (h : Reachable w) {u : Uri} {r : Nat} {ts : List Str} (hu : Serves w u r)
    (hs : stepsOf u = some ts) (hg : ¬ ∃ out, Goes (view w r) maxDepth [] ts out) :
    uInfo u true w = (.error (.os .ELOOP), w) := by
  unfold uInfo
  rw [withConn_serves hu hs]
  simp [info, nodeForPath_loop h.inv hu.isRoot hs hg]

/-- The denotation does not depend on the nesting allowed: lookup agrees with unbounded link resolution
    whenever it does not raise ELOOP. -/
theorem C22_unbounded {w : World} (h : Reachable w) {u : Uri} {r : Nat} {ts : List Str} (hu : Serves w u r)
    (hs : stepsOf u = some ts) {d : Nat} {out : Out} (hg : Goes (view w r) d [] ts out) :
    (∃ q i, out = .found q ∧ phys w r q = some i ∧ uInfo u true w = (.ok (w.node i).info, w)) ∨
    ((∀ q, out ≠ .found q) ∧ uInfo u true w = (.error (lookupError out), w)) ∨
    (32 < d ∧ uInfo u true w = (.error (.os .ELOOP), w)) := by
  by_cases hg' : ∃ out, Goes (view w r) maxDepth [] ts out
  · obtain ⟨out', ho⟩ := hg'
    have := hg.det' ho
    subst this
    cases out with
    | found q =>
      obtain ⟨i, h1, -, h3⟩ := C22_found h hu hs ho
      exact .inl ⟨q, i, rfl, h1, h3⟩
    | _ =>
      refine .inr (.inl ⟨by simp, ?_⟩)
      unfold uInfo
      rw [withConn_serves hu hs]
      simp [info, nodeForPath_goes h.inv hu.isRoot hs ho, outResult, lookupError]
  · refine .inr (.inr ⟨?_, C22_loop h hu hs hg'⟩)
    by_contra hd
    exact hg' ⟨out, hg.mono (by unfold maxDepth; omega)⟩

/-- a path denotes at most one thing -/
theorem C22_functional {ns : NS} {d d' : Nat} {q ts : List Str} {out out' : Out} (h : Goes ns d q ts out)
    (h' : Goes ns d' q ts out') : out = out' := h.det' h'

/-- what a path without links on the way denotes: the location it spells -/
theorem C22_plain {ns : NS} {cs : List Str} (h : Plain ns cs) {o : Obj} (ho : ns cs = some o) (hl : o.isLink = false) :
    Goes ns maxDepth [] cs (.found cs) := Plain.goes h ho hl

example : Goes (view sample 0) maxDepth [] [cl!"l", cl!"f"] (.found [cl!"a", cl!"f"]) ∧
    (uInfo (mu cl!"/l/f") true sample).1 = .ok ⟨4, 0, 2⟩ ∧
    (uInfo (mu cl!"/loop") true sample).1 = .error (.os .ELOOP) := by decide +kernel

/-! ## C23 exists, isfile, isdir -/

/-- the three queries leave the state alone, return together, and agree -/
theorem C23_agree {w : World} (h : Reachable w) {u : Uri} {r : Nat} (hu : Serves w u r) :
    (∃ e, uExists u w = (.error e, w) ∧ uIsfile u w = (.error e, w) ∧ uIsdir u w = (.error e, w)) ∨
    ∃ f d, uIsfile u w = (.ok f, w) ∧ uIsdir u w = (.ok d, w) ∧ uExists u w = (.ok (f || d), w) ∧
      (f && d) = false := by
  unfold uExists uIsfile uIsdir
  cases hs : stepsOf u with
  | none => left; rw [withConn_bad hu hs, withConn_bad hu hs, withConn_bad hu hs]; exact ⟨_, rfl, rfl, rfl⟩
  | some ts =>
    rw [withConn_serves hu hs, withConn_serves hu hs, withConn_serves hu hs]
    simp only [query_apply]
    by_cases hg : ∃ out, Goes (view w r) maxDepth [] ts out
    · obtain ⟨out, ho⟩ := hg
      rw [isdir_goes h.inv hu.isRoot hs ho, isfile_goes h.inv hu.isRoot hs ho, exists_goes h.inv hu.isRoot hs ho]
      cases out with
      | found q =>
        obtain ⟨o, h1, h2⟩ := Goes.notLink (isDir_root h.inv hu.isRoot) ho q rfl
          (NS.isDir.notLink (isDir_root h.inv hu.isRoot))
        simp only [answer, h1, Option.any_some]
        right
        refine ⟨_, _, rfl, rfl, ?_, ?_⟩
        · cases o <;> simp [Obj.isFile, Obj.isDir, Obj.isLink] at h2 ⊢
        · cases o <;> rfl
      | missing => right; exact ⟨false, false, rfl, rfl, rfl, rfl⟩
      | dangling => left; exact ⟨_, rfl, rfl, rfl⟩
      | notDir => left; exact ⟨_, rfl, rfl, rfl⟩
      | badLink => left; exact ⟨_, rfl, rfl, rfl⟩
    · rw [isdir_loop h.inv hu.isRoot hs hg, isfile_loop h.inv hu.isRoot hs hg, exists_loop h.inv hu.isRoot hs hg]
      right; exact ⟨false, false, rfl, rfl, rfl, rfl⟩

/-- what the answers are: they describe the object the path denotes -/
theorem C23_meaning {w : World} (h : Reachable w) {u : Uri} {r : Nat} {ts q : List Str} (hu : Serves w u r)
    (hs : stepsOf u = some ts) (hg : Goes (view w r) maxDepth [] ts (.found q)) :
    uExists u w = (.ok true, w) ∧ (uIsfile u w).1 = .ok (decide ((view w r q).any Obj.isFile)) ∧
      (uIsdir u w).1 = .ok (decide ((view w r q).any Obj.isDir)) := by
  unfold uExists uIsfile uIsdir
  rw [withConn_serves hu hs, withConn_serves hu hs, withConn_serves hu hs]
  simp only [query_apply]
  rw [isdir_goes h.inv hu.isRoot hs hg, isfile_goes h.inv hu.isRoot hs hg, exists_goes h.inv hu.isRoot hs hg]
  obtain ⟨i, -, hv, -⟩ := Goes.phys h.inv hu.isRoot hg
  simp [answer, hv]

/-- nothing there: all three say no -/
theorem C23_missing {w : World} (h : Reachable w) {u : Uri} {r : Nat} {ts : List Str} (hu : Serves w u r)
    (hs : stepsOf u = some ts) (hg : Goes (view w r) maxDepth [] ts .missing) :
    uExists u w = (.ok false, w) ∧ uIsfile u w = (.ok false, w) ∧ uIsdir u w = (.ok false, w) := by
  unfold uExists uIsfile uIsdir
  rw [withConn_serves hu hs, withConn_serves hu hs, withConn_serves hu hs]
  simp only [query_apply]
  rw [isdir_goes h.inv hu.isRoot hs hg, isfile_goes h.inv hu.isRoot hs hg, exists_goes h.inv hu.isRoot hs hg]
  exact ⟨rfl, rfl, rfl⟩

/-- the root exists and is a directory -/
theorem C23_root {w : World} (h : Reachable w) {u : Uri} {r : Nat} (hu : Serves w u r) (hs : stepsOf u = some []) :
    uExists u w = (.ok true, w) ∧ uIsdir u w = (.ok true, w) ∧ uIsfile u w = (.ok false, w) := by
  obtain ⟨m, t, hd⟩ := isDir_root h.inv hu.isRoot
  unfold uExists uIsfile uIsdir
  rw [withConn_serves hu hs, withConn_serves hu hs, withConn_serves hu hs]
  simp only [query_apply]
  rw [isdir_goes h.inv hu.isRoot hs .done, isfile_goes h.inv hu.isRoot hs .done, exists_goes h.inv hu.isRoot hs .done]
  simp [answer, hd, Obj.isDir, Obj.isFile]

/-- Without links on the way: `isfile`, `isdir` say what is at the location spelled. -/
theorem C23_plain {w : World} (h : Reachable w) {u : Uri} {r : Nat} {cs : List Str} (hu : Serves w u r)
    (hs : stepsOf u = some cs) (hp : Plain (view w r) cs) {o : Obj} (ho : view w r cs = some o) (hl : o.isLink = false) :
    uExists u w = (.ok true, w) ∧ (uIsfile u w).1 = .ok o.isFile ∧ (uIsdir u w).1 = .ok o.isDir := by
  have := C23_meaning h hu hs (Plain.goes hp ho hl)
  simpa [ho] using this

/-- Finding: below a file (or below a link that leads nowhere) the queries do not answer False, they raise
    AttributeError. -/
theorem C23_below_file {w : World} (h : Reachable w) {u : Uri} {r : Nat} {ts : List Str} (hu : Serves w u r)
    (hs : stepsOf u = some ts) (hg : Goes (view w r) maxDepth [] ts .notDir ∨ Goes (view w r) maxDepth [] ts .dangling) :
    uExists u w = (.error .attributeError, w) ∧ uIsfile u w = (.error .attributeError, w) ∧
      uIsdir u w = (.error .attributeError, w) := by
  unfold uExists uIsfile uIsdir
  rw [withConn_serves hu hs, withConn_serves hu hs, withConn_serves hu hs]
  simp only [query_apply]
  rcases hg with hg | hg <;>
  · rw [isdir_goes h.inv hu.isRoot hs hg, isfile_goes h.inv hu.isRoot hs hg, exists_goes h.inv hu.isRoot hs hg]
    exact ⟨rfl, rfl, rfl⟩

example : (uIsfile (mu cl!"/a/f") sample).1 = .ok true ∧ (uIsdir (mu cl!"/a/f") sample).1 = .ok false ∧
    (uExists (mu cl!"/a/f") sample).1 = .ok true ∧ (uExists (mu cl!"/a/nope") sample).1 = .ok false ∧
    (uExists (mu cl!"/a/f/x") sample).1 = .error .attributeError := by decide +kernel
example : Goes (view sample 0) maxDepth [] [cl!"a", cl!"f", cl!"x"] .notDir ∧
    Goes (view sample 0) maxDepth [] [cl!"gone", cl!"x"] .dangling := by decide +kernel

/-! ## C24 Failed operations change nothing -/

/-- every object that existed is unchanged (file position included), and nothing was added to the file systems -/
structure Untouched (w w' : World) : Prop where
  node : ∀ i, i < w.next → w'.node i = w.node i
  views : ∀ r, IsRoot w r → view w' r = view w r

theorem untouched_refl (w : World) : Untouched w w := ⟨fun _ _ => rfl, fun _ _ => rfl⟩

theorem untouched_connect {w : World} (hw : Mem.Inv w) (k : ConnKey) : Untouched w (w.connect k) := by
  have hn : ∀ i, i < w.next → (w.connect k).node i = w.node i := by
    intro i hi
    simp [World.connect, World.alloc, Nat.ne_of_lt hi]
  have he : ∀ i, (w.connect k).entries i = w.entries i := by
    intro i
    by_cases hi : i = w.next
    · subst hi
      rw [entries_dir (hw.fresh _ (Nat.le_refl _))]
      simp [World.entries, World.connect, World.alloc]
    · simp [World.entries, World.connect, World.alloc, hi]
  refine ⟨hn, ?_⟩
  intro r hr
  funext q
  unfold view
  rw [phys_congr he]
  cases hq : phys w r q with
  | none => rfl
  | some i => simp only [Option.map_some, hn i (phys_lt hw hr hq)]

theorem Untouched.trans {a b c : World} (h : Untouched a b) (h' : Untouched b c) (he : Ext a b) : Untouched a c :=
  ⟨fun i hi => (h'.node i (Nat.lt_of_lt_of_le hi he.stays.next)).trans (h.node i hi),
   fun r hr => (h'.views r (he.isRoot hr)).trans (h.views r hr)⟩

theorem untouched_getConnection {w : World} (hw : Mem.Inv w) (u : Uri) : Untouched w (getConnection u w).2 := by
  unfold getConnection
  split
  · exact untouched_refl w
  split
  · split
    · exact untouched_refl w
    · by_cases ht : truthy (connKey u).key.hostname = true
      · rw [createConn_host ht]; exact untouched_refl w
      · rw [createConn_eq ht]; exact untouched_connect hw _
  split <;> exact untouched_refl w

/-- a failing body that leaves the state alone makes a failing API call that leaves everything alone -/
theorem untouched_withConn {α : Type} {w w' : World} (hw : Mem.Inv w) {u : Uri} {m : Meth} {body : Nat → M α} {e : PyErr}
    (hb : ∀ w1 r w2, Mem.Inv w1 → IsRoot w1 r → body r w1 = (.error e, w2) → w2 = w1)
    (h : withConn u m body w = (.error e, w')) : Untouched w w' := by
  have h1 := untouched_getConnection hw u
  obtain ⟨h2, -, h3⟩ := getConnection_pres u w hw
  unfold withConn at h
  rw [bind_apply] at h
  cases hg : getConnection u w with
  | mk x w1 =>
    rw [hg] at h h1 h2 h3
    cases x with
    | error e' => simp at h; rw [← h.2]; exact h1
    | ok r =>
      simp only at h
      rw [bind_apply] at h
      have hp : (preCallHook r u m w1).2 = w1 := by
        unfold preCallHook
        rw [bind_apply, lift_apply]
        cases stripPath u <;> rfl
      cases hq : preCallHook r u m w1 with
      | mk y w2 =>
        rw [hq] at h hp
        simp only at hp
        subst hp
        cases y with
        | error e' => simp at h; rw [← h.2]; exact h1
        | ok y =>
          have := hb _ r _ h2 (h3 r rfl) h
          rw [this]
          exact h1

theorem C24_mkdir {w w' : World} (h : Reachable w) {u : Uri} {e : PyErr} (he : uMkdir u w = (.error e, w')) :
    Untouched w w' := by
  refine untouched_withConn h.inv ?_ he
  intro w1 r w2 hw hr hb
  rcases mkdir_cases hw hr u with ⟨e, h⟩ | ⟨-, h⟩ | ⟨_, _, _, _, _, -, -, -, -, -, h⟩ <;> rw [h] at hb <;> simp at hb
  exact hb.2.symm

theorem C24_symlink {w w' : World} (h : Reachable w) {t u : Uri} {e : PyErr} (he : uSymlink t u w = (.error e, w')) :
    Untouched w w' := by
  refine untouched_withConn h.inv ?_ he
  intro w1 r w2 hw hr hb
  rcases symlink_cases hw hr t u with ⟨e, h⟩ | ⟨-, h⟩ | ⟨_, _, _, _, _, -, -, -, -, -, h⟩ <;> rw [h] at hb <;> simp at hb
  exact hb.2.symm

theorem C24_open {w w' : World} (h : Reachable w) {u : Uri} {o : Option Str} {e : PyErr}
    (he : uOpen u o w = (.error e, w')) : Untouched w w' := by
  refine untouched_withConn h.inv ?_ he
  intro w1 r w2 hw hr hb
  have hR : ∀ b, openRead r u b w1 = (.error e, w2) → w2 = w1 := by
    intro b hb
    rcases openRead_cases (w := w1) (r := r) u b with ⟨e, h⟩ | ⟨_, _, -, -, h⟩ <;> rw [h] at hb <;> simp at hb
    exact hb.2.symm
  have hA : ∀ b, openAppend r u b w1 = (.error e, w2) → w2 = w1 := by
    intro b hb
    rcases openAppend_cases (w := w1) (r := r) u b with ⟨e, h⟩ | ⟨_, _, -, -, h⟩ <;> rw [h] at hb <;> simp at hb
    exact hb.2.symm
  have hW : ∀ b, openWrite r u b w1 = (.error e, w2) → w2 = w1 := by
    intro b hb
    rcases openWrite_cases hw hr u b with ⟨e, h⟩ | ⟨_, _, -, h⟩ | ⟨_, _, _, _, _, _, -, -, -, -, -, -, -, h⟩ <;>
      rw [h] at hb <;> simp at hb
    exact hb.2.symm
  unfold open_ at hb
  split at hb
  · exact hR _ hb
  · simp only at hb
    split at hb
    · exact hR _ hb
    split at hb
    · exact hW _ hb
    split at hb
    · exact hA _ hb
    · simp at hb; exact hb.2.symm

theorem C24_set_info {w w' : World} (h : Reachable w) {u : Uri} {s : SetInfo} {f : Bool} {e : PyErr}
    (he : uSetInfo u s f w = (.error e, w')) : Untouched w w' := by
  refine untouched_withConn h.inv ?_ he
  intro w1 r w2 hw hr hb
  rcases setInfo_cases (w := w1) (r := r) u s f with ⟨e, h⟩ | ⟨_, -, h⟩ <;> rw [h] at hb <;> simp at hb
  exact hb.2.symm

theorem C24_copystat {w w' : World} (h : Reachable w) {u v : Uri} {e : PyErr}
    (he : uCopystat u v w = (.error e, w')) : Untouched w w' := by
  refine untouched_withConn h.inv ?_ he
  intro w1 r w2 hw hr hb
  rcases copystat_cases (w := w1) (r := r) u v with ⟨e, h⟩ | ⟨_, _, -, -, h⟩ <;> rw [h] at hb <;> simp at hb
  exact hb.2.symm

/-- non-recursive `remove` -/
theorem C24_remove {w w' : World} (h : Reachable w) {n : Nat} {u : Uri} {e : PyErr}
    (he : Gen.uRemove n u false w = (.error e, w')) : Untouched w w' := by
  refine untouched_withConn h.inv ?_ he
  intro w1 r w2 hw hr hb
  have hF : removefile r u w1 = (.error e, w2) → w2 = w1 := by
    intro hb
    rcases removefile_cases (w := w1) (r := r) u with ⟨e, h⟩ | h | ⟨_, _, _, -, -, h⟩ <;> rw [h] at hb <;> simp at hb
    exact hb.2.symm
  have hD : removedir r u w1 = (.error e, w2) → w2 = w1 := by
    intro hb
    rcases removedir_cases (w := w1) (r := r) u with ⟨e, h⟩ | h | ⟨_, _, _, -, -, h⟩ <;> rw [h] at hb <;> simp at hb
    exact hb.2.symm
  simp only [bind_apply, query_apply] at hb
  cases h1 : islink w1 r u with
  | error e1 => rw [h1] at hb; simp at hb; exact hb.2.symm
  | ok b1 =>
    rw [h1] at hb
    cases b1 with
    | true => exact hF hb
    | false =>
      simp only [Bool.false_eq_true, if_false, bind_apply, query_apply] at hb
      cases h2 : exists_ w1 r u with
      | error e1 => rw [h2] at hb; simp at hb; exact hb.2.symm
      | ok b2 =>
        rw [h2] at hb
        cases b2 with
        | false => simp at hb; exact hb.2.symm
        | true =>
          simp only [Bool.not_true, Bool.false_eq_true, if_false, bind_apply, query_apply] at hb
          cases h3 : isdir w1 r u with
          | error e1 => rw [h3] at hb; simp at hb; exact hb.2.symm
          | ok b3 =>
            rw [h3] at hb
            cases b3 with
            | true => simp only [if_true] at hb; exact hD hb
            | false =>
              simp only [Bool.false_eq_true, if_false, bind_apply, query_apply] at hb
              cases h4 : isfile w1 r u with
              | error e1 => rw [h4] at hb; simp at hb; exact hb.2.symm
              | ok b4 =>
                rw [h4] at hb
                cases b4 with
                | true => exact hF hb
                | false => simp at hb

/-- queries change nothing whether they return or raise -/
theorem C24_queries {w : World} (h : Reachable w) (u : Uri) (f : Bool) (k : Int) :
    Untouched w (uExists u w).2 ∧ Untouched w (uIsfile u w).2 ∧ Untouched w (uIsdir u w).2 ∧
    Untouched w (uIslink u w).2 ∧ Untouched w (uReadlink u w).2 ∧ Untouched w (uListdir u w).2 ∧
    Untouched w (uInfo u f w).2 ∧ Untouched w (uMtime u w).2 ∧ Untouched w (uIsexec u k w).2 := by
  have key : ∀ {α : Type} (m : Meth) (g : Nat → World → Except PyErr α),
      Untouched w (withConn u m (fun r => M.query (g r)) w).2 := by
    intro α m g
    have h1 := untouched_getConnection h.inv u
    unfold withConn
    rw [bind_apply]
    cases hg : getConnection u w with
    | mk x w1 =>
      rw [hg] at h1
      cases x with
      | error e' => exact h1
      | ok r =>
        simp only
        rw [bind_apply]
        unfold preCallHook
        rw [bind_apply, lift_apply]
        cases stripPath u with
        | error e => exact h1
        | ok p =>
          simp only [query_apply]
          split
          · rename_i heq
            have := congrArg Prod.snd heq
            simp at this
            rw [← this]
            exact h1
          · rename_i heq
            have := congrArg Prod.snd heq
            simp at this
            rw [← this]
            exact h1
  exact ⟨key _ _, key _ _, key _ _, key _ _, key _ _, key _ _, key .info fun r w => info w r u f, key _ _,
    key .isexec fun r w => isexec w r u k⟩

example : (uMkdir (mu cl!"/a") sample).1 = .error (.os .EEXIST) ∧
    (uOpen (mu cl!"/a") (some cl!"w") sample).1 = .error (.os .EISDIR) ∧
    (uSymlink (mu cl!"/x") (mu cl!"/nope/y") sample).1 = .error (.os .ENOENT) ∧
    (Gen.uRemove 9 (mu cl!"/a") false sample).1 = .error (.os .ENOTEMPTY) ∧
    (uCopystat (mu cl!"/a/f") (mu cl!"/zzz") sample).1 = .error (.os .ENOENT) ∧
    (uSetInfo (mu cl!"/loop") {} true sample).1 = .error (.os .ELOOP) := by decide +kernel

/-! ## C30 listdir -/

/-- the listing of the directory a path (without empty steps) denotes -/
theorem C30_listdir {w : World} (h : Reachable w) {u : Uri} {r : Nat} {ts q : List Str} (hu : Serves w u r)
    (hs : stepsOf u = some ts) (hne : [] ∉ ts) (hg : Goes (view w r) maxDepth [] ts (.found q))
    (hd : (view w r).isDir q) :
    ∃ l, uListdir u w = (.ok l, w) ∧ l.Pairwise strLt ∧ l.Nodup ∧ ∀ n, n ∈ l ↔ view w r (q ++ [n]) ≠ none := by
  obtain ⟨i, d, hi, hid⟩ := isDir_view hd
  refine ⟨sortStr d.keys, ?_, pairwise_sortStr (keys_nodup h.inv hid), nodup_sortStr (keys_nodup h.inv hid), ?_⟩
  · unfold uListdir
    rw [withConn_serves hu hs]
    simp only [query_apply]
    rw [listdir_found h.inv hu.isRoot hs (by rw [filter_clean hne]; exact hg) hi hid]
  · intro n
    rw [mem_sortStr, mem_keys hi hid]

/-- Empty steps (doubled or trailing slashes) are ignored by listdir, and by listdir alone. -/
theorem C30_empty_steps {w : World} (h : Reachable w) {u : Uri} {r : Nat} {ts q : List Str} (hu : Serves w u r)
    (hs : stepsOf u = some ts) (hg : Goes (view w r) maxDepth [] (ts.filter fun x => x ≠ []) (.found q))
    (hd : (view w r).isDir q) :
    ∃ l, uListdir u w = (.ok l, w) ∧ l.Pairwise strLt ∧ l.Nodup ∧ ∀ n, n ∈ l ↔ view w r (q ++ [n]) ≠ none := by
  obtain ⟨i, d, hi, hid⟩ := isDir_view hd
  refine ⟨sortStr d.keys, ?_, pairwise_sortStr (keys_nodup h.inv hid), nodup_sortStr (keys_nodup h.inv hid), ?_⟩
  · unfold uListdir
    rw [withConn_serves hu hs]
    simp only [query_apply]
    rw [listdir_found h.inv hu.isRoot hs hg hi hid]
  · intro n
    rw [mem_sortStr, mem_keys hi hid]

/-- the listing of something that is not a directory raises -/
theorem C30_fails {w : World} (h : Reachable w) {u : Uri} {r : Nat} {ts : List Str} {out : Out} (hu : Serves w u r)
    (hs : stepsOf u = some ts) (hne : [] ∉ ts) (hg : Goes (view w r) maxDepth [] ts out)
    (hd : ∀ q, out = .found q → ¬ (view w r).isDir q) :
    uListdir u w = (.error (lookupError out), w) := by
  unfold uListdir
  rw [withConn_serves hu hs]
  simp only [query_apply]
  rw [listdir_fail h.inv hu.isRoot hs (by rw [filter_clean hne]; exact hg) hd]

example : (uListdir (mu cl!"/a") sample).1 = .ok [cl!"b", cl!"f"] ∧
    (uListdir (mu cl!"/l//") sample).1 = .ok [cl!"b", cl!"f"] ∧
    (uListdir (mu cl!"/") sample).1 = .ok [cl!"a", cl!"gone", cl!"l", cl!"loop", cl!"m"] ∧
    (uListdir (mu cl!"/a/f") sample).1 = .error .attributeError := by decide +kernel

/-! ## C33 Looping links -/

theorem C33_loop {w : World} (h : Reachable w) {u : Uri} {r : Nat} {ts : List Str} (hu : Serves w u r)
    (hs : stepsOf u = some ts) (hg : ¬ ∃ out, Goes (view w r) maxDepth [] ts out) :
    uExists u w = (.ok false, w) ∧ uIsfile u w = (.ok false, w) ∧ uIsdir u w = (.ok false, w) ∧
    uInfo u true w = (.error (.os .ELOOP), w) ∧
    ([] ∉ ts → uListdir u w = (.error (.os .ELOOP), w)) ∧
    uOpen u none w = (.error (.os .ELOOP), w) ∧
    (∀ o, o.contains 'r' = true ∨ (o.contains 'w' = false ∧ o.contains 'a' = true) →
      uOpen u (some o) w = (.error (.os .ELOOP), w)) := by
  refine ⟨?_, ?_, ?_, C22_loop h hu hs hg, ?_, ?_, ?_⟩
  · unfold uExists; rw [withConn_serves hu hs, query_apply, exists_loop h.inv hu.isRoot hs hg]
  · unfold uIsfile; rw [withConn_serves hu hs, query_apply, isfile_loop h.inv hu.isRoot hs hg]
  · unfold uIsdir; rw [withConn_serves hu hs, query_apply, isdir_loop h.inv hu.isRoot hs hg]
  · intro hne
    unfold uListdir
    rw [withConn_serves hu hs, query_apply, listdir_loop h.inv hu.isRoot hs (by rw [filter_clean hne]; exact hg)]
  · unfold uOpen; rw [withConn_serves hu hs]; exact (openRead_loop h.inv hu.isRoot hs hg).1
  · intro o ho
    unfold uOpen
    rw [withConn_serves hu hs]
    unfold open_
    rcases ho with ho | ⟨h1, h2⟩
    · simp only [ho, if_true]; exact (openRead_loop h.inv hu.isRoot hs hg).1
    · by_cases hr : o.contains 'r' = true
      · simp only [hr, if_true]; exact (openRead_loop h.inv hu.isRoot hs hg).1
      · simp only [hr, h1, h2, Bool.false_eq_true, if_false, if_true]
        exact (openRead_loop h.inv hu.isRoot hs hg).2

/-- opening for writing at the end of a loop raises ELOOP, too -/
theorem C33_open_write {w : World} (h : Reachable w) {u : Uri} {r : Nat} {init q : List Str} {n : Str} {o : Obj}
    (hu : Serves w u r) (hs : stepsOf u = some (init ++ [n])) (hi : Goes (view w r) maxDepth [] init (.found q))
    (hn : view w r (q ++ [n]) = some o) (hg : ¬ ∃ out, Goes (view w r) maxDepth [] (init ++ [n]) out) :
    uOpen u (some cl!"w") w = (.error (.os .ELOOP), w) := by
  obtain ⟨p, h1, -, h3⟩ := stepsOf_snoc hs
  unfold uOpen
  rw [withConn_serves hu hs]
  exact openWrite_lost_loop h.inv hu.isRoot h1 h3 hi hn hg

/-- a link to itself is a loop, whatever nesting is allowed -/
theorem C33_self_link {ns : NS} {n : Str} {t : Uri} {m s : Int} (hd : ns.isDir []) (h : ns [n] = some (.link t m s))
    (ht : stepsOf t = some [n]) : ∀ d, ¬ ∃ out, Goes ns d [] [n] out := by
  intro d
  rw [noGoes_iff]
  induction d with
  | zero => rw [follow_eq, followAux_dir hd]; simp only [List.nil_append, h, linkRes]
  | succ d ih => rw [follow_eq, followAux_dir hd]; simp only [List.nil_append, h, linkRes, ht, ih]

/-- two links to each other are a loop -/
theorem C33_two_links {ns : NS} {n n' : Str} {t t' : Uri} {m s m' s' : Int} (hd : ns.isDir [])
    (h : ns [n] = some (.link t m s)) (ht : stepsOf t = some [n'])
    (h' : ns [n'] = some (.link t' m' s')) (ht' : stepsOf t' = some [n]) :
    ∀ d, (¬ ∃ out, Goes ns d [] [n] out) ∧ ¬ ∃ out, Goes ns d [] [n'] out := by
  intro d
  rw [noGoes_iff, noGoes_iff]
  induction d with
  | zero =>
    rw [follow_eq, followAux_dir hd, followAux_dir hd]
    simp only [List.nil_append, h, h', linkRes]
    exact ⟨trivial, trivial⟩
  | succ d ih =>
    rw [follow_eq, followAux_dir hd, followAux_dir hd]
    simp only [List.nil_append, h, h', linkRes, ht, ht', ih.1, ih.2]
    exact ⟨trivial, trivial⟩

example : (uExists (mu cl!"/loop") sample).1 = .ok false ∧ (uIslink (mu cl!"/loop") sample).1 = .ok true ∧
    (uOpen (mu cl!"/loop") (some cl!"w") sample).1 = .error (.os .ELOOP) ∧
    (uOpen (mu cl!"/loop") (some cl!"r") sample).1 = .error (.os .ELOOP) ∧
    (uListdir (mu cl!"/loop") sample).1 = .error (.os .ELOOP) := by decide +kernel
example : ¬ ∃ out, Goes (view sample 0) maxDepth [] [cl!"loop"] out := by rw [noGoes_iff]; decide +kernel

/-! ## C34 Dangling links -/

/-- a link whose target denotes nothing denotes nothing -/
theorem C34_denotes_nothing {ns : NS} {init q ts : List Str} {n : Str} {t : Uri} {m s : Int}
    (hi : Goes ns maxDepth [] init (.found q)) (hd : ns.isDir q) (hl : ns (q ++ [n]) = some (.link t m s))
    (ht : stepsOf t = some ts) (hm : Goes ns (maxDepth - 1) [] ts .missing) :
    Goes ns maxDepth [] (init ++ [n]) .missing := by
  have key : ∀ {d q0 steps out}, Goes ns d q0 steps out → out = .found q → 0 < d →
      Goes ns (d - 1) [] ts .missing → Goes ns d q0 (steps ++ [n]) .missing := by
    intro d q0 steps out h
    induction h with
    | @done d q1 =>
      intro he h0 hm
      simp at he
      subst he
      obtain ⟨d, rfl⟩ : ∃ d', d = d' + 1 := ⟨d - 1, by omega⟩
      exact .linkLost hd hl ht hm
    | step h1 h2 h3 _ ih => intro he h0 hm; exact .step h1 h2 h3 (ih he h0 hm)
    | link h1 h2 h3 h4 _ _ ih => intro he h0 hm; exact .link h1 h2 h3 h4 (ih he h0 hm)
    | notDir => intro he; simp at he
    | missing => intro he; simp at he
    | linkLost => intro he; simp at he
    | linkLostMid => intro he; simp at he
    | linkFail _ _ _ _ h5 => rintro rfl; simp at h5
    | badLink => intro he; simp at he
  exact key hi rfl (by unfold maxDepth; omega) hm

/-- the link exists as a link, but not as a file or directory; opening it raises ENOENT -/
theorem C34_dangling {w : World} (h : Reachable w) {u : Uri} {r : Nat} {init q ts : List Str} {n : Str} {t : Uri}
    {m s : Int} (hu : Serves w u r) (hs : stepsOf u = some (init ++ [n]))
    (hi : Goes (view w r) maxDepth [] init (.found q)) (hl : view w r (q ++ [n]) = some (.link t m s))
    (ht : stepsOf t = some ts) (hm : Goes (view w r) (maxDepth - 1) [] ts .missing) :
    uExists u w = (.ok false, w) ∧ uIsfile u w = (.ok false, w) ∧ uIsdir u w = (.ok false, w) ∧
    (n ∉ init ∨ Plain (view w r) (init ++ [n]) → uIslink u w = (.ok true, w)) ∧
    uOpen u (some cl!"r") w = (.error (.os .ENOENT), w) ∧ uOpen u (some cl!"w") w = (.error (.os .ENOENT), w) ∧
    uOpen u (some cl!"a") w = (.error (.os .ENOENT), w) := by
  have hg := C34_denotes_nothing hi (view_parent hl) hl ht hm
  obtain ⟨h1, h2, h3⟩ := C23_missing h hu hs hg
  refine ⟨h1, h2, h3, ?_, ?_, ?_, ?_⟩
  · intro hn
    unfold uIslink
    rw [withConn_serves hu hs, query_apply, islink_nofollow h.inv hu.isRoot hs hi (view_parent hl) hn, hl]
    rfl
  · unfold uOpen; rw [withConn_serves hu hs]; exact (openRead_fail h.inv hu.isRoot hs hg (by simp)).1
  · obtain ⟨p, h4, -, h6⟩ := stepsOf_snoc hs
    unfold uOpen
    rw [withConn_serves hu hs]
    exact openWrite_lost h.inv hu.isRoot h4 h6 hi hl hg (by simp)
  · unfold uOpen; rw [withConn_serves hu hs]; exact (openRead_fail h.inv hu.isRoot hs hg (by simp)).2

example : view sample 0 [cl!"gone"] = some (.link (mu cl!"/nowhere") 0 8) ∧
    Goes (view sample 0) (maxDepth - 1) [] [cl!"nowhere"] .missing ∧
    (uExists (mu cl!"/gone") sample).1 = .ok false ∧ (uIslink (mu cl!"/gone") sample).1 = .ok true ∧
    (uOpen (mu cl!"/gone") (some cl!"w") sample).1 = .error (.os .ENOENT) := by decide +kernel

end Verif.Props
