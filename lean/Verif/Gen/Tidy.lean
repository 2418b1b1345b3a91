import Verif.Gen.Frame
import Verif.Gen.CopyTree
/-!
# The names that get into a file system
-/
namespace Verif.Gen
open Verif.Spec Verif.Mem Verif.Mem.M

/-- a name that can be written in a URI, without white space at its ends -/
def Fine (n : Str) : Prop := CleanName n ∧ Trimmed n

instance (n : Str) : Decidable (Fine n) := inferInstanceAs (Decidable (_ ∧ _))

/-- all components are fine -/
def FineAll (cs : List Str) : Prop := ∀ c ∈ cs, Fine c

instance (cs : List Str) : Decidable (FineAll cs) := inferInstanceAs (Decidable (∀ c ∈ cs, Fine c))

theorem FineAll.clean {cs : List Str} (h : FineAll cs) : ∀ c ∈ cs, CleanName c := fun c hc => (h c hc).1

theorem FineAll.append {a b : List Str} (h : FineAll a) (h' : FineAll b) : FineAll (a ++ b) := by
  intro c hc
  rcases List.mem_append.1 hc with h1 | h1
  · exact h c h1
  · exact h' c h1

theorem FineAll.snoc {a : List Str} {n : Str} (h : FineAll a) (hn : Fine n) : FineAll (a ++ [n]) :=
  h.append (by intro c hc; simp at hc; exact hc ▸ hn)

theorem FineAll.init {a b : List Str} (h : FineAll (a ++ b)) : FineAll a := fun c hc => h c (by simp [hc])

/-- every name in every directory is fine -/
def Tidy (w : World) : Prop := ∀ j n c, (n, c) ∈ w.entries j → Fine n

theorem Tidy.of_entries {w w' : World} (h : Tidy w) (he : ∀ j, w'.entries j = w.entries j) : Tidy w' :=
  fun j n c hc => h j n c (he j ▸ hc)

theorem Tidy.of_node {w w' : World} (h : Tidy w) (he : w'.node = w.node) : Tidy w' :=
  h.of_entries fun j => by unfold World.entries; rw [he]

theorem Tidy.setNode {w : World} (h : Tidy w) {i : Nat} {n : Node} (hs : SameShape (w.node i) n) : Tidy (w.setNode i n) :=
  h.of_entries (entries_setNode hs)

theorem Tidy.addChild {w : World} (h : Tidy w) (hw : Mem.Inv w) {nd : Nat} {d : DirObj} {x : Str} {n : Node}
    (hd : w.node nd = .dir d) (hn : d.files.lookup x = none) (hl : Leaf n) (hnd : nd < w.next) (hx : Fine x) :
    Tidy (w.addChild nd d x n) := by
  intro j m c hc
  rw [entries_addChild hw hd hn hl hnd] at hc
  split at hc
  · rcases List.mem_append.1 hc with h1 | h1
    · exact h _ _ _ h1
    · simp at h1; exact h1.1 ▸ hx
  · exact h _ _ _ hc

theorem Tidy.delEntry {w : World} (h : Tidy w) {nd : Nat} {d : DirObj} {x : Str} (hd : w.node nd = .dir d) :
    Tidy (w.delEntry nd d x) := by
  intro j m c hc
  rw [entries_delEntry hd] at hc
  split at hc
  · exact h _ _ _ (List.mem_filter.1 hc).1
  · exact h _ _ _ hc

/-- the entries of the directories stay as they are -/
def Quiet {α : Type} (m : M α) : Prop := ∀ w j, (m w).2.entries j = w.entries j

theorem Quiet.bind {α β : Type} {m : M α} {f : α → M β} (h : Quiet m) (h' : ∀ a, Quiet (f a)) : Quiet (m >>= f) := by
  intro w j
  rw [bind_apply]
  have := h w j
  cases hm : m w with
  | mk x w1 =>
    rw [hm] at this
    cases x with
    | error e => exact this
    | ok a => exact (h' a w1 j).trans this

theorem Quiet.lift {α : Type} (x : Except PyErr α) : Quiet (lift x) := fun _ _ => rfl
theorem Quiet.ret {α : Type} (x : α) : Quiet (pure x : M α) := fun _ _ => rfl
theorem Quiet.raise {α : Type} (e : PyErr) : Quiet (raise e : M α) := fun _ _ => rfl
theorem Quiet.of_node {α : Type} {m : M α} (h : ∀ w, (m w).2.node = w.node) : Quiet m := fun w j => by
  unfold World.entries; rw [h]
theorem Quiet.ite {α : Type} {c : Prop} [Decidable c] {m m' : M α} (h : Quiet m) (h' : Quiet m') :
    Quiet (if c then m else m') := by split <;> assumption

theorem Quiet.withFile {α : Type} {i : Nat} {g : FileObj → M α}
    (h : ∀ w f, w.node i = .file f → ∀ j, (g f w).2.entries j = w.entries j) : Quiet (withFile i g) := by
  intro w j
  unfold Mem.withFile
  cases hn : w.node i with
  | file f => exact h w f hn j
  | dir f => rfl
  | link f => rfl

theorem entries_setFile {w : World} {i : Nat} {f g : FileObj} (h : w.node i = .file f) (j : Nat) :
    (w.setNode i (.file g)).entries j = w.entries j := entries_setNode (by rw [h]; trivial) j

theorem quiet_write (h : Handle) (d : PyData) : Quiet (h.write d) := by
  refine (Quiet.lift _).bind fun b => .withFile fun w f hf j => ?_
  exact entries_setFile (w := { w with tick := w.tick + 1 }) hf j

theorem quiet_read (h : Handle) (n : Int) : Quiet (h.read n) :=
  .ite ((Quiet.withFile fun _ _ hf j => entries_setFile hf j).bind fun _ => .lift _) (.raise _)

theorem quiet_seek (h : Handle) (t wh : Int) : Quiet (h.seek t wh) := by
  refine .withFile fun w f hf j => ?_
  rw [bind_apply, lift_apply]
  cases BytesIO.seek f.data f.pos t wh with
  | error e => rfl
  | ok p => exact entries_setFile hf j

theorem quiet_tell (h : Handle) : Quiet h.tell := .withFile fun _ _ _ _ => rfl
theorem quiet_size (h : Handle) : Quiet h.size := .withFile fun _ _ _ _ => rfl

theorem quiet_truncate (h : Handle) (n : Option Int) : Quiet (h.truncate n) := by
  refine .withFile fun w f hf j => ?_
  rw [bind_apply, lift_apply]
  cases BytesIO.truncate f.data f.pos n with
  | error e => rfl
  | ok p => exact entries_setFile hf j

theorem quiet_close (h : Handle) : Quiet h.close := .withFile fun _ _ hf j => entries_setFile hf j
theorem quiet_readline (h : Handle) : Quiet h.readline :=
  (Quiet.withFile fun _ _ hf j => entries_setFile hf j).bind fun _ => .lift _
theorem quiet_next (h : Handle) : Quiet h.next :=
  (Quiet.withFile fun _ _ hf j => entries_setFile hf j).bind fun _ => .ite (.ret _) ((Quiet.lift _).bind fun _ => .ret _)

/-! ## The methods -/

/-- `m`, working in the file system with root `r`, puts no other names into directories -/
def TidyAt (r : Nat) {α : Type} (m : M α) : Prop := ∀ w, Mem.Inv w → IsRoot w r → Tidy w → Tidy (m w).2

theorem _root_.Verif.Gen.Quiet.tidyAt {r : Nat} {α : Type} {m : M α} (h : Quiet m) : TidyAt r m :=
  fun w _ _ ht => ht.of_entries (h w)

theorem TidyAt.ret {r : Nat} {α : Type} (a : α) : TidyAt r (pure a : M α) := fun _ _ _ h => h
theorem TidyAt.raise {r : Nat} {α : Type} (e : PyErr) : TidyAt r (raise e : M α) := fun _ _ _ h => h
theorem TidyAt.query {r : Nat} {α : Type} (f : World → Except PyErr α) : TidyAt r (query f) := fun _ _ _ h => h
theorem TidyAt.lift {r : Nat} {α : Type} (x : Except PyErr α) : TidyAt r (lift x) := fun _ _ _ h => h

theorem TidyAt.bind {r : Nat} {α β : Type} {m : M α} {f : α → M β} (hk : Keeps r m) (h : TidyAt r m)
    (h' : ∀ a, TidyAt r (f a)) : TidyAt r (m >>= f) := by
  intro w hw hr ht
  rw [bind_apply]
  have h0 := hk w hw hr
  have h1 := h w hw hr ht
  cases hm : m w with
  | mk x w1 =>
    rw [hm] at h0 h1
    cases x with
    | error e => exact h1
    | ok a => exact h' a w1 h0.1 (h0.2.isRoot hr) h1

theorem TidyAt.ite {r : Nat} {α : Type} {c : Prop} [Decidable c] {m m' : M α} (h : TidyAt r m) (h' : TidyAt r m') :
    TidyAt r (if c then m else m') := by split <;> assumption

theorem TidyAt.forM {r : Nat} {α : Type} {f : α → M PUnit} (l : List α) (hk : ∀ a, Keeps r (f a))
    (h : ∀ a, TidyAt r (f a)) : TidyAt r (l.forM f) := by
  induction l with
  | nil => exact .ret _
  | cons a l ih => exact .bind (hk a) (h a) fun _ => ih

/-- the names in the path of the URI are fine -/
def FineUri (u : Uri) : Prop := ∀ ts, stepsOf u = some ts → FineAll ts

theorem stepsOf_mem_eq {E : Dict} {cs ts : List Str} (hc : ∀ c ∈ cs, CleanName c) (h : stepsOf (mem E cs) = some ts) :
    ts = cs ∧ Ok cs := by
  by_cases hok : Ok cs
  · rw [stepsOf_mem hok] at h; simp at h; exact ⟨h.symm, hok⟩
  · exfalso
    have : ∃ r t, cs = ('.' :: r) :: t := by
      cases cs with
      | nil => exact absurd Ok.nil hok
      | cons c t =>
        cases c with
        | nil => exact absurd rfl (hc [] (by simp)).ne
        | cons x c =>
          by_cases hx : x = '.'
          · exact ⟨c, t, by rw [hx]⟩
          · exact absurd ⟨hc, by simp [hx]⟩ hok
    obtain ⟨r, t, rfl⟩ := this
    have : (mem E (('.' :: r) :: t)).path = '.' :: r ++ slash t := by
      simp only [mem, Uri.path]
      rw [pathOf_ne (by simp), slash_cons]
      unfold Uri.cutDot
      rw [if_pos (by rfl)]
      rfl
    unfold stepsOf at h
    rw [this] at h
    simp at h

theorem fineUri_mem {E : Dict} {cs : List Str} (h : FineAll cs) : FineUri (mem E cs) := fun ts ht => by
  rw [(stepsOf_mem_eq h.clean ht).1]; exact h

theorem tidy_mkdir {r : Nat} {u : Uri} (hu : FineUri u) : TidyAt r (mkdir r u) := by
  intro w hw hr ht
  rcases mkdir_cases hw hr u with ⟨e, h⟩ | ⟨-, h⟩ | ⟨init, n, q, nd, d, hs, -, a, b, c, h⟩
  · rw [h]; exact ht
  · rw [h]; exact ht
  · rw [h]; exact ht.addChild hw b c rfl (phys_lt hw hr a) (hu _ hs n (by simp))

theorem tidy_symlink {r : Nat} (t : Uri) {u : Uri} (hu : FineUri u) : TidyAt r (symlink r t u) := by
  intro w hw hr ht
  rcases symlink_cases hw hr t u with ⟨e, h⟩ | ⟨-, h⟩ | ⟨init, n, q, nd, d, hs, -, a, b, c, h⟩
  · rw [h]; exact ht
  · rw [h]; exact ht
  · rw [h]; exact ht.addChild hw b c trivial (phys_lt hw hr a) (hu _ hs n (by simp))

theorem tidy_removefile (r : Nat) (u : Uri) : TidyAt r (removefile r u) := by
  intro w hw hr ht
  rcases removefile_cases (w := w) (r := r) u with ⟨e, h⟩ | h | ⟨i, d, c, a, b, h⟩
  · rw [h]; exact ht
  · rw [h]; exact ht
  · rw [h]; exact ht.delEntry a

theorem tidy_removedir (r : Nat) (u : Uri) : TidyAt r (removedir r u) := by
  intro w hw hr ht
  rcases removedir_cases (w := w) (r := r) u with ⟨e, h⟩ | h | ⟨i, d, c, a, b, h⟩
  · rw [h]; exact ht
  · rw [h]; exact ht
  · rw [h]; exact ht.delEntry a

theorem tidy_setInfo (r : Nat) (u : Uri) (s : SetInfo) (f : Bool) : TidyAt r (setInfo r u s f) := by
  intro w hw hr ht
  rcases setInfo_cases (w := w) (r := r) u s f with ⟨e, h⟩ | ⟨i, a, h⟩
  · rw [h]; exact ht
  · rw [h]; exact ht.setNode (sameShape_apply _ _)

theorem tidy_setExec (r : Nat) (u : Uri) (m : Int) : TidyAt r (setExec r u m) :=
  .bind ((Pres.query _).keeps r) (.query _) fun _ => tidy_setInfo r u _ true

theorem tidy_copystat (r : Nat) (u v : Uri) : TidyAt r (copystat r u v) := by
  intro w hw hr ht
  rcases copystat_cases (w := w) (r := r) u v with ⟨e, h⟩ | ⟨s, d, -, a, h⟩
  · rw [h]; exact ht
  · rw [h, statFrom_eq]; exact ht.setNode (sameShape_apply _ _)

/-- the path is not that of the root directory -/
def NotRoot (u : Uri) : Prop := stepsOf u ≠ some []

theorem tidy_openWrite {r : Nat} {u : Uri} (hu : FineUri u) (hn : NotRoot u) (b : Bool) : TidyAt r (openWrite r u b) := by
  intro w hw hr ht
  rcases openWrite_cases hw hr u b with ⟨e, h⟩ | ⟨i, f, a, h⟩ | ⟨p, init, n, q, nd, d, hp, hsp, -, a, b, c, e, h⟩
  · rw [h]; exact ht
  · rw [h]
    refine ht.of_entries fun j => ?_
    exact entries_setFile (w := w) a j
  · rw [h]
    have : stepsOf u = some (if p = [] then [] else splitC '/' p) := by
      unfold stripPath at hp
      unfold stepsOf
      split at hp
      · rename_i p' hp'
        rw [hp']
        simp at hp
        simp [hp]
      · simp at hp
    split at this
    · exact absurd this hn
    · exact ht.addChild hw b e trivial c (hu _ this n (by rw [hsp]; simp))

theorem tidy_openRead (r : Nat) (u : Uri) (b : Bool) : TidyAt r (openRead r u b) := by
  intro w hw hr ht
  rcases openRead_cases (w := w) (r := r) u b with ⟨e, h⟩ | ⟨i, f, a, -, h⟩
  · rw [h]; exact ht
  · rw [h]; exact ht.of_entries fun j => entries_setFile (w := w) a j

theorem tidy_openAppend (r : Nat) (u : Uri) (b : Bool) : TidyAt r (openAppend r u b) := by
  intro w hw hr ht
  rcases openAppend_cases (w := w) (r := r) u b with ⟨e, h⟩ | ⟨i, f, a, -, h⟩
  · rw [h]; exact ht
  · rw [h]; exact ht.of_entries fun j => entries_setFile (w := w) a j

theorem tidy_open {r : Nat} {u : Uri} (hu : FineUri u) (hn : NotRoot u) (o : Option Str) : TidyAt r (open_ r u o) := by
  unfold open_
  split
  · exact tidy_openRead r u _
  · exact .ite (tidy_openRead r u _) (.ite (tidy_openWrite hu hn _) (.ite (tidy_openAppend r u _) (.raise _)))

/-- opening for reading -/
theorem tidy_open_rb (r : Nat) (u : Uri) : TidyAt r (open_ r u (some cl!"rb")) := by
  have : open_ r u (some cl!"rb") = openRead r u true := by
    unfold open_
    simp
  rw [this]; exact tidy_openRead r u true

theorem tidy_manipulate (r : Nat) (u : Uri) (a : Manip) : TidyAt r (manipulate r u a) := by
  unfold manipulate
  have hl : ∀ b : Bool, ∀ g : LockId → M PUnit, (∀ l, Pres (g l)) → (∀ l w, (g l w).2.node = w.node) →
      Pres (if b = true then (do let p ← M.lift (stripPath u); let l ← tempLock p; g l) else pure PUnit.unit) ∧
      TidyAt r (if b = true then (do let p ← M.lift (stripPath u); let l ← tempLock p; g l) else pure PUnit.unit) := by
    intro b g hg hg'
    refine ⟨.ite ((Pres.lift _).bind fun p => (pres_tempLock p).bind fun l => hg l) (.ret _), ?_⟩
    refine .ite (.bind ((Pres.lift _).keeps r) (.lift _) fun p => .bind ((pres_tempLock p).keeps r) ?_ fun l => ?_) (.ret _)
    · exact fun w _ _ ht => ht.of_node rfl
    · exact fun w _ _ ht => ht.of_node (hg' l w)
  obtain ⟨a1, a2⟩ := hl a.lock acquire pres_acquire node_acquire
  obtain ⟨b1, b2⟩ := hl a.unlock release pres_release node_release
  have h3 : Keeps r (match a.mtime with
      | none => pure PUnit.unit
      | some t => setInfo r u { mtime := some t } true) ∧ TidyAt r (match a.mtime with
      | none => pure PUnit.unit
      | some t => setInfo r u { mtime := some t } true) := by
    cases a.mtime with
    | none => exact ⟨(Pres.ret _).keeps r, .ret _⟩
    | some t => exact ⟨keeps_setInfo r u _ true, tidy_setInfo r u _ true⟩
  have h4 : TidyAt r (match a.callback with
      | none => pure PUnit.unit
      | some cb => do
        let p ← M.lift (stripPath u)
        (fun w => (.ok (), { w with hooks := fun j => if j = r then setHook (w.hooks r) p cb else w.hooks j }) : M PUnit)) := by
    cases a.callback with
    | none => exact .ret _
    | some cb => exact .bind ((Pres.lift _).keeps r) (.lift _) fun p w _ _ ht => ht.of_node rfl
  have := TidyAt.bind (a1.keeps r) a2 fun _ => .bind (b1.keeps r) b2 fun _ => .bind h3.1 h3.2 fun _ => h4
  obtain ⟨l, ul, mt, cb⟩ := a
  cases l <;> cases ul <;> cases mt <;> cases cb <;> simpa using this

/-! ## Through the front end -/

/-- `m` puts no other names into directories -/
def TidyAll {α : Type} (m : M α) : Prop := ∀ w, Mem.Inv w → Tidy w → Tidy (m w).2

theorem TidyAll.at {α : Type} {m : M α} (h : TidyAll m) (r : Nat) : TidyAt r m := fun w hw _ ht => h w hw ht

theorem getConnection_tidy (u : Uri) (w : World) (hw : Mem.Inv w) (ht : Tidy w) : Tidy (getConnection u w).2 := by
  unfold getConnection
  split
  · exact ht
  split
  · split
    · exact ht
    · by_cases h : truthy (connKey u).key.hostname = true
      · rw [createConn_host h]; exact ht
      · rw [createConn_eq h]; exact ht.of_entries (entries_connect hw _)
  split <;> exact ht

theorem preCallHook_state (r : Nat) (u : Uri) (m : Meth) (w : World) : (preCallHook r u m w).2 = w := by
  unfold preCallHook
  rw [bind_apply, lift_apply]
  cases stripPath u with
  | error e => rfl
  | ok p => rfl

theorem TidyAll.withConn {α : Type} {u : Uri} {m : Meth} {body : Nat → M α} (h : ∀ r, TidyAt r (body r)) :
    TidyAll (withConn u m body) := by
  intro w hw ht
  obtain ⟨h1, h2, h3⟩ := getConnection_pres u w hw
  have h4 := getConnection_tidy u w hw ht
  unfold Mem.withConn
  rw [bind_apply]
  cases hg : getConnection u w with
  | mk x w1 =>
    rw [hg] at h1 h2 h3 h4
    cases x with
    | error e => exact h4
    | ok r =>
      refine TidyAt.bind ((preCallHook_pres r u m).keeps r) ?_ (fun _ => h r) w1 h1 (h3 r rfl) h4
      intro w _ _ ht
      rw [preCallHook_state]; exact ht

theorem tidy_query_conn {α : Type} (u : Uri) (m : Meth) (f : Nat → World → Except PyErr α) :
    TidyAll (withConn u m fun r => query (f r)) := .withConn fun _ => .query _

theorem tidy_uMkdir {u : Uri} (hu : FineUri u) : TidyAll (uMkdir u) := .withConn fun _ => tidy_mkdir hu
theorem tidy_uOpen {u : Uri} (hu : FineUri u) (hn : NotRoot u) (o : Option Str) : TidyAll (uOpen u o) :=
  .withConn fun _ => tidy_open hu hn o
theorem tidy_uOpen_rb (u : Uri) : TidyAll (uOpen u (some cl!"rb")) := .withConn fun r => tidy_open_rb r u

/-! ## Programs over fine names

`Tri r P m Q`: run in a tidy state, `m` leaves a tidy state, spares the file systems other than that of `r` and of
the URIs in `P`, and returns something with the property `Q`. -/

/-- what a program over fine names does, see above -/
def Tri (r : Nat) (P : Uri → Prop) {α : Type} (m : M α) (Q : α → Prop) : Prop :=
  ∀ w, Mem.Inv w → IsRoot w r → Tidy w →
    Mem.Inv (m w).2 ∧ Ext w (m w).2 ∧ Tidy (m w).2 ∧
    (∀ s, IsRoot w s → r ≠ s → (∀ u, P u → w.connOf (connKey u) ≠ some s) → Same s w (m w).2) ∧
    ∀ a, (m w).1 = .ok a → Q a

section
variable {r : Nat} {P : Uri → Prop}

theorem Tri.of {α : Type} {m : M α} (hk : Keeps r m) (ht : TidyAt r m) (hs : ∀ s, r ≠ s → SparesBoth r s P m) :
    Tri r P m fun _ => True :=
  fun w hw hr h => ⟨(hk w hw hr).1, (hk w hw hr).2, ht w hw hr h, fun s h1 h2 h3 => hs s h2 w hw hr h1 h3, fun _ _ => trivial⟩

theorem Tri.query {α : Type} (f : World → Except PyErr α) {Q : α → Prop}
    (h : ∀ w a, Tidy w → f w = .ok a → Q a) : Tri r P (query f) Q :=
  fun w hw _ ht => ⟨hw, .rfl' w, ht, fun s _ _ _ => .rfl' s w, fun a ha => h w a ht ha⟩

theorem Tri.ret {α : Type} {a : α} {Q : α → Prop} (h : Q a) : Tri r P (pure a : M α) Q :=
  fun w hw _ ht => ⟨hw, .rfl' w, ht, fun s _ _ _ => .rfl' s w, fun b hb => by
    have : a = b := by simpa [pure, M.ret] using hb
    exact this ▸ h⟩

theorem Tri.raise {α : Type} (e : PyErr) {Q : α → Prop} : Tri r P (raise e : M α) Q :=
  fun w hw _ ht => ⟨hw, .rfl' w, ht, fun s _ _ _ => .rfl' s w, fun b hb => by simp at hb⟩

theorem Tri.bind {α β : Type} {m : M α} {f : α → M β} {Q : α → Prop} {Q' : β → Prop} (h : Tri r P m Q)
    (h' : ∀ a, Q a → Tri r P (f a) Q') : Tri r P (m >>= f) Q' := by
  intro w hw hr ht
  rw [bind_apply]
  have h1 := h w hw hr ht
  cases hm : m w with
  | mk x w1 =>
    rw [hm] at h1
    obtain ⟨a1, a2, a3, a4, a5⟩ := h1
    cases x with
    | error e => exact ⟨a1, a2, a3, a4, fun b hb => by simp at hb⟩
    | ok a =>
      obtain ⟨b1, b2, b3, b4, b5⟩ := h' a (a5 a rfl) w1 a1 (a2.isRoot hr) a3
      exact ⟨b1, a2.trans b2, b3, fun s s1 s2 s3 => (a4 s s1 s2 s3).trans (b4 s (a2.isRoot s1) s2 fun u hu =>
        avoids_ext a1 a2 s1 (s3 u hu)), b5⟩

theorem Tri.lift_bind {α β : Type} {x : Except PyErr α} {f : α → M β} {Q : β → Prop}
    (h : ∀ a, x = .ok a → Tri r P (f a) Q) : Tri r P (lift x >>= f) Q := by
  intro w hw hr ht
  cases x with
  | error e => exact Tri.raise e w hw hr ht
  | ok a => exact h a rfl w hw hr ht

theorem Tri.ret_bind {α β : Type} {a : α} {f : α → M β} {Q : β → Prop} (h : Tri r P (f a) Q) :
    Tri r P (pure a >>= f) Q := h

theorem Tri.ite {α : Type} {c : Prop} [Decidable c] {m m' : M α} {Q : α → Prop} (h : Tri r P m Q) (h' : Tri r P m' Q) :
    Tri r P (if c then m else m') Q := by split <;> assumption

theorem Tri.mono {α : Type} {m : M α} {Q Q' : α → Prop} (h : Tri r P m Q) (hq : ∀ a, Q a → Q' a) : Tri r P m Q' :=
  fun w hw hr ht => let ⟨a, b, c, d, e⟩ := h w hw hr ht; ⟨a, b, c, d, fun x hx => hq x (e x hx)⟩

theorem Tri.query_conn {α : Type} (u : Uri) (m : Meth) (f : Nat → World → Except PyErr α) :
    Tri r P (Mem.withConn u m fun r => M.query (f r)) fun _ => True :=
  .of ((pres_query_conn u m f).keeps r) ((tidy_query_conn u m f).at r) fun _ _ => (spares_query_conn u m f).both

theorem tri_uIsdir (u : Uri) : Tri r P (uIsdir u) fun b => stepsOf u = some [] → b = true := by
  have h0 : Tri r P (uIsdir u) fun _ => True := .query_conn _ _ _
  intro w hw hr ht
  obtain ⟨a, b, c, d, -⟩ := h0 w hw hr ht
  refine ⟨a, b, c, d, fun x hx hs => ?_⟩
  unfold uIsdir withConn at hx
  rw [bind_apply] at hx
  cases hg : getConnection u w with
  | mk y w1 =>
    rw [hg] at hx
    cases y with
    | error e => simp at hx
    | ok q =>
      simp only [bind_apply] at hx
      cases hp : preCallHook q u .isdir w1 with
      | mk z w2 =>
        rw [hp] at hx
        cases z with
        | error e => simp at hx
        | ok _ =>
          simp only [query_apply] at hx
          obtain ⟨p, h1, h2⟩ := stepsOf_strip hs
          rcases h2 with ⟨rfl, -⟩ | ⟨-, h2⟩
          · unfold isdir at hx
            rw [h1] at hx
            simp at hx
            exact hx
          · exact absurd h2 splitC_ne_nil

theorem tri_uIslink (u : Uri) : Tri r P (uIslink u) fun _ => True := .query_conn _ _ _
theorem tri_uIsfile (u : Uri) : Tri r P (uIsfile u) fun _ => True := .query_conn _ _ _
theorem tri_uExists (u : Uri) : Tri r P (uExists u) fun _ => True := .query_conn _ _ _

variable {E : Dict} (hP : ∀ cs, FineAll cs → P (mem E cs))
include hP

theorem tri_makedirs (n : Nat) : ∀ cs, FineAll cs → Tri r P (makedirs n (mem E cs)) fun _ => True := by
  induction n with
  | zero => intro cs _; exact .raise _
  | succ n ih =>
    intro cs hc
    rw [makedirs]
    refine (tri_uIsdir _).bind fun b _ => .ite (.ret trivial) (.lift_bind fun x hx => ?_)
    obtain ⟨pth, tail⟩ := x
    obtain ⟨ds, hd, rfl⟩ : ∃ ds, FineAll ds ∧ pth = mem E ds := by
      rcases List.eq_nil_or_concat cs with rfl | ⟨init, m, rfl⟩
      · rw [mem_split_root] at hx
        simp at hx
        exact ⟨[], by simp [FineAll], hx.1.symm⟩
      · rw [List.concat_eq_append] at hx hc
        rw [mem_split hc.init.clean (hc m (by simp)).1] at hx
        simp at hx
        exact ⟨init, hc.init, hx.1.symm⟩
    simp only
    refine (tri_uIsdir _).bind fun b _ => ?_
    have h2 : Tri r P (if tail ≠ [] then uMkdir (mem E cs) else pure ()) fun _ => True :=
      .ite (.of ((pres_uMkdir _).keeps r) ((tidy_uMkdir (fineUri_mem hc)).at r) fun _ _ => (spares_uMkdir (hP cs hc)).both)
        (.ret trivial)
    cases b with
    | false => exact (ih ds hd).bind fun _ _ => h2
    | true => exact h2

omit hP in
theorem Tri.withConn {α : Type} {u : Uri} {m : Meth} {body : Nat → M α} {Q : α → Prop} (h : ∀ q, Tri r P (body q) Q) :
    Tri r P (Mem.withConn u m body) Q := by
  intro w hw hr ht
  obtain ⟨h1, h2, h3⟩ := getConnection_pres u w hw
  have h4 := getConnection_tidy u w hw ht
  have h5 := fun s hs => getConnection_same u w hw (s := s) hs
  unfold Mem.withConn
  rw [bind_apply]
  cases hg : getConnection u w with
  | mk x w1 =>
    rw [hg] at h1 h2 h3 h4 h5
    cases x with
    | error e => exact ⟨h1, h2, h4, fun s s1 _ _ => h5 s s1, fun a ha => by simp at ha⟩
    | ok q =>
      have hb : Tri r P (preCallHook q u m >>= fun _ => body q) Q := by
        refine Tri.bind (Tri.of (P := P) ((preCallHook_pres q u m).keeps r) ?_ ?_) fun _ _ => h q
        · intro w _ _ ht; rw [preCallHook_state]; exact ht
        · intro s _ w _ _ _ _; rw [preCallHook_state]; exact .rfl' s w
      obtain ⟨b1, b2, b3, b4, b5⟩ := hb w1 h1 (h2.isRoot hr) h4
      exact ⟨b1, h2.trans b2, b3, fun s s1 s2 s3 => (h5 s s1).trans (b4 s (h2.isRoot s1) s2 fun u hu =>
        avoids_ext h1 h2 s1 (s3 u hu)), b5⟩

theorem tri_uMakedirs (n : Nat) {cs : List Str} (hc : FineAll cs) :
    Tri r P (uMakedirs n (mem E cs)) fun _ => True := .withConn fun _ => tri_makedirs hP n cs hc

omit hP in
theorem tri_removefile (u : Uri) : Tri r P (removefile r u) fun _ => True :=
  .of ((pres_removefile r u).keeps r) (tidy_removefile r u) fun _ hn => (sparesAt_removefile hn u).both

omit hP in
theorem tri_removedir (u : Uri) : Tri r P (removedir r u) fun _ => True :=
  .of ((pres_removedir r u).keeps r) (tidy_removedir r u) fun _ hn => (sparesAt_removedir hn u).both

omit hP in
theorem tri_copyLink (u : Uri) {v : Uri} (hv : FineUri v) : Tri r P (copyLink r u v) fun _ => True := by
  unfold copyLink
  refine (Tri.query (Q := fun _ => True) _ fun _ _ _ _ => trivial).bind fun b _ => ?_
  have h2 : Tri r P (do
      if ← uIsfile v then removefile r v
      let t ← M.query fun w => readlink w r u
      symlink r t v) fun _ => True := by
    refine (tri_uIsfile v).bind fun b' _ => ?_
    have h3 : Tri r P (do
        let t ← M.query fun w => readlink w r u
        symlink r t v) fun _ => True :=
      (Tri.query (Q := fun _ => True) _ fun _ _ _ _ => trivial).bind fun t _ =>
        .of (keeps_symlink r t v) (tidy_symlink t hv) fun _ hn => (sparesAt_symlink hn t v).both
    cases b' with
    | false => exact h3
    | true => exact (tri_removefile v).bind fun _ _ => h3
  cases b with
  | true => exact h2
  | false => exact (Tri.raise (Q := fun _ => True) _).bind fun _ _ => h2

end

theorem quiet_copyFileObj (a b : Handle) (n : Nat) : Quiet (copyFileObj a b n) := by
  induction n with
  | zero => exact .raise _
  | succ n ih =>
    rw [copyFileObj]
    exact (quiet_read a _).bind fun d => .ite (.ret _) ((quiet_write b d).bind fun _ => ih)

theorem tidy_copyContent (r : Nat) (u : Uri) {v : Uri} (hv : FineUri v) (hn : NotRoot v) : TidyAt r (copyContent u v) :=
  .bind ((pres_uOpen u _).keeps r) ((tidy_uOpen_rb u).at r) fun a =>
    .bind ((pres_uOpen v _).keeps r) ((tidy_uOpen hv hn _).at r) fun b =>
      .bind ((pres_size a).keeps r) (quiet_size a).tidyAt fun _ => (quiet_copyFileObj a b _).tidyAt

section
variable {r : Nat} {P : Uri → Prop}

theorem tri_copyOne {u v : Uri} (hu : P u) (hv : P v) (hf : FineUri v) (hn : NotRoot v) (f : Bool) :
    Tri r P (copyOne r u v f) fun _ => True := by
  unfold copyOne
  refine (tri_uIslink u).bind fun b _ => .ite (tri_copyLink u hf) ?_
  refine (Tri.of ((pres_copyContent u v).keeps r) (tidy_copyContent r u hf hn) fun _ _ => (spares_copyContent hu hv).both).bind
    fun _ _ => .ite (.of (keeps_copystat r u v) (tidy_copystat r u v) fun _ hn => (sparesAt_copystat hn u v).both) (.ret trivial)

theorem notRoot_mem {E : Dict} {cs : List Str} (h : FineAll cs) (hn : cs ≠ []) : NotRoot (mem E cs) := fun hs =>
  hn (stepsOf_mem_eq h.clean hs).1.symm

variable {E F : Dict} (hE : ∀ cs, FineAll cs → P (mem E cs)) (hF : ∀ cs, FineAll cs → P (mem F cs))

include hF in
theorem tri_copyDirs (n : Nat) (ig : List Str) (f : Bool) {top : Uri} {ds : List Str} (hd : FineAll ds) :
    ∀ l m : List Str, FineAll l → FineAll m → Tri r P (copyDirs n r ig f top (mem F ds) l m) FineAll := by
  intro l
  induction l with
  | nil => intro m _ hm; exact .ret hm
  | cons x l ih =>
    intro m hl hm
    have hl' : FineAll l := fun c hc => hl c (by simp [hc])
    rw [copyDirs]
    refine .ite (ih _ hl' fun c hc => hm c (List.mem_of_mem_erase hc)) (.lift_bind fun ddir h1 => .lift_bind fun srcp _ =>
      (tri_uIslink srcp).bind fun b _ => ?_)
    rw [mem_div hd.clean (hl x (by simp)).1] at h1
    simp at h1
    subst h1
    have hx := hd.snoc (hl x (by simp))
    exact .ite ((tri_copyLink srcp (fineUri_mem hx)).bind fun _ _ => ih m hl' hm)
      ((tri_uMakedirs hF n hx).bind fun _ _ => ih m hl' hm)

include hE hF in
theorem tri_copyFiles (f : Bool) {cs ds : List Str} (hc : FineAll cs) (hd : FineAll ds) :
    ∀ l : List Str, FineAll l → Tri r P (copyFiles r f (mem E cs) (mem F ds) l) fun _ => True := by
  intro l
  induction l with
  | nil => intro _; exact .ret trivial
  | cons x l ih =>
    intro hl
    have hl' : FineAll l := fun c hc => hl c (by simp [hc])
    have hx := hl x (by simp)
    rw [copyFiles]
    refine .lift_bind fun a h1 => .lift_bind fun b h2 => ?_
    rw [mem_div hc.clean hx.1] at h1
    rw [mem_div hd.clean hx.1] at h2
    simp at h1 h2
    subst h1 h2
    exact (tri_copyOne (hE _ (hc.snoc hx)) (hF _ (hd.snoc hx)) (fineUri_mem (hd.snoc hx))
      (notRoot_mem (hd.snoc hx) (by simp)) f).bind fun _ _ => ih hl'

/-- fs.py:945-950 where the contents of `s ++ t` go -/
theorem dbase_eq' {s t d : List Str} (hs : Ok (s ++ t)) (hs0 : s ≠ []) (hd : FineAll d) (ht : FineAll t) :
    (if stripW ((mem E (s ++ t)).path.drop ((mem E s).path.length + 1)) ≠ [] then
        lift ((mem F d).div (stripW ((mem E (s ++ t)).path.drop ((mem E s).path.length + 1)))) else pure (mem F d) : M Uri)
      = pure (mem F (d ++ t)) := by
  have e1 : pathOf (s ++ t) = slash s ++ slash t := by rw [pathOf_ne (by simp [hs0]), slash_append]
  rw [mem_path hs, mem_path hs.of_prefix, e1, pathOf_ne hs0]
  by_cases h : t = []
  · subst h
    have : stripW ((slash s ++ slash []).drop ((slash s).length + 1)) = [] := by
      rw [List.drop_eq_nil_of_le (by simp [slash])]; rfl
    rw [this]
    simp
  · obtain ⟨p, h1, h2, h3⟩ := slash_trimmed h (fun n hn => ⟨(hs.clean n (by simp [hn])).ne, (ht n hn).2⟩)
    have : (slash s ++ slash t).drop ((slash s).length + 1) = p := by
      rw [h1, show slash s ++ '/' :: p = (slash s ++ ['/']) ++ p by simp, List.drop_left' (by simp)]
    rw [this, h3, if_pos h2]
    rw [mem_div_path hd.clean h (fun n hn => hs.clean n (by simp [hn])) F h1]
    rfl

include hE hF in
theorem tri_copyBody (n : Nat) (ig : List Str) (f : Bool) {s t d : List Str} (hs : Ok s) (hs0 : s ≠ []) (hfs : FineAll s)
    (ht : FineAll t) (hd : FineAll d) {l m : List Str} (hl : FineAll l) (hm : FineAll m) :
    Tri r P (copyBody n r ig f ((mem E s).path.length + 1) (mem F d) (mem E (s ++ t)) l m) FineAll := by
  have h : Tri r P (do
      let dirs' ← copyDirs n r ig f (mem E (s ++ t)) (mem F (d ++ t)) l l
      copyFiles r f (mem E (s ++ t)) (mem F (d ++ t)) m
      pure dirs') FineAll :=
    (tri_copyDirs hF n ig f (hd.append ht) l l hl hl).bind fun x hx =>
      (tri_copyFiles hE hF f (hfs.append ht) (hd.append ht) m hm).bind fun _ _ => .ret hx
  unfold copyBody
  dsimp only
  have e := dbase_eq' (E := E) (F := F) (hs.append hs0 ht.clean) hs0 hd ht
  have : ∀ (c : Prop) [Decidable c] (a b : M Uri) (g : Uri → M (List Str)), (if c then a >>= g else b >>= g) =
      (if c then a else b) >>= g := by intros; split <;> rfl
  rw [this, e]
  exact h

theorem tri_listdir (q : Nat) (u : Uri) : Tri r P (query fun w => listdir w q u) FineAll := by
  refine .query _ fun w l ht h => ?_
  unfold listdir at h
  cases hp : stripPath u with
  | error e => rw [hp] at h; simp at h
  | ok p =>
    rw [hp] at h
    simp only at h
    cases hg : getNode w q ((splitC '/' p).filter fun x => x ≠ []) with
    | error e => rw [hg] at h; simp at h
    | ok o =>
      rw [hg] at h
      cases o with
      | none => simp at h
      | some i =>
        simp only at h
        cases hn : w.node i with
        | file f => rw [hn] at h; simp at h
        | link f => rw [hn] at h; simp at h
        | dir d =>
          rw [hn] at h
          simp at h
          subst h
          intro c hc
          rw [mem_sortStr] at hc
          simp only [DirObj.keys, List.mem_map] at hc
          obtain ⟨⟨n, k⟩, h1, rfl⟩ := hc
          exact ht i n k (by rw [entries_dir hn]; exact h1)

theorem tri_classify (q : Nat) (top : Uri) (l : List Str) (hl : FineAll l) :
    Tri r P (classify q top l) fun x => FineAll x.1 ∧ FineAll x.2 := by
  induction l with
  | nil => exact .ret ⟨by simp [FineAll], by simp [FineAll]⟩
  | cons x l ih =>
    have hx := hl x (by simp)
    rw [classify]
    refine .lift_bind fun p _ => (Tri.query (Q := fun _ => True) _ fun _ _ _ _ => trivial).bind fun d _ =>
      (ih fun c hc => hl c (by simp [hc])).bind fun y hy => .ret ?_
    obtain ⟨a, b⟩ := y
    have key : ∀ l, FineAll l → FineAll (x :: l) := fun l h c hc => by
      rcases List.mem_cons.1 hc with rfl | hc
      · exact hx
      · exact h c hc
    dsimp only
    split
    · exact ⟨key _ hy.1, hy.2⟩
    · exact ⟨hy.1, key _ hy.2⟩

/-- walking a tree of fine names -/
theorem tri_walk {q : Nat} {σ : Type} {td f : Bool} {s : List Str}
    {body : σ → Uri → List Str → List Str → M (σ × List Str)} (hs : FineAll s)
    (h : ∀ x t d m, FineAll t → FineAll d → FineAll m → Tri r P (body x (mem E (s ++ t)) d m) fun y => FineAll y.2)
    (n : Nat) : ∀ t x, FineAll t → Tri r P (walk q td f body n (mem E (s ++ t)) x) fun _ => True := by
  induction n with
  | zero => intro t x _; exact .raise _
  | succ n ih =>
    intro t x ht
    rw [walk]
    have hd : ∀ l, FineAll l → ∀ x, Tri r P (walkDirs f (walk q td f body n) (mem E (s ++ t)) l x) fun _ => True := by
      intro l
      induction l with
      | nil => intro _ _; exact .ret trivial
      | cons y l ihl =>
        intro hl x
        have hy := hl y (by simp)
        have hl' : FineAll l := fun c hc => hl c (by simp [hc])
        rw [walkDirs]
        refine .lift_bind fun p hp => (tri_uIslink p).bind fun b _ => ?_
        rw [mem_div (hs.append ht).clean hy.1] at hp
        simp at hp
        subst hp
        have h2 := ih (t ++ [y]) x (ht.snoc hy)
        exact .ite (h2.bind fun z _ => ihl hl' z) (.ret_bind (ihl hl' x))
    refine (tri_listdir q _).bind fun names hn => (tri_classify q _ _ fun c hc => hn c (mem_sortStr.1 hc)).bind fun y hy => ?_
    obtain ⟨dirs, nondirs⟩ := y
    exact .ite ((h x t dirs nondirs ht hy.1 hy.2).bind fun z hz => hd z.2 hz z.1)
      ((hd dirs hy.1 x).bind fun x' _ => (h x' t dirs nondirs ht hy.1 hy.2).bind fun _ _ => .ret trivial)

include hE hF in
theorem tri_copyWalk (n : Nat) (ig : List Str) (f : Bool) {s d : List Str} (hs : Ok s) (hs0 : s ≠ []) (hfs : FineAll s)
    (hd : FineAll d) : Tri r P (copyWalk n r ig f (mem E s) (mem F d)) fun _ => True := by
  refine .withConn fun q => ?_
  have := tri_walk (r := r) (P := P) (E := E) (q := q) (td := true) (f := f) (s := s)
    (body := fun (_ : Unit) top dirs files => do
      let dirs' ← copyBody n r ig f ((mem E s).path.length + 1) (mem F d) top dirs files
      pure ((), dirs')) hfs (fun x t dd m ht hdd hm => (tri_copyBody hE hF n ig f hs hs0 hfs ht hd hdd hm).bind
        fun y hy => .ret hy) n [] () (by simp [FineAll])
  simpa using this

include hE hF in
theorem tri_copy (n : Nat) {s d : List Str} (rec : Bool) (ig : List Str) (f : Bool) (hs : Ok s) (hs0 : s ≠ [])
    (hfs : FineAll s) (hd : FineAll d) : Tri r P (copy n r (mem E s) (mem F d) rec ig f) fun _ => True := by
  obtain ⟨si, sn, rfl⟩ : ∃ si sn, s = si ++ [sn] := by
    rcases List.eq_nil_or_concat s with h | ⟨a, b, h⟩
    · exact absurd h hs0
    · exact ⟨a, b, by rw [h, List.concat_eq_append]⟩
  have hsn := hfs sn (by simp)
  have hlast : (mem F d).div (mem E (si ++ [sn])).last = .ok (mem F (d ++ [sn])) := by
    rw [mem_last hsn.1, mem_div hd.clean hsn.1]
  unfold copy
  have dest : ∀ {g : Uri → M Unit}, (∀ d', FineAll d' → d' ≠ [] → Tri r P (g (mem F d')) fun _ => True) →
      Tri r P (do
        let dest ← if ← uIsdir (mem F d) then M.lift ((mem F d).div (mem E (si ++ [sn])).last) else pure (mem F d)
        g dest) fun _ => True := by
    intro g hg
    refine (tri_uIsdir (mem F d)).bind fun b hb => ?_
    cases b with
    | true =>
      refine Tri.lift_bind fun a ha => ?_
      rw [hlast] at ha
      simp at ha
      subst ha
      exact hg _ (hd.snoc hsn) (by simp)
    | false =>
      refine Tri.ret_bind (hg d hd ?_)
      rintro rfl
      exact absurd (hb (stepsOf_mem Ok.nil F)) (by simp)
  have key : Tri r P (
      if !rec then do
        if !(← uIsfile (mem E (si ++ [sn]))) then raise .assertionError
        let dest ← if ← uIsdir (mem F d) then M.lift ((mem F d).div (mem E (si ++ [sn])).last) else pure (mem F d)
        copyOne r (mem E (si ++ [sn])) dest f
      else do
        if !(← uIsdir (mem E (si ++ [sn]))) then raise .assertionError
        let droot ← if ← uIsdir (mem F d) then M.lift ((mem F d).div (mem E (si ++ [sn])).last) else pure (mem F d)
        if (← uIslink (mem E (si ++ [sn]))) && !f then copyLink r (mem E (si ++ [sn])) droot
        else
          uMakedirs n droot
          copyWalk n r ig f (mem E (si ++ [sn])) droot : M Unit) fun _ => True := by
    refine .ite ?_ ?_
    · refine (tri_uIsfile _).bind fun b _ => ?_
      have h1 := dest (g := fun x => copyOne r (mem E (si ++ [sn])) x f) fun d' hd' hne =>
        tri_copyOne (hE _ hfs) (hF _ hd') (fineUri_mem hd') (notRoot_mem hd' hne) f
      cases b with
      | true => exact h1
      | false => exact (Tri.raise (Q := fun _ => True) _).bind fun _ _ => h1
    · refine (tri_uIsdir _).bind fun b _ => ?_
      have h1 := dest (g := fun x => do
          if (← uIslink (mem E (si ++ [sn]))) && !f then copyLink r (mem E (si ++ [sn])) x
          else
            uMakedirs n x
            copyWalk n r ig f (mem E (si ++ [sn])) x) fun d' hd' _ =>
        (tri_uIslink _).bind fun b _ => .ite (tri_copyLink _ (fineUri_mem hd'))
          ((tri_uMakedirs hF n hd').bind fun _ _ => tri_copyWalk hE hF n ig f hs (by simp) hfs hd')
      cases b with
      | true => exact h1
      | false => exact (Tri.raise (Q := fun _ => True) _).bind fun _ _ => h1
  refine (tri_uExists _).bind fun b _ => ?_
  cases b with
  | true => exact key
  | false => exact (Tri.raise (Q := fun _ => True) _).bind fun _ _ => key

end

/-! ## Whole calls -/

/-- `Tri` for calls through the front end -/
def Good (P : Uri → Prop) {α : Type} (m : M α) : Prop :=
  ∀ w, Mem.Inv w → Tidy w → Tidy (m w).2 ∧
    ∀ s, IsRoot w s → (∀ u, P u → w.connOf (connKey u) ≠ some s) → Same s w (m w).2

theorem Good.withConn {P : Uri → Prop} {α : Type} {u : Uri} {m : Meth} {body : Nat → M α} {Q : α → Prop} (hu : P u)
    (h : ∀ r, Tri r P (body r) Q) : Good P (Mem.withConn u m body) := by
  intro w hw ht
  obtain ⟨h1, h2, h3⟩ := getConnection_pres u w hw
  have h4 := getConnection_tidy u w hw ht
  have h5 := fun s hs => getConnection_same u w hw (s := s) hs
  unfold Mem.withConn
  rw [bind_apply]
  cases hg : getConnection u w with
  | mk x w1 =>
    have h6 : ∀ r, x = .ok r → ∀ s, IsRoot w s → w.connOf (connKey u) ≠ some s → r ≠ s := fun r hx s hs hav =>
      getConnection_avoids hw hs hav (by rw [hg]; exact hx)
    rw [hg] at h1 h2 h3 h4 h5
    cases x with
    | error e => exact ⟨h4, fun s s1 _ => h5 s s1⟩
    | ok r =>
      have hb : Tri r P (preCallHook r u m >>= fun _ => body r) Q := by
        refine Tri.bind (Tri.of (P := P) ((preCallHook_pres r u m).keeps r) ?_ ?_) fun _ _ => h r
        · intro w _ _ ht; rw [preCallHook_state]; exact ht
        · intro s _ w _ _ _ _; rw [preCallHook_state]; exact .rfl' s w
      obtain ⟨b1, b2, b3, b4, b5⟩ := hb w1 h1 (h3 r rfl) h4
      exact ⟨b3, fun s s1 s3 => (h5 s s1).trans (b4 s (h2.isRoot s1) (h6 r rfl s s1 (s3 u hu)) fun v hv =>
        avoids_ext h1 h2 s1 (s3 v hv))⟩

theorem Good.tri {P : Uri → Prop} {α : Type} {m : M α} (hm : Pres m) (h : Good P m) (r : Nat) :
    Tri r P m fun _ => True :=
  fun w hw _ ht => ⟨(hm w hw).1, (hm w hw).2, (h w hw ht).1, fun s s1 _ s3 => (h w hw ht).2 s s1 s3, fun _ _ => trivial⟩

theorem Good.tidy {P : Uri → Prop} {α : Type} {m : M α} (h : Good P m) : TidyAll m := fun w hw ht => (h w hw ht).1

theorem good_uCopy {P : Uri → Prop} {E F : Dict} (hE : ∀ cs, FineAll cs → P (mem E cs))
    (hF : ∀ cs, FineAll cs → P (mem F cs)) (n : Nat) {s d : List Str} (rec : Bool) (ig : List Str) (f : Bool) (hs : Ok s)
    (hs0 : s ≠ []) (hfs : FineAll s) (hd : FineAll d) : Good P (uCopy n (mem E s) (mem F d) rec ig f) :=
  .withConn (hE s hfs) fun _ => tri_copy hE hF n rec ig f hs hs0 hfs hd

theorem tidy_walkDirs {r : Nat} {σ : Type} {f : Bool} {visit : Uri → σ → M σ} (hk : ∀ u s, Keeps r (visit u s))
    (h : ∀ u t, TidyAt r (visit u t)) (top : Uri) (l : List Str) (t : σ) : TidyAt r (walkDirs f visit top l t) := by
  induction l generalizing t with
  | nil => exact .ret _
  | cons x l ih =>
    rw [walkDirs]
    refine .bind ((Pres.lift _).keeps r) (.lift _) fun p =>
      .bind ((pres_uIslink p).keeps r) ((tidy_query_conn _ _ _).at r) fun b => ?_
    split
    · exact .bind (hk p t) (h p t) fun _ => ih _
    · exact .bind ((Pres.ret _).keeps r) (.ret _) fun _ => ih _

theorem quiet_classify (r : Nat) (top : Uri) (l : List Str) : Quiet (classify r top l) := by
  induction l with
  | nil => exact .ret _
  | cons x l ih =>
    rw [classify]
    exact (Quiet.lift _).bind fun p => Quiet.bind (fun _ _ => rfl) fun d => ih.bind fun _ => .ret _

theorem tidy_walk {r q : Nat} {σ : Type} {td f : Bool} {body : σ → Uri → List Str → List Str → M (σ × List Str)}
    (hk : ∀ s u d n, Keeps r (body s u d n)) (h : ∀ t u d n, TidyAt r (body t u d n)) (n : Nat) (u : Uri) (t : σ) :
    TidyAt r (walk q td f body n u t) := by
  induction n generalizing u t with
  | zero => exact .raise _
  | succ n ih =>
    rw [walk]
    refine .bind ((Pres.query _).keeps r) (.query _) fun names =>
      .bind ((pres_classify q u _).keeps r) (quiet_classify q u _).tidyAt fun x => ?_
    obtain ⟨dirs, nondirs⟩ := x
    simp only
    have hd := fun l t => tidy_walkDirs (f := f) (visit := walk q td f body n)
      (fun u s => keeps_walk hk n u s) ih u l t
    have hd' := fun l t => keeps_walkDirs (f := f) (visit := walk q td f body n)
      (fun u s => keeps_walk hk n u s) u l t
    split
    · exact .bind (hk t u dirs nondirs) (h t u dirs nondirs) fun x => hd x.2 x.1
    · exact .bind (hd' dirs t) (hd dirs t) fun t' => .bind (hk t' u dirs nondirs) (h t' u dirs nondirs) fun _ => .ret _

theorem tidy_removeBody (r : Nat) (top : Uri) (dirs files : List Str) : TidyAt r (removeBody r top dirs files) := by
  unfold removeBody
  refine .bind (Keeps.forM files fun f => ((Pres.lift _).bind fun p => pres_removefile r p).keeps r) ?_ fun _ => ?_
  · exact TidyAt.forM files (fun f => ((Pres.lift _).bind fun p => pres_removefile r p).keeps r) fun f =>
      .bind ((Pres.lift _).keeps r) (.lift _) fun p => tidy_removefile r p
  · exact TidyAt.forM dirs (fun d => ((Pres.lift _).bind fun p => (Pres.query _).bind fun b =>
      .ite (pres_removefile r p) (pres_removedir r p)).keeps r) fun d =>
      .bind ((Pres.lift _).keeps r) (.lift _) fun p => .bind ((Pres.query _).keeps r) (.query _) fun b =>
        .ite (tidy_removefile r p) (tidy_removedir r p)

theorem tidy_removeDirRec (n r : Nat) (u : Uri) : TidyAt r (removeDirRec n r u) := by
  unfold removeDirRec
  refine .bind (keeps_walk (fun _ u d f => (pres_removeBody r u d f).bind fun _ => (Pres.ret _).keeps r) n u ()) ?_
    fun _ => ?_
  · exact tidy_walk (fun _ u d f => (pres_removeBody r u d f).bind fun _ => (Pres.ret _).keeps r)
      (fun _ u d f => .bind (pres_removeBody r u d f) (tidy_removeBody r u d f) fun _ => .ret _) n u ()
  · exact .bind ((Pres.query _).keeps r) (.query _) fun b => .ite (tidy_removefile r u) (tidy_removedir r u)

theorem tidy_uRemove (n : Nat) (u : Uri) (rec : Bool) : TidyAll (uRemove n u rec) := by
  refine .withConn fun r => ?_
  refine .bind ((Pres.query _).keeps r) (.query _) fun b => .ite (tidy_removefile r u) ?_
  refine .bind ((Pres.query _).keeps r) (.query _) fun b => .ite (.raise _) ?_
  refine .bind ((Pres.query _).keeps r) (.query _) fun b => .ite (.ite (tidy_removeDirRec n r u) (tidy_removedir r u)) ?_
  exact .bind ((Pres.query _).keeps r) (.query _) fun b => .ite (tidy_removefile r u) (.ret _)

theorem good_uRemove {P : Uri → Prop} {u : Uri} (hu : P u) (n : Nat) (rec : Bool) : Good P (uRemove n u rec) :=
  fun w hw ht => ⟨tidy_uRemove n u rec w hw ht, fun _ hs hav => spares_uRemove hu n rec w hw hs hav⟩

theorem good_uMove {P : Uri → Prop} {E F : Dict} (hE : ∀ cs, FineAll cs → P (mem E cs))
    (hF : ∀ cs, FineAll cs → P (mem F cs)) (n : Nat) {s d : List Str} (hs : Ok s) (hs0 : s ≠ []) (hfs : FineAll s)
    (hd : FineAll d) : Good P (uMove n (mem E s) (mem F d)) := by
  refine .withConn (Q := fun _ => True) (hE s hfs) fun r => ?_
  have h1 := fun rec => (good_uCopy hE hF n rec [] true hs hs0 hfs hd).tri (pres_uCopy n _ _ _ _ _) r
  have h2 := fun rec => (good_uRemove (hE s hfs) n rec).tri (pres_uRemove n _ _) r
  exact (tri_uIsfile _).bind fun b _ => .ite ((h1 _).bind fun _ _ => h2 _) ((h1 _).bind fun _ _ => h2 _)

theorem tidy_uMakedirs (n : Nat) {E : Dict} {cs : List Str} (h : FineAll cs) : TidyAll (uMakedirs n (mem E cs)) :=
  (Good.withConn (P := fun _ => True) trivial fun _ => tri_makedirs (fun _ _ => trivial) n cs h).tidy

theorem tidy_uWalk (n : Nat) (u : Uri) (td f : Bool) : TidyAll (uWalk n u td f) :=
  .withConn fun r => tidy_walk (fun _ _ _ _ => (Pres.ret _).keeps r) (fun _ _ _ _ => .ret _) n u _

theorem tidy_uGlob (u : Uri) (m : Str → Bool) : TidyAll (uGlob u m) :=
  .withConn fun r => .bind ((pres_uListdir u).keeps r) ((tidy_query_conn _ _ _).at r) fun l => by
    induction l.filter m with
    | nil => exact .ret _
    | cons x l ih =>
      rw [List.mapM_cons]
      exact .bind ((Pres.lift _).keeps r) (.lift _) fun _ =>
        .bind ((Pres.mapM _ fun _ => .lift _).keeps r) ih fun _ => .ret _

theorem quiet_md5Loop (h : Handle) (n : Nat) : Quiet (md5Loop h n) := by
  induction n with
  | zero => exact .raise _
  | succ n ih =>
    rw [md5Loop]
    refine (quiet_read h _).bind fun d => ?_
    cases d with
    | str t => exact .raise _
    | bytes b => exact .ite (.ret _) (ih.bind fun _ => .ret _)

theorem tidy_uMd5 (u : Uri) : TidyAll (uMd5 u) :=
  .withConn fun r => .bind ((pres_uOpen u _).keeps r) ((tidy_uOpen_rb u).at r) fun h =>
    .bind ((pres_size h).keeps r) (quiet_size h).tidyAt fun _ => (quiet_md5Loop h _).tidyAt

theorem tidy_uLockEnter {u : Uri} (hu : FineUri u) (hn : NotRoot u) (a b : Bool) : TidyAll (uLockEnter u a b) := by
  refine .withConn fun r => .bind (keeps_open r u _) (tidy_open hu hn _) fun h => ?_
  refine .bind ((pres_withFile fun w _ hw _ => ⟨hw, .rfl' w⟩).keeps r) ?_ fun l => ?_
  · exact (Quiet.withFile fun _ _ _ _ => rfl).tidyAt
  · have ht : ∀ w, (tryAcquire l w).2.node = w.node := by
      intro w; unfold tryAcquire; split
      · rfl
      · exact node_acquire l w
    split
    · exact .bind ((pres_tryAcquire l).keeps r) (Quiet.of_node ht).tidyAt fun _ => .ret _
    · exact .bind ((pres_acquire l).keeps r) (Quiet.of_node (node_acquire l)).tidyAt fun _ => .ret _

theorem tidy_lockExit (n : Nat) (g : LockGuard) : TidyAll (lockExit n g) := by
  intro w hw ht
  unfold lockExit
  rw [bind_apply]
  have h1 := pres_release g.lock w hw
  have h2 := ht.of_node (node_release g.lock w)
  cases hr : release g.lock w with
  | mk x w1 =>
    rw [hr] at h1 h2
    cases x with
    | error e => exact h2
    | ok _ =>
      simp only
      split
      · exact tidy_uRemove n _ _ w1 h1.1 h2
      · exact h2

end Verif.Gen
