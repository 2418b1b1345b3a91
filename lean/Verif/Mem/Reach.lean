import Verif.Mem.Pres
import Verif.Spec.Follow
/-!
# API calls, histories and reachable states
-/
namespace Verif.Mem
open M Spec

/-- One call of the API (or of a file handle).  Handles and lock guards are arbitrary values: histories in
    which they stem from an earlier call are among these.  `forget` is the effect of a registry cleanup
    (fs.py:134-143) that drops the connections with the given roots. -/
inductive Op
  | exists_ (u : Uri) | isfile (u : Uri) | isdir (u : Uri) | islink (u : Uri) | readlink (u : Uri)
  | isexec (u : Uri) (k : Int) | setExec (u : Uri) (m : Int) | symlink (t u : Uri) | mtime (u : Uri)
  | listdir (u : Uri) | info (u : Uri) (f : Bool) | setInfo (u : Uri) (s : SetInfo) (f : Bool)
  | copystat (u v : Uri) | open_ (u : Uri) (o : Option Str) | mkdir (u : Uri) | manipulate (u : Uri) (a : Manip)
  | makedirs (n : Nat) (u : Uri) | walk (n : Nat) (u : Uri) (td f : Bool) | glob (u : Uri) (m : Str → Bool)
  | remove (n : Nat) (u : Uri) (rec : Bool) | copy (n : Nat) (u v : Uri) (rec : Bool) (ig : List Str) (f : Bool)
  | move (n : Nat) (u v : Uri) | md5 (u : Uri)
  | lockEnter (u : Uri) (a b : Bool) | lockExit (n : Nat) (g : Gen.LockGuard)
  | write (h : Handle) (d : PyData) | read (h : Handle) (n : Int) | seek (h : Handle) (t wh : Int)
  | tell (h : Handle) | size (h : Handle) | truncate (h : Handle) (n : Option Int) | close (h : Handle)
  | readline (h : Handle) | next (h : Handle)
  | forget (rs : List Nat)

/-- the state after a call, whether it returned or raised -/
def Op.run : Op → World → World
  | .exists_ u, w => (uExists u w).2
  | .isfile u, w => (uIsfile u w).2
  | .isdir u, w => (uIsdir u w).2
  | .islink u, w => (uIslink u w).2
  | .readlink u, w => (uReadlink u w).2
  | .isexec u k, w => (uIsexec u k w).2
  | .setExec u m, w => (uSetExec u m w).2
  | .symlink t u, w => (uSymlink t u w).2
  | .mtime u, w => (uMtime u w).2
  | .listdir u, w => (uListdir u w).2
  | .info u f, w => (uInfo u f w).2
  | .setInfo u s f, w => (uSetInfo u s f w).2
  | .copystat u v, w => (uCopystat u v w).2
  | .open_ u o, w => (uOpen u o w).2
  | .mkdir u, w => (uMkdir u w).2
  | .manipulate u a, w => (uManipulate u a w).2
  | .makedirs n u, w => (Gen.uMakedirs n u w).2
  | .walk n u td f, w => (Gen.uWalk n u td f w).2
  | .glob u m, w => (Gen.uGlob u m w).2
  | .remove n u rec, w => (Gen.uRemove n u rec w).2
  | .copy n u v rec ig f, w => (Gen.uCopy n u v rec ig f w).2
  | .move n u v, w => (Gen.uMove n u v w).2
  | .md5 u, w => (Gen.uMd5 u w).2
  | .lockEnter u a b, w => (Gen.uLockEnter u a b w).2
  | .lockExit n g, w => (Gen.lockExit n g w).2
  | .write h d, w => (h.write d w).2
  | .read h n, w => (h.read n w).2
  | .seek h t wh, w => (h.seek t wh w).2
  | .tell h, w => (h.tell w).2
  | .size h, w => (h.size w).2
  | .truncate h n, w => (h.truncate n w).2
  | .close h, w => (h.close w).2
  | .readline h, w => (h.readline w).2
  | .next h, w => (h.next w).2
  | .forget rs, w => { w with conns := w.conns.filter fun c => c.2 ∉ rs }

/-- the state after a history of calls -/
def runAll (ops : List Op) (w : World) : World := ops.foldl (fun w o => o.run w) w

/-- the states that some history leads to, for some behaviour of the clock -/
def Reachable (w : World) : Prop := ∃ clock ops, runAll ops (World.init clock) = w

theorem inv_init (clock : Nat → Int) : Inv (World.init clock) := by
  refine ⟨fun _ _ => rfl, ?_, ?_, ?_, ?_, ?_⟩ <;> simp [World.init, World.entries]

theorem Inv.forget {w : World} (hw : Inv w) (rs : List Nat) :
    Inv { w with conns := w.conns.filter fun c => c.2 ∉ rs } := by
  refine ⟨hw.fresh, hw.nodup, hw.child, hw.uniq, ?_, ?_⟩
  · intro k r h; exact hw.root k r (List.mem_filter.1 h).1
  · exact hw.roots.sublist ((List.filter_sublist).map _)

/-- a call is not a clean-up -/
def Op.isForget : Op → Bool
  | .forget _ => true
  | _ => false

/-- every call but a clean-up only extends the state -/
theorem Op.ext {w : World} (hw : Inv w) (o : Op) (ho : o.isForget = false) : Inv (o.run w) ∧ Ext w (o.run w) := by
  cases o with
  | exists_ u => exact pres_uExists u w hw
  | isfile u => exact pres_uIsfile u w hw
  | isdir u => exact pres_uIsdir u w hw
  | islink u => exact pres_uIslink u w hw
  | readlink u => exact pres_uReadlink u w hw
  | isexec u k => exact pres_uIsexec u k w hw
  | setExec u m => exact pres_uSetExec u m w hw
  | symlink t u => exact pres_uSymlink t u w hw
  | mtime u => exact pres_uMtime u w hw
  | listdir u => exact pres_uListdir u w hw
  | info u f => exact pres_uInfo u f w hw
  | setInfo u s f => exact pres_uSetInfo u s f w hw
  | copystat u v => exact pres_uCopystat u v w hw
  | open_ u o => exact pres_uOpen u o w hw
  | mkdir u => exact pres_uMkdir u w hw
  | manipulate u a => exact pres_uManipulate u a w hw
  | makedirs n u => exact Gen.pres_uMakedirs n u w hw
  | walk n u td f => exact Gen.pres_uWalk n u td f w hw
  | glob u m => exact Gen.pres_uGlob u m w hw
  | remove n u rec => exact Gen.pres_uRemove n u rec w hw
  | copy n u v rec ig f => exact Gen.pres_uCopy n u v rec ig f w hw
  | move n u v => exact Gen.pres_uMove n u v w hw
  | md5 u => exact Gen.pres_uMd5 u w hw
  | lockEnter u a b => exact Gen.pres_uLockEnter u a b w hw
  | lockExit n g => exact Gen.pres_lockExit n g w hw
  | write h d => exact pres_write h d w hw
  | read h n => exact pres_read h n w hw
  | seek h t wh => exact pres_seek h t wh w hw
  | tell h => exact pres_tell h w hw
  | size h => exact pres_size h w hw
  | truncate h n => exact pres_truncate h n w hw
  | close h => exact pres_close h w hw
  | readline h => exact pres_readline h w hw
  | next h => exact pres_next h w hw
  | forget rs => simp [Op.isForget] at ho

theorem Op.keeps {w : World} (hw : Inv w) (o : Op) : Inv (o.run w) ∧ Stays w (o.run w) := by
  cases ho : o.isForget with
  | false => exact (o.ext hw ho).imp_right Ext.stays
  | true =>
    cases o with
    | forget rs =>
      exact ⟨hw.forget rs, Nat.le_refl _, fun _ _ _ h => .inl h, fun _ _ h => .inl (List.mem_filter.1 h).1,
        Nat.le_refl _, fun _ _ => .rfl' _ _ _⟩
    | _ => simp [Op.isForget] at ho

theorem Op.inv {w : World} (hw : Inv w) (o : Op) : Inv (o.run w) := (o.keeps hw).1

theorem stays_runAll {w : World} (hw : Inv w) (ops : List Op) : Stays w (runAll ops w) := by
  induction ops generalizing w with
  | nil => exact (Ext.rfl' w).stays
  | cons o ops ih => exact (o.keeps hw).2.trans (ih (o.keeps hw).1)

/-- an object that is there already is nowhere but where it was -/
theorem Stays.phys {w w' : World} (hw : Inv w) (h : Stays w w') {r i : Nat} {q : List Str}
    (hp : phys w' r q = some i) (hi : i < w.next) : phys w r q = some i := by
  induction q using List.reverseRecOn generalizing i with
  | nil => exact hp
  | append_singleton q n ih =>
    rw [phys_snoc] at hp ⊢
    rw [Option.bind_eq_some_iff] at hp
    obtain ⟨j, h1, h2⟩ := hp
    have h3 : (n, i) ∈ w.entries j := by
      rcases h.entries j n i (lookup_mem h2) with h3 | h3
      · exact h3
      · omega
    have h4 := hw.child j n i h3
    rw [ih h1 (by omega)]
    exact mem_lookup (hw.nodup j) h3

theorem inv_runAll {w : World} (hw : Inv w) (ops : List Op) : Inv (runAll ops w) := by
  induction ops generalizing w with
  | nil => exact hw
  | cons o ops ih => exact ih (o.inv hw)

theorem Reachable.inv {w : World} (h : Reachable w) : Inv w := by
  obtain ⟨clock, ops, rfl⟩ := h; exact inv_runAll (inv_init clock) ops

theorem Reachable.step {w : World} (h : Reachable w) (o : Op) : Reachable (o.run w) := by
  obtain ⟨clock, ops, rfl⟩ := h
  exact ⟨clock, ops ++ [o], by simp [runAll]⟩

/-! ## Which file system a URI belongs to -/

/-- `u` is a memory URI whose file system has root directory `r`, and no fault is injected for it. -/
structure Serves (w : World) (u : Uri) (r : Nat) : Prop where
  scheme : u.scheme = some cl!"memory"
  extras : u.allExtras.any (fun kv => kv.1 ∈ reservedNames) = false
  conn : w.connOf (connKey u) = some r
  hook : ∀ p cb m, stripPath u = .ok p → (w.hooks r).lookup p = some (some cb) → cb m = none

theorem connOf_mem {w : World} {k : ConnKey} {r : Nat} (h : w.connOf k = some r) : IsRoot w r := by
  unfold World.connOf at h
  rw [Option.map_eq_some_iff] at h
  obtain ⟨⟨k', r'⟩, h1, h2⟩ := h
  simp at h2
  subst h2
  exact ⟨k', List.mem_of_find?_eq_some h1⟩

theorem Serves.isRoot {w : World} {u : Uri} {r : Nat} (h : Serves w u r) : IsRoot w r := connOf_mem h.conn

theorem getConnection_serves {w : World} {u : Uri} {r : Nat} (h : Serves w u r) : getConnection u w = (.ok r, w) := by
  unfold getConnection
  rw [h.extras, h.conn, if_pos h.scheme]
  simp

theorem preCallHook_serves {w : World} {u : Uri} {r : Nat} {p : Str} (h : Serves w u r) (hp : stripPath u = .ok p)
    (m : Meth) : preCallHook r u m w = (.ok (), w) := by
  unfold preCallHook
  rw [bind_ok (by rw [lift_apply, hp])]
  simp only [query_apply]
  cases hl : (w.hooks r).lookup p with
  | none => rfl
  | some o =>
    cases o with
    | none => rfl
    | some cb => simp only [h.hook p cb m hp hl]

theorem withConn_serves {α : Type} {w : World} {u : Uri} {r : Nat} {ts : List Str} (h : Serves w u r)
    (hs : stepsOf u = some ts) (m : Meth) (body : Nat → M α) : withConn u m body w = body r w := by
  obtain ⟨p, hp, -⟩ := stepsOf_strip hs
  unfold withConn
  rw [bind_ok (getConnection_serves h), bind_ok (preCallHook_serves h hp m)]

theorem withConn_bad {α : Type} {w : World} {u : Uri} {r : Nat} (h : Serves w u r)
    (hs : stepsOf u = none) (m : Meth) (body : Nat → M α) : withConn u m body w = (.error .assertionError, w) := by
  unfold withConn
  rw [bind_ok (getConnection_serves h), bind_error]
  unfold preCallHook
  rw [bind_error]
  rw [lift_apply, stepsOf_bad hs]

theorem find_prefix {α : Type} {l l' : List α} {p : α → Bool} {a : α} (h : l <+: l') (hf : l.find? p = some a) :
    l'.find? p = some a := by
  obtain ⟨t, rfl⟩ := h; rw [List.find?_append, hf]; rfl

/-- a change of the heap alone, or further connections, do not matter -/
theorem Serves.congr {w w' : World} {u : Uri} {r : Nat} (h : Serves w u r) (h1 : w.conns <+: w'.conns)
    (h2 : w'.hooks r = w.hooks r) : Serves w' u r := by
  refine ⟨h.scheme, h.extras, ?_, ?_⟩
  · have := h.conn
    unfold World.connOf at this ⊢
    rw [Option.map_eq_some_iff] at this ⊢
    obtain ⟨a, h3, h4⟩ := this
    exact ⟨a, find_prefix h1 h3, h4⟩
  · rw [h2]; exact h.hook

/-- Two URIs with the same connection key belong to the same file system. -/
theorem Serves.unique {w : World} {u : Uri} {r r' : Nat} (h : Serves w u r) (h' : Serves w u r') : r = r' := by
  have := h.conn.symm.trans h'.conn; simpa using this

end Verif.Mem
