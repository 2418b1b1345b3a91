import Verif.Conc.Calls
import Verif.Mem.Calm
/-!
# What a thread that is alone does, unless a file system is made

`gen` counts the memory file systems that have been made (each clears FILE_LOCKS).
-/
namespace Verif.Conc
open Mem Mem.M Prog

/-- the accesses `p` in a row do what `m` does, if that makes no file system -/
def Agree {α : Type} (p : Prog α) (m : M α) : Prop := Calm m ∧ ∀ w, (m w).2.gen = w.gen → p.run w = m w

theorem Agree.of {α : Type} {p : Prog α} {m : M α} (hc : Calm m) (h : ∀ w, p.run w = m w) : Agree p m := ⟨hc, fun w _ => h w⟩

theorem Agree.bind {α β : Type} {p : Prog α} {m : M α} {f : α → Prog β} {g : α → M β} (h : Agree p m) (h' : ∀ a, Agree (f a) (g a)) :
    Agree (p >>= f) (m >>= g) := by
  refine ⟨h.1.bind fun a => (h' a).1, fun w hw => ?_⟩
  rw [run_bind_apply]
  rw [bind_apply] at hw ⊢
  have h1 := h.1 w
  have h2 := h.2 w
  rcases hm : m w with ⟨x, w1⟩
  rw [hm] at h1 h2 hw
  dsimp only at h1 h2 hw
  cases x with
  | error e => rw [h2 hw]
  | ok a =>
    dsimp only at hw ⊢
    have h3 := ((h' a).1 w1).2
    have e : w1.gen = w.gen := by omega
    rw [h2 e]
    exact (h' a).2 w1 (by omega)

theorem Agree.ret {α : Type} (a : α) : Agree (pure a) (pure a : M α) := .of (.ret a) fun _ => rfl
theorem Agree.raise {α : Type} (e : PyErr) : Agree (Prog.raise e) (M.raise e : M α) := .of (.raise e) fun _ => rfl

theorem Agree.ite {α : Type} {c : Prop} [Decidable c] {p p' : Prog α} {m m' : M α} (h : Agree p m) (h' : Agree p' m') :
    Agree (if c then p else p') (if c then m else m') := by split <;> assumption

theorem agree_conn {α : Type} {u : Uri} {m : Meth} {body : Nat → Prog α} {body' : Nat → M α} (h : ∀ r, Agree (body r) (body' r)) :
    Agree (cConn u m body) (withConn u m body') := by
  unfold cConn withConn
  refine Agree.bind (m := getConnection u) ⟨calm_getConnection u, fun w hw => ?_⟩ fun r =>
    Agree.bind (.of ((Calm.lift _).bind fun _ => .query _) fun _ => rfl) fun _ => h r
  rw [run_call, query_apply]
  unfold getConnection at hw ⊢
  split
  · rfl
  · rename_i hr
    rw [if_neg hr] at hw
    split
    · rename_i hs
      rw [if_pos hs] at hw
      cases hn : w.connOf (connKey u) with
      | some r => rfl
      | none =>
        rw [hn] at hw
        dsimp only at hw ⊢
        by_cases ht : truthy (connKey u).key.hostname = true
        · rw [createConn_host ht, if_pos ht]
        · rw [createConn_eq ht] at hw
          exact absurd hw (Nat.succ_ne_self _)
    · split <;> rfl

theorem agree_pump {inf outf : Handle} (n : Nat) : Agree (cPump inf outf n) (Gen.copyFileObj inf outf n) :=
  .of (Gen.calm_copyFileObj _ _ _) (run_pump n)

theorem agree_open (u : Uri) (o : Option Str) : Agree (cConn u .open_ fun r => cOpen r u o) (uOpen u o) :=
  agree_conn fun r => .of (calm_open r u o) fun w => run_open w r u o

theorem agree_size (h : Handle) : Agree (cSize h) h.size := .of (calm_size h) fun w => run_size w h

theorem agree_prim {β : Type} (p : Prim β) : Agree p.prog p.seq := by
  cases p with
  | conn u m => exact agree_conn fun _ => .ret _
  | exists_ r u => exact .of (.query _) fun w => run_exists w r u
  | isfile r u => exact .of (.query _) fun w => run_isfile w r u
  | isdir r u => exact .of (.query _) fun w => run_isdir w r u
  | islink r u => exact .of (.query _) fun w => run_islink w r u
  | readlink r u => exact .of (.query _) fun w => run_readlink w r u
  | listdir r u => exact .of (.query _) fun w => run_listdir w r u
  | mkdir r u => exact .of (calm_mkdir r u) fun w => run_mkdir w r u
  | symlink r t u => exact .of (calm_symlink r t u) fun w => run_symlink w r t u
  | removefile r u => exact .of (calm_removefile r u) fun w => run_removefile w r u
  | removedir r u => exact .of (calm_removedir r u) fun w => run_removedir w r u
  | copystat r u v => exact .of (calm_copystat r u v) fun w => run_copystat w r u v
  | content u v => exact (agree_open u _).bind fun a => (agree_open v _).bind fun b => (agree_size a).bind fun n => agree_pump _
  | md5 u => exact agree_conn fun _ => (agree_open u _).bind fun a => (agree_size a).bind fun n => .of (Gen.calm_md5Loop _ _) (run_blocks _)

theorem agree_op {α : Type} (op : Op α) : Agree op.prog op.seq := by
  induction op with
  | ret r => exact .of (fun _ => ⟨rfl, Nat.le_refl _⟩) fun _ => rfl
  | ask p k ih =>
    have hp := agree_prim p
    refine ⟨fun w => ?_, fun w hw => ?_⟩
    · have h1 := hp.1 w
      have h2 := (ih (p.seq w).1).1 (p.seq w).2
      exact ⟨h2.1.trans h1.1, Nat.le_trans h1.2 h2.2⟩
    · have h1 := (hp.1 w).2
      have h2 := ((ih (p.seq w).1).1 (p.seq w).2).2
      change ((k (p.seq w).1).seq (p.seq w).2).2.gen = w.gen at hw
      show (p.prog.after fun x => (k x).prog).run w = (k (p.seq w).1).seq (p.seq w).2
      rw [run_after, hp.2 w (by omega)]
      exact (ih _).2 _ (by omega)

theorem agree_ans {α : Type} {hs : List Handle} {f : α → Ans} {p : Prog α} {m : M α} (h : Agree p m) : Agree (ans hs f p) (sAns hs f m) :=
  h.bind fun _ => .ret _

theorem agree_onFd {α : Type} {hs : List Handle} {k : Nat} {f : α → Ans} {p : Handle → Prog α} {m : Handle → M α} (h : ∀ x, Agree (p x) (m x)) :
    Agree (onFd hs k f p) (sOnFd hs k f m) := by
  unfold onFd sOnFd
  cases hs[k]? with
  | none => exact .raise _
  | some x => exact agree_ans (h x)

theorem agree_remove (u : Uri) : Agree (cRemove u) (Gen.uRemove 0 u) := by
  unfold cRemove Gen.uRemove
  exact agree_conn fun r => Agree.bind (.of (.query _) fun w => run_islink w r u) fun b => .ite (.of (calm_removefile r u) fun w => run_removefile w r u)
    (Agree.bind (.of (.query _) fun w => run_exists w r u) fun b => .ite (.raise _)
      (Agree.bind (.of (.query _) fun w => run_isdir w r u) fun b => .ite (.of (calm_removedir r u) fun w => run_removedir w r u)
        (Agree.bind (.of (.query _) fun w => run_isfile w r u) fun b => .ite (.of (calm_removefile r u) fun w => run_removefile w r u) (.ret _))))

theorem agree_call (c : Call) (hs : List Handle) : Agree (c.prog hs) (c.seq hs) := by
  cases c with
  | exists_ u => exact agree_ans (agree_conn fun r => .of (.query _) fun w => run_exists w r u)
  | isfile u => exact agree_ans (agree_conn fun r => .of (.query _) fun w => run_isfile w r u)
  | isdir u => exact agree_ans (agree_conn fun r => .of (.query _) fun w => run_isdir w r u)
  | islink u => exact agree_ans (agree_conn fun r => .of (.query _) fun w => run_islink w r u)
  | readlink u => exact agree_ans (agree_conn fun r => .of (.query _) fun w => run_readlink w r u)
  | listdir u => exact agree_ans (agree_conn fun r => .of (.query _) fun w => run_listdir w r u)
  | info u f => exact agree_ans (agree_conn fun r => .of (.query _) fun w => run_info w r u f)
  | mtime u => exact agree_ans (agree_conn fun r => .of (.query _) fun w => run_mtime w r u)
  | isexec u k => exact agree_ans (agree_conn fun r => .of (.query _) fun w => run_isexec w r u k)
  | setExec u m => exact agree_ans (agree_conn fun r => .of (calm_setExec r u m) fun w => run_setExec w r u m)
  | setInfo u s f => exact agree_ans (agree_conn fun r => .of (calm_setInfo r u s f) fun w => run_setInfo w r u s f)
  | copystat u v => exact agree_ans (agree_conn fun r => .of (calm_copystat r u v) fun w => run_copystat w r u v)
  | mkdir u => exact agree_ans (agree_conn fun r => .of (calm_mkdir r u) fun w => run_mkdir w r u)
  | symlink u v => exact agree_ans (agree_conn fun r => .of (calm_symlink r u v) fun w => run_symlink w r u v)
  | remove u => exact agree_ans (agree_remove u)
  | open_ u o => exact (agree_open u o).bind fun _ => .ret _
  | write k d => exact agree_onFd fun h => .of (calm_write h d) fun w => run_write w h d
  | read k n => exact agree_onFd fun h => .of (calm_read h n) fun w => run_read w h n
  | seek k t wh => exact agree_onFd fun h => .of (calm_seek h t wh) fun w => run_seek w h t wh
  | tell k => exact agree_onFd fun h => .of (calm_tell h) fun w => run_tell w h
  | size k => exact agree_onFd fun h => .of (calm_size h) fun w => run_size w h
  | truncate k n => exact agree_onFd fun h => .of (calm_truncate h n) fun w => run_truncate w h n
  | close k => exact agree_onFd fun h => .of (calm_close h) fun w => run_close w h
  | readline k => exact agree_onFd fun h => .of (calm_readline h) fun w => run_readline w h
  | tree t =>
    show Agree (ans hs id t.op.prog) (sAns hs id t.seq)
    rw [← seq_tree]
    exact agree_ans (agree_op _)

/-- An uninterrupted script that makes no file system. -/
theorem agree_script (sc : Script) : ∀ (hs : List Handle) (log : Log) (w : World), w.gen ≤ (sc.seq hs log w).2.gen ∧
    ((sc.seq hs log w).2.gen = w.gen → (sc.prog hs log).run w = (.ok (sc.seq hs log w).1, (sc.seq hs log w).2)) := by
  induction sc with
  | done => exact fun hs log w => ⟨Nat.le_refl _, fun _ => rfl⟩
  | call c k ih =>
    intro hs log w
    have h := agree_call c hs
    have h1 := (h.1 w).2
    have h2 := h.2 w
    rw [Script.prog, run_after, Script.seq]
    rcases hx : c.seq hs w with ⟨x, w'⟩
    rw [hx] at h1 h2
    dsimp only at h1 h2
    cases x with
    | ok x =>
      dsimp only
      have h3 := ih (.ok x.1) x.2 (log ++ [.ok x.1]) w'
      refine ⟨Nat.le_trans h1 h3.1, fun e => ?_⟩
      rw [h2 (by omega)]
      exact h3.2 (by omega)
    | error e =>
      dsimp only
      have h3 := ih (.error e) hs (log ++ [.error e]) w'
      refine ⟨Nat.le_trans h1 h3.1, fun e => ?_⟩
      rw [h2 (by omega)]
      exact h3.2 (by omega)

/-- A thread that is alone and makes no file system. -/
theorem alone_agree {w : World} {scripts : Nat → Script} {t : Nat} (hw : ((scripts t).seq [] [] w).2.gen = w.gen) :
    ∃ n, ∀ m, n ≤ m → ((Pool.start w scripts).run (List.replicate m t)).log t = some ((scripts t).seq [] [] w).1 ∧
      ((Pool.start w scripts).run (List.replicate m t)).world = ((scripts t).seq [] [] w).2 := by
  obtain ⟨n, hn⟩ := turns (t := t) (s := Pool.start w scripts) rfl
  refine ⟨n, fun m hm => ?_⟩
  have h := (agree_script (scripts t) [] [] w).2 hw
  obtain ⟨h1, h2⟩ : _ = Prog.ret (((scripts t).prog [] []).run w).1 ∧ _ = (((scripts t).prog [] []).run w).2 := hn m hm
  rw [h] at h1 h2
  exact ⟨by rw [Pool.log, h1], h2⟩

end Verif.Conc
