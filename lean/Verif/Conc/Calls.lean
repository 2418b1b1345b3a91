import Verif.Conc.Seq
import Verif.Conc.Threads
import Verif.Conc.OpSeq
import Verif.Gen.Tree
import Mathlib.Data.Nat.Find
/-!
# A thread that is alone does what the sequential model says
-/
namespace Verif.Conc
open Mem Mem.M Prog

/-- the answer of an uninterrupted call -/
def sAns {α : Type} (hs : List Handle) (f : α → Ans) (p : M α) : M (Ans × List Handle) := do
  let x ← p
  pure (f x, hs)

/-- an uninterrupted call on the `k`-th file object -/
def sOnFd {α : Type} (hs : List Handle) (k : Nat) (f : α → Ans) (p : Handle → M α) : M (Ans × List Handle) :=
  match hs[k]? with
  | some h => sAns hs f (p h)
  | none => Mem.M.raise .outside

/-- The calls on trees of the sequential model (fs.py:519-537, 556-607, 738-750, 783-801). -/
def TreeCall.seq : TreeCall → M Ans
  | .makedirs n u => do Gen.uMakedirs n u; pure .unit
  | .remove n u r => do Gen.uRemove n u r; pure .unit
  | .walk n u t f => do let l ← Gen.uWalk n u t f; pure (.rows l)
  | .glob u m => do let l ← Gen.uGlob u m; pure (.uris l)
  | .copy n u v r i f => do Gen.uCopy n u v r i f; pure .unit
  | .move n u v => do Gen.uMove n u v; pure .unit
  | .md5 u => do let l ← Gen.uMd5 u; pure (.blocks l)

/-- The calls of the sequential model (fs.py:519-775, 783-801, memory.py:18-301). -/
def Call.seq (hs : List Handle) : Call → M (Ans × List Handle)
  | .exists_ u => sAns hs .bool (uExists u)
  | .isfile u => sAns hs .bool (uIsfile u)
  | .isdir u => sAns hs .bool (uIsdir u)
  | .islink u => sAns hs .bool (uIslink u)
  | .readlink u => sAns hs .uri (uReadlink u)
  | .listdir u => sAns hs .names (uListdir u)
  | .info u f => sAns hs .info (uInfo u f)
  | .mtime u => sAns hs .int (uMtime u)
  | .isexec u k => sAns hs .bool (uIsexec u k)
  | .setExec u m => sAns hs (fun _ => .unit) (uSetExec u m)
  | .setInfo u s f => sAns hs (fun _ => .unit) (uSetInfo u s f)
  | .copystat u v => sAns hs (fun _ => .unit) (uCopystat u v)
  | .mkdir u => sAns hs (fun _ => .unit) (uMkdir u)
  | .symlink u n => sAns hs (fun _ => .unit) (uSymlink u n)
  | .remove u => sAns hs (fun _ => .unit) (Gen.uRemove 0 u)
  | .open_ u o => do
    let h ← uOpen u o
    pure (.fd hs.length, hs ++ [h])
  | .write k d => sOnFd hs k (fun _ => .unit) fun h => h.write d
  | .read k n => sOnFd hs k .data fun h => h.read n
  | .seek k t wh => sOnFd hs k (fun _ => .unit) fun h => h.seek t wh
  | .tell k => sOnFd hs k .nat fun h => h.tell
  | .size k => sOnFd hs k .nat fun h => h.size
  | .truncate k n => sOnFd hs k .int fun h => h.truncate n
  | .close k => sOnFd hs k (fun _ => .unit) fun h => h.close
  | .readline k => sOnFd hs k .data fun h => h.readline
  | .tree t => sAns hs id t.seq

/-- the URI that says which file system a call uses -/
def Call.site : Call → Option Uri
  | .exists_ u | .isfile u | .isdir u | .islink u | .readlink u | .listdir u | .info u _ | .mtime u | .isexec u _
  | .setExec u _ | .setInfo u _ _ | .copystat u _ | .mkdir u | .symlink u _ | .remove u | .open_ u _ => some u
  | _ => none

/-- the call is on a memory file system that is there already -/
def Call.Sited (w : World) (c : Call) : Prop := ∀ u, c.site = some u → u.scheme = some cl!"memory" ∧ w.connOf (connKey u) ≠ none

theorem run_ans {α : Type} {hs : List Handle} {f : α → Ans} {p : Prog α} {m : M α} {w : World} (h : p.run w = m w) :
    (ans hs f p).run w = sAns hs f m w := by
  unfold ans sAns
  rw [run_bind_apply, bind_apply, h]
  rcases m w with ⟨x, w'⟩
  cases x <;> rfl

theorem run_onFd {α : Type} {hs : List Handle} {k : Nat} {f : α → Ans} {p : Handle → Prog α} {m : Handle → M α} {w : World}
    (h : ∀ x, (p x).run w = m x w) : (onFd hs k f p).run w = sOnFd hs k f m w := by
  unfold onFd sOnFd
  cases hs[k]? with
  | none => rfl
  | some x => exact run_ans (h x)

theorem run_remove {w : World} {u : Uri} (h : u.scheme = some cl!"memory" ∧ w.connOf (connKey u) ≠ none) :
    (cRemove u).run w = Gen.uRemove 0 u false w := by
  unfold cRemove Gen.uRemove
  refine run_conn (fun r w => ?_) fun _ => h
  rw [run_bind_apply, bind_apply, run_islink, query_apply]
  cases islink w r u with
  | error e => rfl
  | ok b =>
    cases b with
    | true => exact run_removefile w r u
    | false =>
      simp only [Bool.false_eq_true, if_false]
      rw [run_bind_apply, bind_apply, run_exists, query_apply]
      cases exists_ w r u with
      | error e => rfl
      | ok b =>
        cases b with
        | false => rfl
        | true =>
          simp only [Bool.not_true, Bool.false_eq_true, if_false]
          rw [run_bind_apply, bind_apply, run_isdir, query_apply]
          cases isdir w r u with
          | error e => rfl
          | ok b =>
            cases b with
            | true => exact run_removedir w r u
            | false =>
              simp only [Bool.false_eq_true, if_false]
              rw [run_bind_apply, bind_apply, run_isfile, query_apply]
              cases isfile w r u with
              | error e => rfl
              | ok b =>
                cases b with
                | true => exact run_removefile w r u
                | false => rfl

theorem Wp.run {L : Prop} {F : Frame} {T : Loc → Prop} {α : Type} {p : Prog α} {Q : Except PyErr α → Sit → Prop} : ∀ {s : Sit}, Good L F s → Wp L F T p Q s →
    ∃ at', Good L F ⟨(p.run s.w).2, at'⟩ ∧ Rely L T s ⟨(p.run s.w).2, at'⟩ ∧ Q (p.run s.w).1 ⟨(p.run s.w).2, at'⟩ := by
  induction p with
  | ret r => exact fun {s} hg h => ⟨s.at_, hg, .rfl' _ _ _, h s hg (.rfl' _ _ _)⟩
  | act a k ih =>
    intro s hg h
    obtain ⟨h1, h2, h3⟩ := h s hg (.rfl' _ _ _)
    obtain ⟨at', h4, h5, h6⟩ := ih _ h1 h3
    exact ⟨at', h4, h2.trans h5, h6⟩

/-! ## Calls on trees -/

theorem seq_tree (t : TreeCall) : t.op.seq = t.seq := by
  cases t with
  | makedirs n u => exact (Op.seq_bind _ _).trans (by rw [seq_makedirs]; rfl)
  | remove n u r => exact (Op.seq_bind _ _).trans (by rw [seq_remove]; rfl)
  | walk n u t f => exact (Op.seq_bind _ _).trans (by rw [seq_walk]; rfl)
  | glob u m => exact (Op.seq_bind _ _).trans (by rw [seq_glob]; rfl)
  | copy n u v r i f => exact (Op.seq_bind _ _).trans (by rw [seq_copy]; rfl)
  | move n u v => exact (Op.seq_bind _ _).trans (by rw [seq_move]; rfl)
  | md5 u => exact (Op.seq_bind _ _).trans (by rw [seq_md5]; rfl)

/-- as `run_conn`, for a body that is the same in this state -/
theorem run_conn' {α : Type} {w : World} {u : Uri} {m : Meth} {body : Nat → Prog α} {body' : Nat → M α}
    (hb : ∀ r, (body r).run w = body' r w) (hc : u.scheme = some cl!"memory" ∧ w.connOf (connKey u) ≠ none) :
    (cConn u m body).run w = withConn u m body' w := by
  unfold cConn withConn
  rw [run_bind_apply, bind_apply]
  simp only [run_call, query_apply]
  unfold getConnection
  cases he : u.allExtras.any (fun kv => kv.1 ∈ reservedNames) with
  | true => simp
  | false =>
    simp only [Bool.false_eq_true, if_false, hc.1, if_true]
    cases hk : w.connOf (connKey u) with
    | none => exact absurd hk hc.2
    | some r =>
      simp only
      have hh : (preCallHook r u m w).2 = w := by rw [preCallHook_query]; rfl
      rw [run_bind_apply, bind_apply, run_call]
      rcases hx : preCallHook r u m w with ⟨x, w'⟩
      rw [hx] at hh
      change w' = w at hh
      subst hh
      cases x with
      | ok _ => exact hb r
      | error e => rfl

theorem run_pump {inf outf : Handle} (n : Nat) : ∀ w, (cPump inf outf n).run w = Gen.copyFileObj inf outf n w := by
  induction n with
  | zero => intro w; rfl
  | succ n ih =>
    intro w
    unfold cPump Gen.copyFileObj
    rw [run_bind_apply, bind_apply, run_read]
    rcases inf.read 8192 w with ⟨x, w'⟩
    cases x with
    | error e => rfl
    | ok b =>
      dsimp only
      cases Gen.isEmptyData b with
      | true => rfl
      | false =>
        simp only [Bool.false_eq_true, if_false]
        rw [run_bind_apply, bind_apply, run_write]
        rcases outf.write b w' with ⟨x, w2⟩
        cases x with
        | error e => rfl
        | ok b => exact ih w2

theorem run_blocks {h : Handle} (n : Nat) : ∀ w, (cBlocks h n).run w = Gen.md5Loop h n w := by
  induction n with
  | zero => intro w; rfl
  | succ n ih =>
    intro w
    unfold cBlocks Gen.md5Loop
    rw [run_bind_apply, bind_apply, run_read]
    rcases h.read 4096 w with ⟨x, w'⟩
    cases x with
    | error e => rfl
    | ok b =>
      cases b with
      | str t => rfl
      | bytes b =>
        dsimp only
        split
        · rfl
        · rw [run_bind_apply, bind_apply, ih]
          rcases Gen.md5Loop h n w' with ⟨x, w2⟩
          cases x <;> rfl

theorem run_openUri {w : World} {u : Uri} {o : Option Str} (hc : u.scheme = some cl!"memory" ∧ w.connOf (connKey u) ≠ none) :
    (cConn u .open_ fun r => cOpen r u o).run w = uOpen u o w := run_conn' (fun r => run_open w r u o) hc

section
variable {L : Prop} {F : Frame} {T : Loc → Prop} {G : Ground}

theorem Ground.Inn.site {w : World} (hG : G.Holds L F T w) {u : Uri} (h : G.Inn u) : u.scheme = some cl!"memory" ∧ w.connOf (connKey u) ≠ none := by
  obtain ⟨E, cs, rfl, -, -, -, h4⟩ := h
  refine ⟨rfl, ?_⟩
  rw [hG.conn, Gen.mem_key E cs [], h4]
  simp

theorem Ground.Base.site {w : World} (hG : G.Holds L F T w) {u : Uri} (h : G.Base u) : u.scheme = some cl!"memory" ∧ w.connOf (connKey u) ≠ none := by
  obtain ⟨E, rfl, -, h4⟩ := h
  refine ⟨rfl, ?_⟩
  rw [hG.conn, Gen.mem_key E _ [], h4]
  simp

theorem run_prim [Sub T F] (hL : ¬ L) {β : Type} {p : Prim β} (hp : p.Fit L G) {s : Sit} (hg : Good L F s) (hG : G.Holds L F T s.w) :
    p.prog.run s.w = p.seq s.w := by
  cases p with
  | conn u m => exact run_conn' (fun _ => rfl) (by
      rcases hp hL with h | h
      · exact h.site hG
      · exact h.site hG)
  | exists_ r u => exact run_exists s.w r u
  | isfile r u => exact run_isfile s.w r u
  | isdir r u => exact run_isdir s.w r u
  | islink r u => exact run_islink s.w r u
  | readlink r u => exact run_readlink s.w r u
  | listdir r u => exact run_listdir s.w r u
  | mkdir r u => exact run_mkdir s.w r u
  | symlink r t u => exact run_symlink s.w r t u
  | removefile r u => exact run_removefile s.w r u
  | removedir r u => exact run_removedir s.w r u
  | copystat r u v => exact run_copystat s.w r u v
  | content u v =>
    obtain ⟨hu, hv⟩ := hp hL
    show (cContent u v).run s.w = Gen.copyContent u v s.w
    unfold cContent Gen.copyContent
    have h1 := (wp_openUri (F := F) (T := T) (o := some cl!"rb") (s := s) fun hL r hr => hu.owns' hG hL hr).run hg
    rw [run_bind_apply, bind_apply, run_openUri (hu.site hG)]
    rw [run_openUri (hu.site hG)] at h1
    obtain ⟨at1, -, e1, -⟩ := h1
    have hc := e1.conns
    change (uOpen u (some cl!"rb") s.w).2.conns = _ at hc
    rcases hx : uOpen u (some cl!"rb") s.w with ⟨x, w'⟩
    rw [hx] at hc
    cases x with
    | error e => rfl
    | ok inf =>
      dsimp only
      rw [run_bind_apply, bind_apply, run_openUri (hv.site (hG.congr hc))]
      dsimp only
      rcases uOpen v (some cl!"wb") w' with ⟨x, w2⟩
      cases x with
      | error e => rfl
      | ok outf =>
        dsimp only
        rw [run_bind_apply, bind_apply, run_size]
        rcases inf.size w2 with ⟨x, w3⟩
        cases x with
        | error e => rfl
        | ok n => exact run_pump _ _
  | md5 u =>
    have hu := hp hL
    refine run_conn' (fun _ => ?_) (hu.site hG)
    rw [run_bind_apply, bind_apply, run_openUri (hu.site hG)]
    rcases uOpen u (some cl!"rb") s.w with ⟨x, w'⟩
    cases x with
    | error e => rfl
    | ok inf =>
      dsimp only
      rw [run_bind_apply, bind_apply, run_size]
      rcases inf.size w' with ⟨x, w3⟩
      cases x with
      | error e => rfl
      | ok n => exact run_blocks _ _

theorem run_op [Sub T F] (hL : ¬ L) {α : Type} {op : Op α} {Q : α → Prop} (ho : op.Ok L G Q) : ∀ {s : Sit}, Good L F s → G.Holds L F T s.w →
    op.prog.run s.w = op.seq s.w := by
  induction op with
  | ret r => intro s _ _; rfl
  | ask p k ih =>
    intro s hg hG
    obtain ⟨at', g1, h1, h2⟩ := (wp_prim ho.1 hG).run hg
    show (p.prog.after fun x => (k x).prog).run s.w = _
    have e := run_prim hL ho.1 hg hG
    rw [run_after]
    rw [e] at g1 h1 h2 ⊢
    exact ih _ (ho.2 _ h2) (s := ⟨_, at'⟩) g1 (hG.congr h1.conns)

end

/-- a call on a tree is not, or one whose places are given -/
def Call.Free (L : Prop) (c : Call) : Prop := L → ∀ t, c ≠ .tree t

/-- An uninterrupted call. -/
theorem run_call_ {L : Prop} {F : Frame} {T : Loc → Prop} [Sub T F] {s : Sit} (hg : Good L F s) {c : Call} (hc : c.Sited s.w) (hf : c.Free L)
    (hw : ¬ L → c.Within s.w F T) (hs : List Handle) : (c.prog hs).run s.w = c.seq hs s.w := by
  generalize hw' : s.w = w at hc
  cases c with
  | exists_ u => exact run_ans (run_conn (fun r w => run_exists w r u) fun _ => hc u rfl)
  | isfile u => exact run_ans (run_conn (fun r w => run_isfile w r u) fun _ => hc u rfl)
  | isdir u => exact run_ans (run_conn (fun r w => run_isdir w r u) fun _ => hc u rfl)
  | islink u => exact run_ans (run_conn (fun r w => run_islink w r u) fun _ => hc u rfl)
  | readlink u => exact run_ans (run_conn (fun r w => run_readlink w r u) fun _ => hc u rfl)
  | listdir u => exact run_ans (run_conn (fun r w => run_listdir w r u) fun _ => hc u rfl)
  | info u f => exact run_ans (run_conn (fun r w => run_info w r u f) fun _ => hc u rfl)
  | mtime u => exact run_ans (run_conn (fun r w => run_mtime w r u) fun _ => hc u rfl)
  | isexec u k => exact run_ans (run_conn (fun r w => run_isexec w r u k) fun _ => hc u rfl)
  | setExec u m => exact run_ans (run_conn (fun r w => run_setExec w r u m) fun _ => hc u rfl)
  | setInfo u s f => exact run_ans (run_conn (fun r w => run_setInfo w r u s f) fun _ => hc u rfl)
  | copystat u v => exact run_ans (run_conn (fun r w => run_copystat w r u v) fun _ => hc u rfl)
  | mkdir u => exact run_ans (run_conn (fun r w => run_mkdir w r u) fun _ => hc u rfl)
  | symlink u v => exact run_ans (run_conn (fun r w => run_symlink w r u v) fun _ => hc u rfl)
  | remove u => exact run_ans (run_remove (hc u rfl))
  | open_ u o =>
    have h : (cConn u .open_ fun r => cOpen r u o).run w = uOpen u o w := run_conn (fun r w => run_open w r u o) fun _ => hc u rfl
    show ((cConn u .open_ fun r => cOpen r u o) >>= _).run w = (uOpen u o >>= _) w
    rw [run_bind_apply, bind_apply, h]
    rcases uOpen u o w with ⟨x, w'⟩
    cases x <;> rfl
  | write k d => exact run_onFd fun h => run_write w h d
  | read k n => exact run_onFd fun h => run_read w h n
  | seek k t wh => exact run_onFd fun h => run_seek w h t wh
  | tell k => exact run_onFd fun h => run_tell w h
  | size k => exact run_onFd fun h => run_size w h
  | truncate k n => exact run_onFd fun h => run_truncate w h n
  | close k => exact run_onFd fun h => run_close w h
  | readline k => exact run_onFd fun h => run_readline w h
  | tree t =>
    subst hw'
    have hL : ¬ L := fun h => hf h t rfl
    obtain ⟨G, h1, h2⟩ := (hw hL).tree t rfl
    refine run_ans ?_
    rw [← seq_tree]
    exact run_op hL (ok_tree fun _ => h2) hg h1.of

/-- a script whose calls are never interrupted -/
def Script.seq : Script → List Handle → Log → World → Log × World
  | .done, _, log, w => (log, w)
  | .call c k, hs, log, w => match c.seq hs w with
    | (.ok x, w') => (k (.ok x.1)).seq x.2 (log ++ [.ok x.1]) w'
    | (.error e, w') => (k (.error e)).seq hs (log ++ [.error e]) w'

/-- thread `t` is at `p`: after enough turns of its own it is at the end -/
theorem turns {t : Nat} {p : Prog Log} : ∀ {s : Pool}, s.prog t = p → ∃ n, ∀ m, n ≤ m →
    (s.run (List.replicate m t)).prog t = .ret (p.run s.world).1 ∧ (s.run (List.replicate m t)).world = (p.run s.world).2 := by
  induction p with
  | ret r =>
    intro s h
    refine ⟨0, fun m _ => ?_⟩
    have : ∀ m, s.run (List.replicate m t) = s := by
      intro m
      induction m with
      | zero => rfl
      | succ m ih =>
        have e : s.step t = s := by rw [Pool.step, h]
        rw [List.replicate_succ, Pool.run, List.foldl_cons, e]
        exact ih
    rw [this]
    exact ⟨h, rfl⟩
  | act a k ih =>
    intro s h
    have e : s.step t = ⟨(a s.world).2, fun i => if i = t then k (a s.world).1 else s.prog i⟩ := by rw [Pool.step, h]
    obtain ⟨n, hn⟩ := ih (a s.world).1 (s := s.step t) (by rw [e]; simp)
    refine ⟨n + 1, fun m hm => ?_⟩
    obtain ⟨m, rfl⟩ : ∃ m', m = m' + 1 := ⟨m - 1, by omega⟩
    have := hn m (by omega)
    rw [e] at this
    rw [List.replicate_succ, Pool.run, List.foldl_cons, e]
    exact this

theorem Call.Sited.congr {w w' : World} (h : w'.conns = w.conns) {c : Call} (hc : c.Sited w) : c.Sited w' :=
  fun u hu => ⟨(hc u hu).1, by rw [connOf_congr h]; exact (hc u hu).2⟩

/-- An uninterrupted script. -/
theorem run_script {L : Prop} {F : Frame} {T : Loc → Prop} [Sub T F] {sc : Script} : ∀ {s : Sit} {hs : List Handle} {log : Log}, Good L F s →
    Held L T hs s → (∀ c, sc.Makes c → c.Sited s.w ∧ c.Free L ∧ (¬ L → c.Within s.w F T)) →
    (sc.prog hs log).run s.w = (.ok (sc.seq hs log s.w).1, (sc.seq hs log s.w).2) := by
  induction sc with
  | done => intro s hs log _ _ _; rfl
  | call c k ih =>
    intro s hs log hg hh hc
    obtain ⟨hc1, hc2, hc3⟩ := hc c .here
    obtain ⟨at', g1, h1, h2⟩ := (wp_call_ (F := F) (c := c) hc3 hh).run hg
    rw [Script.prog, run_after, Script.seq]
    rw [run_call_ hg hc1 hc2 hc3] at g1 h1 h2 ⊢
    rcases hx : c.seq hs s.w with ⟨x, w'⟩
    rw [hx] at g1 h1 h2
    have hk : ∀ y c, (k y).Makes c → c.Sited w' ∧ c.Free L ∧ (¬ L → c.Within w' F T) := fun y c hm =>
      have := hc c (.later y hm)
      ⟨this.1.congr h1.conns, this.2.1, fun hL => (this.2.2 hL).congr h1.conns⟩
    cases x with
    | ok x => exact ih _ (s := ⟨w', at'⟩) g1 (h2 x rfl) (hk _)
    | error e => exact ih _ (s := ⟨w', at'⟩) g1 (hh.stable h1) (hk _)

/-- A thread that is alone, given enough turns. -/
theorem alone {L : Prop} {F : Frame} {T : Loc → Prop} [Sub T F] {w : World} (hg : Good L F ⟨w, placeOf w⟩) {scripts : Nat → Script} {t : Nat}
    (hc : ∀ c, (scripts t).Makes c → c.Sited w ∧ c.Free L ∧ (¬ L → c.Within w F T)) :
    ∃ n, ∀ m, n ≤ m → ((Pool.start w scripts).run (List.replicate m t)).log t = some ((scripts t).seq [] [] w).1 ∧
      ((Pool.start w scripts).run (List.replicate m t)).world = ((scripts t).seq [] [] w).2 := by
  obtain ⟨n, hn⟩ := turns (t := t) (s := Pool.start w scripts) rfl
  refine ⟨n, fun m hm => ?_⟩
  have h : ((scripts t).prog [] []).run w = (.ok ((scripts t).seq [] [] w).1, ((scripts t).seq [] [] w).2) :=
    run_script (T := T) (log := []) hg (hs := []) (fun _ h => by simp at h) hc
  obtain ⟨h1, h2⟩ : _ = Prog.ret (((scripts t).prog [] []).run w).1 ∧ _ = (((scripts t).prog [] []).run w).2 := hn m hm
  rw [h] at h1 h2
  exact ⟨by rw [Pool.log, h1], h2⟩

/-! ## Every thread comes to its end -/

theorem run_other {t : Nat} (sched : List Nat) (h : t ∉ sched) (s : Pool) : (s.run sched).prog t = s.prog t := by
  induction sched generalizing s with
  | nil => rfl
  | cons i sched ih =>
    rw [List.mem_cons, not_or] at h
    rw [Pool.run, List.foldl_cons]
    refine (ih h.2 _).trans ?_
    unfold Pool.step
    cases s.prog i with
    | ret r => rfl
    | act a k => simp [h.1]

/-- what the first `n` turns of an endless schedule are -/
def turnsOf (σ : Nat → Nat) (n : Nat) : List Nat := (List.range n).map σ

theorem ends {t : Nat} {p : Prog Log} : ∀ {s : Pool} {σ : Nat → Nat}, s.prog t = p → (∀ n, ∃ m, n ≤ m ∧ σ m = t) →
    ∃ n, ∃ r, (s.run (turnsOf σ n)).prog t = .ret r := by
  induction p with
  | ret r => exact fun h _ => ⟨0, r, h⟩
  | act a k ih =>
    intro s σ h hσ
    have hx : ∃ m, σ m = t := (hσ 0).imp fun _ h => h.2
    classical
    let m := Nat.find hx
    have hm : σ m = t := Nat.find_spec hx
    have h1 : (s.run (turnsOf σ m)).prog t = .act a k := by
      rw [run_other, h]
      intro hm
      obtain ⟨i, hi, e⟩ := List.mem_map.1 hm
      exact Nat.find_min hx (List.mem_range.1 hi) e
    have e : ∀ n, s.run (turnsOf σ (m + 1 + n)) = ((s.run (turnsOf σ m)).step t).run (turnsOf (fun i => σ (m + 1 + i)) n) := by
      intro n
      unfold turnsOf Pool.run
      rw [List.range_add, List.map_append, List.foldl_append, List.range_succ, List.map_append, List.foldl_append]
      simp [hm, Function.comp_def]
    obtain ⟨n, r, hr⟩ := ih (a (s.run (turnsOf σ m)).world).1 (s := (s.run (turnsOf σ m)).step t) (σ := fun i => σ (m + 1 + i))
      (by rw [Pool.step, h1]; simp) fun n => by
        obtain ⟨j, hj, e⟩ := hσ (m + 1 + n)
        exact ⟨j - (m + 1), by omega, by rw [← e]; congr 1; omega⟩
    exact ⟨m + 1 + n, r, by rw [e]; exact hr⟩

end Verif.Conc
