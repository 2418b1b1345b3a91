import Verif.Conc.Fs
/-!
# Without interruption the programs of `Verif/Conc/Fs` are the methods of `Verif/Mem`
-/
namespace Verif.Conc
open Mem Mem.M Prog

theorem run_bind_apply {α β : Type} (p : Prog α) (f : α → Prog β) (w : World) :
    (p >>= f).run w = match p.run w with
      | (.ok a, w') => (f a).run w'
      | (.error e, w') => (.error e, w') := by
  rw [run_bind, bind_apply]
  rcases p.run w with ⟨x, w'⟩
  cases x <;> rfl

theorem run_bind_ok {α β : Type} {p : Prog α} {f : α → Prog β} {w w' : World} {a : α} (h : p.run w = (.ok a, w')) :
    (p >>= f).run w = (f a).run w' := by rw [run_bind_apply, h]

theorem run_bind_error {α β : Type} {p : Prog α} {f : α → Prog β} {w w' : World} {e : PyErr} (h : p.run w = (.error e, w')) :
    (p >>= f).run w = (.error e, w') := by rw [run_bind_apply, h]

theorem run_child {w : World} {resolve : Uri → Prog (Option Nat)} {rs : Uri → Except PyErr (Option Nat)}
    (hr : ∀ t, (resolve t).run w = (rs t, w)) (c : Nat) (n : Str) (f : Bool) :
    (cChild resolve c n f).run w = (child w rs c n f, w) := by
  unfold cChild child
  rw [run_bind_apply]
  simp only [run_call, aHas, query_apply]
  cases hc : w.node c with
  | file o => rfl
  | link o => rfl
  | dir d =>
    have hh : d.has n = (d.get n).isSome := rfl
    simp only
    cases hl : d.get n with
    | none => rw [hh, hl]; rfl
    | some i =>
      rw [hh, hl]
      simp only [Option.isSome_some, if_true]
      rw [run_bind_ok (a := i) (w' := w) (by simp [run_call, aGet, hc, hl]),
        run_bind_ok (a := tagOf (w.node i)) (w' := w) (by simp [run_call, aTag])]
      cases hi : w.node i with
      | file o => rfl
      | dir o => rfl
      | link l =>
        simp only [tagOf]
        cases f with
        | false => rfl
        | true =>
          simp only [if_true]
          rw [run_bind_apply, hr]
          cases hrs : rs l.target with
          | error e => rfl
          | ok o =>
            cases o with
            | none => rfl
            | some j =>
              simp only
              rw [run_bind_ok (a := tagOf (w.node j)) (w' := w) (by simp [run_call, aTag])]
              cases w.node j <;> rfl

theorem run_prevLoop {w : World} {resolve : Uri → Prog (Option Nat)} {rs : Uri → Except PyErr (Option Nat)}
    (hr : ∀ t, (resolve t).run w = (rs t, w)) (f th : Bool) (last : Str) (l : List Str) (a b : Option Nat) :
    (cPrevLoop resolve f th last l a b).run w = (prevLoop w rs f th last l a b, w) := by
  induction l generalizing a b with
  | nil => rfl
  | cons part rest ih =>
    cases b with
    | none => rfl
    | some c =>
      unfold cPrevLoop prevLoop
      rw [run_bind_apply]
      simp only [run_call, aHas, query_apply]
      cases hc : w.node c with
      | file o => rfl
      | link o => rfl
      | dir d =>
        simp only
        cases hh : d.has part with
        | false => cases th <;> rfl
        | true =>
          simp only [if_true]
          rw [run_bind_apply, run_child hr]
          cases child w rs c part (if part = last then f else true) with
          | error e => rfl
          | ok x => exact ih (some c) x

theorem run_forPathWith {w : World} {resolve : Uri → Prog (Option Nat)} {rs : Uri → Except PyErr (Option Nat)}
    (hr : ∀ t, (resolve t).run w = (rs t, w)) (root : Nat) (f th : Bool) (u : Uri) :
    (cForPathWith root resolve f th u).run w = (nodeForPathWith w root rs f th u, w) := by
  unfold cForPathWith nodeForPathWith cPrevWith nodePrevWith
  rw [run_bind_apply]
  simp only [run_lift, lift_apply]
  cases stripPath u with
  | error e => rfl
  | ok p =>
    simp only
    split
    · rw [run_bind_apply, run_prevLoop hr]
      cases prevLoop w rs f th ((splitC '/' p).getLastD []) (splitC '/' p) none (some root) <;> rfl
    · rfl

theorem run_resolve (w : World) (root : Nat) (th : Bool) (k : Nat) (t : Uri) :
    (cResolve root th k t).run w = (resolveLink w root th k t, w) := by
  induction k generalizing t with
  | zero => rfl
  | succ k ih => exact run_forPathWith ih root true th t

theorem run_prev (w : World) (root : Nat) (f th : Bool) (l : List Str) : (cPrev root f th l).run w = (nodePrev w root f th l, w) :=
  run_prevLoop (run_resolve w root th 32) f th _ l none (some root)

theorem run_forPath (w : World) (root : Nat) (f th : Bool) (u : Uri) : (cForPath root f th u).run w = (nodeForPath w root f th u, w) :=
  run_forPathWith (run_resolve w root th 32) root f th u

theorem run_node (w : World) (root : Nat) (l : List Str) : (cNode root l).run w = (getNode w root l, w) := by
  unfold cNode getNode
  rw [run_bind_apply, run_prev]
  cases nodePrev w root true true l <;> rfl

theorem run_some_bind {α : Type} (w : World) (o : Option Nat) (f : Nat → Prog α) :
    (cSome o >>= f).run w = match o with
      | some i => (f i).run w
      | none => (.error .attributeError, w) := by
  cases o <;> rfl

theorem run_isdir (w : World) (root : Nat) (u : Uri) : (cIsdir root u).run w = (isdir w root u, w) := by
  unfold cIsdir isdir
  rw [run_bind_apply]
  simp only [run_lift, lift_apply]
  cases stripPath u with
  | error e => rfl
  | ok p =>
    simp only
    split
    · rw [run_after, run_forPath]
      cases nodeForPath w root true false u with
      | error e =>
        cases e with
        | os e => cases e <;> rfl
        | _ => rfl
      | ok o =>
        cases o with
        | none => rfl
        | some i =>
          simp only
          rw [run_bind_ok (a := tagOf (w.node i)) (w' := w) (by simp [run_call, aTag])]
          unfold World.isDir
          cases w.node i <;> rfl
    · rfl

theorem run_isfile (w : World) (root : Nat) (u : Uri) : (cIsfile root u).run w = (isfile w root u, w) := by
  unfold cIsfile isfile
  rw [run_bind_apply]
  simp only [run_lift, lift_apply]
  cases stripPath u with
  | error e => rfl
  | ok p =>
    simp only
    split
    · rw [run_after, run_forPath]
      cases nodeForPath w root true false u with
      | error e =>
        cases e with
        | os e => cases e <;> rfl
        | _ => rfl
      | ok o =>
        cases o with
        | none => rfl
        | some i =>
          simp only
          rw [run_bind_ok (a := tagOf (w.node i)) (w' := w) (by simp [run_call, aTag])]
          unfold World.isFile
          cases w.node i <;> rfl
    · rfl

theorem run_exists (w : World) (root : Nat) (u : Uri) : (cExists root u).run w = (exists_ w root u, w) := by
  unfold cExists exists_
  rw [run_bind_apply]
  simp only [run_lift, lift_apply]
  cases stripPath u with
  | error e => rfl
  | ok p =>
    simp only
    split
    · rw [run_after, run_forPath]
      cases nodeForPath w root true false u with
      | error e =>
        cases e with
        | os e => cases e <;> rfl
        | _ => rfl
      | ok o => cases o <;> rfl
    · rfl

theorem run_islink (w : World) (root : Nat) (u : Uri) : (cIslink root u).run w = (islink w root u, w) := by
  unfold cIslink islink
  rw [run_bind_apply]
  simp only [run_lift, lift_apply]
  cases stripPath u with
  | error e => rfl
  | ok p =>
    simp only
    split
    · rw [run_bind_apply, run_forPath]
      cases nodeForPath w root false false u with
      | error e => rfl
      | ok o =>
        cases o with
        | none => rfl
        | some i =>
          simp only
          rw [run_bind_ok (a := tagOf (w.node i)) (w' := w) (by simp [run_call, aTag])]
          unfold World.isLink
          cases w.node i <;> rfl
    · rfl

theorem run_readlink (w : World) (root : Nat) (u : Uri) : (cReadlink root u).run w = (readlink w root u, w) := by
  unfold cReadlink readlink
  rw [run_bind_apply]
  simp only [run_lift, lift_apply]
  cases stripPath u with
  | error e => rfl
  | ok p =>
    simp only
    split
    · rw [run_bind_apply, run_forPath]
      cases nodeForPath w root false true u with
      | error e => rfl
      | ok o =>
        simp only
        rw [run_some_bind]
        cases o with
        | none => rfl
        | some i =>
          simp only
          rw [run_bind_ok (a := tagOf (w.node i)) (w' := w) (by simp [run_call, aTag])]
          cases w.node i <;> rfl
    · rfl

theorem run_listdir (w : World) (root : Nat) (u : Uri) : (cListdir root u).run w = (listdir w root u, w) := by
  unfold cListdir listdir
  rw [run_bind_apply]
  simp only [run_lift, lift_apply]
  cases stripPath u with
  | error e => rfl
  | ok p =>
    simp only
    rw [run_bind_apply, run_node]
    cases getNode w root ((splitC '/' p).filter fun x => x ≠ []) with
    | error e => rfl
    | ok o =>
      simp only
      rw [run_some_bind]
      cases o with
      | none => rfl
      | some i =>
        simp only
        rw [run_bind_apply]
        simp only [run_call, aKeys, query_apply]
        cases w.node i <;> rfl

theorem run_info (w : World) (root : Nat) (u : Uri) (f : Bool) : (cInfo root u f).run w = (info w root u f, w) := by
  unfold cInfo info
  rw [run_bind_apply, run_forPath]
  cases nodeForPath w root f true u with
  | error e => rfl
  | ok o =>
    simp only
    rw [run_some_bind]
    cases o <;> rfl

theorem run_mtime (w : World) (root : Nat) (u : Uri) : (cMtime root u).run w = (mtime w root u, w) := by
  unfold cMtime mtime
  rw [run_bind_apply, run_forPath]
  cases nodeForPath w root true true u with
  | error e => rfl
  | ok o =>
    simp only
    rw [run_some_bind]
    cases o <;> rfl

theorem run_isexec (w : World) (root : Nat) (u : Uri) (k : Int) : (cIsexec root u k).run w = (isexec w root u k, w) := by
  unfold cIsexec isexec
  rw [run_bind_apply, run_info]
  cases info w root u true <;> rfl

theorem setNode_self (w : World) (i : Nat) : w.setNode i (w.node i) = w := by
  unfold World.setNode
  congr
  funext j
  split
  · rename_i h; rw [h]
  · rfl

theorem setNode_setNode (w : World) (i : Nat) (a b : Node) : (w.setNode i a).setNode i b = w.setNode i b := by
  unfold World.setNode
  congr
  funext j
  by_cases h : j = i <;> simp [h]

theorem node_setNode (w : World) (i : Nat) (a : Node) : (w.setNode i a).node i = a := by
  simp [World.setNode]

theorem run_setInfo (w : World) (root : Nat) (u : Uri) (s : SetInfo) (f : Bool) :
    (cSetInfo root u s f).run w = setInfo root u s f w := by
  unfold cSetInfo setInfo
  rw [run_bind_apply, run_forPath]
  cases nodeForPath w root f true u with
  | error e => rfl
  | ok o =>
    simp only
    rw [run_some_bind]
    cases o with
    | none => rfl
    | some i =>
      obtain ⟨m, t⟩ := s
      simp only [Node.apply]
      cases m with
      | none =>
        cases t with
        | none =>
          simp only [setNode_self]
          rfl
        | some t => rfl
      | some m =>
        simp only
        rw [run_bind_ok (a := ()) (w' := w.setNode i ((w.node i).setMode m)) rfl]
        cases t with
        | none => rfl
        | some t =>
          show (Except.ok (), (w.setNode i _).setNode i _) = _
          rw [setNode_setNode, node_setNode]

theorem run_setExec (w : World) (root : Nat) (u : Uri) (m : Int) : (cSetExec root u m).run w = setExec root u m w := by
  unfold cSetExec setExec
  rw [run_bind_apply, run_info, bind_apply]
  simp only [query_apply]
  cases info w root u true with
  | error e => rfl
  | ok x => exact run_setInfo w root u _ true

theorem run_copystat (w : World) (root : Nat) (u v : Uri) : (cCopystat root u v).run w = copystat root u v w := by
  unfold cCopystat copystat
  rw [run_bind_apply, run_forPath]
  cases nodeForPath w root true true u with
  | error e => rfl
  | ok o =>
    simp only
    rw [run_bind_apply, run_forPath]
    cases nodeForPath w root true true v with
    | error e => cases o <;> rfl
    | ok o' =>
      simp only
      rw [run_some_bind]
      cases o with
      | none => rfl
      | some i =>
        simp only
        rw [run_some_bind]
        cases o' <;> rfl

theorem run_parent (w : World) (root : Nat) (p : Str) : (cParent root p).run w = (parentOf w root p, w) := by
  unfold cParent parentOf
  rw [run_bind_apply, run_node]
  cases getNode w root (splitC '/' p).dropLast with
  | error e => rfl
  | ok o =>
    simp only
    rw [run_some_bind]
    cases o with
    | none => rfl
    | some i =>
      simp only
      rw [run_bind_apply]
      simp only [run_call, aHas, query_apply]
      cases w.node i <;> rfl

theorem run_mkdir (w : World) (root : Nat) (u : Uri) : (cMkdir root u).run w = mkdir root u w := by
  unfold cMkdir mkdir
  rw [run_bind_apply, bind_apply]
  simp only [run_lift, lift_apply]
  cases stripPath u with
  | error e => rfl
  | ok p =>
    simp only
    split
    · rw [run_bind_apply, run_parent, bind_apply]
      simp only [query_apply]
      cases parentOf w root p with
      | error e => rfl
      | ok x =>
        obtain ⟨nd, name, taken⟩ := x
        cases taken <;> rfl
    · rfl

theorem run_symlink (w : World) (root : Nat) (t u : Uri) : (cSymlink root t u).run w = symlink root t u w := by
  unfold cSymlink symlink
  rw [run_bind_apply, bind_apply]
  simp only [run_lift, lift_apply]
  cases stripPath u with
  | error e => rfl
  | ok p =>
    simp only
    split
    · rw [run_bind_apply, run_parent, bind_apply]
      simp only [query_apply]
      cases parentOf w root p with
      | error e => rfl
      | ok x =>
        obtain ⟨nd, name, taken⟩ := x
        cases taken <;> rfl
    · rfl

theorem run_removefile (w : World) (root : Nat) (u : Uri) : (cRemovefile root u).run w = removefile root u w := by
  unfold cRemovefile removefile
  rw [run_bind_apply, bind_apply]
  simp only [run_lift, lift_apply]
  cases stripPath u with
  | error e => rfl
  | ok p =>
    simp only
    rw [run_bind_apply, run_prev, bind_apply]
    simp only [query_apply]
    cases nodePrev w root false true ((splitC '/' p).filter fun x => x ≠ []) with
    | error e => rfl
    | ok x =>
      obtain ⟨a, b⟩ := x
      cases a <;> rfl

theorem run_removedir (w : World) (root : Nat) (u : Uri) : (cRemovedir root u).run w = removedir root u w := by
  unfold cRemovedir removedir
  rw [run_bind_apply, bind_apply]
  simp only [run_lift, lift_apply]
  cases stripPath u with
  | error e => rfl
  | ok p =>
    simp only
    rw [run_bind_apply, run_prev, bind_apply]
    simp only [query_apply]
    cases nodePrev w root true true ((splitC '/' p).filter fun x => x ≠ []) with
    | error e => rfl
    | ok x =>
      obtain ⟨a, b⟩ := x
      cases a with
      | none => rfl
      | some prev =>
        simp only
        rw [run_bind_apply, run_child (run_resolve w root true 32), bind_apply]
        simp only [query_apply]
        cases child w (resolveLink w root true 32) prev u.last true with
        | error e => rfl
        | ok o =>
          simp only
          rw [run_some_bind]
          cases o with
          | none => rfl
          | some c =>
            simp only
            rw [run_bind_apply]
            simp only [run_call, aIsEmpty, query_apply]
            cases w.node c with
            | file f => rfl
            | link l => rfl
            | dir d =>
              simp only
              by_cases h : d.files = [] <;> simp [h, run_call, run_raise]

/-! ## Files -/

theorem run_aFile {α : Type} {w : World} {i : Nat} {g : FileObj → Except PyErr (α × FileObj)} :
    aFile i g w = match w.node i with
      | .file f => (match g f with
        | .ok (a, f') => (.ok a, w.setNode i (.file f'))
        | .error e => (.error e, w))
      | _ => (.error .attributeError, w) := by
  unfold aFile withFile
  cases w.node i with
  | dir d => rfl
  | link l => rfl
  | file f =>
    simp only
    cases g f with
    | error e => rfl
    | ok x => rfl

theorem aFile_ok {α : Type} {w : World} {i : Nat} {f f' : FileObj} {a : α} {g : FileObj → Except PyErr (α × FileObj)}
    (h : w.node i = .file f) (hg : g f = .ok (a, f')) : aFile i g w = (.ok a, w.setNode i (.file f')) := by
  rw [run_aFile, h]; simp only [hg]

theorem run_openRead (w : World) (root : Nat) (u : Uri) (b : Bool) : (cOpenRead root u b).run w = openRead root u b w := by
  unfold cOpenRead openRead
  rw [run_bind_apply, run_forPath]
  cases nodeForPath w root true true u with
  | error e => rfl
  | ok o =>
    simp only
    rw [run_some_bind]
    cases o with
    | none => rfl
    | some i =>
      simp only
      rw [run_bind_apply, run_call, run_aFile]
      cases w.node i <;> rfl

theorem setNode_tick (w : World) (i n : Nat) (a : Node) : ({ w with tick := n } : World).setNode i a = { w.setNode i a with tick := n } := rfl

theorem run_reset {w : World} {i : Nat} {f : FileObj} (h : w.node i = .file f) : (cReset i).run w = resetFile i f w := by
  unfold cReset
  rw [run_bind_ok (by rw [run_call]; exact aFile_ok h rfl), run_bind_ok (a := w.clock w.tick) (w' := _) rfl,
    run_bind_ok (by rw [run_call]; exact aFile_ok (node_setNode _ _ _) rfl),
    run_bind_ok (by rw [run_call]; exact aFile_ok (node_setNode _ _ _) rfl),
    run_bind_ok (a := w.gen) rfl, run_call]
  refine (aFile_ok (node_setNode _ _ _) rfl).trans ?_
  show (Except.ok (), World.setNode (World.setNode (World.setNode { World.setNode w i _ with tick := _ } i _) i _) i _) = _
  simp only [setNode_tick, setNode_setNode]
  rfl

theorem run_openWrite (w : World) (root : Nat) (u : Uri) (b : Bool) : (cOpenWrite root u b).run w = openWrite root u b w := by
  unfold cOpenWrite openWrite
  rw [run_bind_apply, bind_apply]
  simp only [run_lift, lift_apply]
  cases stripPath u with
  | error e => rfl
  | ok p =>
    simp only
    rw [run_bind_apply, run_parent, bind_apply]
    simp only [query_apply]
    cases parentOf w root p with
    | error e => rfl
    | ok x =>
      obtain ⟨nd, name, taken⟩ := x
      cases taken with
      | false =>
        simp only [Bool.false_eq_true, if_false]
        rw [run_bind, run_call]
        unfold aNewFile
        simp only [bind_assoc, pure_bind, run_pure]
      | true =>
        simp only [if_true]
        rw [run_bind_apply, run_child (run_resolve w root true 32), bind_apply]
        simp only [query_apply]
        cases child w (resolveLink w root true 32) nd name true with
        | error e => rfl
        | ok o =>
          cases o with
          | none => rfl
          | some c =>
            simp only
            rw [run_bind_ok (a := tagOf (w.node c)) (w' := w) (by simp [run_call, aTag])]
            cases hc : w.node c with
            | dir d => rfl
            | link l => rfl
            | file f =>
              simp only [tagOf]
              rw [run_bind_apply, run_reset hc, bind_apply]
              rfl

theorem run_openAppend (w : World) (root : Nat) (u : Uri) (b : Bool) : (cOpenAppend root u b).run w = openAppend root u b w := by
  unfold cOpenAppend openAppend
  rw [run_bind_apply, run_forPath]
  cases nodeForPath w root true true u with
  | error e => rfl
  | ok o =>
    simp only
    rw [run_some_bind]
    cases o with
    | none => rfl
    | some i =>
      simp only
      unfold cLen
      cases hi : w.node i with
      | dir d => rw [run_bind_apply, run_bind_apply, run_call, run_aFile, hi]
      | link l => rw [run_bind_apply, run_bind_apply, run_call, run_aFile, hi]
      | file f =>
        rw [run_bind_ok (a := f.data.length - 1 + 1) (w' := w.setNode i (.file f))]
        · rw [run_bind_ok (by rw [run_call]; exact aFile_ok (node_setNode _ _ _) rfl), setNode_setNode]
          rfl
        · rw [run_bind_ok (by rw [run_call]; exact aFile_ok hi rfl),
            run_bind_ok (a := ()) (w' := w.setNode i (.file { f with pos := f.data.length - 1 })),
            run_bind_ok (by rw [run_call]; exact aFile_ok (node_setNode _ _ _) rfl),
            run_bind_ok (by rw [run_call]; exact aFile_ok (node_setNode _ _ _) rfl)]
          · simp only [setNode_setNode]
            rfl
          · rw [run_call, run_aFile, node_setNode]
            simp only [BytesIO.seek, setNode_setNode]
            have : ((f.data.length : Int) + -1).toNat = f.data.length - 1 := by omega
            simp [Except.map, this]

theorem run_open (w : World) (root : Nat) (u : Uri) (o : Option Str) : (cOpen root u o).run w = open_ root u o w := by
  unfold cOpen open_
  cases o with
  | none => exact run_openRead w root u false
  | some o =>
    simp only
    rw [run_ite, run_ite, run_ite, ite_apply', ite_apply', ite_apply', ite_apply', ite_apply', ite_apply',
      run_openRead, run_openWrite, run_openAppend]
    rfl

theorem run_write (w : World) (h : Handle) (d : PyData) : (cWrite h d).run w = h.write d w := by
  unfold cWrite Handle.write
  rw [run_bind_apply, bind_apply]
  simp only [run_lift, lift_apply]
  cases h.encode d with
  | error e => rfl
  | ok b =>
    simp only
    unfold withFile
    cases hi : w.node h.id with
    | dir d => rw [run_bind_apply, run_call, run_aFile, hi]
    | link l => rw [run_bind_apply, run_call, run_aFile, hi]
    | file f =>
      rw [run_bind_ok (by rw [run_call]; exact aFile_ok hi rfl), run_bind_ok (a := w.clock w.tick) rfl, run_call]
      refine Eq.trans (aFile_ok (node_setNode w h.id _) (by exact rfl)) ?_
      show (Except.ok (), World.setNode { World.setNode w h.id _ with tick := _ } h.id _) = _
      simp only [setNode_tick, setNode_setNode]
      rfl

theorem run_read (w : World) (h : Handle) (n : Int) : (cRead h n).run w = h.read n w := by
  unfold cRead Handle.read
  rw [run_ite, ite_apply', ite_apply']
  split
  · rw [run_bind_apply, bind_apply, run_call, run_aFile]
    unfold withFile
    cases w.node h.id <;> rfl
  · rfl

theorem run_seek (w : World) (h : Handle) (t wh : Int) : (cSeek h t wh).run w = h.seek t wh w := by
  unfold cSeek Handle.seek withFile
  rw [run_call, run_aFile]
  cases w.node h.id with
  | dir d => rfl
  | link l => rfl
  | file f =>
    simp only
    rw [bind_apply]
    simp only [lift_apply]
    cases BytesIO.seek f.data f.pos t wh <;> rfl

theorem run_tell (w : World) (h : Handle) : (cTell h).run w = h.tell w := by
  unfold cTell Handle.tell withFile
  rw [run_call, run_aFile]
  cases hi : w.node h.id with
  | dir d => rfl
  | link l => rfl
  | file f => simp only [← hi, setNode_self]; rfl

theorem run_size (w : World) (h : Handle) : (cSize h).run w = h.size w := by
  unfold cSize Handle.size withFile
  rw [run_call, run_aFile]
  cases hi : w.node h.id with
  | dir d => rfl
  | link l => rfl
  | file f => simp only [← hi, setNode_self]; rfl

theorem run_truncate (w : World) (h : Handle) (n : Option Int) : (cTruncate h n).run w = h.truncate n w := by
  unfold cTruncate Handle.truncate withFile
  rw [run_call, run_aFile]
  cases w.node h.id with
  | dir d => rfl
  | link l => rfl
  | file f =>
    simp only
    rw [bind_apply]
    simp only [lift_apply]
    cases BytesIO.truncate f.data f.pos n <;> rfl

theorem run_close (w : World) (h : Handle) : (cClose h).run w = h.close w := by
  unfold cClose Handle.close withFile
  rw [run_call, run_aFile]
  cases w.node h.id <;> rfl

theorem run_readline (w : World) (h : Handle) : (cReadline h).run w = h.readline w := by
  unfold cReadline Handle.readline
  rw [run_bind_apply, bind_apply, run_call, run_aFile]
  unfold withFile
  cases w.node h.id <;> rfl

/-! ## Through URIs -/

theorem run_conn {α : Type} {w : World} {u : Uri} {m : Meth} {body : Nat → Prog α} {body' : Nat → M α}
    (hb : ∀ r w, (body r).run w = body' r w) (hc : u.allExtras.any (fun kv => kv.1 ∈ reservedNames) = false →
      u.scheme = some cl!"memory" ∧ w.connOf (connKey u) ≠ none) :
    (cConn u m body).run w = withConn u m body' w := by
  unfold cConn withConn
  rw [run_bind_apply, bind_apply]
  simp only [run_call, query_apply]
  unfold getConnection
  cases he : u.allExtras.any (fun kv => kv.1 ∈ reservedNames) with
  | true => simp
  | false =>
    obtain ⟨h1, h2⟩ := hc he
    simp only [Bool.false_eq_true, if_false, h1, if_true]
    cases hk : w.connOf (connKey u) with
    | none => exact absurd hk h2
    | some r =>
      simp only
      rw [run_bind_apply, bind_apply, run_call]
      cases preCallHook r u m w with
      | mk x w' => cases x <;> simp [hb]

end Verif.Conc
