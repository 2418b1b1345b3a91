import Verif.Conc.Op
/-!
# Threads that use the memory file system at the same time

A thread is a script: it makes a call, and goes on depending on the answer.  A schedule says which thread makes the
next atomic access.
-/
namespace Verif.Conc
open Mem Mem.M Prog

/-- fs.py:569-590 `remove` without `recursive` -/
def cRemove (u : Uri) : Prog Unit :=
  cConn u .remove fun r => do
    if ← cIslink r u then cRemovefile r u
    else if !(← cExists r u) then raise .fileDoesNotExist
    else if ← cIsdir r u then cRemovedir r u
    else if ← cIsfile r u then cRemovefile r u
    else pure ()

/-- Calls on whole trees (fs.py:519-537, 556-607, 738-750, 783-801), which are many method calls; of `walk` the whole list is taken.  `depth` is as in
    `Verif/Gen/Tree`. -/
inductive TreeCall
  | makedirs (depth : Nat) (u : Uri) | remove (depth : Nat) (u : Uri) (recursive : Bool) | walk (depth : Nat) (u : Uri) (topdown followlinks : Bool)
  | glob (u : Uri) (match_ : Str → Bool) | copy (depth : Nat) (u dest : Uri) (recursive : Bool) (ignore : List Str) (followlinks : Bool)
  | move (depth : Nat) (u dest : Uri) | md5 (u : Uri)

/-- Calls on URIs (fs.py:519-607, 610-775, 783-801) and on files: `k` stands for what the thread's `k`-th successful `open` has returned. -/
inductive Call
  | exists_ (u : Uri) | isfile (u : Uri) | isdir (u : Uri) | islink (u : Uri) | readlink (u : Uri) | listdir (u : Uri)
  | info (u : Uri) (follow : Bool) | mtime (u : Uri) | isexec (u : Uri) (k : Int)
  | setExec (u : Uri) (m : Int) | setInfo (u : Uri) (s : SetInfo) (follow : Bool) | copystat (u v : Uri)
  | mkdir (u : Uri) | symlink (u name : Uri) | remove (u : Uri) | open_ (u : Uri) (o : Option Str)
  | write (k : Nat) (d : PyData) | read (k : Nat) (n : Int) | seek (k : Nat) (t wh : Int) | tell (k : Nat) | size (k : Nat)
  | truncate (k : Nat) (n : Option Int) | close (k : Nat) | readline (k : Nat)
  | tree (t : TreeCall)

/-- what calls return; of a file object, its number -/
inductive Ans
  | unit | bool (b : Bool) | uri (u : Uri) | names (l : List Str) | info (i : Info) | int (n : Int) | nat (n : Nat)
  | fd (k : Nat) | data (d : PyData) | rows (l : List (Uri × List Str × List Str)) | uris (l : List Uri) | blocks (l : List Bytes)
  deriving DecidableEq

/-- the method calls of a call on a tree, and its answer (fs.py:519-537, 556-607, 738-750, 783-801) -/
def TreeCall.op : TreeCall → Op Ans
  | .makedirs n u => do oMakedirs n u; pure .unit
  | .remove n u r => do oRemove n u r; pure .unit
  | .walk n u t f => do let l ← oWalk n u t f; pure (.rows l)
  | .glob u m => do let l ← oGlob u m; pure (.uris l)
  | .copy n u v r i f => do oCopy n u v r i f; pure .unit
  | .move n u v => do oMove n u v; pure .unit
  | .md5 u => do let l ← oMd5 u; pure (.blocks l)

/-- the URIs given to it -/
def TreeCall.uris : TreeCall → List Uri
  | .makedirs _ u | .remove _ u _ | .walk _ u _ _ | .glob u _ | .md5 u => [u]
  | .copy _ u v _ _ _ | .move _ u v => [u, v]

/-- the answer of a call, with the thread's file objects as before -/
def ans {α : Type} (hs : List Handle) (f : α → Ans) (p : Prog α) : Prog (Ans × List Handle) := do
  let x ← p
  pure (f x, hs)

/-- a call on the `k`-th file object -/
def onFd {α : Type} (hs : List Handle) (k : Nat) (f : α → Ans) (p : Handle → Prog α) : Prog (Ans × List Handle) :=
  match hs[k]? with
  | some h => ans hs f (p h)
  | none => raise .outside

/-- the accesses a call makes, given the thread's file objects -/
def Call.prog (hs : List Handle) : Call → Prog (Ans × List Handle)
  | .exists_ u => ans hs .bool (cConn u .exists_ fun r => cExists r u)
  | .isfile u => ans hs .bool (cConn u .isfile fun r => cIsfile r u)
  | .isdir u => ans hs .bool (cConn u .isdir fun r => cIsdir r u)
  | .islink u => ans hs .bool (cConn u .islink fun r => cIslink r u)
  | .readlink u => ans hs .uri (cConn u .readlink fun r => cReadlink r u)
  | .listdir u => ans hs .names (cConn u .listdir fun r => cListdir r u)
  | .info u f => ans hs .info (cConn u .info fun r => cInfo r u f)
  | .mtime u => ans hs .int (cConn u .mtime fun r => cMtime r u)
  | .isexec u k => ans hs .bool (cConn u .isexec fun r => cIsexec r u k)
  | .setExec u m => ans hs (fun _ => .unit) (cConn u .set_exec fun r => cSetExec r u m)
  | .setInfo u s f => ans hs (fun _ => .unit) (cConn u .info fun r => cSetInfo r u s f)
  | .copystat u v => ans hs (fun _ => .unit) (cConn u .copystat fun r => cCopystat r u v)
  | .mkdir u => ans hs (fun _ => .unit) (cConn u .mkdir fun r => cMkdir r u)
  | .symlink u n => ans hs (fun _ => .unit) (cConn u .symlink fun r => cSymlink r u n)
  | .remove u => ans hs (fun _ => .unit) (cRemove u)
  | .open_ u o => do
    let h ← cConn u .open_ fun r => cOpen r u o
    pure (.fd hs.length, hs ++ [h])
  | .write k d => onFd hs k (fun _ => .unit) fun h => cWrite h d
  | .read k n => onFd hs k .data fun h => cRead h n
  | .seek k t wh => onFd hs k (fun _ => .unit) fun h => cSeek h t wh
  | .tell k => onFd hs k .nat cTell
  | .size k => onFd hs k .nat cSize
  | .truncate k n => onFd hs k .int fun h => cTruncate h n
  | .close k => onFd hs k (fun _ => .unit) cClose
  | .readline k => onFd hs k .data cReadline
  | .tree t => ans hs id t.op.prog

/-- what a thread does: nothing more, or a call and then what depends on its outcome -/
inductive Script
  | done
  | call (c : Call) (k : Except PyErr Ans → Script)

/-- the outcomes of a thread's calls, in order -/
abbrev Log := List (Except PyErr Ans)

/-- the accesses a thread makes -/
def Script.prog : Script → List Handle → Log → Prog Log
  | .done, _, log => pure log
  | .call c k, hs, log => (c.prog hs).after fun
    | .ok x => (k (.ok x.1)).prog x.2 (log ++ [.ok x.1])
    | .error e => (k (.error e)).prog hs (log ++ [.error e])

/-- what all threads share, and what is left for each to do -/
structure Pool where
  world : World
  prog : Nat → Prog Log

/-- the threads at their beginning -/
def Pool.start (w : World) (scripts : Nat → Script) : Pool := ⟨w, fun t => (scripts t).prog [] []⟩

/-- thread `t` makes its next access, if it has one -/
def Pool.step (s : Pool) (t : Nat) : Pool :=
  match s.prog t with
  | .ret _ => s
  | .act a k => ⟨(a s.world).2, fun i => if i = t then k (a s.world).1 else s.prog i⟩

/-- the threads take turns as in `sched` -/
def Pool.run (s : Pool) (sched : List Nat) : Pool := sched.foldl Pool.step s

/-- the outcomes of all calls of a thread that has come to its end -/
def Pool.log (s : Pool) (t : Nat) : Option Log :=
  match s.prog t with
  | .ret (.ok l) => some l
  | _ => none

/-- `c` is among the calls a script may come to make -/
inductive Script.Makes (c : Call) : Script → Prop
  | here {k : Except PyErr Ans → Script} : Makes c (.call c k)
  | later {c' : Call} {k : Except PyErr Ans → Script} (r : Except PyErr Ans) : Makes c (k r) → Makes c (.call c' k)

end Verif.Conc
