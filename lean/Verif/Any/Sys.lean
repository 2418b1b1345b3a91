import Verif.Any.Disk
import Verif.Gen.Tree
import Verif.Mem.MLemmas
/-!
# The memory and the local backend in one state

The local backend calls the operating system of Verif/Any/Disk.lean.
-/
namespace Verif.Any
open Mem (Meth World)

/-! ## Both -/

/-- the state of both backends -/
structure Sys where
  mem : World
  disk : Disk

/-- a computation in the memory backend -/
def onMem {α : Type} (m : Mem.M α) : OM Sys α := fun s => ((m s.mem).1, { s with mem := (m s.mem).2 })

/-- a computation in the operating system -/
def onDisk {α : Type} (m : OM Disk α) : OM Sys α := fun s => ((m s.disk).1, { s with disk := (m s.disk).2 })

/-- a connection: `MemoryFileSystem` (by its root) or `LocalFileSystem` -/
inductive Conn
  | mem (root : Nat)
  | loc
  deriving DecidableEq

/-- a file object -/
inductive Hd
  | mem (h : Mem.Handle)
  | loc (fd : Nat)

/-- fs.py:300-301 and 82-131: a local file system can be made for any parameters -/
def sysConn (u : Uri) : OM Sys Conn :=
  if u.allExtras.any (fun kv => kv.1 ∈ Mem.reservedNames) then OM.raise .typeError
  else if u.scheme = some cl!"file" then pure .loc
  else do
    let r ← onMem (Mem.getConnection u)
    pure (.mem r)

/-- memory.py:445-448; fs.py:888-893 for local files -/
def sysHook : Conn → Uri → Meth → OM Sys Unit
  | .mem r, u, m => onMem (Mem.preCallHook r u m)
  | .loc, _, _ => pure ()

/-- `read(n)` of an open file -/
def hRead (n : Nat) : Hd → OM Sys Mem.PyData
  | .mem h => onMem (h.read n)
  | .loc fd => do
    let b ← onDisk (fdRead fd n)
    pure (.bytes b)

/-- `write` to a file opened with 'wb' -/
def hWrite : Hd → Mem.PyData → OM Sys Unit
  | .mem h, d => onMem (h.write d)
  | .loc fd, .bytes b => onDisk (fdWrite fd b)
  | .loc _, .str _ => OM.raise .typeError

/-- the size of an open file; bounds the number of rounds -/
def hSize : Hd → OM Sys Nat
  | .mem h => onMem h.size
  | .loc fd => onDisk (fdSize fd)

/-- `shutil.copyfileobj(infs, outfs, 8192)`, at most `n` rounds -/
def pumpLoop (inf outf : Hd) : Nat → OM Sys Unit
  | 0 => OM.raise .hang
  | n + 1 => do
    let b ← hRead 8192 inf
    if Gen.isEmptyData b then pure ()
    else
      hWrite outf b
      pumpLoop inf outf n

/-- `shutil.copyfileobj(infs, outfs, 8192)` -/
def pump (inf outf : Hd) : OM Sys Unit := do
  let n ← hSize inf
  pumpLoop inf outf (n + 1)

/-- fs.py:795-799 the loop feeding the hash, at most `n` rounds -/
def blockLoop (h : Hd) : Nat → OM Sys (List Bytes)
  | 0 => OM.raise .hang
  | n + 1 => do
    match ← hRead 4096 h with
    | .bytes b =>
      if b = [] then pure []
      else
        let r ← blockLoop h n
        pure (b :: r)
    | .str _ => OM.raise .typeError

/-- fs.py:795-799 -/
def blocks (h : Hd) : OM Sys (List Bytes) := do
  let n ← hSize h
  blockLoop h (n + 1)

/-- `FileSystem._path` (fs.py:880-884) of local files, and what `os.path.exists`, `isfile`, `isdir` (`fl`) and `islink`
    make of the operating system's answer, errors included: localfs.py:106-116, 164-165 -/
def osAsk (fl : Bool) (f : Option DObj → Bool) (u : Uri) : OM Sys Bool := fun s =>
  (.ok (f (s.disk.stat fl u.path)), s)

/-- localfs.py:129-150 `move`, where the destination is local.  `source.isdir()` and `dest.isdir()` take the connection
    of local files again. -/
def locMove (source dest : Uri) : OM Sys Unit := do
  let a ← osAsk true isDirD source
  let b ← osAsk true isDirD dest
  let dest ← if a && b then do
      let n ← OM.lift source.basename
      OM.lift (dest.div n)
    else pure dest
  onDisk (shutilMove source.path dest.path)

/-- Both backends: memory.py, and localfs.py:78-185 on a platform with symbolic links.  `removedir` (localfs.py:92-95)
    asks `unc.islink()`, which takes the same connection again. -/
def sysOps : Ops Sys where
  Conn := Conn
  Hd := Hd
  conn := sysConn
  hook := sysHook
  exists_ c u := match c with
    | .mem r => onMem (Mem.M.query fun w => Mem.exists_ w r u)
    | .loc => osAsk true Option.isSome u
  isfile c u := match c with
    | .mem r => onMem (Mem.M.query fun w => Mem.isfile w r u)
    | .loc => osAsk true isFileD u
  isdir c u := match c with
    | .mem r => onMem (Mem.M.query fun w => Mem.isdir w r u)
    | .loc => osAsk true isDirD u
  islink c u := match c with
    | .mem r => onMem (Mem.M.query fun w => Mem.islink w r u)
    | .loc => osAsk false isLinkD u
  readlink c u := match c with
    | .mem r => onMem (Mem.M.query fun w => Mem.readlink w r u)
    | .loc => do
      let t ← onDisk (osReadlink u.path)
      OM.lift (URI t)
  symlink c t u := match c with
    | .mem r => onMem (Mem.symlink r t u)
    | .loc => onDisk (osSymlink t.path u.path)
  listdir c u := match c with
    | .mem r => onMem (Mem.M.query fun w => Mem.listdir w r u)
    | .loc => do
      let l ← onDisk (osListdir u.path)
      pure (sortStr l)
  mkdir c u := match c with
    | .mem r => onMem (Mem.mkdir r u)
    | .loc => if u.path = [] then pure () else onDisk (osMkdir u.path)
  removefile c u := match c with
    | .mem r => onMem (Mem.removefile r u)
    | .loc => onDisk (osUnlink u.path)
  removedir c u := match c with
    | .mem r => onMem (Mem.removedir r u)
    | .loc => do
      if ← osAsk false isLinkD u then OM.raise .assertionError
      onDisk (osRmdir u.path)
  copystat c u v := match c with
    | .mem r => onMem (Mem.copystat r u v)
    | .loc => onDisk (osCopystat u.path v.path)
  openR c u := match c with
    | .mem r => do
      let h ← onMem (Mem.open_ r u (some cl!"rb"))
      pure (.mem h)
    | .loc => do
      let h ← onDisk (osOpenR u.path)
      pure (.loc h)
  openW c u := match c with
    | .mem r => do
      let h ← onMem (Mem.open_ r u (some cl!"wb"))
      pure (.mem h)
    | .loc => do
      let h ← onDisk (osOpenW u.path)
      pure (.loc h)
  pump := pump
  blocks := blocks
  moveSelf c u v := match c with
    | .mem _ => none
    | .loc => if v.scheme = some cl!"file" then some (locMove u v) else none

/-! ## The memory backend alone -/

/-- the memory backend alone -/
def memOps : Ops World where
  Conn := Nat
  Hd := Mem.Handle
  conn := Mem.getConnection
  hook := Mem.preCallHook
  exists_ r u := Mem.M.query fun w => Mem.exists_ w r u
  isfile r u := Mem.M.query fun w => Mem.isfile w r u
  isdir r u := Mem.M.query fun w => Mem.isdir w r u
  islink r u := Mem.M.query fun w => Mem.islink w r u
  readlink r u := Mem.M.query fun w => Mem.readlink w r u
  symlink := Mem.symlink
  listdir r u := Mem.M.query fun w => Mem.listdir w r u
  mkdir := Mem.mkdir
  removefile := Mem.removefile
  removedir := Mem.removedir
  copystat := Mem.copystat
  openR r u := Mem.open_ r u (some cl!"rb")
  openW r u := Mem.open_ r u (some cl!"wb")
  pump inf outf := Mem.M.bnd inf.size fun n => Gen.copyFileObj inf outf (n + 1)
  blocks h := Mem.M.bnd h.size fun n => Gen.md5Loop h (n + 1)
  moveSelf _ _ _ := none

/-- the same computation, written in both monads -/
def Agree {α : Type} (a : OM World α) (b : Mem.M α) : Prop := ∀ w, a w = b w

theorem agree_bind {α β : Type} {a : OM World α} {b : Mem.M α} {f : α → OM World β} {g : α → Mem.M β} (h : Agree a b)
    (hf : ∀ x, Agree (f x) (g x)) : Agree (a >>= f) (b >>= g) := by
  intro w
  show OM.bnd a f w = Mem.M.bnd b g w
  unfold OM.bnd Mem.M.bnd
  rw [h w]
  cases b w with
  | mk x w' => cases x with
    | error e => rfl
    | ok x => exact hf x w'

theorem agree_ite {α : Type} {c : Prop} [Decidable c] {a a' : OM World α} {b b' : Mem.M α} (h : Agree a b)
    (h' : Agree a' b') : Agree (if c then a else a') (if c then b else b') := by
  split
  · exact h
  · exact h'

theorem agree_refl {α : Type} (a : Mem.M α) : Agree a a := fun _ => rfl
theorem agree_pure {α : Type} (a : α) : Agree (pure a) (pure a) := fun _ => rfl
theorem agree_raise {α : Type} (e : PyErr) : Agree (α := α) (OM.raise e) (Mem.M.raise e) := fun _ => rfl
theorem agree_lift {α : Type} (x : Except PyErr α) : Agree (OM.lift x) (Mem.M.lift x) := fun _ => rfl

theorem agree_withConn {α : Type} (u : Uri) (m : Meth) {f : Nat → OM World α} {g : Nat → Mem.M α}
    (h : ∀ c, Agree (f c) (g c)) : Agree (withConn memOps u m f) (Mem.withConn u m g) :=
  agree_bind (agree_refl _) fun _ => agree_bind (agree_refl _) fun _ => h _

theorem agree_exists (u : Uri) : Agree (uExists memOps u) (Mem.uExists u) := agree_withConn u _ fun _ => agree_refl _
theorem agree_isfile (u : Uri) : Agree (uIsfile memOps u) (Mem.uIsfile u) := agree_withConn u _ fun _ => agree_refl _
theorem agree_isdir (u : Uri) : Agree (uIsdir memOps u) (Mem.uIsdir u) := agree_withConn u _ fun _ => agree_refl _
theorem agree_islink (u : Uri) : Agree (uIslink memOps u) (Mem.uIslink u) := agree_withConn u _ fun _ => agree_refl _
theorem agree_listdir (u : Uri) : Agree (uListdir memOps u) (Mem.uListdir u) := agree_withConn u _ fun _ => agree_refl _
theorem agree_mkdir (u : Uri) : Agree (uMkdir memOps u) (Mem.uMkdir u) := agree_withConn u _ fun _ => agree_refl _
theorem agree_openR (u : Uri) : Agree (uOpenR memOps u) (Mem.uOpen u (some cl!"rb")) :=
  agree_withConn u _ fun _ => agree_refl _
theorem agree_openW (u : Uri) : Agree (uOpenW memOps u) (Mem.uOpen u (some cl!"wb")) :=
  agree_withConn u _ fun _ => agree_refl _

/-- compares two `do` blocks line by line -/
macro "agree" : tactic => `(tactic| repeat' (first
  | exact agree_pure _ | exact agree_raise _ | exact agree_lift _
  | exact agree_exists _ | exact agree_isfile _ | exact agree_isdir _ | exact agree_islink _ | exact agree_listdir _
  | exact agree_mkdir _ | exact agree_openR _ | exact agree_openW _
  | assumption
  | refine agree_ite ?_ ?_ | refine agree_bind ?_ (fun _ => ?_) | refine agree_withConn _ _ (fun _ => ?_)
  | exact agree_refl _))

theorem memOps_makedirs (depth : Nat) : ∀ u, Agree (makedirs memOps depth u) (Gen.makedirs depth u) := by
  induction depth with
  | zero => intro u; exact agree_raise _
  | succ n ih =>
    intro u
    unfold makedirs Gen.makedirs
    refine agree_bind (agree_isdir _) fun b => agree_ite (agree_pure _) (agree_bind (agree_lift _) ?_)
    rintro ⟨pth, tail⟩
    refine agree_bind (agree_isdir _) fun d => ?_
    have : Agree (if tail ≠ [] then uMkdir memOps u else pure ()) (if tail ≠ [] then Mem.uMkdir u else pure ()) := by agree
    cases d
    · exact agree_bind (ih pth) fun _ => this
    · exact this

theorem memOps_uMakedirs (depth : Nat) (u : Uri) : Agree (uMakedirs memOps depth u) (Gen.uMakedirs depth u) :=
  agree_withConn _ _ fun _ => memOps_makedirs depth u

theorem memOps_classify (c : Nat) (top : Uri) (l : List Str) : Agree (classify memOps c top l) (Gen.classify c top l) := by
  induction l with
  | nil => exact agree_pure _
  | cons n l ih =>
    simp only [classify, Gen.classify]
    refine agree_bind (agree_lift _) fun p => agree_bind (agree_refl _) fun d => agree_bind ih ?_
    rintro ⟨a, b⟩
    exact agree_pure _

theorem memOps_walkDirs {τ : Type} (fl : Bool) {visit : Uri → τ → OM World τ} {visit' : Uri → τ → Mem.M τ}
    (hv : ∀ u t, Agree (visit u t) (visit' u t)) (top : Uri) (l : List Str) :
    ∀ t, Agree (walkDirs memOps fl visit top l t) (Gen.walkDirs fl visit' top l t) := by
  induction l with
  | nil => intro t; exact agree_pure _
  | cons n l ih =>
    intro t
    simp only [walkDirs, Gen.walkDirs]
    refine agree_bind (agree_lift _) fun p => agree_bind (agree_islink _) fun b => ?_
    refine agree_ite ?_ ?_
    · exact agree_bind (hv _ _) fun t => ih t
    · exact agree_bind (agree_pure _) fun t => ih t

theorem memOps_walk {τ : Type} (c : Nat) (td fl : Bool) {body : τ → Uri → List Str → List Str → OM World (τ × List Str)}
    {body' : τ → Uri → List Str → List Str → Mem.M (τ × List Str)} (hb : ∀ t u d f, Agree (body t u d f) (body' t u d f))
    (depth : Nat) : ∀ top t, Agree (walk memOps c td fl body depth top t) (Gen.walk c td fl body' depth top t) := by
  induction depth with
  | zero => intro top t; exact agree_raise _
  | succ n ih =>
    intro top t
    simp only [walk, Gen.walk]
    refine agree_bind (agree_refl _) fun names => agree_bind (memOps_classify _ _ _) ?_
    rintro ⟨dirs, nondirs⟩
    refine agree_ite ?_ ?_
    · refine agree_bind (hb _ _ _ _) ?_
      rintro ⟨t, dirs⟩
      exact memOps_walkDirs fl ih top dirs t
    · refine agree_bind (memOps_walkDirs fl ih top dirs t) fun t => agree_bind (hb _ _ _ _) ?_
      rintro ⟨t, dirs⟩
      exact agree_pure _

theorem memOps_uWalk (depth : Nat) (u : Uri) (td fl : Bool) : Agree (uWalk memOps depth u td fl) (Gen.uWalk depth u td fl) :=
  agree_withConn _ _ fun _ => memOps_walk _ _ _ (fun _ _ _ _ => agree_pure _) _ _ _

theorem agree_mapM {α β : Type} {f : α → OM World β} {g : α → Mem.M β} (h : ∀ x, Agree (f x) (g x)) (l : List α) :
    Agree (l.mapM f) (l.mapM g) := by
  induction l with
  | nil => exact agree_pure _
  | cons x l ih =>
    rw [List.mapM_cons, List.mapM_cons]
    exact agree_bind (h x) fun a => agree_bind ih fun b => agree_pure _

theorem memOps_uGlob (u : Uri) (m : Str → Bool) : Agree (uGlob memOps u m) (Gen.uGlob u m) :=
  agree_withConn _ _ fun _ => agree_bind (agree_listdir _) fun _ => agree_mapM (fun _ => agree_lift _) _

theorem agree_forM {α : Type} {f : α → OM World Unit} {g : α → Mem.M Unit} (h : ∀ x, Agree (f x) (g x)) (l : List α) :
    Agree (l.forM f) (l.forM g) := by
  induction l with
  | nil => exact agree_pure _
  | cons x l ih => exact agree_bind (h x) fun _ => ih

theorem memOps_uRemove (depth : Nat) (u : Uri) (rec : Bool) : Agree (uRemove memOps depth u rec) (Gen.uRemove depth u rec) := by
  refine agree_withConn _ _ fun c => ?_
  have hr : Agree (removeDirRec memOps depth c u) (Gen.removeDirRec depth c u) := by
    refine agree_bind (memOps_walk _ _ _ (fun t top d f => ?_) _ _ _) fun _ => ?_
    · refine agree_bind (agree_bind (agree_forM (fun x => ?_) _) fun _ => agree_forM (fun x => ?_) _) fun _ => agree_pure _
      · agree
      · agree
    · agree
  agree

theorem memOps_copyContent (u v : Uri) : Agree (copyContent memOps u v) (Gen.copyContent u v) := by
  unfold copyContent Gen.copyContent
  agree

theorem memOps_copyLink (c : Nat) (u v : Uri) : Agree (copyLink memOps c u v) (Gen.copyLink c u v) := by
  unfold copyLink Gen.copyLink
  agree

theorem memOps_copyOne (c : Nat) (u v : Uri) (fl : Bool) : Agree (copyOne memOps c u v fl) (Gen.copyOne c u v fl) := by
  unfold copyOne Gen.copyOne
  refine agree_bind (agree_islink _) fun b => agree_ite (memOps_copyLink c u v) ?_
  refine agree_bind (memOps_copyContent u v) fun _ => ?_
  agree

theorem memOps_copyDirs (depth c : Nat) (ig : List Str) (fl : Bool) (top dbase : Uri) (l : List Str) :
    ∀ dirs, Agree (copyDirs memOps depth c ig fl top dbase l dirs) (Gen.copyDirs depth c ig fl top dbase l dirs) := by
  induction l with
  | nil => intro d; exact agree_pure _
  | cons n l ih =>
    intro d
    simp only [copyDirs, Gen.copyDirs]
    refine agree_ite (ih _) (agree_bind (agree_lift _) fun dd => agree_bind (agree_lift _) fun sp =>
      agree_bind (agree_islink _) fun b => ?_)
    refine agree_ite ?_ ?_
    · exact agree_bind (memOps_copyLink _ _ _) fun _ => ih _
    · exact agree_bind (memOps_uMakedirs _ _) fun _ => ih _

theorem memOps_copyFiles (c : Nat) (fl : Bool) (top dbase : Uri) (l : List Str) :
    Agree (copyFiles memOps c fl top dbase l) (Gen.copyFiles c fl top dbase l) := by
  induction l with
  | nil => exact agree_pure _
  | cons n l ih =>
    simp only [copyFiles, Gen.copyFiles]
    exact agree_bind (agree_lift _) fun a => agree_bind (agree_lift _) fun b => agree_bind (memOps_copyOne _ _ _ _) fun _ => ih

theorem memOps_copyBody (depth c : Nat) (ig : List Str) (fl : Bool) (n : Nat) (droot top : Uri) (dirs files : List Str) :
    Agree (copyBody memOps depth c ig fl n droot top dirs files) (Gen.copyBody depth c ig fl n droot top dirs files) := by
  unfold copyBody Gen.copyBody
  refine agree_ite ?_ ?_ <;>
    refine agree_bind (by agree) fun db => agree_bind (memOps_copyDirs _ _ _ _ _ _ _ _) fun d =>
      agree_bind (memOps_copyFiles _ _ _ _ _) fun _ => agree_pure _

theorem memOps_copyWalk (depth c : Nat) (ig : List Str) (fl : Bool) (u v : Uri) :
    Agree (copyWalk memOps depth c ig fl u v) (Gen.copyWalk depth c ig fl u v) :=
  agree_withConn _ _ fun _ => memOps_walk _ _ _ (fun _ _ _ _ =>
    agree_bind (memOps_copyBody _ _ _ _ _ _ _ _ _) fun _ => agree_pure _) _ _ _

/-- over the memory backend alone the algorithms are those of Verif/Gen/Tree.lean -/
theorem memOps_uCopy (depth : Nat) (u v : Uri) (rec : Bool) (ig : List Str) (fl : Bool) :
    Agree (uCopy memOps depth u v rec ig fl) (Gen.uCopy depth u v rec ig fl) := by
  refine agree_withConn _ _ fun c => ?_
  unfold copy Gen.copy
  refine agree_bind (agree_exists _) fun b => ?_
  have h1 : ∀ dest, Agree (copyOne memOps c u dest fl) (Gen.copyOne c u dest fl) := fun _ => memOps_copyOne _ _ _ _
  have h2 : ∀ dest, Agree (copyLink memOps c u dest) (Gen.copyLink c u dest) := fun _ => memOps_copyLink _ _ _
  have h3 : ∀ dest, Agree (copyWalk memOps depth c ig fl u dest) (Gen.copyWalk depth c ig fl u dest) :=
    fun _ => memOps_copyWalk _ _ _ _ _ _
  have h4 : ∀ dest, Agree (uMakedirs memOps depth dest) (Gen.uMakedirs depth dest) := fun _ => memOps_uMakedirs _ _
  have h5 : ∀ droot, Agree (uIslink memOps u >>= fun l => if (l && !fl) = true then copyLink memOps c u droot else
      uMakedirs memOps depth droot >>= fun _ => copyWalk memOps depth c ig fl u droot)
      (Mem.uIslink u >>= fun l => if (l && !fl) = true then Gen.copyLink c u droot else
      Gen.uMakedirs depth droot >>= fun _ => Gen.copyWalk depth c ig fl u droot) := fun droot =>
    agree_bind (agree_islink _) fun _ => agree_ite (h2 _) (agree_bind (h4 _) fun _ => h3 _)
  have h6 : Agree (uIsdir memOps v >>= fun d => if d = true then OM.lift (v.div u.last) >>= fun x => copyOne memOps c u x fl
      else pure v >>= fun x => copyOne memOps c u x fl) (Mem.uIsdir v >>= fun d => if d = true then
      Mem.M.lift (v.div u.last) >>= fun x => Gen.copyOne c u x fl else pure v >>= fun x => Gen.copyOne c u x fl) :=
    agree_bind (agree_isdir _) fun _ => agree_ite (agree_bind (agree_lift _) fun _ => h1 _) (agree_bind (agree_pure _) fun _ => h1 _)
  refine agree_ite (agree_bind (agree_raise _) fun _ => ?_) ?_ <;> refine agree_ite ?_ ?_
  all_goals first
    | refine agree_bind (agree_isfile _) fun b => agree_ite (agree_bind (agree_raise _) fun _ => h6) h6
    | refine agree_bind (agree_isdir _) fun b => agree_ite (agree_bind (agree_raise _) fun _ => ?_) ?_
  all_goals
    refine agree_bind (agree_isdir _) fun _ => ?_
    refine agree_ite ?_ ?_
    · exact agree_bind (agree_lift _) fun x => h5 x
    · exact agree_bind (agree_pure _) fun x => h5 x

theorem memOps_uMove (depth : Nat) (u v : Uri) : Agree (uMove memOps depth u v) (Gen.uMove depth u v) := by
  refine agree_withConn _ _ fun c => ?_
  refine agree_bind (agree_isfile _) fun b => agree_ite ?_ ?_ <;>
    exact agree_bind (memOps_uCopy _ _ _ _ _ _) fun _ => memOps_uRemove _ _ _

theorem memOps_uMd5 (u : Uri) : Agree (uMd5 memOps u) (Gen.uMd5 u) :=
  agree_withConn _ _ fun _ => agree_bind (agree_openR _) fun _ => agree_refl _

end Verif.Any
