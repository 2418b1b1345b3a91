import Verif.Any.Says
/-!
# Open files

What a program does with the file objects that `open` gives: reading, writing and seeking piece by piece, with any number
of files open at a time.  The file objects of memory.py are those of Verif/Mem/Handle.lean; those of local files are the
standard library's, of which binary files are modelled (their buffers are not: the other open files and calls do not see
them, because a program of this module has each file open only once at a time).
-/
namespace Verif.Any
open Verif.Spec

/-- the modes with which files are opened: 'rb', 'r+b', 'wb' and 'ab' -/
inductive OMode
  | r | rw | w | a
  deriving DecidableEq

/-- the second argument of `open` -/
def OMode.text : OMode → Str
  | .r => cl!"rb"
  | .rw => cl!"r+b"
  | .w => cl!"wb"
  | .a => cl!"ab"

/-- the file can be read -/
def OMode.reads : OMode → Bool
  | .r | .rw => true
  | .w | .a => false

/-- the file can be written -/
def OMode.writes : OMode → Bool
  | .r => false
  | .rw | .w | .a => true

/-- the methods of file objects -/
inductive FOp
  | read (n : Int)
  | readline
  | next
  | readlines
  | seek (off whence : Int)
  | tell
  | flush
  | seekable
  | write (b : Bytes)
  | truncate (size : Option Int)
  deriving DecidableEq

/-- what a method returns: `None`, a truth value, a number, bytes or text, a list of lines; `stop` is StopIteration.  `file n`: the `n`th file that was opened;
    `call`: the answer of a call on a URI -/
inductive FAns
  | unit
  | bool (b : Bool)
  | num (n : Int)
  | bytes (b : Bytes)
  | text (s : Str)
  | lines (l : List Mem.PyData)
  | stop
  | file (n : Nat)
  | call (a : Ans)
  deriving DecidableEq

/-! ## The operating system and the standard library -/

/-- `open(p, 'ab')` -/
def osOpenA (p : Str) : OM Disk Nat := fun d =>
  match d.find true p with
  | .here q =>
    match d.tree q with
    | some (.file _ data) => (.ok d.fds.length, { d with fds := d.fds ++ [(q, data.length)] })
    | _ => (.error (.os .EISDIR), d)
  | .free c n => (d.set (c ++ [n]) (.file (Local.clearBits 0o666 d.umask) [])).newFd (c ++ [n])
  | .fail e => (.error e, d)

/-- `open(p, mode)` (localfs.py:78-82) -/
def osOpen (p : Str) : OMode → OM Disk Nat
  | .r | .rw => osOpenR p
  | .w => osOpenW p
  | .a => osOpenA p

/-- a method that looks at the bytes and the position, and may change the position -/
def fdLook {α : Type} (h : Nat) (f : Bytes → Nat → Except PyErr (α × Nat)) : OM Disk α := fun d =>
  match d.fds[h]? with
  | none => (.error (.os .EBADF), d)
  | some (q, pos) =>
    match d.tree q with
    | some (.file _ data) =>
      match f data pos with
      | .ok (x, pos) => (.ok x, { d with fds := d.fds.set h (q, pos) })
      | .error e => (.error e, d)
    | _ => (.error .outside, d)

/-- a method that may change the bytes, too -/
def fdChange {α : Type} (h : Nat) (f : Bytes → Nat → Except PyErr (α × Bytes × Nat)) : OM Disk α := fun d =>
  match d.fds[h]? with
  | none => (.error (.os .EBADF), d)
  | some (q, pos) =>
    match d.tree q with
    | some (.file perm data) =>
      match f data pos with
      | .ok (x, data, pos) => (.ok x, { d.set q (.file perm data) with fds := d.fds.set h (q, pos) })
      | .error e => (.error e, d)
    | _ => (.error .outside, d)

/-- lines until one is empty, at most `n` (a file of `k` bytes has at most `k` lines), and the position after them -/
def fdLines (d : Bytes) : Nat → Nat → List Bytes × Nat
  | 0, pos => ([], pos)
  | n + 1, pos =>
    let r := BytesIO.readline d pos
    if r.1 = [] then ([], r.2)
    else
      let x := fdLines d n r.2
      (r.1 :: x.1, x.2)

/-- the methods of a binary file of the standard library.  `io.UnsupportedOperation` is a `ValueError`.  `read` of less than
    -1 bytes is refused; `seek` before the beginning is EINVAL; `write` in mode 'ab' writes at the end; `truncate` to more
    than the size adds zero bytes. -/
def fdOp (h : Nat) (m : OMode) : FOp → OM Disk FAns
  | .read n =>
    if m.reads = false ∨ n < -1 then OM.raise .valueError
    else fdLook h fun d pos => .ok (.bytes (BytesIO.read d pos n).1, (BytesIO.read d pos n).2)
  | .readline =>
    if m.reads = false then OM.raise .valueError
    else fdLook h fun d pos => .ok (.bytes (BytesIO.readline d pos).1, (BytesIO.readline d pos).2)
  | .next =>
    if m.reads = false then OM.raise .valueError
    else fdLook h fun d pos =>
      .ok (if (BytesIO.readline d pos).1 = [] then .stop else .bytes (BytesIO.readline d pos).1, (BytesIO.readline d pos).2)
  | .readlines =>
    if m.reads = false then OM.raise .valueError
    else fdLook h fun d pos => .ok (.lines ((fdLines d (d.length + 1) pos).1.map .bytes), (fdLines d (d.length + 1) pos).2)
  | .seek off wh => fdLook h fun d pos =>
      if wh < 0 ∨ 2 < wh then .error .valueError
      else
        let p := (if wh = 0 then 0 else if wh = 1 then (pos : Int) else d.length) + off
        if p < 0 then .error (.os .EINVAL) else .ok (.num p, p.toNat)
  | .tell => fdLook h fun _ pos => .ok (.num pos, pos)
  | .flush => fdLook h fun _ pos => .ok (.unit, pos)
  | .seekable => fdLook h fun _ pos => .ok (.bool true, pos)
  | .write b =>
    if m.writes = false then OM.raise .valueError
    else fdChange h fun d pos =>
      let r := BytesIO.write d (if m = .a then d.length else pos) b
      .ok (.num b.length, r.1, r.2)
  | .truncate size =>
    if m.writes = false then OM.raise .valueError
    else fdChange h fun d pos =>
      let n := size.getD pos
      if n < 0 then .error (.os .EINVAL) else .ok (.num n, d.take n.toNat ++ List.replicate (n.toNat - d.length) 0, pos)

/-! ## The methods of both backends -/

/-- a value that `read`, `readline` and `next` return -/
def FAns.ofData : Mem.PyData → FAns
  | .bytes b => .bytes b
  | .str s => .text s

/-- memory.py:80-81 `flush`, by 166-167; `BytesIO.flush` does nothing -/
def memFlush (h : Mem.Handle) : Mem.M Unit := Mem.withFile h.id fun _ => pure ()

/-- memory.py:72-73, 88-89 `seekable`, by 166-167; true of every `BytesIO` that is not closed, and `close` (memory.py:104-106)
    closes none -/
def memSeekable (h : Mem.Handle) : Mem.M Bool := Mem.withFile h.id fun _ => pure true

/-- memory.py:190-192, 113-115 `readlines`, which gives a generator, run to its end; a file of `k` bytes has at most `k` lines -/
def memLines (h : Mem.Handle) : Mem.M (List Mem.PyData) := do
  let n ← h.size
  h.lines (n + 1)

/-- the methods of `MemoryFileProxy` (memory.py:137-192) -/
def memOp (h : Mem.Handle) : FOp → Mem.M FAns
  | .read n => do pure (.ofData (← h.read n))
  | .readline => do pure (.ofData (← h.readline))
  | .next => do
    match ← h.next with
    | none => pure .stop
    | some d => pure (.ofData d)
  | .readlines => do pure (.lines (← memLines h))
  | .seek off wh => do h.seek off wh; pure .unit
  | .tell => do pure (.num (← h.tell))
  | .flush => do memFlush h; pure .unit
  | .seekable => do pure (.bool (← memSeekable h))
  | .write b => do h.write (.bytes b); pure .unit
  | .truncate n => do pure (.num (← h.truncate n))

/-- a file object, as `open` gave it.  `closed`: a local file has been closed; those of memory.py can be used after
    `close` (memory.py:104-106). -/
structure FObj where
  hd : Hd
  mode : OMode
  closed : Bool

/-- fs.py:711-722 `open`, memory.py:480-490 and localfs.py:78-82 -/
def sOpen (m : OMode) (u : Uri) : OM Sys Hd := withConn sysOps u .open_ fun c =>
  match c with
  | .mem r => do
    let h ← onMem (Mem.open_ r u (some m.text))
    pure (.mem h)
  | .loc => do
    let fd ← onDisk (osOpen u.path m)
    pure (.loc fd)

/-- a method of a file object -/
def FObj.op (f : FObj) (o : FOp) : OM Sys FAns :=
  match f.hd with
  | .mem h => onMem (memOp h o)
  | .loc fd => if f.closed then OM.raise .valueError else onDisk (fdOp fd f.mode o)

/-- `close()`; memory.py:104-106, 166-167 -/
def FObj.close (f : FObj) : OM Sys Unit :=
  match f.hd with
  | .mem h => onMem h.close
  | .loc _ => pure ()

/-! ## Programs -/

/-- what the program does: a call, opening a file, a method of the `h`th file that was opened, closing it -/
inductive FAct (κ : Type)
  | call (a : Acts κ)
  | open_ (k : κ) (p : List Str) (m : OMode)
  | op (h : Nat) (o : FOp)
  | close (h : Nat)

/-- the program does not look at what `seek` and `write` return: with memory files it is `None` -/
def FOp.heard : FOp → FAns → FAns
  | .seek _ _, _ => .unit
  | .write _, _ => .unit
  | _, x => x

/-- a step of the program in the file systems at `site k`; the second part of the state are the file objects it got -/
def FAct.run {ι κ : Type} (E : ι → Dict) (site : κ → Option ι) (depth : Nat) : FAct κ → OM (Sys × List FObj) FAns
  | .call a => fun (s, l) =>
    match a.run E site depth s with
    | (.ok x, s) => (.ok (.call x), s, l)
    | (.error e, s) => (.error e, s, l)
  | .open_ k p m => fun (s, l) =>
    match sOpen m (siteAt E (site k) p) s with
    | (.ok h, s) => (.ok (.file l.length), s, l ++ [⟨h, m, false⟩])
    | (.error e, s) => (.error e, s, l)
  | .op h o => fun (s, l) =>
    match l[h]? with
    | none => (.error .outside, s, l)
    | some f =>
      match f.op o s with
      | (.ok x, s) => (.ok (o.heard x), s, l)
      | (.error e, s) => (.error e, s, l)
  | .close h => fun (s, l) =>
    match l[h]? with
    | none => (.error .outside, s, l)
    | some f =>
      match f.close s with
      | (.ok _, s) => (.ok .unit, s, l.set h { f with closed := true })
      | (.error e, s) => (.error e, s, l)

/-- a program decides on the next step by what the steps before it answered -/
def FPrg (κ : Type) := List (Except PyErr FAns) → Option (FAct κ)

/-- the answers of the first `n` steps of a program, and the state after them -/
def FPrg.exec {σ κ : Type} (step : FAct κ → OM σ FAns) (pr : FPrg κ) : Nat → σ → List (Except PyErr FAns) × σ
  | 0, s => ([], s)
  | n + 1, s =>
    let x := pr.exec step n s
    match pr x.1 with
    | none => x
    | some a => (x.1 ++ [(step a x.2).1], (step a x.2).2)

/-! ## What is expected

Nothing here is code of the repository. -/

/-- the line at the beginning, with its newline -/
def lineOf (b : Bytes) : Bytes :=
  let a := b.takeWhile (· ≠ 10)
  a ++ (b.drop a.length).take 1

/-- the lines, each with its newline -/
def linesOf : Bytes → List Bytes
  | [] => []
  | c :: b =>
    if c = 10 then [c] :: linesOf b
    else
      match linesOf b with
      | [] => [[c]]
      | l :: ls => (c :: l) :: ls

/-- the bytes `b` at position `pos`; zero bytes between the end and them -/
def putAt (d : Bytes) (pos : Nat) (b : Bytes) : Bytes :=
  d.take pos ++ List.replicate (pos - d.length) 0 ++ b ++ d.drop (pos + b.length)

/-- what a method of a file with the bytes `d` at position `pos` answers, and the bytes and the position after it; `none`: no
    expectation -/
def FOp.expect (m : OMode) (d : Bytes) (pos : Nat) : FOp → Option (FAns × Bytes × Nat)
  | .read n =>
    let b := if n = -1 then d.drop pos else (d.drop pos).take n.toNat
    if m.reads ∧ -1 ≤ n then some (.bytes b, d, pos + b.length) else none
  | .readline =>
    let b := lineOf (d.drop pos)
    if m.reads then some (.bytes b, d, pos + b.length) else none
  | .next =>
    let b := lineOf (d.drop pos)
    if m.reads then some (if d.length ≤ pos then .stop else .bytes b, d, pos + b.length) else none
  | .readlines => if m.reads then some (.lines ((linesOf (d.drop pos)).map .bytes), d, pos + (d.drop pos).length) else none
  | .seek off wh =>
    let p : Int := if wh = 0 then off else if wh = 1 then pos + off else if wh = 2 then d.length + off else -1
    if m ≠ .a ∧ 0 ≤ p then some (.unit, d, p.toNat) else none
  | .tell => some (.num pos, d, pos)
  | .flush => some (.unit, d, pos)
  | .seekable => some (.bool true, d, pos)
  | .write b =>
    match m with
    | .r => none
    | .a => some (.unit, d ++ b, d.length + b.length)
    | .w | .rw => if b = [] then some (.unit, d, pos) else some (.unit, putAt d pos b, pos + b.length)
  | .truncate size =>
    let n := size.getD pos
    if (m = .w ∨ m = .rw) ∧ 0 ≤ n ∧ n ≤ d.length then some (.num n, d.take n.toNat, pos) else none

/-- an open file: its place and path, its mode, and the position -/
structure Slot (κ : Type) where
  k : κ
  p : List Str
  mode : OMode
  pos : Nat

section
variable {κ : Type}

/-- opening a file in mode 'rb' or 'r+b' (it is there), 'wb' (it is empty then, and was there or is new) and 'ab' (it is there
    and not empty); the tree and the position after it -/
def Tree.opens (t : Tree) (p : List Str) (m : OMode) : Except PyErr (Tree × Nat) :=
  if p = [] ∨ ¬ Fit p ∨ ¬ t.Way p then .error .outside
  else
    match m, t.get p with
    | .r, some (.file _) | .rw, some (.file _) => .ok (t, 0)
    | .r, none | .rw, none => .error (.os .ENOENT)
    | .w, some .dir => .error (.os .EISDIR)
    | .w, _ => if t.get p.dropLast = some .dir then .ok (t.set p (.file []), 0) else .error (.os .ENOENT)
    | .a, some (.file d) => if d = [] then .error .outside else .ok (t, d.length)
    | _, _ => .error .outside

/-- questions what there is, and the names in a directory -/
def Acts.asks : Acts κ → Bool
  | .one _ (.exists_ _) | .one _ (.isfile _) | .one _ (.isdir _) | .one _ (.islink _) | .one _ (.listdir _) => true
  | _ => false

/-- the name that a call is about, if it reads, hashes or writes a whole file, makes a directory or the missing directories of a
    path, or removes a file or an empty directory -/
def Acts.name : Acts κ → Option (κ × List Str)
  | .one k (.read p) | .one k (.md5 p) | .one k (.write p _) | .one k (.mkdir p) | .one k (.makedirs p)
  | .one k (.remove p false) => some (k, p)
  | _ => none

variable [DecidableEq κ]

/-- the call is about one name, and no file is open there -/
def Acts.beside (a : Acts κ) (l : List (Option (Slot κ))) : Bool :=
  match a.name with
  | some (k, p) => l.all fun x => x.all fun f => f.k ≠ k ∨ f.p ≠ p
  | none => false

/-- the call removes a tree in which no file is open -/
def Acts.apart (l : List (Option (Slot κ))) : Acts κ → Bool
  | .one k (.remove p true) => l.all fun x => x.all fun f => f.k ≠ k ∨ ¬ p <+: f.p
  | _ => false

/-- a step of the program.  While files are open, there are no expectations about opening them again, nor about other calls
    than questions, those beside the open files and those that remove trees apart from them; nor about the methods of closed files. -/
def FAct.says (may : κ → κ → Bool) (depth : Nat) : FAct κ → OM ((κ → Tree) × List (Option (Slot κ))) FAns
  | .call a => fun (T, l) =>
    if l.all Option.isNone ∨ a.asks ∨ a.beside l ∨ a.apart l then
      match a.says may depth T with
      | (.ok x, T) => (.ok (.call x), T, l)
      | (.error e, T) => (.error e, T, l)
    else (.error .outside, T, l)
  | .open_ k p m => fun (T, l) =>
    if l.all (fun x => x.all fun f => f.k ≠ k ∨ f.p ≠ p) then
      match (T k).opens p m with
      | .ok (t, pos) => (.ok (.file l.length), setAt T k t, l ++ [some ⟨k, p, m, pos⟩])
      | .error e => (.error e, T, l)
    else (.error .outside, T, l)
  | .op h o => fun (T, l) =>
    match l[h]? with
    | some (some f) =>
      match (T f.k).get f.p with
      | some (.file d) =>
        match o.expect f.mode d f.pos with
        | some (x, d', pos) =>
          (.ok x, setAt T f.k ((T f.k).set f.p (.file d')), l.set h (some { f with pos := pos }))
        | none => (.error .outside, T, l)
      | _ => (.error .outside, T, l)
    | _ => (.error .outside, T, l)
  | .close h => fun (T, l) =>
    match l[h]? with
    | some (some _) => (.ok .unit, T, l.set h none)
    | _ => (.error .outside, T, l)

end

end Verif.Any
