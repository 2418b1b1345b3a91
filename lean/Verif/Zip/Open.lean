import Verif.Any.Arc
import Verif.Py.BytesIO
/-!
# Write statements of a zip connection that are open at the same time

The methods of `Zip/Model`, with any number of `WriteStatement` objects, entered or not, left in any order or never.
-/
namespace Verif.Zip
open Verif.Any (member hasDir namesIn putAt)
open Verif.Spec

/-- zip.py:12-33 `WriteStatement`: the path and the `BytesIO` (bytes, position, closed).  Left out: other methods of `BytesIO`. -/
structure Stmt where
  path : Str
  buf : Bytes
  pos : Nat
  closed : Bool
  deriving DecidableEq

/-- what a program does with a connection and the statements it has got; `i` is the number of a statement -/
inductive Act
  | begin (m : List Str)               -- f = u.open('w'), with `with` or without
  | write (i : Nat) (b : Bytes)        -- f.write(b)
  | seek (i n : Nat)                   -- f.seek(n)
  | truncate (i : Nat)                 -- f.truncate()
  | value (i : Nat)                    -- f.getvalue()
  | close (i : Nat)                    -- f.close()
  | leave (i : Nat)                    -- the end of `with f:`
  | read (m : List Str)
  | exists_ (m : List Str)
  | isfile (m : List Str)
  | isdir (m : List Str)
  | listdir (m : List Str)
  deriving DecidableEq

/-- what is answered -/
inductive Reply
  | unit
  | stmt (i : Nat)
  | num (n : Nat)
  | bytes (b : Bytes)
  | bool (b : Bool)
  | names (l : List Str)
  deriving DecidableEq

/-- the connection with its archive, and the statements -/
structure Desk where
  z : St
  stmts : List Stmt

/-- zip.py:32-33 `__getattr__`: a method of the `BytesIO`; ValueError if it is closed -/
def onBuf (i : Nat) (f : Stmt → Except PyErr (Reply × Stmt)) (d : Desk) : Except PyErr Reply × Desk :=
  match d.stmts[i]? with
  | none => (.error .outside, d)
  | some s =>
    if s.closed then (.error .valueError, d)
    else
      match f s with
      | .error e => (.error e, d)
      | .ok (x, s') => (.ok x, { d with stmts := d.stmts.set i s' })

/-- a question to the connection -/
def ask {α : Type} (m : ZM α) (f : α → Reply) (d : Desk) : Except PyErr Reply × Desk :=
  ((m d.z).1.map f, { d with z := (m d.z).2 })

/-- one step of a program -/
def Act.run : Act → Desk → Except PyErr Reply × Desk
  | .begin m => fun d =>                                                     -- zip.py:134-141, 153-155, 13-17
    match open_ (pathOf m) (some cl!"w") d.z with
    | (.error e, z) => (.error e, { d with z := z })
    | (.ok _, z) => (.ok (.stmt d.stmts.length), ⟨z, d.stmts ++ [⟨pathOf m, [], 0, false⟩]⟩)
  | .write i b => onBuf i fun s =>
    let x := BytesIO.write s.buf s.pos b
    .ok (.num b.length, { s with buf := x.1, pos := x.2 })
  | .seek i n => onBuf i fun s => (BytesIO.seek s.buf s.pos n 0).map fun p => (.num p, { s with pos := p })
  | .truncate i => onBuf i fun s => (BytesIO.truncate s.buf s.pos none).map fun x => (.num x.2.toNat, { s with buf := x.1 })
  | .value i => onBuf i fun s => .ok (.bytes s.buf, s)
  | .close i => fun d =>
    match d.stmts[i]? with
    | none => (.error .outside, d)
    | some s => (.ok .unit, { d with stmts := d.stmts.set i { s with closed := true } })
  | .leave i => fun d =>                                                     -- zip.py:24-29
    match d.stmts[i]? with
    | none => (.error .outside, d)
    | some s =>
      if s.closed then (.error .valueError, d)
      else
        match exitWriting s.path s.buf d.z with
        | (.error e, z) => (.error e, { d with z := z })
        | (.ok (), z) => (.ok .unit, ⟨z, d.stmts.set i { s with closed := true }⟩)
  | .read m => ask (Zip.read (pathOf m)) .bytes
  | .exists_ m => ask (Zip.exists_ (pathOf m)) .bool
  | .isfile m => ask (Zip.isfile (pathOf m)) .bool
  | .isdir m => ask (Zip.isdir (pathOf m)) .bool
  | .listdir m => ask (Zip.listdir (pathOf m)) .names

/-- a program: the next step, by what was answered so far -/
def ZPrg := List (Except PyErr Reply) → Option Act

/-- the answers of the first `n` steps of a program, and the state after them -/
def ZPrg.exec {σ : Type} (step : Act → σ → Except PyErr Reply × σ) (pr : ZPrg) : Nat → σ → List (Except PyErr Reply) × σ
  | 0, s => ([], s)
  | n + 1, s =>
    let x := pr.exec step n s
    match pr x.1 with
    | none => x
    | some a => (x.1 ++ [(step a x.2).1], (step a x.2).2)

/-! ## What is expected

Nothing here is code of the repository. -/

/-- how the archive was opened last -/
inductive Use
  | fresh                -- not yet
  | reading
  | writing
  deriving DecidableEq

/-- what was there at the beginning, what has been stored since then, how the archive was opened last, and the statements -/
structure Tally where
  base : Container
  kept : List Entry
  use : Use
  stmts : List Stmt

/-- the members of the archive -/
def Tally.members (t : Tally) : List Entry :=
  (match t.base with
    | .archive es => es
    | _ => []) ++ t.kept

/-- the archive can be opened for reading -/
def Tally.found (t : Tally) : Except PyErr Unit :=
  if t.use ≠ .fresh then .ok ()
  else match t.base with
    | .archive _ => .ok ()
    | .raw => .error .badZip
    | .missing => .error (.os .ENOENT)
    | .dir => .error .outside

/-- a change of the bytes of a statement that is not closed -/
def Tally.onBuf (t : Tally) (i : Nat) (f : Stmt → Reply × Stmt) : Except PyErr Reply × Tally :=
  match t.stmts[i]? with
  | none => (.error .outside, t)
  | some s => if s.closed then (.error .valueError, t) else (.ok (f s).1, { t with stmts := t.stmts.set i (f s).2 })

/-- What a step answers and leaves.  A statement that is left stores its bytes if and only if the archive was opened for
    writing when it was opened last, and is open for reading from then on. -/
def Act.says : Act → Tally → Except PyErr Reply × Tally
  | .begin m => fun t =>
    if t.base = .dir ∨ m = [] ∨ '\x00' ∈ pathOf m then (.error .outside, t)
    else (.ok (.stmt t.stmts.length), { t with use := .writing, stmts := t.stmts ++ [⟨pathOf m, [], 0, false⟩] })
  | .write i b => fun t => t.onBuf i fun s =>
    (.num b.length, if b = [] then s else { s with buf := putAt s.buf s.pos b, pos := s.pos + b.length })
  | .seek i n => fun t => t.onBuf i fun s => (.num n, { s with pos := n })
  | .truncate i => fun t => t.onBuf i fun s => (.num s.pos, { s with buf := s.buf.take s.pos })
  | .value i => fun t => t.onBuf i fun s => (.bytes s.buf, s)
  | .close i => fun t =>
    match t.stmts[i]? with
    | none => (.error .outside, t)
    | some s => (.ok .unit, { t with stmts := t.stmts.set i { s with closed := true } })
  | .leave i => fun t =>
    match t.stmts[i]? with
    | none => (.error .outside, t)
    | some s =>
      if s.closed = true ∨ t.use ≠ .writing then (.error .valueError, t)
      else (.ok .unit, ⟨t.base, t.kept ++ [⟨s.path, s.buf⟩], .reading, t.stmts.set i { s with closed := true }⟩)
  | .read m => fun t =>
    match t.found with
    | .error e => (.error e, t)
    | .ok () =>
      match member t.members m with
      | some b => (.ok (.bytes b), { t with use := .reading })
      | none => (.error .fileDoesNotExist, { t with use := .reading })
  | .isfile m => fun t =>
    if m = [] then (.ok (.bool true), t)
    else if t.use = .fresh then (.error .attributeError, t)
    else (.ok (.bool (member t.members m).isSome), t)
  | .isdir m => fun t =>
    if m = [] then (.ok (.bool true), t)
    else if t.use = .fresh then (.error .attributeError, t)
    else (.ok (.bool (hasDir t.members m)), t)
  | .exists_ m => fun t =>
    if m = [] then (.ok (.bool true), t)
    else if t.use = .fresh then (.error .attributeError, t)
    else (.ok (.bool ((member t.members m).isSome ∨ hasDir t.members m)), t)
  | .listdir m => fun t =>
    if t.use = .fresh ∧ t.base = .missing then (.ok (.names []), t)
    else
      match t.found with
      | .error e => (.error e, t)
      | .ok () =>
        let t' := if t.use = .fresh then { t with use := .reading } else t
        if ¬ hasDir t.members m then (.error .fileDoesNotExist, t')
        else if m = [] ∧ ∃ e ∈ t.members, e.name.head? ≠ some '/' then (.error .outside, t')
        else (.ok (.names (namesIn t.members m)), t')

/-- the member the step is about, if any -/
def Act.about : Act → List Str
  | .begin m | .read m | .exists_ m | .isfile m | .isdir m | .listdir m => m
  | _ => []

end Verif.Zip
