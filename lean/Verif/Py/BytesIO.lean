import Verif.Py.Utf8
import Verif.Py.Err
/-!
# `io.BytesIO` (standard library), as used by memory.py: a byte list and a position
-/
namespace Verif.BytesIO

/-- `write(d)`: overwrite/extend at `pos`; a gap past the end is filled with zero bytes; writing nothing
    does nothing.  Returns the new content and position. -/
def write (data : Bytes) (pos : Nat) (d : Bytes) : Bytes × Nat :=
  if d = [] then (data, pos)
  else
    let base := data ++ List.replicate (pos - data.length) 0
    (base.take pos ++ d ++ base.drop (pos + d.length), pos + d.length)

/-- `read(size)`: a negative size means "to the end".  Returns the bytes and the new position. -/
def read (data : Bytes) (pos : Nat) (size : Int) : Bytes × Nat :=
  let rest := data.drop pos
  let r := if size < 0 then rest else rest.take size.toNat
  (r, pos + r.length)

/-- `seek(target, whence)`: the new position. -/
def seek (data : Bytes) (pos : Nat) (target : Int) (whence : Int) : Except PyErr Nat :=
  if whence = 0 then if target < 0 then .error .valueError else .ok target.toNat
  else if whence = 1 then .ok (pos + target).toNat
  else if whence = 2 then .ok (data.length + target).toNat
  else .error .valueError

/-- `truncate(size)`: shrinks only, keeps the position; `none` is the current position.
    Returns the new content and the result value. -/
def truncate (data : Bytes) (pos : Nat) (size : Option Int) : Except PyErr (Bytes × Int) :=
  let n := size.getD pos
  if n < 0 then .error .valueError else .ok (data.take n.toNat, n)

/-- the bytes up to and including the first newline -/
def firstLine : Bytes → Bytes
  | [] => []
  | b :: r => if b = 10 then [b] else b :: firstLine r

/-- `readline()` -/
def readline (data : Bytes) (pos : Nat) : Bytes × Nat :=
  let r := firstLine (data.drop pos)
  (r, pos + r.length)

end Verif.BytesIO
