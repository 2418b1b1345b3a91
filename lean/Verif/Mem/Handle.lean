import Verif.Mem.Fs
/-!
# File handles: `MemoryFileProxy` over `MemoryFile` (memory.py:24-192)
-/
namespace Verif.Mem
open M

/-- a `bytes` or `str` argument -/
inductive PyData
  | bytes (b : Bytes)
  | str (s : Str)
  deriving DecidableEq

/-- run an operation on the MemoryFile behind a handle -/
def withFile {α : Type} (i : Nat) (f : FileObj → M α) : M α := fun w =>
  match w.node i with
  | .file o => f o w
  | _ => (.error .attributeError, w)

/-- memory.py:145-147 `encode`; `BytesIO.write` rejects `str` (TypeError) -/
def Handle.encode (h : Handle) : PyData → Except PyErr Bytes
  | .bytes b => .ok b
  | .str s => if h.binary then .error .typeError else .ok (utf8Encode s)

/-- memory.py:149-150 `decode` -/
def Handle.decode (h : Handle) (b : Bytes) : Except PyErr PyData :=
  if h.binary then .ok (.bytes b)
  else match utf8Decode b with
    | some s => .ok (.str s)
    | none => .error .unicodeDecode

/-- memory.py:159-160, 59-61 `write` -/
def Handle.write (h : Handle) (d : PyData) : M Unit := do
  let b ← lift (h.encode d)
  withFile h.id fun f => do
    let r := BytesIO.write f.data f.pos b
    let t ← now
    setNode h.id (.file { f with data := r.1, pos := r.2, mtime := t })

/-- memory.py:153-156, 64-65 `read(size)`; the position advances even if decoding fails -/
def Handle.read (h : Handle) (size : Int := -1) : M PyData :=
  if h.readable then do
    let b ← withFile h.id fun f => do
      let r := BytesIO.read f.data f.pos size
      setNode h.id (.file { f with pos := r.2 })
      pure r.1
    lift (h.decode b)
  else raise (.os .EBADF)

/-- memory.py:68-69 `seek` -/
def Handle.seek (h : Handle) (target : Int) (whence : Int := 0) : M Unit :=
  withFile h.id fun f => do
    let p ← lift (BytesIO.seek f.data f.pos target whence)
    setNode h.id (.file { f with pos := p })

/-- memory.py:76-77 `tell` -/
def Handle.tell (h : Handle) : M Nat := withFile h.id fun f => pure f.pos

/-- memory.py:84-85 `truncate` -/
def Handle.truncate (h : Handle) (size : Option Int) : M Int :=
  withFile h.id fun f => do
    let r ← lift (BytesIO.truncate f.data f.pos size)
    setNode h.id (.file { f with data := r.1 })
    pure r.2

/-- memory.py:104-106 `close`: only rewinds -/
def Handle.close (h : Handle) : M Unit :=
  withFile h.id fun f => setNode h.id (.file { f with pos := 0 })

/-- memory.py:55-56 `size` -/
def Handle.size (h : Handle) : M Nat := withFile h.id fun f => pure f.data.length

/-- memory.py:186-187, 109-110 `readline` -/
def Handle.readline (h : Handle) : M PyData := do
  let b ← withFile h.id fun f => do
    let r := BytesIO.readline f.data f.pos
    setNode h.id (.file { f with pos := r.2 })
    pure r.1
  lift (h.decode b)

/-- memory.py:118-123, 179-180 `next(handle)`: `none` is StopIteration -/
def Handle.next (h : Handle) : M (Option PyData) := do
  let b ← withFile h.id fun f => do
    let r := BytesIO.readline f.data f.pos
    setNode h.id (.file { f with pos := r.2 })
    pure r.1
  if b = [] then pure none
  else
    let d ← lift (h.decode b)
    pure (some d)

/-- `list(handle)`: iteration until StopIteration, at most `n` steps (then `hang`; a file of `k` bytes
    needs at most `k + 1` steps) -/
def Handle.lines (h : Handle) : Nat → M (List PyData)
  | 0 => raise .hang
  | n + 1 => do
    match ← h.next with
    | none => pure []
    | some d =>
      let r ← h.lines n
      pure (d :: r)

end Verif.Mem
