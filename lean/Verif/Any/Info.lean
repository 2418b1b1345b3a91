import Verif.Any.Exec
import Verif.Py.Utf8
/-!
# `info` in the memory and the local file systems

The sizes and modes that `info` tells, and `info(set_info=...)`.  Times of local files are not modelled.
-/
namespace Verif.Any
open Verif.Spec Verif.Gen

/-- what is taken of the result of `info`: its fields `size` and `mode` (localfs.py:70-76, memory.py:531-533).  The times
    `mtime`, `ctime` and `atime` are left out: the model has no times of local files. -/
structure Told where
  size : Nat
  mode : Int
  deriving DecidableEq

/-- `st_size`: of a file the number of its bytes, of a link the number of bytes of its text; of a directory it is what the
    operating system makes of it, here any number `z` (what `stats[stat.ST_SIZE]` at localfs.py:68 is; assumed) -/
def DObj.stSize (z : Nat) : DObj → Nat
  | .dir _ => z
  | .file _ b => b.length
  | .link t => (utf8Encode t).length

/-- `os.stat(p)` (`fl`) and `os.lstat(p)`, the fields ST_SIZE and ST_MODE (called at localfs.py:65; assumed) -/
def osStat (z : Nat) (fl : Bool) (p : Str) : OM Disk Told := fun d =>
  match d.find fl p with
  | .here q =>
    match d.tree q with
    | some o => (.ok ⟨o.stSize z, o.stMode⟩, d)
    | none => (.error .outside, d)
  | .free _ _ => (.error (.os .ENOENT), d)
  | .fail e => (.error e, d)

/-- localfs.py:52-57, 65-76 `info(unc, followlinks=fl)` -/
def locInfo (z : Nat) (u : Uri) (fl : Bool) : OM Sys Told := do
  let l ← osAsk false isLinkD u
  let useLink := l && !fl
  onDisk (osStat z (!useLink) u.path)

/-- localfs.py:52-63 `info(unc, set_info, followlinks=fl)`; the only key that is looked at is "mode".  `lchmod`
    (localfs.py:24-28) is `os.chmod` with `follow_symlinks=False`, which raises NotImplementedError on Linux (assumed). -/
def locSetInfo (u : Uri) (mode : Option Nat) (fl : Bool) : OM Sys Unit := do
  let l ← osAsk false isLinkD u
  let useLink := l && !fl
  match mode with
  | some m => if useLink then OM.raise .notImplemented else onDisk (osChmod u.path m)
  | none => pure ()

/-- localfs.py:52-76 and memory.py:522-533 -/
def sysInfo (z : Nat) (c : Conn) (u : Uri) (fl : Bool) : OM Sys Told :=
  match c with
  | .loc => locInfo z u fl
  | .mem r => onMem (Mem.M.query fun w => (Mem.info w r u fl).map fun i => ⟨i.size, i.mode⟩)

/-- localfs.py:52-63 and memory.py:522-529; `mode` and `mtime` are the keys of `set_info` that are looked at -/
def sysSetInfo (c : Conn) (u : Uri) (mode : Option Nat) (mtime : Option Int) (fl : Bool) : OM Sys Unit :=
  match c with
  | .loc => locSetInfo u mode fl
  | .mem r => onMem (Mem.setInfo r u { mode := mode.map Int.ofNat, mtime := mtime } fl)

/-- fs.py:762-775 `info(followlinks=fl)` -/
def uInfo (z : Nat) (u : Uri) (fl : Bool) : OM Sys Told := withConn sysOps u .info fun c => sysInfo z c u fl
/-- fs.py:762-775 `info(set_info, followlinks=fl)` -/
def uSetInfo (u : Uri) (mode : Option Nat) (mtime : Option Int) (fl : Bool) : OM Sys Unit :=
  withConn sysOps u .info fun c => sysSetInfo c u mode mtime fl

end Verif.Any
