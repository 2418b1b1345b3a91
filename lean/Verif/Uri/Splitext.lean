import Verif.Uri.Base
/-!
# `splitext` and `port`
-/
namespace Verif

/-- `genericpath._splitext(p, '/', None, '.')`, which is `os.path.splitext` where '/' separates names: `dir` is `p` up to and with
    its last slash, and the loop over `filenameIndex` looks for a character other than a dot before the last dot. -/
def osSplitext (p : Str) : Str × Str :=
  let name := (p.reverse.takeWhile (· ≠ '/')).reverse
  let dir := p.take (p.length - name.length)
  let ext := (name.reverse.takeWhile (· ≠ '.')).reverse
  let root := name.take (name.length - ext.length)
  match root.reverse with
  | [] => (p, [])
  | _ :: before => if before.any (· ≠ '.') then (dir ++ before.reverse, '.' :: ext) else (p, [])

namespace Uri

/-- fs.py:464-465 `splitext` -/
def splitext (u : Uri) : Except PyErr (Str × Str) :=
  match u.basename with
  | .error e => .error e
  | .ok n => .ok (osSplitext n)

/-- fs.py:326-331 `port`: the attribute was computed when the URI was made (simpleuri.py:91), reading it raises nothing -/
def port (u : Uri) : Option Int := some u.parse.port

end Uri
end Verif
