import Verif.Py.Str
import Verif.Py.Err
/-!
# Model of abl/vpath/base/uriparse.py: urisplit, uriunsplit, split_authority, join_authority
-/
namespace Verif

/-- The 5-tuple `(scheme, authority, path, query, fragment)` of uriparse.py:89; `none` is `None`. -/
structure Parts where
  scheme : Option Str
  authority : Option Str
  path : Str
  query : Option Str
  fragment : Option Str
  deriving DecidableEq, Repr

/-- The placeholder `'__inner_part__'` (uriparse.py:73). -/
def INNER : Str := cl!"__inner_part__"

/-- uriparse.py:68, the part `.*?\)\)` of the regex after `\(\(` has matched: the shortest
    newline-free body followed by `))`.  Returns the body and the text after `))`. -/
def closeInner : Str → Option (Str × Str)
  | ')' :: ')' :: r => some ([], r)
  | c :: r => if c = '\n' then none else (closeInner r).map fun (b, t) => (c :: b, t)
  | [] => none

/-- uriparse.py:68-69, `re.compile(r'\(\(.*?\)\)').search(uri)`: leftmost match.
    Returns (text before, matched text with its parentheses, text after). -/
def findInner : Str → Option (Str × Str × Str)
  | '(' :: '(' :: r =>
    match closeInner r with
    | some (b, t) => some ([], cl!"((" ++ b ++ cl!"))", t)
    | none => (findInner ('(' :: r)).map fun (a, m, t) => ('(' :: a, m, t)
  | c :: r => (findInner r).map fun (a, m, t) => (c :: a, m, t)
  | [] => none

/-- uriparse.py:75 `(([^:/?#]+):)?` -/
def reScheme (s : Str) : Option Str × Str :=
  let a := s.takeWhile fun c => !(c == ':' || c == '/' || c == '?' || c == '#')
  match s.dropWhile fun c => !(c == ':' || c == '/' || c == '?' || c == '#') with
  | ':' :: r => if a = [] then (none, s) else (some a, r)
  | _ => (none, s)

/-- uriparse.py:75 `(//([^/?#]*))?` -/
def reAuthority (s : Str) : Option Str × Str :=
  match s with
  | '/' :: '/' :: r =>
    (some (r.takeWhile fun c => !(c == '/' || c == '?' || c == '#')),
     r.dropWhile fun c => !(c == '/' || c == '?' || c == '#'))
  | _ => (none, s)

/-- uriparse.py:75 `([^?#]*)` -/
def rePath (s : Str) : Str × Str :=
  (s.takeWhile fun c => !(c == '?' || c == '#'), s.dropWhile fun c => !(c == '?' || c == '#'))

/-- uriparse.py:75 `(\?([^#]*))?` -/
def reQuery (s : Str) : Option Str × Str :=
  match s with
  | '?' :: r => (some (r.takeWhile fun c => !(c == '#')), r.dropWhile fun c => !(c == '#'))
  | _ => (none, s)

/-- uriparse.py:75 `(#(.*))?` – `.` does not match a newline and the regex is not anchored at the end. -/
def reFragment (s : Str) : Option Str :=
  match s with
  | '#' :: r => some (r.takeWhile fun c => !(c == '\n'))
  | _ => none

/-- uriparse.py:76-77, `re.match(regex, uri).groups()`: the five groups kept.
    No group of the regex needs backtracking: each one is followed by a character outside its class. -/
def reMatch (s : Str) : Parts :=
  let (scheme, s1) := reScheme s
  let (authority, s2) := reAuthority s1
  let (path, s3) := rePath s2
  let (query, s4) := reQuery s3
  { scheme, authority, path, query, fragment := reFragment s4 }

/-- `scheme in ['http', 'https']` (uriparse.py:85, fs.py:306) -/
def isHttp (scheme : Option Str) : Bool := scheme = some cl!"http" || scheme = some cl!"https"

/-- uriparse.py:79-89, everything after the regex match; `None.replace` is an AttributeError. -/
def urisplitPost (inner : Str) (p : Parts) : Except PyErr Parts :=
  match p.authority with
  | none => .error .attributeError
  | some a =>
    let a := replaceS INNER inner a
    let (auth, path) := if a = cl!"." then (none, a ++ p.path) else (some a, p.path)
    if isHttp p.scheme then .ok { p with authority := auth, path }
    else match p.fragment with
      | some (c :: f) =>
        .ok { p with authority := auth, path := path ++ cl!"#" ++ (c :: f), fragment := some [] }
      | _ => .ok { p with authority := auth, path }

/-- uriparse.py:60-89 `urisplit` -/
def urisplit (uri : Str) : Except PyErr Parts :=
  match findInner uri with
  | some (a, m, b) => urisplitPost m (reMatch (a ++ INNER ++ b))
  | none => urisplitPost [] (reMatch uri)

/-- A Python value used as a condition: `None` and `''` are false. -/
def truthy : Option Str → Bool
  | some (_ :: _) => true
  | _ => false

/-- uriparse.py:92-111 `uriunsplit` -/
def uriunsplit (p : Parts) : Str :=
  (if truthy p.scheme then p.scheme.getD [] ++ cl!":" else []) ++
  (if truthy p.authority then cl!"//" ++ p.authority.getD [] else []) ++
  p.path ++
  (if truthy p.query then cl!"?" ++ p.query.getD [] else []) ++
  (if truthy p.fragment then cl!"#" ++ p.fragment.getD [] else [])

/-- The 4-tuple of uriparse.py:136. -/
structure Auth where
  user : Option Str
  passwd : Option Str
  host : Option Str
  port : Option Str
  deriving DecidableEq, Repr

/-- `s.split(c, 1)` as (first, second or None) (uriparse.py:126-133) -/
def headTail (c : Char) (s : Str) : Str × Option Str :=
  match split1 c s with
  | some (a, b) => (a, some b)
  | none => (s, none)

/-- uriparse.py:114-136 `split_authority` (for a string argument) -/
def splitAuthority (authority : Str) : Auth :=
  let (userinfo, hostport) : Option Str × Str :=
    match split1 '@' authority with
    | some (a, b) => (some a, b)
    | none => (none, authority)
  let (user, passwd) : Option Str × Option Str :=
    match userinfo with
    | none => (none, none)
    | some ui => (some (headTail ':' ui).1, (headTail ':' ui).2)
  let (host, port) := headTail ':' hostport
  { user, passwd, host := if host = [] then none else some host, port }

/-- uriparse.py:139-157 `join_authority`; `'' + None` is a TypeError. -/
def joinAuthority (a : Auth) : Except PyErr Str :=
  match a.host with
  | none => .error .typeError
  | some h =>
    .ok ((if truthy a.user then
            a.user.getD [] ++ (if truthy a.passwd then cl!":" ++ a.passwd.getD [] else []) ++ cl!"@"
          else []) ++ h ++
         (if truthy a.port then cl!":" ++ a.port.getD [] else []))

end Verif
