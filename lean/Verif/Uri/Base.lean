import Verif.Uri.Parse
/-!
# Model of the string part of abl/vpath/base/fs.py: URI, BaseUri (POSIX: os.name == 'posix')
-/
namespace Verif

/-- The URI classes of the shipped backends (fs.py:1134-1135 fills SCHEME_REGISTRY from the entry
    points declared in setup.py; plugins of other distributions are not modelled). -/
inductive UriClass
  | base | localfs | memory | zip
  deriving DecidableEq, Repr

/-- `SCHEME_REGISTRY.get(scheme, BaseUri)` (fs.py:246) -/
def classOf (scheme : Str) : UriClass :=
  if scheme = cl!"file" then .localfs
  else if scheme = cl!"memory" then .memory
  else if scheme = cl!"zip" then .zip
  else .base

/-- fs.py:183-188 `normalize_uri(uri, sep)` -/
def normalizeUri (uri : Str) (sep : Char) : Str :=
  if sep ≠ '/' then
    match replaceC sep '/' uri with
    | a :: ':' :: r => '/' :: a :: r
    | u => u
  else uri

/-- fs.py:191-195 `denormalize_path(path, sep)` -/
def denormalizePath (path : Str) (sep : Char) : Str :=
  match path with
  | a :: b :: c :: r =>
    if a = c ∧ c = '/' then b :: ':' :: sep :: replaceC '/' sep r
    else replaceC '/' sep path
  | _ => replaceC '/' sep path

/-- A `BaseUri` object (fs.py:253-297).  `usernameAttr`/`passwordAttr` are the instance attributes that
    fs.py:288-297 may set; otherwise attribute lookup falls through to `parse_result` (fs.py:373).
    The cached `_scheme` always equals `parse_result.scheme` and is left out.  `extras` values are
    strings here (Python allows any value). -/
structure Uri where
  cls : UriClass
  uri : Str
  sep : Char
  parse : UriParse
  extras : Dict
  usernameAttr : Option Str
  passwordAttr : Option Str
  deriving DecidableEq, Repr

/-- fs.py:288-297 moving one credential out of extras or query -/
def takeCred (name : Str) (parsed : Option Str) (query extras : Dict) : Option Str × Dict :=
  match parsed with
  | some _ => (none, extras)
  | none =>
    match extras.get? name with
    | some v => (some v, extras.erase name)
    | none => (query.get? name, extras)

/-- fs.py:284-297 the tail of `BaseUri.__init__` -/
def Uri.finish (cls : UriClass) (uri : Str) (sep : Char) (extras : Dict) : Except PyErr Uri :=
  match UriParse.init uri with
  | .error e => .error e
  | .ok p =>
    let (user, extras1) := takeCred cl!"username" p.username p.query extras
    let (pw, extras2) := takeCred cl!"password" p.password p.query extras1
    .ok { cls, uri, sep, parse := p, extras := extras2, usernameAttr := user, passwordAttr := pw }

/-- fs.py:277-283 the normalisation of a string argument -/
def normInput (uri : Str) : Str :=
  let u1 := if startsWith uri cl!"file://" then uri.drop 7 else uri
  let u2 := normalizeUri u1 '\\'
  let u3 := if !hasSub cl!"://" u2 && !(startsWith u2 cl!"/" || startsWith u2 cl!".")
            then cl!"./" ++ u2 else u2
  if !hasSub cl!"://" u3 then cl!"file://" ++ u3 else u3

/-- fs.py:276-297 `BaseUri.__init__` on a string -/
def Uri.mk' (cls : UriClass) (uri : Str) (sep : Char) (extras : Dict) : Except PyErr Uri :=
  Uri.finish cls (normInput uri) sep extras

/-- fs.py:271-275 `BaseUri.__init__` on a URI object -/
def Uri.copyOf (cls : UriClass) (u : Uri) : Except PyErr Uri :=
  Uri.finish cls u.uri u.sep u.extras

/-- `[a-z+-]` of fs.py:235 -/
def schemeChar (c : Char) : Bool := ('a' ≤ c && c ≤ 'z') || c = '+' || c = '-'

/-- fs.py:235,242-244 `scheme_re.match(uri)`: group 1 or the default 'file' -/
def sniffScheme (uri : Str) : Str :=
  let a := uri.takeWhile schemeChar
  if a ≠ [] ∧ startsWith (uri.dropWhile schemeChar) cl!"://" then a else cl!"file"

/-- fs.py:237-250 `URI(uri, sep, **extras)` on a string -/
def URI (uri : Str) (sep : Char := '/') (extras : Dict := []) : Except PyErr Uri :=
  Uri.mk' (classOf (sniffScheme uri)) uri sep extras

/-- fs.py:237-250 `URI(u)` on a URI object -/
def URI.ofUri (u : Uri) : Except PyErr Uri :=
  Uri.copyOf (classOf (u.parse.scheme.getD [])) u

namespace Uri

/-- fs.py:312-324 -/
def scheme (u : Uri) : Option Str := u.parse.scheme

/-- fs.py:319-321: sets `_scheme` and `parse_result.scheme`, not `uri` -/
def setScheme (u : Uri) (s : Str) : Uri := { u with parse := { u.parse with scheme := some s } }

/-- attribute `username`: instance attribute or parse_result -/
def username (u : Uri) : Option Str := u.usernameAttr.or u.parse.username

/-- attribute `password` -/
def password (u : Uri) : Option Str := u.passwordAttr.or u.parse.password

/-- fs.py:304-309 `_extras` -/
def allExtras (u : Uri) : Dict :=
  if isHttp u.scheme then u.extras else u.extras.update u.parse.query

/-- the result of fs.py:354-362 `_key` -/
structure Key where
  scheme : Option Str
  hostname : Option Str
  port : Int
  username : Option Str
  password : Option Str
  vpathConnector : Str
  deriving DecidableEq, Repr

/-- fs.py:354-362 `_key` -/
def key (u : Uri) : Key :=
  { scheme := u.scheme, hostname := u.parse.hostname, port := u.parse.port,
    username := u.username, password := u.password, vpathConnector := u.parse.vpathConnector }

/-- fs.py:336-337 `path[1:] if path.startswith("/.") else path` -/
def cutDot (path : Str) : Str := if startsWith path cl!"/." then path.drop 1 else path

/-- fs.py:334-342 `path`, overridden by localfs.py:35-41 -/
def path (u : Uri) : Str :=
  match u.cls with
  | .localfs => if u.sep ≠ '/' then denormalizePath u.parse.path u.sep else cutDot u.parse.path
  | _ => cutDot u.parse.path

/-- fs.py:345-351 `unipath` -/
def unipath (u : Uri) : Str :=
  if !(startsWith u.parse.path cl!"." || startsWith u.parse.path cl!"/")
  then cl!"./" ++ u.parse.path else u.parse.path

/-- fs.py:407-412 `is_absolute` -/
def isAbsolute (u : Uri) : Bool := startsWith (cutDot u.parse.path) cl!"/"

/-- fs.py:365, localfs.py:32 `__str__` -/
def str (u : Uri) : Except PyErr Str :=
  match u.cls with
  | .localfs => .ok u.path
  | _ => u.parse.str

/-- fs.py:377-381 `__eq__` between URIs (`False` against anything else) -/
def eq (a b : Uri) : Bool := a.parse.eq b.parse

/-- fs.py:377-381 `__eq__` with any object; `none` stands for one that is no URI -/
def eqAny (a : Uri) : Option Uri → Bool
  | some b => a.eq b
  | none => false

/-- fs.py:384-385 `__ne__` -/
def neAny (a : Uri) (b : Option Uri) : Bool := !a.eqAny b

/-- fs.py:396-404 `__add__` -/
def add (u : Uri) (suffix : Str) : Except PyErr Uri :=
  match Uri.mk' u.cls (u.uri ++ suffix) u.sep u.allExtras with
  | .error e => .error e
  | .ok r => .ok { r with parse := { r.parse with query := u.parse.query } }

/-- fs.py:415-439 `split`: first component (as the string handed to the constructor) and second -/
def splitStr (uri : Str) : Str × Str :=
  let (first, second) := match rsplit1 '/' uri with
    | some (a, b) => (a, b)
    | none => ([], uri)
  let first := if endsWith first cl!"//" then first ++ cl!"/" else first
  let first := if first = [] then cl!"." else first
  (first, partition0 '?' second)

/-- fs.py:415-439 `split` -/
def split (u : Uri) : Except PyErr (Uri × Str) :=
  let (first, second) := splitStr u.uri
  match Uri.mk' u.cls first u.sep u.allExtras with
  | .error e => .error e
  | .ok v => .ok (v, second)

/-- fs.py:442-451 `directory(level)`: the loop, for `level = k` (`dirname` is an alias) -/
def dirLoop (u : Uri) : Nat → Except PyErr Uri
  | 0 => .ok u
  | k + 1 => match u.split with
    | .error e => .error e
    | .ok (v, _) => dirLoop v k

/-- fs.py:442-451 `directory(level)` with its assertion -/
def directory (u : Uri) (level : Nat := 1) : Except PyErr Uri :=
  if level > 0 then dirLoop u level else .error .assertionError

/-- fs.py:457-461 `basename` -/
def basename (u : Uri) : Except PyErr Str :=
  match u.split with
  | .error e => .error e
  | .ok (_, b) => .ok b

/-- fs.py:468-487 `last` (on the string `self.uri`) -/
def last (u : Uri) : Str :=
  let parts := splitC '/' u.uri
  match parts.reverse with
  | [] => []
  | [x] => x
  | [] :: y :: _ => y
  | x :: _ => x

/-- fs.py:497-506 the joined path; `args[-1]` of an empty list is an IndexError -/
def joinPath (u : Uri) (args : List Str) : Except PyErr Str :=
  let args := if u.sep ≠ '/' then args.map (replaceC u.sep '/') else args
  match args.getLast? with
  | none => .error .indexError
  | some l =>
    .ok (joinS cl!"/" ([rstripC '/' u.parse.path] ++ args.dropLast.map (stripC '/') ++ [l]))

/-- fs.py:490-516 `join` -/
def join (u : Uri) (args : List Str) : Except PyErr Uri :=
  match u.joinPath args with
  | .error e => .error e
  | .ok p =>
    match Uri.mk' u.cls (uriFromParts u.parse.scheme u.parse.listNetloc p u.parse.query) u.sep
        u.allExtras with
    | .error e => .error e
    | .ok r => .ok { r with parse := { r.parse with query := u.parse.query } }

/-- fs.py:388-393 `u / n` -/
def div (u : Uri) (n : Str) : Except PyErr Uri := u.join [n]

end Uri
end Verif
