import Verif.Uri.Split
import Verif.Py.Quote
/-!
# Model of abl/vpath/base/simpleuri.py
-/
namespace Verif

/-- simpleuri.py:24-28, one item of the loop: exactly one '=' or ValueError. -/
def parseItem (item : Str) : Except PyErr (Str × Str) :=
  match splitC '=' item with
  | [k, v] => .ok (stripW k, unquotePlus (stripW v))
  | _ => .error .valueError

/-- simpleuri.py:24-29, the loop. -/
def parseItems : Dict → List Str → Except PyErr Dict
  | d, [] => .ok d
  | d, i :: r => match parseItem i with
    | .ok (k, v) => parseItems (d.set k v) r
    | .error e => .error e

/-- simpleuri.py:17-29 `parse_query_string` -/
def parseQueryString (q : Str) : Except PyErr Dict := parseItems [] (splitC '&' q)

/-- simpleuri.py:31-71 the attributes of a `UriParse` object. -/
structure UriParse where
  uri : Str
  scheme : Option Str
  authority : Option Str
  path : Str
  query : Dict
  fragment : Option Str
  vpathConnector : Str
  username : Option Str
  password : Option Str
  hostname : Option Str
  port : Int
  netloc : Str
  deriving DecidableEq, Repr

/-- simpleuri.py:81-83, the connector and the authority left after extracting it. -/
def extractConnector (authority : Option Str) : Str × Option Str :=
  match authority with
  | some a => if hasSub cl!"((" a then (sliceTo 2 2 a, some []) else ([], some a)
  | none => ([], none)

/-- simpleuri.py:84-91, user, password, host and port of the authority. -/
def authorityFields (authority : Option Str) :
    Except PyErr (Option Str × Option Str × Option Str × Int) :=
  match authority with
  | some (c :: a) =>
    let s := splitAuthority (c :: a)
    match s.port with
    | some (d :: p) =>
      match pyInt (d :: p) with
      | some n => .ok (s.user, s.passwd, s.host, n)
      | none => .error .valueError
    | _ => .ok (s.user, s.passwd, s.host, 0)
  | _ => .ok (some [], some [], some [], 0)

/-- simpleuri.py:92-95 -/
def queryField (q : Option Str) : Except PyErr Dict :=
  match q with
  | some (c :: q) => parseQueryString (c :: q)
  | _ => .ok []

/-- simpleuri.py:97-101 -/
def netlocField (host : Option Str) (port : Int) : Str :=
  match host with
  | some (c :: h) => if port ≠ 0 then (c :: h) ++ cl!":" ++ intStr port else c :: h
  | _ => []

/-- simpleuri.py:74-101 the part of `UriParse.__init__` after `urisplit`. -/
def UriParse.ofParts (uri : Str) (p : Parts) : Except PyErr UriParse :=
  let (conn, auth) := extractConnector p.authority
  match authorityFields auth with
  | .error e => .error e
  | .ok (user, pw, host, port) =>
    match queryField p.query with
    | .error e => .error e
    | .ok q => .ok
      { uri, scheme := p.scheme, authority := auth, path := p.path, query := q,
        fragment := p.fragment, vpathConnector := conn, username := user, password := pw,
        hostname := host, port, netloc := netlocField host port }

/-- simpleuri.py:36-101 `UriParse.__init__`.  Lines 72-73 only change the attribute `uri`. -/
def UriParse.init (uri : Str) : Except PyErr UriParse :=
  match urisplit uri with
  | .error e => .error e
  | .ok p => UriParse.ofParts (if hasSub cl!"://" uri then uri else cl!"file://" ++ uri) p

/-- simpleuri.py:116-117 -/
def queryPlain (q : Dict) : Str :=
  cl!"?" ++ joinS cl!"&" (q.map fun kv => kv.1 ++ cl!"=" ++ kv.2)

/-- simpleuri.py:114-143 `UriParse.__str__`; a scheme of `None` is an AttributeError. -/
def UriParse.str (u : UriParse) : Except PyErr Str :=
  match u.scheme with
  | none => .error .attributeError
  | some scheme =>
    let rest := (if u.query = [] then [] else queryPlain u.query) ++
      (if truthy u.fragment then cl!"#" ++ u.fragment.getD [] else [])
    let head :=
      if (startsWith scheme cl!"http" && truthy u.hostname) || !startsWith scheme cl!"http"
      then scheme ++ cl!"://" else []
    .ok (head ++ (if truthy u.username then u.username.getD [] else []) ++
      (if truthy u.password then cl!":" ++ u.password.getD [] else []) ++
      (if truthy u.username || truthy u.password then cl!"@" else []) ++
      (if truthy u.hostname then u.hostname.getD []
       else if u.vpathConnector = [] then [] else cl!"((" ++ u.vpathConnector ++ cl!"))") ++
      (if u.port ≠ 0 then cl!":" ++ intStr u.port else []) ++
      u.path ++ rest)

/-- simpleuri.py:145-154 `UriParse.__eq__` (between `UriParse` objects) -/
def UriParse.eq (a b : UriParse) : Bool :=
  a.scheme = b.scheme && a.netloc = b.netloc && a.path = b.path && a.query.eq b.query

/-- simpleuri.py:158-164, the second element of `as_list` -/
def UriParse.listNetloc (u : UriParse) : Str :=
  if u.vpathConnector ≠ [] then cl!"((" ++ u.vpathConnector ++ cl!"))"
  else if truthy u.authority then u.authority.getD []
  else u.netloc

/-- simpleuri.py:173-179 `uri_from_parts` (`'%s' % None` is `'None'`) -/
def uriFromParts (scheme : Option Str) (netloc path : Str) (query : Dict) : Str :=
  scheme.getD cl!"None" ++ cl!"://" ++ netloc ++ path ++
  (if query = [] then [] else cl!"?" ++ urlencode query)

end Verif
