import Verif.Uri.Split
/-!
# Model of abl/vpath/base/uriparse.py:160-375 (URLParser, URIParser, urljoin)
-/
namespace Verif

/-- uriparse.py:337-341 `_dirname`: cut after the last '/' -/
def dirnameStr (p : Str) : Str := (p.reverse.dropWhile (· ≠ '/')).reverse

/-- uriparse.py:343-349 `_pathjoin` -/
def pathJoin (a b : Str) : Str :=
  if a = [] ∨ b = [] then (if a = [] then b else a)
  else if startsWith b cl!"/" then b else a ++ cl!"/" ++ b

/-- `posixpath.normpath`, the loop over the components (standard library); `acc` is reversed. -/
def normComps (absolute : Bool) : List Str → List Str → List Str
  | acc, [] => acc.reverse
  | acc, c :: r =>
    if c = [] ∨ c = cl!"." then normComps absolute acc r
    else if c ≠ cl!".." ∨ (absolute = false ∧ acc = []) ∨ acc.head? = some cl!".."
      then normComps absolute (c :: acc) r
    else normComps absolute acc.tail r

/-- `posixpath.normpath` (standard library) -/
def normpath (p : Str) : Str :=
  if p = [] then cl!"."
  else
    let pre := if startsWith p cl!"//" && !startsWith p cl!"///" then cl!"//"
      else if startsWith p cl!"/" then cl!"/" else []
    let r := pre ++ joinS cl!"/" (normComps (pre ≠ []) [] (splitC '/' p))
    if r = [] then cl!"." else r

/-- uriparse.py:351-375 `urljoin` -/
def urljoin (base url : Str) : Except PyErr Str :=
  match urisplit base with
  | .error e => .error e
  | .ok b =>
    match urisplit url with
    | .error e => .error e
    | .ok u =>
      if u.scheme ≠ none ∧ b.scheme ≠ u.scheme then .ok url
      else if u.authority ≠ none then
        .ok (uriunsplit { u with scheme := b.scheme })
      else if u.path ≠ [] then
        .ok (uriunsplit { b with path := normpath (pathJoin (dirnameStr b.path) u.path),
                                 query := u.query, fragment := u.fragment })
      else if u.query ≠ none then
        .ok (uriunsplit { b with query := u.query, fragment := u.fragment })
      else if u.fragment ≠ none then .ok (uriunsplit { b with fragment := u.fragment })
      else .ok (uriunsplit b)

/-- The seven defaults of a URLParser subclass (uriparse.py:171-244), already passed through `str`
    (lines 176-180). -/
structure Defaults where
  user : Option Str := none
  passwd : Option Str := none
  host : Option Str := none
  port : Option Str := none
  path : Option Str := none
  query : Option Str := none
  frag : Option Str := none
  deriving DecidableEq, Repr

/-- uriparse.py:206-247, 275-284, 329-335: the defaults of the parser selected by a scheme
    (`mailto`, which has another shape, is `none`). -/
def defaultsFor (scheme : Str) : Option Defaults :=
  if scheme = cl!"http" then some { port := some cl!"80", path := some cl!"/" }
  else if scheme = cl!"https" then some { port := some cl!"443", path := some cl!"/" }
  else if scheme = cl!"imap" then
    some { host := some cl!"localhost", port := some cl!"143", path := some cl!"/" }
  else if scheme = cl!"imaps" then
    some { host := some cl!"localhost", port := some cl!"993", path := some cl!"/" }
  else if scheme = cl!"ftp" then
    some { user := some cl!"anonymous", passwd := some cl!"anonymous", port := some cl!"21",
           path := some cl!"/" }
  else if scheme = cl!"tftp" then some { port := some cl!"69", path := some cl!"/" }
  else if scheme = cl!"file" then some { path := some cl!"/" }
  else if scheme = cl!"telnet" then some { port := some cl!"23", path := some cl!"/" }
  else if scheme = cl!"mailto" then none
  else some { path := some cl!"/" }

/-- uriparse.py:182-200 `URLParser.parse`; an authority of `None` is a TypeError at line 184. -/
def urlParse (d : Defaults) (url : Str) : Except PyErr (Auth × Option Str × Option Str × Option Str) :=
  match urisplit url with
  | .error e => .error e
  | .ok p =>
    match p.authority with
    | none => .error .typeError
    | some a =>
      let s := splitAuthority a
      .ok ({ user := s.user.or d.user, passwd := s.passwd.or d.passwd, host := s.host.or d.host,
             port := s.port.or d.port },
           if p.path = [] then d.path else some p.path, p.query.or d.query, p.fragment.or d.frag)

/-- uriparse.py:202-204 `URLParser.unparse`: `pieces[:4]` has to have four elements (ValueError), `pieces[4]` and so
    on have to be there (IndexError; the arguments are evaluated before `uriunsplit` is called, but after
    `join_authority`).  A path of None is left out like an empty one. -/
def urlUnparse : List (Option Str) → Except PyErr Str
  | user :: passwd :: host :: port :: rest =>
    match joinAuthority ⟨user, passwd, host, port⟩ with
    | .error e => .error e
    | .ok a =>
      match rest with
      | path :: query :: frag :: _ => .ok (uriunsplit ⟨some [], some a, path.getD [], query, frag⟩)
      | _ => .error .indexError
  | _ => .error .valueError

/-- uriparse.py:256-259 `MailtoURIParser.parse`; a path without '@' cannot be unpacked -/
def mailtoParse (url : Str) : Except PyErr (List (Option Str)) :=
  match urisplit url with
  | .error e => .error e
  | .ok p =>
    match split1 '@' p.path with
    | none => .error .valueError
    | some (user, host) => .ok [some user, some host, p.query, p.fragment]

/-- uriparse.py:261-263 `MailtoURIParser.unparse`; adding None to a string is a TypeError -/
def mailtoUnparse : List (Option Str) → Except PyErr Str
  | [] => .error .indexError
  | none :: _ => .error .typeError
  | [some _] => .error .indexError
  | some _ :: none :: _ => .error .typeError
  | some user :: some host :: query :: frag :: _ => .ok (uriunsplit ⟨some [], none, user ++ cl!"@" ++ host, query, frag⟩)
  | _ => .error .indexError

/-- uriparse.py:320-322 `scheme_of` -/
def schemeOf (uri : Str) : Str := (splitC ':' uri).headD []

/-- uriparse.py:324-326 `info_of` -/
def infoOf (uri : Str) : Except PyErr Str :=
  match splitC ':' uri with
  | _ :: i :: _ => .ok i
  | _ => .error .indexError

/-- uriparse.py:299-309 `URIParser().parse(uri, defaults)`, with the parser of 328-334; `defaults` replace those of
    the class (173-180; there, only their truth as a tuple is asked for, so that seven of them always count) -/
def uriParserParse (url : Str) (defaults : Option Defaults := none) : Except PyErr (List (Option Str)) :=
  match defaultsFor (schemeOf url) with
  | none =>
    match mailtoParse url with
    | .error e => .error e
    | .ok l => .ok (some (schemeOf url) :: l)
  | some d =>
    match urlParse (defaults.getD d) url with
    | .error e => .error e
    | .ok (a, p, q, f) => .ok [some (schemeOf url), a.user, a.passwd, a.host, a.port, p, q, f]

/-- uriparse.py:311-318 `URIParser().unparse(pieces)`: the parser gets all pieces, the scheme among them -/
def uriParserUnparse (pieces : List (Option Str)) : Except PyErr Str :=
  match pieces with
  | [] => .error .indexError
  | none :: _ => .error .attributeError
  | some s :: _ =>
    match defaultsFor (schemeOf s) with
    | none => mailtoUnparse pieces
    | some _ => urlUnparse pieces

end Verif
