import Verif.Uri.Base
import Verif.Py.StrLemmas
/-!
# Vocabulary for stating URI properties

A URI string is described from the outside: a scheme, a network location (plain authority or nested
`((connector))`), a list of path components and an optional query.  Nothing here refers to the model
of the parser except the requirement that a port be a number.
-/
namespace Verif.Spec

/-- network location part of a URI string -/
inductive Netloc
  | plain (a : Str)
  | vpath (x : Str)
  deriving DecidableEq, Repr

/-- its text -/
def Netloc.str : Netloc → Str
  | .plain a => a
  | .vpath x => cl!"((" ++ x ++ cl!"))"

/-- everything before the path -/
structure Base where
  scheme : Str
  netloc : Netloc
  deriving DecidableEq, Repr

/-- the text before the path -/
def Base.str (b : Base) : Str := b.scheme ++ cl!"://" ++ b.netloc.str

/-- `/a/b/c`, and the empty string for no components -/
def slash (cs : List Str) : Str := cs.flatMap ('/' :: ·)

/-- `/a/b/c`, and `/` for no components -/
def pathOf (cs : List Str) : Str := if cs = [] then cl!"/" else slash cs

/-- optional `?query` -/
def qs : Option Str → Str
  | none => []
  | some q => cl!"?" ++ q

/-- A name that may be appended with `/`: non-empty and free of separators and URI delimiters. -/
structure CleanName (n : Str) : Prop where
  ne : n ≠ []
  chars : NoneOf cl!"/\\?#" n
  noInner : hasSub cl!"((" n = false

instance (n : Str) : Decidable (CleanName n) :=
  decidable_of_iff (n ≠ [] ∧ NoneOf cl!"/\\?#" n ∧ hasSub cl!"((" n = false)
    ⟨fun ⟨a, b, c⟩ => ⟨a, b, c⟩, fun ⟨a, b, c⟩ => ⟨a, b, c⟩⟩

/-- the port text of the authority is empty, absent or a number -/
def PortOk (a : Str) : Prop := ∃ r, authorityFields (some a) = .ok r

/-- a network location that can be written in a URI -/
def Netloc.Ok : Netloc → Prop
  | .plain a => NoneOf cl!"/?#\\" a ∧ hasSub cl!"((" a = false ∧ hasSub INNER a = false ∧
      a ≠ cl!"." ∧ PortOk a
  | .vpath x => x ≠ [] ∧ NoneOf cl!"\n\\" x ∧ hasSub cl!"))" x = false

/-- Well-formed prefixes.  A one letter scheme is taken for a Windows drive, and a `file` URI has no
    network location. -/
structure Base.Ok (b : Base) : Prop where
  len : 2 ≤ b.scheme.length
  chars : NoneOf cl!":/?#(\\" b.scheme
  netloc : b.netloc.Ok
  file : b.scheme = cl!"file" → b.netloc = .plain []

end Verif.Spec
