import Verif.Uri.Split
import Verif.Py.StrLemmas
/-!
# RFC 3986 section 5.3: recomposition of a URI reference, and the grammar of its five parts
-/
namespace Verif.Spec

/-- RFC 3986 5.3: every *defined* part is written with its delimiter. -/
def recompose (p : Parts) : Str :=
  p.scheme.elim [] (· ++ cl!":") ++ p.authority.elim [] (cl!"//" ++ ·) ++ p.path ++
  p.query.elim [] (cl!"?" ++ ·) ++ p.fragment.elim [] (cl!"#" ++ ·)

/-- RFC 3986 appendix B: which characters may occur in which part. -/
structure Grammar (p : Parts) : Prop where
  scheme : ∀ s, p.scheme = some s → s ≠ [] ∧ NoneOf cl!":/?#" s
  authority : ∀ a, p.authority = some a → NoneOf cl!"/?#" a ∧ ∀ c r, p.path = c :: r → c = '/'
  path : NoneOf cl!"?#" p.path
  query : ∀ q, p.query = some q → NoneOf cl!"#" q

/-- The text has an authority part: `//...` or `scheme://...`. -/
def HasAuthority (s : Str) : Prop :=
  (∃ r, s = cl!"//" ++ r) ∨ ∃ sch r, sch ≠ [] ∧ NoneOf cl!":/?#" sch ∧ s = sch ++ cl!"://" ++ r

end Verif.Spec
