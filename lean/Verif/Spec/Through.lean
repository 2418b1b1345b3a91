import Verif.Spec.CopySpec
import Verif.Spec.Follow
import Verif.Gen.MemUri
/-!
# Trees seen through their links
-/
namespace Verif.Spec
open Verif.Gen

/-- what the path leads to, links being followed -/
def reached (ns : NS) (p : List Str) : Option Obj :=
  match follow ns maxDepth [] p with
  | some (.found q) => ns q
  | _ => none

/-- the name is in the directory the path leads to -/
def Shown (ns : NS) (p : List Str) (n : Str) : Prop := ∃ q, Goes ns maxDepth [] p (.found q) ∧ ns (q ++ [n]) ≠ none

/-- The names that are met can be written in URIs, and no name comes again on a path that goes through a link (the memory backend
    does not look up the last name of such a path). -/
structure Passable (ns : NS) (src : List Str) : Prop where
  ok : ∀ x n, Ok (src ++ x) → Shown ns (src ++ x) n → Ok (src ++ (x ++ [n]))
  once : ∀ x n, Ok (src ++ x) → Shown ns (src ++ x) n → n ∉ src ++ x ∨ Plain ns (src ++ x ++ [n])

/-- The tree can be copied to the new name `d`: no link in it leads nowhere, names of directories have no white space at their ends, and the directory that
    gets the new name is not met. -/
structure Whole (ns : NS) (src d : List Str) : Prop extends Passable ns src where
  whole : ∀ x n, Ok (src ++ x) → Shown ns (src ++ x) n → reached ns (src ++ (x ++ [n])) ≠ none
  trim : ∀ x n, Ok (src ++ (x ++ [n])) → LeadsToDir ns (src ++ (x ++ [n])) → Trimmed n
  out : ∀ x q, Ok (src ++ x) → Goes ns maxDepth [] (src ++ x) (.found q) → ns.isDir q → q ≠ d.dropLast

end Verif.Spec
