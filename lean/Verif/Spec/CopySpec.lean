import Verif.Spec.Namespace
/-! # What a copy of a tree is -/
namespace Verif.Spec

/-- `o'` is a copy of `o`: a directory of a directory, a file with the same bytes, mode and mtime, a link with
    the same target -/
def CopyOf : Obj → Obj → Prop
  | .dir _ _, .dir _ _ => True
  | .file b m t, .file b' m' t' => b' = b ∧ m' = m ∧ t' = t
  | .link u _ _, .link u' _ _ => u' = u
  | _, _ => False

/-- nothing for nothing, otherwise a copy -/
def OptCopy : Option Obj → Option Obj → Prop
  | none, none => True
  | some o, some o' => CopyOf o o'
  | _, _ => False

/-- the path leads to a directory -/
def LeadsToDir (ns : NS) (p : List Str) : Prop := ∃ q, Goes ns maxDepth [] p (.found q) ∧ ns.isDir q

/-- `x`, relative to `q`, is or lies below a directory (or link to one) with an ignored name -/
def Pruned (ns : NS) (ig : List Str) (q x : List Str) : Prop :=
  ∃ a n b, x = a ++ n :: b ∧ n ∈ ig ∧ LeadsToDir ns (q ++ a ++ [n])

/-- `ns'` is `ns` except at and below `d` -/
def Outside (d : List Str) (ns ns' : NS) : Prop := ∀ p, ¬ d <+: p → ns' p = ns p

/-- no whitespace at the ends -/
def Trimmed (n : Str) : Prop := (∀ c, n.head? = some c → pyIsSpace c = false) ∧ ∀ c, n.getLast? = some c → pyIsSpace c = false

instance (n : Str) : Decidable (Trimmed n) :=
  decidable_of_iff (n.head?.all (fun c => !pyIsSpace c) = true ∧ n.getLast?.all (fun c => !pyIsSpace c) = true) <| by
    unfold Trimmed
    cases n.head? <;> cases n.getLast? <;> simp

end Verif.Spec
