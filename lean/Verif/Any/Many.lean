import Verif.Any.Plain
/-!
# Several plain file systems to compare with

The plain file system of Verif/Any/Plain.lean, once for every place of `κ`, and calls that copy and move from one place to
another.  Nothing here is code of the repository; what copying and moving between places leaves is said directly, not by
running the algorithms of fs.py.
-/
namespace Verif.Any
open Verif.Spec

namespace Tree

/-- a name relative to `p` is in a directory that is left out, or is one -/
def Left (t : Tree) (ig p x : List Str) : Prop := ∃ a ∈ x.inits, a ≠ [] ∧ a.getLastD [] ∈ ig ∧ t.get (p ++ a) = some .dir

instance (t : Tree) (ig p x : List Str) : Decidable (t.Left ig p x) := by unfold Left; infer_instance

/-- what is below `p`, by the names relative to it, but not in directories that are left out -/
def below (t : Tree) (ig p : List Str) : Tree :=
  (t.filter fun x => p <+: x.1 ∧ x.1 ≠ p ∧ ¬ t.Left ig p (x.1.drop p.length)).map fun x => (x.1.drop p.length, x.2)

/-- the objects of `l` are put below `e` -/
def lay (t : Tree) (e : List Str) (l : Tree) : Tree := l.foldr (fun x t => t.set (e ++ x.1) x.2) t

/-- the directories that lead to `e`, and `e` -/
def way (e : List Str) : Tree := (e.inits.filter (· ≠ [])).map fun a => (a, .dir)

/-- the tree below `p` is put over `e`, directories that are missing are made -/
def over (t : Tree) (ig p : List Str) (t' : Tree) (e : List Str) : Tree := (t'.lay [] (way e)).lay e (t.below ig p)

/-- all from `p` on is gone -/
def cut (t : Tree) (p : List Str) : Tree := t.filter fun x => ¬ p <+: x.1

/-- a file can be put at `e` -/
def Room (t : Tree) (e : List Str) : Prop := t.get e.dropLast = some .dir ∧ (t.get e = none ∨ isF (t.get e) = true)

instance (t : Tree) (e : List Str) : Decidable (t.Room e) := by unfold Room; infer_instance

/-- the tree below `p` can be put over `e`: directories over directories or nothing, files over files or nothing -/
def Over (t : Tree) (depth : Nat) (ig p : List Str) (t' : Tree) (e : List Str) : Prop :=
  e.length < depth ∧ (∀ x ∈ t, p <+: x.1 → x.1.length < p.length + depth) ∧
  (∀ a ∈ e.inits, t'.get a = some .dir ∨ t'.get a = none) ∧
  ∀ x ∈ t.below ig p, t'.get (e ++ x.1) = none ∨ isF (t'.get (e ++ x.1)) = isF (some x.2)

instance (t : Tree) (depth : Nat) (ig p : List Str) (t' : Tree) (e : List Str) : Decidable (t.Over depth ig p t' e) := by
  unfold Over; infer_instance

end Tree

section
variable {κ : Type} [DecidableEq κ]

/-- the trees, with another one at `k` -/
def setAt (T : κ → Tree) (k : κ) (t : Tree) : κ → Tree := fun j => if j = k then t else T j

/-- a call in one place -/
def oneAt {α : Type} (k : κ) (m : OM Tree α) : OM (κ → Tree) α := fun T => ((m (T k)).1, setAt T k (m (T k)).2)

/-- copying to another place -/
def xCopy (depth : Nat) (k : κ) (p : List Str) (k' : κ) (q : List Str) (rec_ : Bool) (ig : List Str) : OM (κ → Tree) Unit := fun T =>
  let e := (T k').dest p q
  if ¬ (T k).Way p then (.error .outside, T)
  else
    match (T k).get p with
    | none => (.error .fileDoesNotExist, T)
    | some (.file d) =>
      if rec_ then (.error .assertionError, T)
      else if (T k').Room e then (.ok (), setAt T k' ((T k').set e (.file d))) else (.error .outside, T)
    | some .dir =>
      if !rec_ then (.error .assertionError, T)
      else if (T k).Over depth ig p (T k') e then (.ok (), setAt T k' ((T k).over ig p (T k') e)) else (.error .outside, T)
    | some .other => (.error .outside, T)

/-- moving to another place -/
def xMove (depth : Nat) (k : κ) (p : List Str) (k' : κ) (q : List Str) : OM (κ → Tree) Unit := fun T =>
  let e := (T k').dest p q
  match (T k).get p with
  | some (.file d) =>
    if (T k').Room e then (.ok (), setAt (setAt T k' ((T k').set e (.file d))) k ((T k).del p)) else (.error .outside, T)
  | some .dir =>
    if (T k).Over depth [] p (T k') e then (.ok (), setAt (setAt T k' ((T k).over [] p (T k') e)) k ((T k).cut p))
    else (.error .outside, T)
  | none => if (T k).Way p then (.error .fileDoesNotExist, T) else (.error .outside, T)
  | some .other => (.error .outside, T)

/-- a call of a program that works in several file systems: in one of them, or from one to another -/
inductive Acts (κ : Type)
  | one (k : κ) (a : Act)
  | copy (k : κ) (p : List Str) (k' : κ) (q : List Str) (recursive : Bool) (ignore : List Str) (followlinks : Bool)
  | move (k : κ) (p : List Str) (k' : κ) (q : List Str)

/-- a call in the plain file systems; `may`: the places between which files are copied and moved -/
def Acts.plain (may : κ → κ → Bool) (depth : Nat) : Acts κ → OM (κ → Tree) Ans
  | .one k a => oneAt k (a.plain depth)
  | .copy k p k' q b ig _ =>
    if k ≠ k' ∧ may k k' ∧ (Act.move p q).Fit then do xCopy depth k p k' q b ig; pure .unit else OM.raise .outside
  | .move k p k' q =>
    if k ≠ k' ∧ may k k' ∧ (Act.move p q).Fit then do xMove depth k p k' q; pure .unit else OM.raise .outside

end

/-- a call in the file systems at `site k` -/
def Acts.run {ι κ : Type} (E : ι → Dict) (site : κ → Option ι) (depth : Nat) : Acts κ → OM Sys Ans
  | .one k a => a.run E (site k) depth
  | .copy k p k' q b ig fl => do uCopy sysOps depth (siteAt E (site k) p) (siteAt E (site k') q) b ig fl; pure .unit
  | .move k p k' q => do uMove sysOps depth (siteAt E (site k) p) (siteAt E (site k') q); pure .unit

end Verif.Any
