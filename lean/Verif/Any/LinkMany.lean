import Verif.Any.LinkPlain
/-!
# Several plain file systems with links to compare with

The plain file system of Verif/Any/LinkPlain.lean, once for every place of `κ`, and copying and moving from one to another.
Nothing here is code of the repository.
-/
namespace Verif.Any
open Verif.Spec

section
variable {κ : Type} [DecidableEq κ]

/-- the trees, with another one at `k` -/
def lSetAt (T : κ → LTree) (k : κ) (t : LTree) : κ → LTree := fun j => if j = k then t else T j

/-- setting the mode of what a path leads to to that of a file -/
def lStat (p q : List Str) : OM LTree Unit := fun t =>
  match t.lead 32 p, t.lead 32 q with
  | some f, some g =>
    match t.get f, t.get g with
    | some (.file _), none => (.error (.os .ENOENT), t)
    | some (.file _), some (.file _) => (.ok (), t)
    | some (.file _), some .dir => (.ok (), t)
    | _, _ => (.error .outside, t)
  | _, _ => (.error .outside, t)

/-- what leads to a file is gone, or the link to it; no expectation for anything else -/
def lUnlink (q : List Str) : OM LTree Unit := lAsk isF q >>= fun b => if b then lRemove q else OM.raise .outside

/-- what is done in the place `k` -/
def lAt (k : κ) {α : Type} (a : OM LTree α) : OM (κ → LTree) α := fun T => ((a (T k)).1, lSetAt T k (a (T k)).2)

/-! ## From the place `k` to the place `k'` -/
variable (k k' : κ)

/-- the bytes of the file that a path leads to, as a file at a path of the other place -/
def lFileTo (p q : List Str) : OM (κ → LTree) Unit := fun T =>
  match (T k).lead 32 p with
  | none => (.error .outside, T)
  | some f =>
    match (T k).get f with
    | some (.file d) => lAt k' (lWrite q d) T
    | none => (.error (.os .ENOENT), T)
    | _ => (.error .outside, T)

/-- A link that is not to be followed does not get into the other place: whether a file is at the path is asked there, but the file
    is removed, and the link made, in the place it comes from. -/
def lLinkTo (p q : List Str) : OM (κ → LTree) Unit := lAt k (lIslink p) >>= fun b =>
  if !b then OM.raise .assertionError
  else lAt k' (lAsk isF q) >>= fun b => (if b then lAt k (lUnlink q) else pure ()) >>= fun _ =>
    lAt k (lTarget p) >>= fun x => lAt k fun t => t.make q (.link x)

/-- one file, or a link that is not to be followed.  If the places are of one kind (`st`), then the mode is set in the place that is
    copied from. -/
def lOneTo (st fl : Bool) (p q : List Str) : OM (κ → LTree) Unit := lAt k (lIslink p) >>= fun b =>
  if b && !fl then lLinkTo k k' p q else lFileTo k k' p q >>= fun _ => if st then lAt k (lStat p q) else pure ()

/-- a directory for each name -/
def lDirsTo (fl : Bool) (depth : Nat) (p q : List Str) : List Str → OM (κ → LTree) Unit
  | [] => pure ()
  | n :: l => lAt k (lIslink (p ++ [n])) >>= fun b =>
      (if b && !fl then lLinkTo k k' (p ++ [n]) (q ++ [n]) else lAt k' (lMakedirs depth (q ++ [n]))) >>= fun _ => lDirsTo fl depth p q l

/-- the file of each name -/
def lFilesTo (st fl : Bool) (p q : List Str) : List Str → OM (κ → LTree) Unit
  | [] => pure ()
  | n :: l => lOneTo k k' st fl (p ++ [n]) (q ++ [n]) >>= fun _ => lFilesTo st fl p q l

/-- `visit` for each name that is no link, or for all if links are followed -/
def lDownTo (fl : Bool) (visit : List Str → List Str → OM (κ → LTree) Unit) (p q : List Str) : List Str → OM (κ → LTree) Unit
  | [] => pure ()
  | n :: l => lAt k (lIslink (p ++ [n])) >>= fun b =>
      (if !b || fl then visit (p ++ [n]) (q ++ [n]) else pure ()) >>= fun _ => lDownTo fl visit p q l

/-- what is below `p` into the directory `q` of the other place, in the order of `lCopyBelow` -/
def lBelowTo (st fl : Bool) (ig : List Str) (depth : Nat) : Nat → List Str → List Str → OM (κ → LTree) Unit
  | 0, _, _ => OM.raise .recursionError
  | d + 1, p, q => lAt k (lNames p) >>= fun l => if ∀ n ∈ l, Fit (p ++ [n]) then lAt k (lSplit p l) >>= fun x =>
      lDirsTo k k' fl depth p q (x.1.filter (· ∉ ig)) >>= fun _ => lFilesTo k k' st fl p q x.2 >>= fun _ =>
        lDownTo k fl (lBelowTo st fl ig depth d) p q (x.1.filter (· ∉ ig))
      else OM.raise .outside

/-- one file; into a directory under the last name of the path -/
def lCopyTo (st fl : Bool) (p q : List Str) : OM (κ → LTree) Unit := lAt k (lAsk Option.isSome p) >>= fun b =>
  if !b then OM.raise .fileDoesNotExist
  else lAt k (lAsk isF p) >>= fun b =>
    if !b then OM.raise .assertionError
    else lAt k' (lAsk isD q) >>= fun d =>
      if p ≠ [] ∧ Any.Nm (if d then q ++ [p.getLastD []] else q) then lOneTo k k' st fl p (if d then q ++ [p.getLastD []] else q)
      else OM.raise .outside

/-- a directory with all that is below it; into a directory under the last name of the path -/
def lTreeTo (st fl : Bool) (ig : List Str) (depth : Nat) (p q : List Str) : OM (κ → LTree) Unit := lAt k (lAsk Option.isSome p) >>= fun b =>
  if !b then OM.raise .fileDoesNotExist
  else lAt k (lAsk isD p) >>= fun b =>
    if !b then OM.raise .assertionError
    else lAt k' (lAsk isD q) >>= fun d =>
      if p ≠ [] ∧ Fit p ∧ (if d then q ++ [p.getLastD []] else q) ≠ [] ∧ Fit (if d then q ++ [p.getLastD []] else q) then
        lAt k (lIslink p) >>= fun b =>
          if b && !fl then lLinkTo k k' p (if d then q ++ [p.getLastD []] else q)
          else lAt k' (lMakedirs depth (if d then q ++ [p.getLastD []] else q)) >>= fun _ =>
            lBelowTo k k' st fl ig depth depth p (if d then q ++ [p.getLastD []] else q)
      else OM.raise .outside

/-- copied with links followed, then removed -/
def lMoveTo (st : Bool) (depth : Nat) (p q : List Str) : OM (κ → LTree) Unit := lAt k (lAsk isF p) >>= fun b =>
  if b then lCopyTo k k' st true p q >>= fun _ => lAt k (lRemove p)
  else lTreeTo k k' st true [] depth p q >>= fun _ => lAt k (lRemoveTree depth p)

end

/-- a call of a program that works in several file systems -/
inductive LActs (κ : Type) where
  /-- in one place -/
  | one (k : κ) (a : LAct)
  /-- from one to another -/
  | copy (k : κ) (p : List Str) (k' : κ) (q : List Str) (rec : Bool) (ig : List Str) (fl : Bool)
  | move (k : κ) (p : List Str) (k' : κ) (q : List Str)

/-- a call in the plain file systems; `across` tells from where to where there is an expectation for what is copied, and whether the two
    are of one kind -/
def LActs.plain {κ : Type} [DecidableEq κ] (across : κ → κ → Option Bool) (depth : Nat) : LActs κ → OM (κ → LTree) Ans
  | .one k a => lAt k (a.plain depth)
  | .copy k p k' q rec ig fl =>
    match across k k' with
    | some st => if Any.Nm p ∧ Any.Nm q then
        (if rec then lTreeTo k k' st fl ig depth p q else lCopyTo k k' st fl p q) >>= fun _ => pure .unit else OM.raise .outside
    | none => OM.raise .outside
  | .move k p k' q =>
    match across k k' with
    | some st => if Any.Nm p ∧ Any.Nm q then lMoveTo k k' st depth p q >>= fun _ => pure .unit else OM.raise .outside
    | none => OM.raise .outside

/-- a call in the file systems at `site` -/
def LActs.run {ι κ : Type} (E : ι → Dict) (site : κ → Option ι) (depth : Nat) : LActs κ → OM Sys Ans
  | .one k a => a.run E (site k) depth
  | .copy k p k' q rec ig fl => uCopy sysOps depth (siteAt E (site k) p) (siteAt E (site k') q) rec ig fl >>= fun _ => pure .unit
  | .move k p k' q => uMove sysOps depth (siteAt E (site k) p) (siteAt E (site k') q) >>= fun _ => pure .unit

end Verif.Any
