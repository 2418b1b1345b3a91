import Verif.Mem.Reach
/-!
# A small file system used in the examples beside the theorems

    /a/         directory
    /a/b/       empty directory
    /a/f        file "hi"
    /l          link to /a
    /m          link to /l/f
    /loop       link to itself
    /gone       link to /nowhere
-/
namespace Verif.Spec
open Verif.Mem

/-- the URI of a string (the strings used in examples are fine) -/
def uri! (s : Str) : Uri :=
  match URI s with
  | .ok u => u
  | .error _ => ⟨.base, [], '/', ⟨[], none, none, [], [], none, [], none, none, none, 0, []⟩, [], none, none⟩

/-- `memory://` followed by the given path -/
def mu (s : Str) : Uri := uri! (cl!"memory://" ++ s)

/-- the history that builds the sample -/
def sampleOps : List Op :=
  [.mkdir (mu cl!"/a"), .mkdir (mu cl!"/a/b"), .open_ (mu cl!"/a/f") (some cl!"w"), .write ⟨3, false, false⟩ (.str cl!"hi"),
   .symlink (mu cl!"/a") (mu cl!"/l"), .symlink (mu cl!"/l/f") (mu cl!"/m"), .symlink (mu cl!"/loop") (mu cl!"/loop"),
   .symlink (mu cl!"/nowhere") (mu cl!"/gone")]

/-- the sample state; the clock just counts -/
def sample : World := runAll sampleOps (World.init fun n => n)

theorem sample_reachable : Reachable sample := ⟨_, _, rfl⟩

theorem serves_of_noHooks {w : World} {u : Uri} {r : Nat} (h1 : u.scheme = some cl!"memory")
    (h2 : u.allExtras.any (fun kv => kv.1 ∈ reservedNames) = false) (h3 : w.connOf (connKey u) = some r)
    (h4 : (w.hooks r).isEmpty = true) : Serves w u r :=
  ⟨h1, h2, h3, by intro p cb m _ h; rw [List.isEmpty_iff.1 h4] at h; simp at h⟩

example : view sample 0 [cl!"a", cl!"f"] = some (.file [104, 105] 0 4) := by decide +kernel
example : Serves sample (mu cl!"/a/f") 0 :=
  serves_of_noHooks (by decide +kernel) (by decide +kernel) (by decide +kernel) (by decide +kernel)
example : Goes (view sample 0) maxDepth [] [cl!"m"] (.found [cl!"a", cl!"f"]) := by decide +kernel
example : ¬ ∃ out, Goes (view sample 0) maxDepth [] [cl!"loop"] out := by
  rw [noGoes_iff]; decide +kernel

end Verif.Spec
