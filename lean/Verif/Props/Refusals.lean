import Verif.Mem.Reach
import Verif.Gen.MemUri
import Verif.Spec.Sample
import Verif.Props.Local
/-!
# C73: what is asked for wrongly is refused, and nothing is changed

Wrong modes, wrong levels, parameters that have the name of a part of the connection, paths the memory backend cannot
deal with.
-/
namespace Verif.Props
open Verif.Mem Verif.Gen Verif.Spec

/-- names of parts of a connection; a parameter of a URI must not be called so -/
def partNames : List Str := [cl!"hostname", cl!"password", cl!"port", cl!"scheme", cl!"username", cl!"vpath_connector", cl!"self"]

/-- **C73**: a URI with a parameter that is called like a part of the connection cannot be used for anything: every
    operation is a TypeError, before a connection is made. -/
theorem C73_part_name {u : Uri} {k v : Str} (h : (k, v) ∈ u.allExtras) (hk : k ∈ partNames) (w : World) :
    getConnection u w = (.error .typeError, w) ∧
    ∀ {α : Type} (m : Meth) (body : Nat → M α), withConn u m body w = (.error .typeError, w) := by
  have h1 : getConnection u w = (.error .typeError, w) := by
    unfold getConnection
    rw [if_pos]
    rw [List.any_eq_true]
    refine ⟨_, h, ?_⟩
    simp only [partNames, List.mem_cons, List.not_mem_nil, or_false] at hk
    simp only [decide_eq_true_eq]
    rcases hk with rfl | rfl | rfl | rfl | rfl | rfl | rfl <;> decide
  refine ⟨h1, fun m body => ?_⟩
  unfold withConn
  rw [bind_error h1]

/-- the parameter may come from the query -/
example : (cl!"username", cl!"joe") ∈ (uri! cl!"memory:///a?username=joe").allExtras ∧
    (uListdir (uri! cl!"memory:///a?username=joe") sample).1 = .error .typeError := by decide +kernel

/-- **C73**: `open` with a mode that has neither `r`, `w` nor `a` is EINVAL, whatever the path is, and changes nothing. -/
theorem C73_mode {w : World} {u : Uri} {r : Nat} {ts : List Str} (h : Serves w u r) (hs : stepsOf u = some ts) {mode : Str}
    (h1 : 'r' ∉ mode) (h2 : 'w' ∉ mode) (h3 : 'a' ∉ mode) : uOpen u (some mode) w = (.error (.os .EINVAL), w) := by
  unfold uOpen
  rw [withConn_serves h hs]
  unfold open_
  simp [h1, h2, h3]

example : uOpen (mu cl!"/a/f") (some cl!"b+") sample = (.error (.os .EINVAL), sample) :=
  C73_mode (serves_of_noHooks (r := 0) (by decide +kernel) (by decide +kernel) (by decide +kernel) (by decide +kernel)) (ts := [cl!"a", cl!"f"]) (by decide +kernel)
    (by decide) (by decide) (by decide)

/-- **C73**: `directory(0)` is an AssertionError. -/
theorem C73_level (u : Uri) : u.directory 0 = .error .assertionError := rfl

/-- **C73**: a memory path whose first name begins with a dot cannot be used for anything: every operation is an
    AssertionError (fs.py:339 cuts the slash off). -/
theorem C73_hidden {w : World} {u : Uri} {r : Nat} (h : Serves w u r) {c : Str} (hp : u.parse.path = cl!"/." ++ c)
    (hc : u.cls ≠ .localfs) {α : Type} (m : Meth) (body : Nat → M α) : withConn u m body w = (.error .assertionError, w) := by
  apply withConn_bad h
  have : u.path = '.' :: c := by
    unfold Uri.path Uri.cutDot
    rw [hp]
    cases e : u.cls <;> simp_all [startsWith]
  unfold stepsOf
  rw [this]
  rfl

example : (uri! cl!"memory:///.x/y").parse.path = cl!"/." ++ cl!"x/y" ∧
    (uMkdir (uri! cl!"memory:///.x/y") sample).1 = .error .assertionError := by decide +kernel

/-- **C73**: removing a directory as a temporary file is EISDIR, and leaves it. -/
theorem C73_unlink_dir {w : Local.Os} {f : Local.TempFile} {perm : Nat} (h : w.tree (Local.resolve w f.name) = some (.dir perm)) :
    f.close w = (.error (.os .EISDIR), w) := by
  simp [Local.TempFile.close, Local.osUnlink, h]

end Verif.Props
