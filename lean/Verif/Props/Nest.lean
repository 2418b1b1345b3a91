import Verif.Any.Nest
import Verif.Props.Merge
/-!
# C94: copying or moving a directory to a place inside itself
-/
namespace Verif.Props
open Verif.Spec Verif.Any

section
variable {ι : Type} {E : ι → Dict} {r : ι → Nat} (hr : Function.Injective r)
include hr

/-- Copying a directory to a place inside itself never ends: for every recursion limit it raises RecursionError.
    Nothing but the destination and what is below it changes (and missing directories on the way are made). -/
theorem C94_copy {s : Sys} (h : SysOk E r s) {k : Option ι} {init : List Str} {n : Str} {ds e ig : List Str}
    (H : Laws.Copyable (siteV r s k) (init ++ [n])) (hds : Nm ds) (hn : Nm (init ++ [n] ++ e))
    (ht : Target (siteV r s k) ds n (init ++ [n] ++ e))
    (hclear : ∀ p, p <+: init ++ [n] ++ e → siteV r s k p = some .dir ∨ siteV r s k p = none)
    (hnew : siteV r s k (init ++ [n] ++ e) = none) (hig : ∀ m ∈ e, m ∉ ig) (htr : ∀ m ∈ e, Trimmed m)
    {depth : Nat} (hl : (init ++ [n] ++ e).length < depth) (fl : Bool) :
    ∃ s', uCopy sysOps depth (siteAt E k (init ++ [n])) (siteAt E k ds) true ig fl s = (.error .recursionError, s') ∧ SysOk E r s' ∧
      (∀ p, p <+: init ++ [n] ++ e → siteV r s' k p = some .dir) ∧
      ∀ j p, ¬ (j = k ∧ (init ++ [n] ++ e <+: p ∨ p <+: init ++ [n] ++ e)) → siteV r s' j p = siteV r s j p :=
  (sysLaws E r hr).copyInside (ig := ig) (fl := fl) (.inr (.inr rfl)) h H hds hn ht hclear hnew hig htr hl

/-- Moving it in a memory file system the same; nothing is removed.  (The local file system refuses: C66_into_itself.) -/
theorem C94_move {s : Sys} (h : SysOk E r s) {i : ι} {init : List Str} {n : Str} {ds e : List Str}
    (H : Laws.Copyable (siteV r s (some i)) (init ++ [n])) (hds : Nm ds) (hn : Nm (init ++ [n] ++ e))
    (ht : Target (siteV r s (some i)) ds n (init ++ [n] ++ e))
    (hclear : ∀ p, p <+: init ++ [n] ++ e → siteV r s (some i) p = some .dir ∨ siteV r s (some i) p = none)
    (hnew : siteV r s (some i) (init ++ [n] ++ e) = none) (htr : ∀ m ∈ e, Trimmed m)
    {depth : Nat} (hl : (init ++ [n] ++ e).length < depth) :
    ∃ s', uMove sysOps depth (siteAt E (some i) (init ++ [n])) (siteAt E (some i) ds) s = (.error .recursionError, s') ∧ SysOk E r s' ∧
      (∀ p, p <+: init ++ [n] ++ e → siteV r s' (some i) p = some .dir) ∧
      ∀ j p, ¬ (j = some i ∧ (init ++ [n] ++ e <+: p ∨ p <+: init ++ [n] ++ e)) → siteV r s' j p = siteV r s j p :=
  (sysLaws E r hr).moveInside (.inr (.inr rfl)) h rfl H hds hn ht hclear hnew htr hl

end

/-! ## Cases that meet the hypotheses -/

/-- the local directory /t copied to itself: into it, as /t/t -/
example (depth : Nat) (hd : 2 < depth) : ∃ s', uCopy sysOps depth (sAt none [cl!"t"]) (sAt none [cl!"t"]) true [] true sampleSys =
    (.error .recursionError, s') ∧ siteV (fun _ : Unit => 0) s' none [cl!"t", cl!"t"] = some .dir ∧
    siteV (fun _ : Unit => 0) s' none [cl!"t", cl!"g"] = some (.file [1, 2, 3]) := by
  obtain ⟨s', h1, -, h2, h3⟩ := C94_copy unit_inj sampleSys_ok (k := none) (init := []) (n := cl!"t") (ds := [cl!"t"]) (e := [cl!"t"]) (ig := [])
    (sCopyable (k := none) (by decide +kernel) (by decide) (by decide +kernel) (by decide +kernel)) (by decide +kernel)
    (by decide +kernel) (.into (by decide +kernel)) (all_prefixes (by decide +kernel)) (by decide +kernel) (by simp) (by decide +kernel) hd true
  exact ⟨s', h1, h2 _ List.prefix_rfl, (h3 none _ (by decide)).trans (by decide +kernel)⟩

/-- /a of the memory file system moved to the new name /a/x/y -/
example (depth : Nat) (hd : 3 < depth) : ∃ s', uMove sysOps depth (sAt (some ()) [cl!"a"]) (sAt (some ()) [cl!"a", cl!"x", cl!"y"]) sampleSys =
    (.error .recursionError, s') ∧ siteV (fun _ : Unit => 0) s' (some ()) [cl!"a", cl!"x", cl!"y"] = some .dir ∧
    siteV (fun _ : Unit => 0) s' (some ()) [cl!"a", cl!"f"] = some (.file [104, 105]) := by
  obtain ⟨s', h1, -, h2, h3⟩ := C94_move unit_inj sampleSys_ok (i := ()) (init := []) (n := cl!"a") (ds := [cl!"a", cl!"x", cl!"y"])
    (e := [cl!"x", cl!"y"])
    (sCopyable (k := some ()) (by decide +kernel) (by decide) (by decide +kernel) (by decide +kernel)) (by decide +kernel)
    (by decide +kernel) (.new (by decide +kernel)) (all_prefixes (by decide +kernel)) (by decide +kernel) (by decide +kernel) hd
  exact ⟨s', h1, h2 _ List.prefix_rfl, (h3 (some ()) _ (by decide)).trans (by decide +kernel)⟩

/-- what has been made when the limit is 6 -/
example : siteV (fun _ : Unit => 0) (uCopy sysOps 6 (sAt none [cl!"t"]) (sAt none [cl!"t"]) true [] true sampleSys).2 none
    [cl!"t", cl!"t", cl!"t", cl!"t", cl!"t", cl!"t", cl!"g"] = some (.file [1, 2, 3]) := by decide +kernel

/-- With the name of the destination among the ignored ones the copy ends. -/
theorem C94_ignore_ends : (uCopy sysOps 6 (sAt none [cl!"t"]) (sAt none [cl!"t"]) true [cl!"t"] true sampleSys).1 = .ok () := by
  decide +kernel

end Verif.Props
