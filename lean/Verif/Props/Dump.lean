import Verif.Mem.DumpLemmas
import Verif.Spec.Sample
/-!
# Dumping a memory file system (C93)
-/
namespace Verif.Props
open Mem Spec

/-- **C93**: every file system has exactly one list of its locations in order -/
theorem C93_listed {w : World} (h : Reachable w) (r : Nat) : ∃! l, Listed (view w r) l :=
  ⟨_, walkOrder_listed h.inv r, fun _ hl => Listed.unique hl (walkOrder_listed h.inv r)⟩

/-- **C93**: if everything can be shown, a dump writes the piece of every location in that order between its first and
    its last line; it moves the files to their ends and changes nothing else -/
theorem C93_dump {w : World} (h : Reachable w) {r : Nat} (hr : IsRoot w r) {skip : Str → Bool} {depth : Nat}
    {l : List (List Str)} (hl : Listed (view w r) l) (out : Str)
    (hs : ∀ q ∈ l, (shown skip (depth + 1) w r q).2 = none) :
    dump skip (depth + 1) r (w, out) =
      (.ok (), drawn w r l, out ++ cl!"MEMORY DUMP: START\n" ++ (l.flatMap fun q => (shown skip (depth + 1) w r q).1)
        ++ cl!"MEMORY DUMP: END\n") := dump_ok h.inv hr hl out hs

/-- **C93**: otherwise it ends at the first location that cannot be shown, with its error, having written the pieces up
    to there -/
theorem C93_error {w : World} (h : Reachable w) {r : Nat} (hr : IsRoot w r) {skip : Str → Bool} {depth : Nat}
    {l m : List (List Str)} {q : List Str} (hl : Listed (view w r) (l ++ q :: m)) (out : Str) {e : PyErr}
    (hs : ∀ p ∈ l, (shown skip (depth + 1) w r p).2 = none) (he : (shown skip (depth + 1) w r q).2 = some e) :
    dump skip (depth + 1) r (w, out) =
      (.error e, drawn w r (l ++ if e = .typeError then [] else [q]),
        out ++ cl!"MEMORY DUMP: START\n" ++ (l.flatMap fun q => (shown skip (depth + 1) w r q).1)
        ++ (shown skip (depth + 1) w r q).1) := dump_error h.inv hr hl out hs he

/-- **C93**: no file system changes: trees, contents, modes, times and link targets are those from before -/
theorem C93_changes_nothing {w : World} (h : Reachable w) {r : Nat} (hr : IsRoot w r) (skip : Str → Bool) (depth : Nat)
    (out : Str) : Becomes w (dump skip depth r (w, out)).2.1 r (view w r) := by
  cases depth with
  | zero => exact Becomes.refl h.inv r
  | succ depth =>
    have hl := walkOrder_listed h.inv r
    generalize (walkOrder w w.next r).map Prod.fst = l at hl
    by_cases hs : ∀ q ∈ l, (shown skip (depth + 1) w r q).2 = none
    · rw [C93_dump h hr hl out hs]; exact drawn_becomes h.inv l
    · have key : ∀ l : List (List Str), (¬ ∀ q ∈ l, (shown skip (depth + 1) w r q).2 = none) →
          ∃ a q b e, l = a ++ q :: b ∧ (∀ p ∈ a, (shown skip (depth + 1) w r p).2 = none) ∧
            (shown skip (depth + 1) w r q).2 = some e := by
        intro l
        induction l with
        | nil => intro h; exact absurd (by simp) h
        | cons x l ih =>
          intro h
          cases hx : (shown skip (depth + 1) w r x).2 with
          | some e => exact ⟨[], x, l, e, rfl, by simp, hx⟩
          | none =>
            obtain ⟨a, q, b, e, rfl, h1, h2⟩ := ih fun h' => h fun q hq => by
              rcases List.mem_cons.1 hq with rfl | hq
              · exact hx
              · exact h' q hq
            exact ⟨x :: a, q, b, e, rfl, by simpa [hx] using h1, h2⟩
      obtain ⟨a, q, b, e, rfl, h1, h2⟩ := key l hs
      rw [C93_error h hr hl out h1 h2]
      exact drawn_becomes h.inv _

/-- **C93**: a file whose position is at its end – as it is after writing through a handle, or after a dump – is shown
    as an empty one -/
theorem C93_shows_rest {w : World} {r i : Nat} {q : List Str} {f : FileObj} {skip : Str → Bool} {depth : Nat}
    (hp : phys w r q = some i) (hf : w.node i = .file f) (hs : skip (q.getLastD []) = false) (he : f.data.length ≤ f.pos) :
    shown skip depth w r q = (cl!"--- START " ++ locText q ++ cl!" ---\n\n--- END ---\n\n", none) := by
  have : utf8Decode (f.data.drop f.pos) = some [] := by rw [List.drop_eq_nil_of_le he]; rfl
  simp only [shown, hp, hf, piece, hs, this]
  simp

/-- the order of the sample's locations -/
def sampleLocs : List (List Str) :=
  [[cl!"a"], [cl!"a", cl!"b"], [cl!"a", cl!"f"], [cl!"gone"], [cl!"l"], [cl!"loop"], [cl!"m"]]

theorem sample_root : IsRoot sample 0 := connOf_mem (k := connKey (mu cl!"/a")) (by decide +kernel)

theorem sample_listed : Listed (view sample 0) sampleLocs := by
  have h := walkOrder_listed sample_reachable.inv 0
  have e : (walkOrder sample sample.next 0).map Prod.fst = sampleLocs := by decide +kernel
  rw [e] at h
  exact h

/-- the sample after the file was opened for reading, which puts its position to 0 -/
def sampleRead : World := (uOpen (mu cl!"/a/f") (some cl!"r") sample).2

/-- the whole text; of the file just written nothing is shown … -/
example : (dump (fun _ => false) 10 0 (sample, [])).1 = .ok () ∧ (dump (fun _ => false) 10 0 (sample, [])).2.2 =
    cl!"MEMORY DUMP: START\nDIR: memory:///a\nDIR: memory:///a/b\n--- START memory:///a/f ---\n\n--- END ---\n\n" ++
    cl!"LINK: memory:///gone -> memory:///nowhere\nLINK: memory:///l -> memory:///a\nLINK: memory:///loop -> memory:///loop\n" ++
    cl!"LINK: memory:///m -> memory:///l/f\nMEMORY DUMP: END\n" := by
  rw [C93_dump sample_reachable sample_root sample_listed _
    (by decide +kernel)]
  exact ⟨rfl, by decide +kernel⟩

/-- … but after it was opened for reading its text is there -/
example : (dump (fun _ => false) 10 0 (sampleRead, [])).2.2 =
    cl!"MEMORY DUMP: START\nDIR: memory:///a\nDIR: memory:///a/b\n--- START memory:///a/f ---\nhi\n--- END ---\n\n" ++
    cl!"LINK: memory:///gone -> memory:///nowhere\nLINK: memory:///l -> memory:///a\nLINK: memory:///loop -> memory:///loop\n" ++
    cl!"LINK: memory:///m -> memory:///l/f\nMEMORY DUMP: END\n" := by decide +kernel

/-- names taken for images: the dump ends there -/
example : (dump (fun n => n = cl!"f") 10 0 (sample, [])).1 = .error .typeError ∧
    (dump (fun n => n = cl!"f") 10 0 (sample, [])).2.2 = cl!"MEMORY DUMP: START\nDIR: memory:///a\nDIR: memory:///a/b\n" := by
  rw [C93_error (skip := fun n => n = cl!"f") (depth := 9) (l := [[cl!"a"], [cl!"a", cl!"b"]]) (q := [cl!"a", cl!"f"])
    (m := [[cl!"gone"], [cl!"l"], [cl!"loop"], [cl!"m"]]) (e := .typeError) sample_reachable sample_root sample_listed []
    (by decide +kernel) (by decide +kernel)]
  exact ⟨rfl, by decide +kernel⟩

/-- too deep a tree: RecursionError -/
example : (dump (fun _ => false) 2 0 (sample, [])).1 = .error .recursionError := by decide +kernel

end Verif.Props
