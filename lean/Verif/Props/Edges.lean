import Verif.Props.Walk
import Verif.Props.Zip
import Verif.Props.Local
import Verif.Any.Ops
/-!
# What the theorems on walk (C43), the registry (C55), archives (C61, C63) and local files (C66, C68) leave open: default
arguments, limits, and which exception it is
-/
namespace Verif.Props
open Verif.Spec Verif.Mem Verif.Gen

/-! ## C43: defaults, and the recursion limit -/

/-- **C43**: without arguments, walk goes top-down and follows links. -/
theorem C43_default (depth : Nat) (u : Uri) : uWalk depth u = uWalk depth u true true := rfl

/-- **C46**: without arguments, remove is not recursive. -/
theorem C46_default (depth : Nat) (u : Uri) : uRemove depth u = uRemove depth u false := rfl

/-- **C47**: without arguments, copy is not recursive, ignores nothing and follows links. -/
theorem C47_default (depth : Nat) (u v : Uri) : uCopy depth u v = uCopy depth u v false [] true := rfl

section
variable {w : World} {E : Dict} {r : Nat} (hw : Mem.Inv w) (hf : Fs w E r)
include hw hf

theorem walk_deep (td : Bool) (depth : Nat) : ∀ (q : List Str) (s : List (Uri × List Str × List Str)),
    Writable (view w r) q → Answers (view w r) q → (view w r).isDir q →
    (∃ t, (view w r).isDir (q ++ t) ∧ depth ≤ t.length) →
    walk r td false collect depth (mem E q) s w = (.error .recursionError, w) := by
  induction depth with
  | zero => intro q s _ _ _ _; rfl
  | succ depth ih =>
    intro q s hok ha hd hdeep
    have hq : Ok q := ok_of_writable hok hd
    have loop : ∀ (l : List Str) (s : List (Uri × List Str × List Str)), (∀ n ∈ l, n ∈ dirNames w r q) →
        (∃ n ∈ l, ∃ t, (view w r).isDir (q ++ n :: t) ∧ depth ≤ t.length) →
        walkDirs false (walk r td false collect depth) (mem E q) l s w = (.error .recursionError, w) := by
      intro l
      induction l with
      | nil => intro s _ h; obtain ⟨n, hn, -⟩ := h; simp at hn
      | cons n l ihl =>
        intro s hl hex'
        have hn := List.mem_filter.1 (hl n (by simp))
        have hex := mem_names.1 hn.1
        rw [walkDirs_cons hw hf hq (hok [n] hex) hd]
        cases hlink : (view w r (q ++ [n])).any Obj.isLink with
        | true =>
          have hlk := any_isLink.1 hlink
          simp only [Bool.not_true, Bool.or_self, Bool.false_eq_true, if_false]
          refine ihl s (fun m hm => hl m (by simp [hm])) ?_
          obtain ⟨m, hm, t, ht, hlt⟩ := hex'
          rcases List.mem_cons.1 hm with rfl | hm
          · exfalso
            have : (view w r).isDir ((q ++ [m]) ++ t) := by simpa using ht
            obtain ⟨x, y, h4⟩ := isDir_prefix this
            obtain ⟨u, x', y', h5⟩ := hlk
            rw [h4] at h5; simp at h5
          · exact ⟨m, hm, t, ht, hlt⟩
        | false =>
          have hnl : ¬ (view w r).isLink (q ++ [n]) := fun h => by rw [any_isLink.2 h] at hlink; simp at hlink
          have hdn : (view w r).isDir (q ++ [n]) := (isD_iff hnl hex).1 hn.2
          simp only [Bool.not_false, Bool.true_or, if_true]
          by_cases hc : ∃ t, (view w r).isDir ((q ++ [n]) ++ t) ∧ depth ≤ t.length
          · rw [bind_error (ih (q ++ [n]) s (hok.below [n]) (ha.below [n]) hdn hc)]
          · obtain ⟨ps1, h1, -⟩ := walk_collect hw hf td false depth (q ++ [n]) s (hok.below [n]) (ha.below [n]) hdn
              (fun t ht => Nat.lt_of_not_le fun h => hc ⟨t, ht, h⟩) (by simp)
            rw [bind_ok h1]
            refine ihl _ (fun m hm => hl m (by simp [hm])) ?_
            obtain ⟨m, hm, t, ht, hlt⟩ := hex'
            rcases List.mem_cons.1 hm with rfl | hm
            · exact absurd ⟨t, by simpa using ht, hlt⟩ hc
            · exact ⟨m, hm, t, ht, hlt⟩
    have hin : ∃ n ∈ dirNames w r q, ∃ t, (view w r).isDir (q ++ n :: t) ∧ depth ≤ t.length := by
      obtain ⟨t, ht, hlt⟩ := hdeep
      cases t with
      | nil => simp at hlt
      | cons n t =>
        have hdn : (view w r).isDir (q ++ [n]) := isDir_prefix (b := t) (by simpa using ht)
        refine ⟨n, List.mem_filter.2 ⟨mem_names.2 ?_, isD_of_dir hdn⟩, t, ht, by simpa using hlt⟩
        obtain ⟨m, x, h⟩ := hdn; rw [h]; simp
    rw [walk_dir hw hf hok ha hd]
    cases td with
    | true =>
      simp only [if_true]
      rw [show collect s (mem E q) (dirNames w r q) (fileNames w r q) = pure (s ++ [row E w r q], dirNames w r q) from rfl,
        bind_ok (pure_apply _ _)]
      exact loop (dirNames w r q) (s ++ [row E w r q]) (fun _ h => h) hin
    | false =>
      simp only [Bool.false_eq_true, if_false]
      rw [bind_error (loop (dirNames w r q) s (fun _ h => h) hin)]
end

/-- **C43**: if directories are nested deeper than Python's recursion limit allows, walk (not following links, in either
    order) ends in a RecursionError — and in nothing else: otherwise C43_walk and C44_walk apply. -/
theorem C43_too_deep {w : World} (h : Reachable w) {E : Dict} {r : Nat} (hf : Fs w E r) {q : List Str}
    (hok : Writable (view w r) q) (ha : Answers (view w r) q) (hd : (view w r).isDir q) (td : Bool) {depth : Nat}
    (hdeep : ∃ t, (view w r).isDir (q ++ t) ∧ depth ≤ t.length) :
    uWalk depth (mem E q) td false w = (.error .recursionError, w) := by
  rw [uWalk_eq hf (ok_of_writable hok hd)]
  exact walk_deep h.inv hf td depth q [] hok ha hd hdeep

example (td : Bool) : uWalk 2 (mem [] []) td false sample = (.error .recursionError, sample) :=
  C43_too_deep sample_reachable fs_sample sample_writable sample_answers (by decide +kernel) td
    ⟨[cl!"a", cl!"b"], by decide +kernel, by decide⟩

/-! ## C55: which schemes have a backend -/

/-- **C55**: memory, file and zip are the schemes that have a backend: for all others, and only for them, it is a
    NoSchemeError (unless the URI cannot be used at all, C73). -/
theorem C55_schemes {u : Uri} {w : World} :
    (getConnection u w).1 = .error .noScheme ↔
      (∀ kv ∈ u.allExtras, kv.1 ∉ reservedNames) ∧ ∀ s ∈ [cl!"memory", cl!"file", cl!"zip"], u.scheme ≠ some s := by
  unfold getConnection
  by_cases h : (u.allExtras.any fun kv => decide (kv.1 ∈ reservedNames)) = true
  · rw [if_pos h]
    obtain ⟨kv, h1, h2⟩ := List.any_eq_true.1 h
    constructor
    · intro h'; cases h'
    · rintro ⟨h3, -⟩; exact absurd (of_decide_eq_true h2) (h3 kv h1)
  · rw [if_neg h]
    have h' : ∀ kv ∈ u.allExtras, kv.1 ∉ reservedNames := by
      intro kv h1 h2; exact h (List.any_eq_true.2 ⟨kv, h1, decide_eq_true h2⟩)
    by_cases h1 : u.scheme = some cl!"memory"
    · rw [if_pos h1]
      constructor
      · intro h2
        split at h2
        · cases h2
        · unfold createConn at h2
          split at h2 <;> cases h2
      · rintro ⟨-, h2⟩; exact absurd h1 (h2 _ (by simp))
    · rw [if_neg h1]
      by_cases h2 : u.scheme = some cl!"file" ∨ u.scheme = some cl!"zip"
      · rw [if_pos h2]
        constructor
        · intro h3; cases h3
        · rintro ⟨-, h3⟩
          rcases h2 with h2 | h2
          · exact absurd h2 (h3 _ (by simp))
          · exact absurd h2 (h3 _ (by simp))
      · rw [if_neg h2]
        simp only [true_iff]
        refine ⟨h', ?_⟩
        simp only [not_or] at h2
        simp [h1, h2.1, h2.2]

example : (getConnection (uri! cl!"ftp://h/a") sample).1 = .error .noScheme :=
  C55_schemes.2 ⟨by decide +kernel, by decide +kernel⟩

/-! ## C61: no archive -/

open Verif.Zip in
/-- **C63**: reading from an archive that is not there is ENOENT, and does not make it. -/
theorem C63_read_missing {s : Zip.St} (hs : Zip.Reachable s) (hf : s.file = .missing) (p : Str) :
    Zip.read p s = (.error (.os .ENOENT), s) := by
  have hn : s.handle = none := by
    cases h : s.handle with
    | none => rfl
    | some g => rcases hs.ok g h with h1 | h1 <;> simp [hf] at h1
  have hc : closeZip s = s := by simp [closeZip, hn]
  simp [Zip.read, Zip.open_, openZip, hc, hf]

open Verif.Zip in
/-- **C63**: a file that is not an archive cannot be read. -/
theorem C63_read_raw {s : Zip.St} (hn : s.handle = none) (hf : s.file = .raw) (p : Str) :
    Zip.read p s = (.error .badZip, s) := by
  have hc : closeZip s = s := by simp [closeZip, hn]
  simp [Zip.read, Zip.open_, openZip, hc, hf]

example : Zip.read cl!"/a" ⟨.missing, none⟩ = (.error (.os .ENOENT), ⟨.missing, none⟩) :=
  C63_read_missing ⟨_, [], rfl⟩ rfl _
example : Zip.read cl!"/a" ⟨.raw, none⟩ = (.error .badZip, ⟨.raw, none⟩) := C63_read_raw rfl rfl _

end Verif.Props

namespace Verif.Props
open Verif.Local Verif.Spec

/-! ## C66, C68: which error -/

/-- **C66**: moving a directory onto a file is EEXIST, or shutil's own error if the file is inside the directory. -/
theorem C66_dir_onto_file_error {w : Os} {s t : List Str} {us ut : Uri} (hs : Path s) (ht : Path t)
    (hus : URI (pathOf s) = .ok us) (hut : URI (pathOf t) = .ok ut) (h1 : isDirO (w.tree s) = true)
    (h2 : isFileO (w.tree t) = true) :
    (s <+: t → (move us ut w).1 = .error .shutilError) ∧ (¬ s <+: t → (move us ut w).1 = .error (.os .EEXIST)) := by
  have h5 : isDirO (w.tree t) = false ∧ (w.tree t).isSome := by
    cases e : w.tree t with
    | none => rw [e] at h2; cases h2
    | some o => cases o <;> simp_all [isFileO, isDirO]
  have h6 : w.tree s ≠ none := by intro h; rw [h] at h1; cases h1
  have h9 : s ≠ t := by rintro rfl; rw [h1] at h5; cases h5.1
  rw [move_else hs ht hus hut (by rw [h5.1]; exact fun h => nomatch h.2)]
  have hr : ∃ e, osRename s t w = (.error e, w) := by
    unfold osRename
    rw [if_neg h6]
    split
    · exact ⟨_, rfl⟩
    split
    · exact ⟨_, rfl⟩
    split
    · exact ⟨_, rfl⟩
    · rw [if_pos ⟨h1, h2⟩]; exact ⟨_, rfl⟩
  obtain ⟨e, hr⟩ := hr
  unfold shutilMove osIsdir
  rw [hs.resolve, ht.resolve, h5.1, if_neg (by simp)]
  unfold renameOrCopy
  rw [hr]
  dsimp only
  rw [if_neg h6, if_pos h1]
  exact ⟨fun h => by rw [if_pos h], fun h => by rw [if_neg h, if_pos h2]⟩

/-- moving /a onto the file /a/b/f, and /c onto it -/
example : ∃ us ud ut, URI cl!"/a" = .ok us ∧ URI cl!"/c" = .ok ud ∧ URI cl!"/a/b/f" = .ok ut ∧
    (move us ut sampleOs).1 = .error .shutilError ∧ (move ud ut sampleOs).1 = .error (.os .EEXIST) := by
  obtain ⟨us, h1, -⟩ := C01_local_path_roundtrip (cs := [cl!"a"]) (by decide) (by simp) (by simp)
  obtain ⟨ud, h2, -⟩ := C01_local_path_roundtrip (cs := [cl!"c"]) (by decide) (by simp) (by simp)
  obtain ⟨ut, h3, -⟩ := C01_local_path_roundtrip (cs := [cl!"a", cl!"b", cl!"f"]) (by decide) (by simp) (by simp)
  exact ⟨us, ud, ut, h1, h2, h3,
    (C66_dir_onto_file_error (s := [cl!"a"]) (t := [cl!"a", cl!"b", cl!"f"]) (by decide +kernel) (by decide +kernel) h1 h3
      (by decide +kernel) (by decide +kernel)).1 (by decide +kernel),
    (C66_dir_onto_file_error (s := [cl!"c"]) (t := [cl!"a", cl!"b", cl!"f"]) (by decide +kernel) (by decide +kernel) h2 h3
      (by decide +kernel) (by decide +kernel)).2 (by decide +kernel)⟩

/-- **C68**: a TempFileHandle can be made for a file only: EISDIR for a directory; if there is nothing, ENOENT, or ENOTDIR if
    the path goes through a file; nothing is changed. -/
theorem C68_no_file {w : Os} {name : Str} :
    (isDirO (w.tree (resolve w name)) = true → TempFile.create name w = (.error (.os .EISDIR), w)) ∧
    (w.tree (resolve w name) = none → (∀ p, p <+: resolve w name → p ≠ resolve w name → isFileO (w.tree p) = false) →
      TempFile.create name w = (.error (.os .ENOENT), w)) ∧
    ∀ p, w.tree (resolve w name) = none → p <+: resolve w name → p ≠ resolve w name → isFileO (w.tree p) = true →
      TempFile.create name w = (.error (.os .ENOTDIR), w) := by
  unfold TempFile.create
  refine ⟨fun h => ?_, fun h h' => by rw [h, missErr_noent h'], fun p h h1 h2 h3 => by rw [h, missErr_notdir h1 h2 h3]⟩
  cases e : w.tree (resolve w name) with
  | none => rw [e] at h; cases h
  | some o => cases o with
    | dir p => rfl
    | file p d => rw [e] at h; cases h

example : TempFile.create cl!"/a" sampleOs = (.error (.os .EISDIR), sampleOs) := C68_no_file.1 (by decide +kernel)
example : TempFile.create cl!"/x" sampleOs = (.error (.os .ENOENT), sampleOs) :=
  C68_no_file.2.1 (by decide +kernel) fun p hp hne => by
    have e : resolve sampleOs cl!"/x" = [cl!"x"] := by decide +kernel
    rw [e] at hp hne
    have : p = [] := by
      have h1 := hp.length_le
      rcases p with _ | ⟨a, _ | ⟨b, p⟩⟩
      · rfl
      · exact absurd (hp.eq_of_length (by simp)) hne
      · simp at h1
    subst this
    decide +kernel
example : TempFile.create cl!"/a/b/f/x" sampleOs = (.error (.os .ENOTDIR), sampleOs) :=
  C68_no_file.2.2 [cl!"a", cl!"b", cl!"f"] (by decide +kernel) (by decide +kernel) (by decide +kernel) (by decide +kernel)

end Verif.Props
