import Verif.Any.LinkAcross
/-!
# C132 A program that uses links in several file systems cannot tell which of them are in memory

The programs of C129, each call in one of any number of file systems, all of which may have links.  A call changes nothing in the
other places, neither what is at a name nor what a link leads to.  Files and directories can also be copied and moved from memory
to local files and back, and from one memory file system to another.  Links that are not followed are made in the
place they come from.
-/
namespace Verif.Props
open Verif.Spec Verif.Gen Verif.Any
open Mem (World)

/-! ## Programs -/

section
variable {ι κ : Type} [DecidableEq κ] {E : ι → Dict} {r : ι → Nat} {site : κ → Option ι} {s : Sys} {T : κ → LTree} {across : κ → κ → Option Bool}

/-- what `across` says of two places: they are two memory file systems, or local files and a memory file system -/
def Kinds (across : κ → κ → Option Bool) (site : κ → Option ι) : Prop := ∀ k k' st, across k k' = some st → k ≠ k' ∧ Across st (site k) (site k')

theorem lacts_step (hr : Function.Injective r) (hs : Function.Injective site) (hx : Kinds across site)
    (depth : Nat) (a : LActs κ) {s0 : Sys} (h : LHoldAll E r site s0 s T) (hq : (a.plain across depth T).1 ≠ .error .outside) :
    (a.run E site depth s).1 = (a.plain across depth T).1 ∧ LHoldAll E r site s0 (a.run E site depth s).2 (a.plain across depth T).2 := by
  have h3 := mlike_acts (s0 := s0) hr hs hx depth a _ _ h
  revert h3 hq
  generalize a.plain across depth T = x
  generalize a.run E site depth s = y
  intro hq h3
  cases h3 with
  | out => exact absurd rfl hq
  | ok e hrel => exact ⟨by rw [e], hrel⟩
  | err hrel => exact ⟨rfl, hrel⟩

theorem lexecs_rel (hr : Function.Injective r) (hs : Function.Injective site) (hx : Kinds across site)
    (depth : Nat) (pr : Prg (LActs κ)) {s0 : Sys} :
    ∀ n, LHoldAll E r site s0 s T → (∀ x ∈ (pr.exec (LActs.plain across depth) n T).1, x ≠ .error .outside) →
    (pr.exec (LActs.run E site depth) n s).1 = (pr.exec (LActs.plain across depth) n T).1 ∧
      LHoldAll E r site s0 (pr.exec (LActs.run E site depth) n s).2 (pr.exec (LActs.plain across depth) n T).2
  | 0, h, _ => ⟨rfl, h⟩
  | n + 1, h, hq => by
    cases hp : pr (pr.exec (LActs.plain across depth) n T).1 with
    | none =>
      rw [exec_none hp] at hq ⊢
      obtain ⟨h1, h2⟩ := lexecs_rel hr hs hx depth pr n h hq
      rw [exec_none (by rw [h1, hp])]
      exact ⟨h1, h2⟩
    | some a =>
      rw [exec_some hp] at hq ⊢
      obtain ⟨h1, h2⟩ := lexecs_rel hr hs hx depth pr n h fun x hx => hq x (by simp [hx])
      rw [exec_some (by rw [h1, hp])]
      obtain ⟨h3, h4⟩ := lacts_step hr hs hx depth a h2 (hq _ (List.mem_append_right _ (List.mem_singleton.2 rfl)))
      exact ⟨by rw [h1, h3], h4⟩

/-- a program in several places gets the answers and the trees of plain file systems with links, and what is in other places
    stays -/
theorem C132_plain (hr : Function.Injective r) (hs : Function.Injective site) (hx : Kinds across site)
    (hok : SysOk E r s) (h : ∀ k, LHolds E r s (site k) (T k))
    (depth : Nat) (pr : Prg (LActs κ)) (n : Nat) (hq : ∀ x ∈ (pr.exec (LActs.plain across depth) n T).1, x ≠ .error .outside) :
    (pr.exec (LActs.run E site depth) n s).1 = (pr.exec (LActs.plain across depth) n T).1 ∧
    (∀ k, LHolds E r (pr.exec (LActs.run E site depth) n s).2 (site k) ((pr.exec (LActs.plain across depth) n T).2 k)) ∧
    SysOk E r (pr.exec (LActs.run E site depth) n s).2 ∧
    ∀ j, (∀ k, site k ≠ j) → siteV r (pr.exec (LActs.run E site depth) n s).2 j = siteV r s j := by
  obtain ⟨h1, h2⟩ := lexecs_rel hr hs hx depth pr n ⟨hok, h, fun _ _ => rfl⟩ hq
  exact ⟨h1, h2.here, h2.ok, h2.there⟩

/-- it does not matter which memory file systems they are, which of the places is the local one, and what else is there: the
    same answers, the same exceptions, the same objects, the same targets of links -/
theorem C132_same {ι' : Type} {E' : ι' → Dict} {r' : ι' → Nat} {site' : κ → Option ι'} {s' : Sys} (hr : Function.Injective r)
    (hr' : Function.Injective r') (hs : Function.Injective site) (hs' : Function.Injective site')
    (hx : Kinds across site) (hx' : Kinds across site') (hok : SysOk E r s) (hok' : SysOk E' r' s')
    (h : ∀ k, LHolds E r s (site k) (T k)) (h' : ∀ k, LHolds E' r' s' (site' k) (T k)) (depth : Nat) (pr : Prg (LActs κ)) (n : Nat)
    (hq : ∀ x ∈ (pr.exec (LActs.plain across depth) n T).1, x ≠ .error .outside) :
    (pr.exec (LActs.run E' site' depth) n s').1 = (pr.exec (LActs.run E site depth) n s).1 ∧
    (∀ k, siteV r' (pr.exec (LActs.run E' site' depth) n s').2 (site' k) = siteV r (pr.exec (LActs.run E site depth) n s).2 (site k)) ∧
    ∃ T' : κ → LTree, ∀ k, LHolds E r (pr.exec (LActs.run E site depth) n s).2 (site k) (T' k) ∧
      LHolds E' r' (pr.exec (LActs.run E' site' depth) n s').2 (site' k) (T' k) := by
  obtain ⟨a1, a2, -, -⟩ := C132_plain hr hs hx hok h depth pr n hq
  obtain ⟨b1, b2, -, -⟩ := C132_plain hr' hs' hx' hok' h' depth pr n hq
  exact ⟨by rw [b1, a1], fun k => funext fun p => by rw [(b2 k).here, (a2 k).here], _, fun k => ⟨a2 k, b2 k⟩⟩

end

/-! ## A concrete case: the places of C129, at once -/

/-- in the first place, then in the second: the link in the one is made to lead elsewhere while the other is as it was, what a link in
    the one leads to is written in the other, a directory is moved in the one and its link leads nowhere there; then a directory
    with a link to a file in it is copied from the one to the other, a file behind a link, and the directory is moved -/
def lnBoth : Prg (LActs Bool) := fun xs =>
  match xs.length with
  | 0 => some (.one false (.remove [cl!"l"]))
  | 1 => some (.one false (.symlink [cl!"a", cl!"f"] [cl!"l"]))
  | 2 => some (.one true (.readlink [cl!"l"]))
  | 3 => some (.one false (.read [cl!"l"]))
  | 4 => match xs.getLast? with
    | some (.ok (.bytes b)) => some (.one true (.write [cl!"l", cl!"g"] [b, b]))
    | _ => none
  | 5 => some (.one true (.read [cl!"a", cl!"g"]))
  | 6 => some (.one false (.exists_ [cl!"a", cl!"g"]))
  | 7 => some (.one true (.move [cl!"a"] [cl!"b"]))
  | 8 => some (.one true (.exists_ [cl!"l"]))
  | 9 => some (.one false (.readlink [cl!"l"]))
  | 10 => some (.one false (.isfile [cl!"l"]))
  | 11 => some (.one false (.symlink [cl!"a", cl!"f"] [cl!"a", cl!"m"]))
  | 12 => some (.copy false [cl!"a"] true [cl!"a"] true [] true)
  | 13 => some (.one true (.islink [cl!"l", cl!"m"]))
  | 14 => some (.one true (.read [cl!"l", cl!"m"]))
  | 15 => some (.copy true [cl!"b", cl!"g"] false [cl!"l"] false [] true)
  | 16 => some (.one false (.read [cl!"a", cl!"m"]))
  | 17 => some (.move false [cl!"a"] true [cl!"l"])
  | 18 => some (.one true (.read [cl!"a", cl!"a", cl!"m"]))
  | 19 => some (.one false (.exists_ [cl!"l"]))
  | 20 => some (.move false [cl!"a"] true [cl!"l"])
  | _ => none

/-- its answers -/
def lnBothSays : List (Except PyErr Ans) :=
  [.ok .unit, .ok .unit, .ok (.paths [cl!"/a"]), .ok (.bytes [104, 105]), .ok .unit, .ok (.bytes [104, 105, 104, 105]), .ok (.bool false), .ok .unit,
   .ok (.bool false), .ok (.paths [cl!"/a/f"]), .ok (.bool true), .ok .unit, .ok .unit, .ok (.bool false), .ok (.bytes [104, 105]), .ok .unit,
   .ok (.bytes [104, 105, 104, 105]), .ok .unit, .ok (.bytes [104, 105, 104, 105]), .ok (.bool false), .error .fileDoesNotExist]

/-- from any place to the other -/
def lnAcross (a b : Bool) : Option Bool := if a = b then none else some false

/-- what the plain file systems answer -/
theorem ln_both : (lnBoth.exec (LActs.plain lnAcross 50) 30 fun _ => lnTree).1 = lnBothSays := by decide +kernel

/-- one of the places in memory and the other on local files, either way -/
def lnSite (b : Bool) (k : Bool) : Option Unit := if k = b then none else some ()

theorem lnSite_inj (b : Bool) : Function.Injective (lnSite b) := by
  intro x y h
  revert h
  cases b <;> cases x <;> cases y <;> simp [lnSite]

theorem lnSite_across (b : Bool) : Kinds lnAcross (lnSite b) := by
  intro k k' st h
  revert h
  cases b <;> cases k <;> cases k' <;> cases st <;> simp [lnSite, lnAcross, Across, Differ]

example (b : Bool) : (lnBoth.exec (LActs.run (fun _ : Unit => []) (lnSite b) 50) 30 lnSys).1 = lnBothSays :=
  (C132_plain unit_inj (lnSite_inj b) (lnSite_across b) ln_ok (fun k => ln_holds (lnSite b k)) 50 lnBoth 30 (by rw [ln_both]; decide)).1.trans ln_both

/-- the one cannot be told from the other -/
example (k : Bool) : siteV (fun _ : Unit => 0) (lnBoth.exec (LActs.run (fun _ : Unit => []) (lnSite true) 50) 30 lnSys).2 (lnSite true k) =
    siteV (fun _ : Unit => 0) (lnBoth.exec (LActs.run (fun _ : Unit => []) (lnSite false) 50) 30 lnSys).2 (lnSite false k) :=
  (C132_same unit_inj unit_inj (lnSite_inj false) (lnSite_inj true) (lnSite_across false) (lnSite_across true) ln_ok ln_ok
    (fun k => ln_holds (lnSite false k)) (fun k => ln_holds (lnSite true k)) 50 lnBoth 30 (by rw [ln_both]; decide)).2.1 k

/-! ## A concrete case: two memory file systems and local files -/

/-- nothing, in two memory file systems and on disk -/
def nilSys : Sys := ⟨Mem.runAll [.isdir (Gen.mem [] []), .isdir (Gen.mem [(cl!"k", cl!"v")] [])] (World.init fun n => n), ⟨[([], .dir 0o755)], [], 0o22, []⟩⟩

/-- the query parts of the two -/
def nilE (b : Bool) : Dict := if b then [(cl!"k", cl!"v")] else []

/-- the roots of the two -/
def nilR (b : Bool) : Nat := if b then 1 else 0

theorem nilR_inj : Function.Injective nilR := by intro a b; revert a b; decide

theorem nil_ok : SysOk nilE nilR nilSys :=
  ⟨Mem.Reachable.inv ⟨_, _, rfl⟩, by
    have h0 : ∀ i, nilSys.mem.hooks (nilR i) = [] := by decide +kernel
    refine fun i => ⟨?_, ?_, fun p cb m h => ?_⟩
    · revert i; decide +kernel
    · revert i; decide +kernel
    · rw [h0 i] at h; simp at h,
   diskOk_of (by decide) (by decide) (by decide)⟩

theorem nil_holds (k : Option Bool) : LHolds nilE nilR nilSys k [] := by
  have hn : ∀ p, p ≠ [] → LTree.get [] p = none := fun p hp => by simp [LTree.get, hp]
  refine ⟨fun p => ?_, fun p x hx => ?_, by simp⟩
  · by_cases hp : p = []
    · subst hp
      have : siteV nilR nilSys k [] = some .dir := by
        rcases k with _ | _ | _ <;> decide +kernel
      rw [this]; rfl
    · rw [hn p hp]
      by_contra hc
      cases k with
      | none =>
        obtain ⟨e, he, e1⟩ := (lookup_isSome nilSys.disk.ents p).2 (show nilSys.disk.tree p ≠ none by
          intro h; apply hc; simp only [siteV]; rw [h]; rfl)
        have : ∀ e ∈ nilSys.disk.ents, e.1 = [] := by decide +kernel
        exact hp (e1 ▸ this e he)
      | some i =>
        have h1 : p ∈ Spec.allPaths nilSys.mem nilSys.mem.next (nilR i) := view_mem_allPaths nil_ok.inv (nil_ok.fs i).isRoot (by
          intro h; apply hc; simp only [siteV]; rw [h]; rfl)
        have : ∀ i, ∀ p ∈ Spec.allPaths nilSys.mem nilSys.mem.next (nilR i), p = [] := by decide +kernel
        exact hp (this i p h1)
  · by_cases hp : p = []
    · subst hp; simp [LTree.get] at hx
    · rw [hn p hp] at hx; simp at hx

/-- between the two memory file systems, and between them and the local files -/
def nilAcross (a b : Option Bool) : Option Bool := if a = b then none else some (a.isSome && b.isSome)

/-- A file behind a link is copied from one memory file system to the other: it arrives, but the call ends with an error, because
    nothing has its name where it came from.  Once something has, even a directory, it is copied; moving removes the link only if
    the copying went through; and from there to the local files it can always be copied.  A link that is not followed gets to the
    path of the copy in the place it comes from, in place of a file there if there is one in the other place, too; in a directory that
    is not there it cannot be made. -/
def lnThree : List (LActs (Option Bool)) :=
  [.one (some false) (.write [cl!"f"] [[1, 2]]), .one (some false) (.symlink [cl!"f"] [cl!"l"]),
   .copy (some false) [cl!"l"] (some true) [cl!"x"] false [] true, .one (some true) (.read [cl!"x"]), .one (some false) (.exists_ [cl!"x"]),
   .one (some false) (.mkdir [cl!"y"]), .copy (some false) [cl!"l"] (some true) [cl!"y"] false [] true, .one (some true) (.read [cl!"y"]),
   .move (some false) [cl!"l"] (some true) [cl!"z"], .one (some false) (.islink [cl!"l"]), .one (some true) (.islink [cl!"z"]),
   .move (some false) [cl!"l"] (some true) [cl!"f"], .one (some false) (.islink [cl!"l"]), .one (some true) (.read [cl!"f"]),
   .one (some false) (.write [cl!"y", cl!"g"] [[3]]), .copy (some false) [cl!"y"] (some true) [cl!"w"] true [] true,
   .one (some true) (.read [cl!"w", cl!"g"]), .copy (some false) [cl!"y"] none [cl!"w"] true [] true, .one none (.read [cl!"w", cl!"g"]),
   .one (some false) (.symlink [cl!"f"] [cl!"m"]), .copy (some false) [cl!"m"] none [cl!"n"] false [] false, .one none (.exists_ [cl!"n"]),
   .one (some false) (.readlink [cl!"n"]), .one none (.write [cl!"v"] [[5]]), .one (some false) (.write [cl!"v"] [[6]]),
   .copy (some false) [cl!"m"] none [cl!"v"] false [] false, .one none (.read [cl!"v"]), .one (some false) (.islink [cl!"v"]),
   .one (some false) (.symlink [cl!"f"] [cl!"y", cl!"s"]), .copy (some false) [cl!"y"] none [cl!"u"] true [] false,
   .one none (.read [cl!"u", cl!"g"]), .one none (.exists_ [cl!"u", cl!"s"])]

/-- the calls one after the other -/
def lnThreePrg : Prg (LActs (Option Bool)) := fun xs => lnThree[xs.length]?

/-- its answers -/
def lnThreeSays : List (Except PyErr Ans) :=
  [.ok .unit, .ok .unit, .error (.os .ENOENT), .ok (.bytes [1, 2]), .ok (.bool false), .ok .unit, .ok .unit, .ok (.bytes [1, 2]), .error (.os .ENOENT),
   .ok (.bool true), .ok (.bool false), .ok .unit, .ok (.bool false), .ok (.bytes [1, 2]), .ok .unit, .error (.os .ENOENT), .ok (.bytes [3]), .ok .unit,
   .ok (.bytes [3]), .ok .unit, .ok .unit, .ok (.bool false), .ok (.paths [cl!"/f"]), .ok .unit, .ok .unit, .ok .unit, .ok (.bytes [5]),
   .ok (.bool true), .ok .unit, .error (.os .ENOENT), .ok (.bytes [3]), .ok (.bool false)]

/-- what the plain file systems answer -/
theorem ln_three : (lnThreePrg.exec (LActs.plain nilAcross 50) 40 fun _ => []).1 = lnThreeSays := by decide +kernel

/-- the two memory file systems, either way -/
def nilSite (b : Bool) : Option Bool → Option Bool := Option.map (xor b)

theorem nilSite_inj (b : Bool) : Function.Injective (nilSite b) := by
  intro x y
  rcases x with _ | _ | _ <;> rcases y with _ | _ | _ <;> cases b <;> simp [nilSite]

theorem nilSite_across (b : Bool) : Kinds nilAcross (nilSite b) := by
  intro k k' st h
  revert h
  rcases k with _ | k <;> rcases k' with _ | k' <;> cases st <;> simp [nilSite, nilAcross, Across, Differ]

example (b : Bool) : (lnThreePrg.exec (LActs.run nilE (nilSite b) 50) 40 nilSys).1 = lnThreeSays :=
  (C132_plain nilR_inj (nilSite_inj b) (nilSite_across b) nil_ok (fun k => nil_holds (nilSite b k)) 50 lnThreePrg 40
    (by rw [ln_three]; decide)).1.trans ln_three

end Verif.Props
