import Verif.Any.LinkTrees
import Verif.Any.LinkCopy
import Verif.Any.LinkMove
import Verif.Props.Same
/-!
# C129 A program that uses links cannot tell a memory file system from local files

Any sequence of calls, among them symlink, readlink, islink and calls on paths that lead through links, each chosen by
what the calls before it answered, gets the answers, the exceptions and the tree that a plain file system with links
(Verif/Any/LinkPlain.lean) gives, in every memory file system and on local files.  Where the backends differ the plain
file system has no expectation (`PyErr.outside`); the differences are stated below with witnesses.
-/
namespace Verif.Props
open Verif.Spec Verif.Gen Verif.Any
open Mem (World)

section
variable {ι : Type} {E : ι → Dict} {r : ι → Nat} {k : Option ι} {F : Others ι} {s : Sys}

/-- the place `k` holds the tree `t`: the same objects, and links with the same targets -/
structure LHolds (E : ι → Dict) (r : ι → Nat) (s : Sys) (k : Option ι) (t : LTree) : Prop where
  here : ∀ p, siteV r s k p = (t.get p).map LKind.kind
  links : ∀ p x, t.get p = some (.link x) → Nm x ∧ LinkTo E r s k p x
  keys : (t.map (·.1)).Nodup

theorem LHolds.rel {t : LTree} (h : LHolds E r s k t) (hok : SysOk E r s) : LRel E r k ⟨siteV r s, fun j => view s.mem (r j)⟩ t s :=
  ⟨hok, h.here, h.links, fun _ _ => rfl, fun _ _ _ _ => rfl, h.keys⟩

theorem lholds_of_rel {t : LTree} (h : LRel E r k F t s) : LHolds E r s k t := ⟨h.here, h.links, h.keys⟩

/-- one call -/
theorem lalike_act (hr : Function.Injective r) (depth : Nat) (a : LAct) : LAlike E r k F (a.plain depth) (a.run E k depth) := by
  unfold LAct.plain
  split
  · rename_i hf
    cases a with
    | exists_ p => exact lalike_map _ (lalike_exists hf)
    | isfile p => exact lalike_map _ (lalike_isfile hf)
    | isdir p => exact lalike_map _ (lalike_isdir hf)
    | listdir p => exact lalike_map _ (lalike_listdir hf)
    | read p => exact lalike_map _ (lalike_read hr hf)
    | md5 p =>
      have := lalike_map Ans.bytes (lalike_md5 (E := E) (r := r) (k := k) (F := F) hr hf)
      simp only [bind_assoc, pure_bind] at this
      exact this
    | write p l => exact lalike_map (fun _ => Ans.unit) (lalike_write hr hf l)
    | islink p => exact lalike_map _ (lalike_islink hf)
    | readlink p => exact lalike_readlink hf
    | mkdir p => exact lalike_map (fun _ => Ans.unit) (lalike_mkdir hr hf)
    | symlink x p => exact lalike_map (fun _ => Ans.unit) (lalike_symlink hr hf.1 hf.2)
    | remove p => exact lalike_map (fun _ => Ans.unit) (lalike_remove hr hf depth)
    | removeTree p => exact lalike_map (fun _ => Ans.unit) (lalike_removeTree hr hf depth)
    | makedirs p => exact lalike_map (fun _ => Ans.unit) (lalike_makedirs hr hf depth)
    | walk p td fl => 
      have := lalike_map Ans.rows (llike_uWalk (E := E) (r := r) (k := k) (F := F) hf depth td fl)
      simp only [bind_assoc, pure_bind] at this
      exact this
    | glob p m => 
      have := lalike_map Ans.paths (llike_uGlob (E := E) (r := r) (k := k) (F := F) hf m)
      simp only [bind_assoc, pure_bind] at this
      exact this
    | copy p q rec ig fl =>
      cases rec
      · exact lalike_map (fun _ => Ans.unit) (lalike_copy hr fl ig depth hf.1 hf.2)
      · exact lalike_map (fun _ => Ans.unit) (lalike_copyTree hr fl ig depth hf.1 hf.2)
    | move p q => exact lalike_map (fun _ => Ans.unit) (lalike_move hr depth hf.1 hf.2)
  · exact fun t s _ => .out _ _

theorem lexec_rel (hr : Function.Injective r) (depth : Nat) (pr : Prg LAct) : ∀ (n : Nat) {t : LTree} {s : Sys}, LRel E r k F t s →
    (∀ x ∈ (pr.exec (LAct.plain depth) n t).1, x ≠ .error .outside) →
    (pr.exec (LAct.run E k depth) n s).1 = (pr.exec (LAct.plain depth) n t).1 ∧
      LRel E r k F (pr.exec (LAct.plain depth) n t).2 (pr.exec (LAct.run E k depth) n s).2
  | 0, _, _, h, _ => ⟨rfl, h⟩
  | n + 1, t, s, h, hq => by
    cases hp : pr (pr.exec (LAct.plain depth) n t).1 with
    | none =>
      rw [exec_none hp] at hq ⊢
      obtain ⟨h1, h2⟩ := lexec_rel hr depth pr n h hq
      rw [exec_none (by rw [h1, hp])]
      exact ⟨h1, h2⟩
    | some a =>
      rw [exec_some hp] at hq ⊢
      obtain ⟨h1, h2⟩ := lexec_rel hr depth pr n h fun x hx => hq x (by simp [hx])
      rw [exec_some (by rw [h1, hp])]
      have h3 := lalike_act hr depth a _ _ h2
      have h4 := hq _ (List.mem_append_right _ (List.mem_singleton.2 rfl))
      dsimp only
      revert h3 h4
      generalize (a.plain depth) (pr.exec (LAct.plain depth) n t).2 = x
      generalize a.run E k depth (pr.exec (LAct.run E k depth) n s).2 = y
      intro h3 h4
      cases h3 with
      | out => exact absurd rfl h4
      | ok hrel => exact ⟨by rw [h1], hrel⟩
      | err hrel => exact ⟨by rw [h1], hrel⟩

/-- a program in a memory file system or on local files gets the answers and the tree of the plain file system with
    links, and what is in other places stays -/
theorem C129_plain (hr : Function.Injective r) (hok : SysOk E r s) {t : LTree} (h : LHolds E r s k t) (depth : Nat) (pr : Prg LAct) (n : Nat)
    (hq : ∀ x ∈ (pr.exec (LAct.plain depth) n t).1, x ≠ .error .outside) :
    (pr.exec (LAct.run E k depth) n s).1 = (pr.exec (LAct.plain depth) n t).1 ∧
    LHolds E r (pr.exec (LAct.run E k depth) n s).2 k (pr.exec (LAct.plain depth) n t).2 ∧
    SysOk E r (pr.exec (LAct.run E k depth) n s).2 ∧
    ∀ j, j ≠ k → siteV r (pr.exec (LAct.run E k depth) n s).2 j = siteV r s j := by
  obtain ⟨h1, h2⟩ := lexec_rel hr depth pr n (h.rel hok) hq
  exact ⟨h1, lholds_of_rel h2, h2.ok, h2.there⟩

/-- every place whose links lead to absolute paths with names that can be written holds a tree -/
theorem C129_tree (hok : SysOk E r s) (hl : ∀ p, siteV r s k p = some .other → ∃ x, Nm x ∧ LinkTo E r s k p x) :
    ∃ t, LHolds E r s k t := by
  obtain ⟨ps, hps⟩ : ∃ ps : List (List Str), ∀ p, siteV r s k p ≠ none → p ∈ ps := by
    cases k with
    | none =>
      refine ⟨s.disk.ents.map (·.1), fun p hp => ?_⟩
      obtain ⟨e, he, e1⟩ := (lookup_isSome s.disk.ents p).2 (show s.disk.tree p ≠ none by
        intro hc; apply hp; simp only [siteV]; rw [hc]; rfl)
      exact List.mem_map.2 ⟨e, he, e1⟩
    | some i =>
      refine ⟨allPaths s.mem s.mem.next (r i), fun p hp => view_mem_allPaths hok.inv (hok.fs i).isRoot ?_⟩
      intro hc; apply hp; simp only [siteV]; rw [hc]; rfl
  -- what the tree has at a name
  have obj : ∀ p, ∃ o : Option LKind, o.map LKind.kind = siteV r s k p ∧ ∀ x, o = some (.link x) → Nm x ∧ LinkTo E r s k p x := by
    intro p
    cases hv : siteV r s k p with
    | none => exact ⟨none, rfl, by simp⟩
    | some o =>
      cases o with
      | dir => exact ⟨some .dir, rfl, by simp⟩
      | file d => exact ⟨some (.file d), rfl, by simp⟩
      | other =>
        obtain ⟨x, h1, h2⟩ := hl p hv
        refine ⟨some (.link x), rfl, fun y hy => ?_⟩
        obtain rfl : x = y := by simpa using hy
        exact ⟨h1, h2⟩
  choose g hg1 hg2 using obj
  have key : ∀ l : List (List Str), ∃ t : LTree, (∀ p, t.lookup p = if p ∈ l then g p else none) ∧
      (t.map (·.1)).Nodup ∧ ∀ e ∈ t, e.1 ∈ l := by
    intro l
    induction l with
    | nil => exact ⟨[], by simp, by simp, by simp⟩
    | cons q l ih =>
      obtain ⟨t, h1, h2, h3⟩ := ih
      by_cases hq : q ∈ l
      · refine ⟨t, fun p => ?_, h2, fun e he => List.mem_cons_of_mem _ (h3 e he)⟩
        rw [h1]
        by_cases hpq : p = q
        · subst hpq; simp [hq]
        · simp [hpq]
      cases hv : g q with
      | none =>
        refine ⟨t, fun p => ?_, h2, fun e he => List.mem_cons_of_mem _ (h3 e he)⟩
        rw [h1]
        by_cases hpq : p = q
        · subst hpq; simp [hv]
        · simp [hpq]
      | some o =>
        refine ⟨(q, o) :: t, fun p => ?_, ?_, ?_⟩
        · by_cases hpq : p = q
          · subst hpq; simp [hv]
          · have : (p == q) = false := by simpa using hpq
            rw [List.lookup_cons, this]
            simp only [h1]
            simp [hpq]
        · rw [List.map_cons, List.nodup_cons]
          refine ⟨fun hm => ?_, h2⟩
          obtain ⟨e, he, e1⟩ := List.mem_map.1 hm
          exact hq ((show e.1 = q from e1) ▸ h3 e he)
        · intro e he
          rcases List.mem_cons.1 he with rfl | he
          · simp
          · exact List.mem_cons_of_mem _ (h3 e he)
  obtain ⟨t, h1, h2, -⟩ := key ps
  have hget : ∀ p, p ≠ [] → t.get p = g p := fun p hp => by
    unfold LTree.get
    rw [if_neg hp, h1]
    split
    · rfl
    · rename_i hm
      have : siteV r s k p = none := by
        by_contra hc
        exact hm (hps p hc)
      have e := hg1 p
      rw [this] at e
      exact (Option.map_eq_none_iff.1 e).symm
  refine ⟨t, fun p => ?_, fun p x hx => ?_, h2⟩
  · by_cases hp : p = []
    · subst hp; rw [site_root hok]; rfl
    · rw [hget p hp, hg1]
  · by_cases hp : p = []
    · subst hp; simp [LTree.get] at hx
    · rw [hget p hp] at hx
      exact hg2 p x hx

/-- two places that hold the same tree cannot be told apart: the same answers, the same exceptions, the same objects and
    the same targets of links after every program -/
theorem C129_same {ι' : Type} {E' : ι' → Dict} {r' : ι' → Nat} {k' : Option ι'} {s' : Sys} (hr : Function.Injective r)
    (hr' : Function.Injective r') (hok : SysOk E r s) (hok' : SysOk E' r' s') {t : LTree} (h : LHolds E r s k t)
    (h' : LHolds E' r' s' k' t) (depth : Nat) (pr : Prg LAct) (n : Nat)
    (hq : ∀ x ∈ (pr.exec (LAct.plain depth) n t).1, x ≠ .error .outside) :
    (pr.exec (LAct.run E' k' depth) n s').1 = (pr.exec (LAct.run E k depth) n s).1 ∧
    siteV r' (pr.exec (LAct.run E' k' depth) n s').2 k' = siteV r (pr.exec (LAct.run E k depth) n s).2 k ∧
    ∃ t', LHolds E r (pr.exec (LAct.run E k depth) n s).2 k t' ∧ LHolds E' r' (pr.exec (LAct.run E' k' depth) n s').2 k' t' := by
  obtain ⟨a1, a2, -, -⟩ := C129_plain hr hok h depth pr n hq
  obtain ⟨b1, b2, -, -⟩ := C129_plain hr' hok' h' depth pr n hq
  exact ⟨by rw [b1, a1], funext fun p => by rw [b2.here, a2.here], _, a2, b2⟩

end

/-! ## A concrete case: the same files and links in memory and on disk -/

/-- /a/, /a/f with the bytes "hi" and /l, a link to /a, in memory -/
def lnMem : World := Mem.runAll [.mkdir (mu cl!"/a"), .open_ (mu cl!"/a/f") (some cl!"w"), .write ⟨2, false, false⟩ (.str cl!"hi"),
  .symlink (mu cl!"/a") (mu cl!"/l")] (World.init fun n => n)

/-- the same in memory and on disk -/
def lnSys : Sys := ⟨lnMem, ⟨[([], .dir 0o755), ([cl!"a"], .dir 0o755), ([cl!"a", cl!"f"], .file 0o644 [104, 105]), ([cl!"l"], .link cl!"/a")], [], 0o22, []⟩⟩

/-- the same as a tree -/
def lnTree : LTree := [([cl!"a"], .dir), ([cl!"a", cl!"f"], .file [104, 105]), ([cl!"l"], .link [cl!"a"])]

theorem lnMem_reachable : Mem.Reachable lnMem := ⟨_, _, rfl⟩

theorem ln_ok : SysOk (fun _ : Unit => []) (fun _ => 0) lnSys :=
  ⟨lnMem_reachable.inv,
   fun _ => ⟨by decide +kernel, by decide +kernel, by
     intro p cb m h
     have : lnMem.hooks 0 = [] := by decide +kernel
     change (lnMem.hooks 0).lookup p = _ at h
     rw [this] at h; simp at h⟩,
   diskOk_of (by decide) (by decide) (by decide)⟩

theorem ln_holds (k : Option Unit) : LHolds (fun _ : Unit => []) (fun _ : Unit => 0) lnSys k lnTree := by
  obtain ⟨ps, hps, hin⟩ : ∃ ps : List (List Str), (∀ p, siteV (fun _ : Unit => 0) lnSys k p ≠ none → p ∈ ps) ∧
      ∀ p ∈ ps, p = [] ∨ p = [cl!"a"] ∨ p = [cl!"a", cl!"f"] ∨ p = [cl!"l"] := by
    cases k with
    | none =>
      refine ⟨lnSys.disk.ents.map (·.1), fun p hp => ?_, by decide +kernel⟩
      obtain ⟨e, he, e1⟩ := (lookup_isSome lnSys.disk.ents p).2 (show lnSys.disk.tree p ≠ none by
        intro hc; apply hp; simp only [siteV]; rw [hc]; rfl)
      exact List.mem_map.2 ⟨e, he, e1⟩
    | some i =>
      refine ⟨allPaths lnMem lnMem.next 0, fun p hp => view_mem_allPaths ln_ok.inv (ln_ok.fs ()).isRoot ?_, by decide +kernel⟩
      intro hc; apply hp; simp only [siteV]; rw [hc]; rfl
  have hk : ∀ k : Option Unit, siteV (fun _ : Unit => 0) lnSys k [] = some .dir ∧ siteV (fun _ : Unit => 0) lnSys k [cl!"a"] = some .dir ∧
      siteV (fun _ : Unit => 0) lnSys k [cl!"a", cl!"f"] = some (.file [104, 105]) ∧ siteV (fun _ : Unit => 0) lnSys k [cl!"l"] = some .other := by
    intro k
    rcases k with _ | u
    · decide +kernel
    · cases u; decide +kernel
  obtain ⟨h0, h1, h2, h3⟩ := hk k
  have hnot : ∀ p, p ≠ [] → p ≠ [cl!"a"] → p ≠ [cl!"a", cl!"f"] → p ≠ [cl!"l"] → lnTree.get p = none := by
    intro p n0 n1 n2 n3
    have e1 : (p == [cl!"a"]) = false := by simpa using n1
    have e2 : (p == [cl!"a", cl!"f"]) = false := by simpa using n2
    have e3 : (p == [cl!"l"]) = false := by simpa using n3
    simp only [LTree.get, if_neg n0, lnTree, List.lookup_cons, e1, e2, e3, List.lookup_nil]
  refine ⟨fun p => ?_, fun p x hx => ?_, by decide⟩
  · by_cases n0 : p = []
    · subst n0; rw [h0]; rfl
    by_cases n1 : p = [cl!"a"]
    · subst n1; rw [h1]; rfl
    by_cases n2 : p = [cl!"a", cl!"f"]
    · subst n2; rw [h2]; rfl
    by_cases n3 : p = [cl!"l"]
    · subst n3; rw [h3]; rfl
    rw [hnot p n0 n1 n2 n3]
    by_contra hc
    have := hin p (hps p hc)
    simp_all
  · by_cases n0 : p = []
    · subst n0; simp [LTree.get] at hx
    by_cases n1 : p = [cl!"a"]
    · subst n1
      have : lnTree.get [cl!"a"] = some .dir := by decide
      rw [this] at hx; simp at hx
    by_cases n2 : p = [cl!"a", cl!"f"]
    · subst n2
      have : lnTree.get [cl!"a", cl!"f"] = some (.file [104, 105]) := by decide
      rw [this] at hx; simp at hx
    by_cases n3 : p = [cl!"l"]
    · subst n3
      have : lnTree.get [cl!"l"] = some (.link [cl!"a"]) := by decide
      rw [this] at hx
      obtain rfl : [cl!"a"] = x := by simpa using hx
      refine ⟨by decide +kernel, ?_⟩
      rcases k with _ | u
      · show lnSys.disk.tree [cl!"l"] = some (.link (pathOf [cl!"a"]))
        decide +kernel
      · have : ∃ m z, Spec.view lnMem 0 [cl!"l"] = some (.link (mem [] [cl!"a"]) m z) := by
          refine ⟨0, 4, ?_⟩
          decide +kernel
        exact this
    rw [hnot p n0 n1 n2 n3] at hx
    simp at hx

/-- calls one after the other, whatever they answer -/
def lnList (l : List LAct) : Prg LAct := fun xs => l[xs.length]?

/-- a program with links: reading and writing through a link to a directory, a link to a link to a file, a link that leads
    nowhere, removing a link, and going on only if the target of a link is as expected -/
def lnPrg : Prg LAct := fun xs =>
  match xs.length with
  | 0 => some (.read [cl!"l", cl!"f"])
  | 1 => some (.write [cl!"l", cl!"g"] [[1], [2, 3]])
  | 2 => some (.symlink [cl!"l", cl!"g"] [cl!"m"])
  | 3 => some (.write [cl!"m"] [[9]])
  | 4 => some (.read [cl!"a", cl!"g"])
  | 5 => some (.symlink [cl!"no"] [cl!"a", cl!"d"])
  | 6 => some (.exists_ [cl!"l", cl!"d"])
  | 7 => some (.islink [cl!"l", cl!"d"])
  | 8 => some (.listdir [cl!"l"])
  | 9 => some (.readlink [cl!"m"])
  | 10 => if xs.getLast? = some (.ok (.paths [cl!"/l/g"])) then some (.remove [cl!"l"]) else none
  | 11 => some (.isfile [cl!"m"])
  | 12 => some (.mkdir [cl!"m"])
  | 13 => some (.remove [cl!"a"])
  | 14 => some (.readlink [cl!"a"])
  | 15 => some (.listdir [])
  | _ => none

/-- what the plain file system answers -/
theorem ln_plain : (lnPrg.exec (LAct.plain 50) 20 lnTree).1 =
    [.ok (.bytes [104, 105]), .ok .unit, .ok .unit, .ok .unit, .ok (.bytes [9]), .ok .unit, .ok (.bool false), .ok (.bool true),
     .ok (.names [cl!"d", cl!"f", cl!"g"]), .ok (.paths [cl!"/l/g"]), .ok .unit, .ok (.bool false), .error (.os .EEXIST),
     .error (.os .ENOTEMPTY), .error (.os .EINVAL), .ok (.names [cl!"a", cl!"m"])] := by decide +kernel

/-- in memory and on local files -/
example (k : Option Unit) : (lnPrg.exec (LAct.run (fun _ : Unit => []) k 50) 20 lnSys).1 =
    [.ok (.bytes [104, 105]), .ok .unit, .ok .unit, .ok .unit, .ok (.bytes [9]), .ok .unit, .ok (.bool false), .ok (.bool true),
     .ok (.names [cl!"d", cl!"f", cl!"g"]), .ok (.paths [cl!"/l/g"]), .ok .unit, .ok (.bool false), .error (.os .EEXIST),
     .error (.os .ENOTEMPTY), .error (.os .EINVAL), .ok (.names [cl!"a", cl!"m"])] :=
  (C129_plain unit_inj ln_ok (ln_holds k) 50 lnPrg 20 (by rw [ln_plain]; decide)).1.trans ln_plain

/-- the one cannot be told from the other -/
example : siteV (fun _ : Unit => 0) (lnPrg.exec (LAct.run (fun _ : Unit => []) none 50) 20 lnSys).2 none =
    siteV (fun _ : Unit => 0) (lnPrg.exec (LAct.run (fun _ : Unit => []) (some ()) 50) 20 lnSys).2 (some ()) :=
  (C129_same unit_inj unit_inj ln_ok ln_ok (ln_holds (some ())) (ln_holds none) 50 lnPrg 20 (by rw [ln_plain]; decide)).2.1

example : ∃ t, LHolds (fun _ : Unit => []) (fun _ : Unit => 0) lnSys (some ()) t :=
  C129_tree ln_ok fun p hp => by
    have h := (ln_holds (some ())).here p
    rw [hp] at h
    cases hg : lnTree.get p with
    | none => rw [hg] at h; simp at h
    | some o =>
      rw [hg] at h
      cases o with
      | dir => simp [LKind.kind] at h
      | file d => simp [LKind.kind] at h
      | link x => exact ⟨x, (ln_holds (some ())).links p x hg⟩

/-- a directory with a file, a directory, a link to what is outside, a link to a link, a link that leads nowhere and a link in
    it to the directory itself is removed as a tree; what the links lead to stays -/
def lnTreePrg : List LAct := [.mkdir [cl!"d"], .mkdir [cl!"d", cl!"e"], .write [cl!"d", cl!"e", cl!"x"] [[1]], .symlink [cl!"a"] [cl!"d", cl!"o"],
  .symlink [cl!"d", cl!"o"] [cl!"d", cl!"p"], .symlink [cl!"no", cl!"thing"] [cl!"d", cl!"e", cl!"y"], .symlink [cl!"d"] [cl!"d", cl!"e", cl!"z"],
  .removeTree [cl!"d"], .exists_ [cl!"d"], .listdir [], .read [cl!"a", cl!"f"], .removeTree [cl!"d"], .removeTree [cl!"l"], .listdir []]

/-- what the plain file system answers -/
theorem ln_tree : ((lnList lnTreePrg).exec (LAct.plain 50) 20 lnTree).1 =
    [.ok .unit, .ok .unit, .ok .unit, .ok .unit, .ok .unit, .ok .unit, .ok .unit, .ok .unit, .ok (.bool false), .ok (.names [cl!"a", cl!"l"]),
     .ok (.bytes [104, 105]), .error .fileDoesNotExist, .ok .unit, .ok (.names [cl!"a"])] := by decide +kernel

/-- up to the recursion limit, directories are removed with what is in them -/
theorem ln_limit : ((lnList (lnTreePrg.take 9)).exec (LAct.plain 2) 9 lnTree).1.drop 7 = [.ok .unit, .ok (.bool false)] := by decide +kernel

/-- and moved -/
theorem ln_limit_move : (LAct.plain 2 (.move [cl!"a"] [cl!"m"]) lnTree).1 = .ok .unit := by decide +kernel

/-- in memory and on local files -/
example (k : Option Unit) : ((lnList lnTreePrg).exec (LAct.run (fun _ : Unit => []) k 50) 20 lnSys).1 =
    [.ok .unit, .ok .unit, .ok .unit, .ok .unit, .ok .unit, .ok .unit, .ok .unit, .ok .unit, .ok (.bool false), .ok (.names [cl!"a", cl!"l"]),
     .ok (.bytes [104, 105]), .error .fileDoesNotExist, .ok .unit, .ok (.names [cl!"a"])] :=
  (C129_plain unit_inj ln_ok (ln_holds k) 50 (lnList lnTreePrg) 20 (by rw [ln_tree]; decide)).1.trans ln_tree

/-- directories are made through a link and below it; the tree is walked with links followed and not followed, before and after
    what is below; names are matched in the directory a link leads to; there is a file in the way of a directory -/
def lnWalkPrg : List LAct := [.makedirs [cl!"l", cl!"x", cl!"y"], .makedirs [cl!"l"], .symlink [cl!"a", cl!"x"] [cl!"a", cl!"k"],
  .walk [] true true, .walk [] true false, .walk [cl!"l"] false true, .glob [cl!"l"] (fun n => n != cl!"x"), .makedirs [cl!"a", cl!"f"],
  .walk [cl!"no"] true true, .glob [cl!"no"] fun _ => true]

/-- its answers -/
def lnWalkSays : List (Except PyErr Ans) :=
  [.ok .unit, .ok .unit, .ok .unit,
   .ok (.rows [(cl!"/", [cl!"a", cl!"l"], []), (cl!"/a", [cl!"k", cl!"x"], [cl!"f"]), (cl!"/a/k", [cl!"y"], []), (cl!"/a/k/y", [], []), (cl!"/a/x", [cl!"y"], []), (cl!"/a/x/y", [], []),
     (cl!"/l", [cl!"k", cl!"x"], [cl!"f"]), (cl!"/l/k", [cl!"y"], []), (cl!"/l/k/y", [], []), (cl!"/l/x", [cl!"y"], []), (cl!"/l/x/y", [], [])]),
   .ok (.rows [(cl!"/", [cl!"a", cl!"l"], []), (cl!"/a", [cl!"k", cl!"x"], [cl!"f"]), (cl!"/a/x", [cl!"y"], []), (cl!"/a/x/y", [], [])]),
   .ok (.rows [(cl!"/l/k/y", [], []), (cl!"/l/k", [cl!"y"], []), (cl!"/l/x/y", [], []), (cl!"/l/x", [cl!"y"], []), (cl!"/l", [cl!"k", cl!"x"], [cl!"f"])]),
   .ok (.paths [cl!"/l/f", cl!"/l/k"]), .error (.os .EEXIST), .error (.os .ENOENT), .error (.os .ENOENT)]

/-- what the plain file system answers -/
theorem ln_walk : ((lnList lnWalkPrg).exec (LAct.plain 50) 20 lnTree).1 = lnWalkSays := by decide +kernel

/-- in memory and on local files -/
example (k : Option Unit) : ((lnList lnWalkPrg).exec (LAct.run (fun _ : Unit => []) k 50) 20 lnSys).1 = lnWalkSays :=
  (C129_plain unit_inj ln_ok (ln_holds k) 50 (lnList lnWalkPrg) 20 (by rw [ln_walk]; decide)).1.trans ln_walk

/-- a directory is moved to a new name: the link to it leads nowhere, until a file has that name; a directory into a directory, a
    file onto a file; a link beside them stays -/
def lnMovePrg : List LAct := [.mkdir [cl!"d"], .symlink [cl!"a", cl!"f"] [cl!"d", cl!"y"], .mkdir [cl!"a", cl!"s"], .write [cl!"a", cl!"s", cl!"x"] [[7]],
  .move [cl!"a"] [cl!"b"], .isdir [cl!"l"], .readlink [cl!"l"], .exists_ [cl!"d", cl!"y"], .walk [cl!"b"] true true, .move [cl!"b", cl!"s"] [cl!"d"],
  .listdir [cl!"d"], .readlink [cl!"d", cl!"y"], .move [cl!"d", cl!"s", cl!"x"] [cl!"b", cl!"f"], .read [cl!"b", cl!"f"], .listdir [cl!"d", cl!"s"],
  .move [cl!"b", cl!"f"] [cl!"a"], .read [cl!"l"], .listdir []]

/-- its answers -/
def lnMoveSays : List (Except PyErr Ans) :=
  [.ok .unit, .ok .unit, .ok .unit, .ok .unit, .ok .unit, .ok (.bool false), .ok (.paths [cl!"/a"]), .ok (.bool false),
   .ok (.rows [(cl!"/b", [cl!"s"], [cl!"f"]), (cl!"/b/s", [], [cl!"x"])]), .ok .unit, .ok (.names [cl!"s", cl!"y"]), .ok (.paths [cl!"/a/f"]), .ok .unit,
   .ok (.bytes [7]), .ok (.names []), .ok .unit, .ok (.bytes [7]), .ok (.names [cl!"a", cl!"b", cl!"d", cl!"l"])]

/-- what the plain file system answers -/
theorem ln_move : ((lnList lnMovePrg).exec (LAct.plain 50) 20 lnTree).1 = lnMoveSays := by decide +kernel

/-- in memory and on local files -/
example (k : Option Unit) : ((lnList lnMovePrg).exec (LAct.run (fun _ : Unit => []) k 50) 20 lnSys).1 = lnMoveSays :=
  (C129_plain unit_inj ln_ok (ln_holds k) 50 (lnList lnMovePrg) 20 (by rw [ln_move]; decide)).1.trans ln_move

/-- one file by a link on the way, a link as it is and what it leads to, into a directory by a link to it; trees with links in
    them as they are and with what they lead to, one of them by a link, a link to a directory as it is; names that are ignored;
    nothing there, a directory where a file is expected and a file where a directory is expected; a link in place of a file and of a
    link, and onto itself: it is removed, then there is no link to read; a file onto itself, by a link: it is empty -/
def lnCopyPrg : List LAct := [.copy [cl!"l", cl!"f"] [cl!"c"] false [] true, .symlink [cl!"c"] [cl!"m"], .copy [cl!"m"] [cl!"l"] false [] false,
  .readlink [cl!"a", cl!"m"], .copy [cl!"m"] [cl!"a", cl!"x"] false [] true, .islink [cl!"a", cl!"x"], .makedirs [cl!"a", cl!"s", cl!"i"],
  .symlink [cl!"a", cl!"s"] [cl!"a", cl!"k"], .copy [cl!"l"] [cl!"t"] true [] true, .walk [cl!"t"] true false, .islink [cl!"t", cl!"m"],
  .read [cl!"t", cl!"m"], .copy [cl!"a"] [cl!"u"] true [] false, .walk [cl!"u"] true false, .readlink [cl!"u", cl!"m"], .readlink [cl!"u", cl!"k"],
  .copy [cl!"l"] [cl!"v"] true [] false, .readlink [cl!"v"], .copy [cl!"a"] [cl!"t"] true [cl!"s", cl!"x"] true, .walk [cl!"t", cl!"a"] true true,
  .copy [cl!"no"] [cl!"z"] false [] true, .copy [cl!"a"] [cl!"z"] false [] true, .copy [cl!"c"] [cl!"z"] true [] true,
  .write [cl!"y"] [[1]], .copy [cl!"m"] [cl!"y"] false [] false, .readlink [cl!"y"], .symlink [cl!"y"] [cl!"w"], .copy [cl!"w"] [cl!"y"] false [] false,
  .readlink [cl!"y"], .copy [cl!"m"] [cl!"m"] false [] false, .islink [cl!"m"], .read [cl!"c"], .md5 [cl!"t", cl!"x"],
  .md5 [cl!"v", cl!"f"], .md5 [cl!"v", cl!"q"], .copy [cl!"v", cl!"f"] [cl!"a", cl!"f"] false [] true, .read [cl!"a", cl!"f"]]

/-- its answers -/
def lnCopySays : List (Except PyErr Ans) :=
  [.ok .unit, .ok .unit, .ok .unit, .ok (.paths [cl!"/c"]), .ok .unit, .ok (.bool false), .ok .unit, .ok .unit, .ok .unit,
   .ok (.rows [(cl!"/t", [cl!"k", cl!"s"], [cl!"f", cl!"m", cl!"x"]), (cl!"/t/k", [cl!"i"], []), (cl!"/t/k/i", [], []), (cl!"/t/s", [cl!"i"], []), (cl!"/t/s/i", [], [])]),
   .ok (.bool false), .ok (.bytes [104, 105]), .ok .unit,
   .ok (.rows [(cl!"/u", [cl!"k", cl!"s"], [cl!"f", cl!"m", cl!"x"]), (cl!"/u/s", [cl!"i"], []), (cl!"/u/s/i", [], [])]),
   .ok (.paths [cl!"/c"]), .ok (.paths [cl!"/a/s"]), .ok .unit, .ok (.paths [cl!"/a"]), .ok .unit,
   .ok (.rows [(cl!"/t/a", [cl!"k"], [cl!"f", cl!"m", cl!"x"]), (cl!"/t/a/k", [cl!"i"], []), (cl!"/t/a/k/i", [], [])]),
   .error .fileDoesNotExist, .error .assertionError, .error .assertionError,
   .ok .unit, .ok .unit, .ok (.paths [cl!"/c"]), .ok .unit, .ok .unit, .ok (.paths [cl!"/y"]), .error (.os .ENOENT), .ok (.bool false), .ok (.bytes [104, 105]),
   .ok (.bytes [104, 105]), .ok (.bytes [104, 105]), .error (.os .ENOENT), .ok .unit, .ok (.bytes [])]

/-- what the plain file system answers -/
theorem ln_copy : ((lnList lnCopyPrg).exec (LAct.plain 50) 40 lnTree).1 = lnCopySays := by decide +kernel

/-- in memory and on local files -/
example (k : Option Unit) : ((lnList lnCopyPrg).exec (LAct.run (fun _ : Unit => []) k 50) 40 lnSys).1 = lnCopySays :=
  (C129_plain unit_inj ln_ok (ln_holds k) 50 (lnList lnCopyPrg) 40 (by rw [ln_copy]; decide)).1.trans ln_copy

/-! ## Where they can be told apart -/

/-- what the calls answer in the places of the example -/
def lnAsk (k : Option Unit) (l : List LAct) : List (Except PyErr Ans) := ((lnList l).exec (LAct.run (fun _ : Unit => []) k 50) l.length lnSys).1

/-- what the plain file system answers to them -/
def lnSays (l : List LAct) : List (Except PyErr Ans) := ((lnList l).exec (LAct.plain 50) l.length lnTree).1

/-- writing through a link that leads nowhere: the memory backend raises ENOENT, on local files the file is made -/
theorem C129_write_dangling_refuted :
    lnAsk (some ()) [.symlink [cl!"n"] [cl!"d"], .write [cl!"d"] [[1]]] = [.ok .unit, .error (.os .ENOENT)] ∧
    lnAsk none [.symlink [cl!"n"] [cl!"d"], .write [cl!"d"] [[1]]] = [.ok .unit, .ok .unit] ∧
    lnSays [.symlink [cl!"n"] [cl!"d"], .write [cl!"d"] [[1]]] = [.ok .unit, .error .outside] := by decide +kernel

/-- a link in a directory that was reached through a link of the same name: the memory backend does not follow the first
    and raises AttributeError -/
theorem C129_same_name_refuted :
    lnAsk (some ()) [.symlink [cl!"a", cl!"f"] [cl!"a", cl!"l"], .readlink [cl!"l", cl!"l"]] = [.ok .unit, .error .attributeError] ∧
    lnAsk none [.symlink [cl!"a", cl!"f"] [cl!"a", cl!"l"], .readlink [cl!"l", cl!"l"]] = [.ok .unit, .ok (.paths [cl!"/a/f"])] ∧
    lnSays [.symlink [cl!"a", cl!"f"] [cl!"a", cl!"l"], .readlink [cl!"l", cl!"l"]] = [.ok .unit, .error .outside] := by decide +kernel

/-- a link in the middle of a path that leads nowhere: the memory backend raises AttributeError, on local files nothing is
    there -/
theorem C129_dangling_middle_refuted :
    lnAsk (some ()) [.symlink [cl!"n"] [cl!"d"], .exists_ [cl!"d", cl!"x"]] = [.ok .unit, .error .attributeError] ∧
    lnAsk none [.symlink [cl!"n"] [cl!"d"], .exists_ [cl!"d", cl!"x"]] = [.ok .unit, .ok (.bool false)] ∧
    lnSays [.symlink [cl!"n"] [cl!"d"], .exists_ [cl!"d", cl!"x"]] = [.ok .unit, .error .outside] := by decide +kernel

/-- removing a tree with a link that leads below a file: the memory backend raises AttributeError and removes nothing, on
    local files the tree is removed -/
theorem C129_remove_below_file_refuted :
    lnAsk (some ()) [.mkdir [cl!"d"], .symlink [cl!"a", cl!"f", cl!"x"] [cl!"d", cl!"b"], .removeTree [cl!"d"], .listdir []] =
      [.ok .unit, .ok .unit, .error .attributeError, .ok (.names [cl!"a", cl!"d", cl!"l"])] ∧
    lnAsk none [.mkdir [cl!"d"], .symlink [cl!"a", cl!"f", cl!"x"] [cl!"d", cl!"b"], .removeTree [cl!"d"], .listdir []] =
      [.ok .unit, .ok .unit, .ok .unit, .ok (.names [cl!"a", cl!"l"])] ∧
    lnSays [.mkdir [cl!"d"], .symlink [cl!"a", cl!"f", cl!"x"] [cl!"d", cl!"b"], .removeTree [cl!"d"]] =
      [.ok .unit, .ok .unit, .error .outside] := by decide +kernel

/-- the calls that move something, then those that ask -/
def lnMoved (k : Option Unit) (p q : List Str) (l : List LAct) : List (Except PyErr Ans) :=
  ((lnList l).exec (LAct.run (fun _ : Unit => []) k 50) l.length
    (uMove sysOps 50 (siteAt (fun _ : Unit => []) k p) (siteAt (fun _ : Unit => []) k q) lnSys).2).1

/-- moving a link to a directory (so move is no call of these programs): the memory backend copies the directory and removes the
    link, on local files the link is moved -/
theorem C129_move_refuted :
    lnMoved (some ()) [cl!"l"] [cl!"n"] [.exists_ [cl!"l"], .islink [cl!"n"], .read [cl!"n", cl!"f"]] =
      [.ok (.bool false), .ok (.bool false), .ok (.bytes [104, 105])] ∧
    lnMoved none [cl!"l"] [cl!"n"] [.exists_ [cl!"l"], .islink [cl!"n"], .read [cl!"n", cl!"f"]] =
      [.ok (.bool false), .ok (.bool true), .ok (.bytes [104, 105])] := by decide +kernel

/-- the name of the link number `i` -/
def lnName (i : Nat) : Str := 'k' :: List.replicate i 'k'

/-- a chain of links to /a/f, so many links long -/
def lnChain (n : Nat) : List LAct :=
  (List.range n).map fun i => .symlink (if i = 0 then [cl!"a", cl!"f"] else [lnName (i - 1)]) [lnName i]

/-- reading through 32 links is the same, the memory backend refuses 33 and local files allow 40 -/
theorem C129_many_refuted :
    ((lnAsk (some ()) (lnChain 33 ++ [.read [lnName 31], .read [lnName 32]])).drop 33 = [.ok (.bytes [104, 105]), .error (.os .ELOOP)] ∧
    (lnAsk none (lnChain 33 ++ [.read [lnName 31], .read [lnName 32]])).drop 33 = [.ok (.bytes [104, 105]), .ok (.bytes [104, 105])]) ∧
    (lnSays (lnChain 33 ++ [.read [lnName 31], .read [lnName 32]])).drop 33 = [.ok (.bytes [104, 105]), .error .outside] := by decide +kernel

end Verif.Props
