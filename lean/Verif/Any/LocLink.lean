import Verif.Any.Links
import Verif.Any.Pump
/-! # Symbolic links among local files -/
namespace Verif.Any
open Verif.Spec Verif.Gen

/-- a plain absolute path is read as the URI of the local file -/
theorem uri_path {cs : List Str} (h : Nm cs) : URI (pathOf cs) '/' [] = .ok (loc cs) := by
  rw [← loc_eq h]
  have hs : ∃ r, pathOf cs = '/' :: r := by
    cases cs with
    | nil => exact ⟨[], rfl⟩
    | cons c cs => exact ⟨_, by rw [pathOf_ne (by simp), slash_cons]⟩
  obtain ⟨r, hr⟩ := hs
  have e1 : sniffScheme (pathOf cs) = cl!"file" := by
    rw [hr]
    have : schemeChar '/' = false := by decide
    simp [sniffScheme, List.takeWhile, this]
  have e2 : sniffScheme (cl!"file://" ++ pathOf cs) = cl!"file" := by
    unfold sniffScheme
    simp [List.takeWhile, List.dropWhile, schemeChar, startsWith]
  have e3 : normInput (pathOf cs) = normInput (cl!"file://" ++ pathOf cs) := by
    have a1 : startsWith (pathOf cs) cl!"file://" = false := by rw [hr]; simp [startsWith, List.isPrefixOf]
    have a2 : startsWith (cl!"file://" ++ pathOf cs) cl!"file://" = true := by simp [startsWith]
    have a3 : (cl!"file://" ++ pathOf cs).drop 7 = pathOf cs := rfl
    unfold normInput
    rw [a1, a2, if_neg Bool.false_ne_true, if_pos rfl, a3]
  unfold URI Uri.mk'
  rw [e1, e2, e3]

/-- where no link is on the way it does not matter how links are followed -/
theorem hop_congr {d : Disk} {fl : Bool} {j j' : List Str → List Str → Landing} (l : List Str) : ∀ cur, (∀ n ∈ l, n ≠ cl!"..") →
    (∀ p, p <+: l → p ≠ [] → (p ≠ l ∨ fl = true) → isLinkD (d.tree (cur ++ p)) = false) →
    d.hop fl j cur l = d.hop fl j' cur l := by
  induction l with
  | nil => intro cur _ _; rfl
  | cons n l ih =>
    intro cur hn hl
    rw [Disk.hop, Disk.hop, if_neg (hn n (by simp)), if_neg (hn n (by simp))]
    cases hv : d.tree (cur ++ [n]) with
    | none => rfl
    | some o =>
      cases o with
      | file p b => rfl
      | dir p =>
        refine ih (cur ++ [n]) (fun x hx => hn x (by simp [hx])) fun p hp h0 hor => ?_
        have := hl (n :: p) (List.cons_prefix_cons.2 ⟨rfl, hp⟩) (by simp) (hor.imp (fun h => by simpa using h) id)
        simpa using this
      | link t =>
        simp only
        by_cases hc : l = [] ∧ fl = false
        · rw [if_pos hc, if_pos hc]
        · have := hl [n] ⟨l, rfl⟩ (by simp) (by
            by_cases h1 : l = []
            · exact .inr (by cases fl <;> simp_all)
            · exact .inl (by simpa [eq_comm] using h1))
          rw [hv] at this
          simp [isLinkD] at this

/-- `Leads d fl n p q`: following `n` links, whose texts are plain absolute paths, turns the path `p` into the path `q`;
    `fl`: a link at the end is followed too -/
inductive Leads (d : Disk) (fl : Bool) : Nat → List Str → List Str → Prop
  | here (q : List Str) : Leads d fl 0 q q
  | link {c t x q : List Str} {n : Nat} (hc : d.tree c = some (.link (pathOf t))) (hn : Nm (c ++ x)) (hn' : Nm (t ++ x))
      (hx : x ≠ [] ∨ fl = true) (h : Leads d fl n (t ++ x) q) : Leads d fl (n + 1) (c ++ x) q

theorem comps_pathOf {cs : List Str} (h : Nm cs) : comps (pathOf cs) = cs := by
  have := comps_loc h
  rwa [loc_path h] at this

/-- one link -/
theorem hop_through {d : Disk} (h : DiskOk d) {c t x : List Str} {fl : Bool} (hn : Nm (c ++ x)) (hn' : Nm (t ++ x))
    (hc : d.tree c = some (.link (pathOf t))) (hx : x ≠ [] ∨ fl = true) (jump : List Str → List Str → Landing) :
    d.hop fl jump [] (c ++ x) = jump [] (t ++ x) := by
  have hcne := h.ne_root hc rfl
  rcases List.eq_nil_or_concat c with rfl | ⟨c', n, rfl⟩
  · exact absurd rfl hcne
  · rw [List.concat_eq_append] at *
    obtain ⟨m, hm⟩ := h.tree c' n (by rw [hc]; simp)
    rw [List.append_assoc, hop_parent h (fun y hy => hn.dots y (by simp [hy])) hm, List.singleton_append, Disk.hop,
      if_neg (hn.dots n (by simp)), hc]
    simp only
    rw [if_neg (by rintro ⟨h1, h2⟩; rcases hx with h | h <;> simp_all)]
    have e1 : startsWith (pathOf t) cl!"/" = true := by
      cases t <;> simp [pathOf, startsWith, slash]
    rw [e1, if_pos rfl, comps_pathOf hn'.of_prefix]

theorem land_leads {d : Disk} (h : DiskOk d) {fl : Bool} {n : Nat} {p q : List Str} (hl : Leads d fl n p q) (k : Nat) :
    d.land fl (n + k) [] p = d.land fl k [] q := by
  induction hl with
  | here q => rw [Nat.zero_add]
  | link hc hn hn' hx _ ih =>
    rw [Nat.add_right_comm, Disk.land, hop_through h hn hn' hc hx, ih]

/-- too many links -/
theorem land_loop {d : Disk} (h : DiskOk d) {fl : Bool} : ∀ {k n : Nat} {p q : List Str}, Leads d fl n p q → k < n →
    d.land fl k [] p = .fail (.os .ELOOP)
  | 0, _, _, _, .link hc hn hn' hx _, _ => by rw [Disk.land, hop_through h hn hn' hc hx]
  | k + 1, _, _, _, .link hc hn hn' hx hl, hk => by
    rw [Disk.land, hop_through h hn hn' hc hx]
    exact land_loop h hl (by omega)

theorem find_land {cs : List Str} (h : Nm cs) (d : Disk) (fl : Bool) : d.find fl (loc cs).path = d.land fl 40 [] cs :=
  find_loc h d fl

theorem land_congr {d : Disk} {fl : Bool} {l : List Str} (hn : ∀ n ∈ l, n ≠ cl!"..")
    (hl : ∀ p, p <+: l → (p ≠ l ∨ fl = true) → isLinkD (d.tree p) = false) (j k : Nat) : d.land fl j [] l = d.land fl k [] l := by
  have key : ∀ J J', d.hop fl J [] l = d.hop fl J' [] l := fun J J' =>
    hop_congr l [] hn fun p hp _ hor => by rw [List.nil_append]; exact hl p hp hor
  cases j <;> cases k <;> exact key _ _

/-- a path through at most 40 links leads where the path without them leads -/
theorem find_leads {d : Disk} (h : DiskOk d) {fl : Bool} {n : Nat} {p q : List Str} (hl : Leads d fl n p q) (hk : n ≤ 40)
    (hn : Nm p) (hn' : Nm q) (hq : ∀ p, p <+: q → (p ≠ q ∨ fl = true) → isLinkD (d.tree p) = false) :
    d.find fl (loc p).path = d.find fl (loc q).path := by
  rw [find_land hn, find_land hn', show 40 = n + (40 - n) by omega, land_leads h hl]
  exact land_congr hn'.dots hq _ _

/-- one through more leads nowhere -/
theorem find_loop {d : Disk} (h : DiskOk d) {fl : Bool} {n : Nat} {p q : List Str} (hl : Leads d fl n p q) (hk : 40 < n)
    (hn : Nm p) : d.find fl (loc p).path = .fail (.os .ELOOP) := by
  rw [find_land hn]
  exact land_loop h hl hk

theorem Leads.trans {d : Disk} {fl : Bool} {n m : Nat} {p q q' : List Str} (h : Leads d fl n p q) (h' : Leads d fl m q q') :
    Leads d fl (n + m) p q' := by
  induction h with
  | here q => rwa [Nat.zero_add]
  | link hc hn hn' hx _ ih => rw [Nat.add_right_comm]; exact .link hc hn hn' hx (ih h')

/-- links in a circle can be followed as often as one likes -/
theorem Leads.circle {d : Disk} {fl : Bool} {n : Nat} {p : List Str} (h : Leads d fl (n + 1) p p) : ∀ k, ∃ m, k < m ∧ Leads d fl m p p
  | 0 => ⟨n + 1, by omega, h⟩
  | k + 1 => by
    obtain ⟨m, hm, hl⟩ := Leads.circle h k
    exact ⟨_, by omega, h.trans hl⟩

section
variable {d : Disk} (h : DiskOk d) {e : List Str} {m : Str} (hn : Nm (e ++ [m]))
include h hn

theorem osSymlink_ok {t : Str} (ht : t ≠ []) {p : Nat} (hp : d.tree e = some (.dir p)) (hv : d.tree (e ++ [m]) = none) :
    osSymlink t (loc (e ++ [m])).path d = (.ok (), d.set (e ++ [m]) (.link t)) := by
  unfold osSymlink
  rw [if_neg ht, find_free h hn hp hv]

theorem osUnlink_ok {o : DObj} (hv : d.tree (e ++ [m]) = some o) (ho : isDirD (some o) = false) :
    osUnlink (loc (e ++ [m])).path d = (.ok (), d.del (e ++ [m])) := by
  unfold osUnlink
  rw [find_here h hn hv (.inl rfl)]
  simp only [hv, ho, Bool.false_eq_true, if_false]

end

theorem DiskOk.newLink {d : Disk} (h : DiskOk d) {e : List Str} {m : Str} {p : Nat} (hp : d.tree e = some (.dir p))
    (hv : d.tree (e ++ [m]) = none) (t : Str) : DiskOk (d.set (e ++ [m]) (.link t)) := by
  refine h.set (fun c n hc => ?_) (.inr ⟨by simp, fun n => ?_⟩)
  · rw [← (List.append_inj' hc rfl).1]; exact ⟨p, hp⟩
  · by_contra hc
    obtain ⟨p', hp'⟩ := h.tree _ _ hc
    rw [hv] at hp'; simp at hp'

theorem pathOf_ne_nil (cs : List Str) : pathOf cs ≠ [] := by
  cases cs <;> simp [pathOf, slash]

variable {ι : Type} {E : ι → Dict} {r : ι → Nat} {s : Sys}

/-- what is known about local links -/
theorem linked_loc (hr : Function.Injective r) : Linked (sysLaws E r hr) (SysOk E r) none where
  inv h := h
  isdir {s cs} _ _ _ := ⟨_, (rfl : osAsk true isDirD (loc cs) s = _)⟩
  islink {s cs} h hn hv := by
    obtain ⟨t, ht⟩ := siteV_lother.1 (show siteV r s none cs = some .other from hv)
    show osAsk false isLinkD (loc cs) s = _
    simp only [osAsk, stat_here h.disk hn ht (.inl rfl), isLinkD]
  removefile {s cs} h hn hv hd := by
    change siteV r s none cs ≠ none at hv
    change siteV r s none cs ≠ some .dir at hd
    obtain ⟨o, ho⟩ := Option.ne_none_iff_exists'.1 fun e => hv (siteV_lnone.2 e)
    have hno : isDirD (some o) = false := by
      cases o with
      | dir p => exact absurd (siteV_ldir.2 ⟨p, ho⟩) hd
      | file _ _ => rfl
      | link _ => rfl
    have hne := h.disk.ne_root ho hno
    rcases List.eq_nil_or_concat cs with rfl | ⟨e, m, rfl⟩
    · exact absurd rfl hne
    · rw [List.concat_eq_append] at *
      exact ⟨{ s with disk := s.disk.del (e ++ [m]) }, onDisk_ok (osUnlink_ok h.disk hn ho hno),
        h.dsk (h.disk.del hne (h.disk.leaf ho hno)), siteV_disk (x := none) fun p => tree_del _ _ p⟩
  removedir h hn hne hv he := site_removedir (k := none) h hr hn hne hv he

/-! ## What operations leave alone -/

/-- whatever the outcome, the state after is related to the state before -/
def Keeps (R : Sys → Sys → Prop) {α : Type} (m : OM Sys α) : Prop := ∀ s, R s (m s).2

/-- the objects on the disk stay, or are taken away -/
def Fewer (s s' : Sys) : Prop := ∀ p, s'.disk.tree p = s.disk.tree p ∨ s'.disk.tree p = none

/-- links stay as they are -/
def LinksStay (s s' : Sys) : Prop := ∀ p t, s.disk.tree p = some (.link t) → s'.disk.tree p = some (.link t)

theorem Fewer.refl (s : Sys) : Fewer s s := fun _ => .inl rfl
theorem Fewer.trans {a b c : Sys} (h : Fewer a b) (h' : Fewer b c) : Fewer a c := fun p => by
  rcases h' p with e | e
  · rw [e]; exact h p
  · exact .inr e
theorem LinksStay.refl (s : Sys) : LinksStay s s := fun _ _ h => h
theorem LinksStay.trans {a b c : Sys} (h : LinksStay a b) (h' : LinksStay b c) : LinksStay a c := fun p t hp => h' p t (h p t hp)

section
variable {R : Sys → Sys → Prop}

theorem Keeps.ite {α : Type} {c : Prop} [Decidable c] {m m' : OM Sys α} (h : Keeps R m) (h' : Keeps R m') :
    Keeps R (if c then m else m') := by
  split
  · exact h
  · exact h'

/-- relations that computations can be composed along, and that are about the disk only -/
structure Quiet (R : Sys → Sys → Prop) : Prop where
  refl : ∀ s, R s s
  trans : ∀ a b c, R a b → R b c → R a c
  disk : ∀ a b : Sys, a.disk = b.disk → R a b

namespace Quiet
variable (Q : Quiet R)
include Q

theorem bind {α β : Type} {m : OM Sys α} {f : α → OM Sys β} (hm : Keeps R m) (hf : ∀ a, Keeps R (f a)) : Keeps R (m >>= f) := by
  intro s
  show R s (OM.bnd m f s).2
  unfold OM.bnd
  have := hm s
  cases hv : m s with
  | mk x s' =>
    rw [hv] at this
    cases x with
    | error e => exact this
    | ok a => exact Q.trans _ _ _ this (hf a s')

theorem same {α : Type} {m : OM Sys α} (h : ∀ s, (m s).2 = s) : Keeps R m := fun s => by rw [h s]; exact Q.refl s

/-- the disk is not touched -/
theorem mem {α : Type} (m : Mem.M α) : Keeps R (onMem m) := fun _ => Q.disk _ _ rfl

theorem forM {α : Type} {f : α → OM Sys Unit} (h : ∀ a, Keeps R (f a)) (l : List α) : Keeps R (l.forM f) := by
  induction l with
  | nil => exact Q.same fun _ => rfl
  | cons a l ih => exact Q.bind (h a) fun _ => ih

theorem lift {α : Type} (x : Except PyErr α) : Keeps R (OM.lift x) := Q.same fun _ => rfl
theorem pure {α : Type} (x : α) : Keeps R (Pure.pure x) := Q.same fun _ => rfl
theorem raise {α : Type} (e : PyErr) : Keeps (α := α) R (OM.raise e) := Q.same fun _ => rfl
theorem ask (fl : Bool) (f : Option DObj → Bool) (u : Uri) : Keeps R (osAsk fl f u) := Q.same fun _ => rfl

theorem conn (u : Uri) : Keeps R (sysConn u) := by
  unfold sysConn
  refine Keeps.ite (Q.raise _) (Keeps.ite (Q.pure _) (Q.bind (Q.mem _) fun _ => Q.pure _))

theorem hook (c : Conn) (u : Uri) (m : Mem.Meth) : Keeps R (sysHook c u m) := by
  cases c with
  | mem r => exact Q.mem _
  | loc => exact Q.pure _

theorem withConn {α : Type} {u : Uri} {m : Mem.Meth} {body : Conn → OM Sys α} (h : ∀ c, Keeps R (body c)) :
    Keeps R (Any.withConn sysOps u m body) :=
  Q.bind (Q.conn u) fun c => Q.bind (Q.hook c u m) fun _ => h c

theorem exists_ (c : Conn) (u : Uri) : Keeps R (sysOps.exists_ c u) := by
  cases c with
  | mem r => exact Q.mem _
  | loc => exact Q.ask _ _ _
theorem isfile (c : Conn) (u : Uri) : Keeps R (sysOps.isfile c u) := by
  cases c with
  | mem r => exact Q.mem _
  | loc => exact Q.ask _ _ _
theorem isdir (c : Conn) (u : Uri) : Keeps R (sysOps.isdir c u) := by
  cases c with
  | mem r => exact Q.mem _
  | loc => exact Q.ask _ _ _
theorem islink (c : Conn) (u : Uri) : Keeps R (sysOps.islink c u) := by
  cases c with
  | mem r => exact Q.mem _
  | loc => exact Q.ask _ _ _

theorem listdir (c : Conn) (u : Uri) : Keeps R (sysOps.listdir c u) := by
  cases c with
  | mem r => exact Q.mem _
  | loc =>
    refine Q.bind (Q.same fun s => ?_) fun _ => Q.pure _
    unfold onDisk osListdir
    cases s.disk.find true u.path with
    | here q => dsimp only; split <;> rfl
    | free c n => rfl
    | fail e => rfl

theorem classify (c : Conn) (top : Uri) (l : List Str) : Keeps R (Any.classify sysOps c top l) := by
  induction l with
  | nil => exact Q.pure _
  | cons n l ih =>
    exact Q.bind (Q.lift _) fun _ => Q.bind (Q.isdir c _) fun _ => Q.bind ih fun ⟨_, _⟩ => Q.pure _

theorem walkDirs {τ : Type} (fl : Bool) {visit : Uri → τ → OM Sys τ} (hv : ∀ u t, Keeps R (visit u t)) (top : Uri) :
    ∀ (l : List Str) (t : τ), Keeps R (Any.walkDirs sysOps fl visit top l t) := by
  intro l
  induction l with
  | nil => intro t; exact Q.pure _
  | cons n l ih =>
    intro t
    refine Q.bind (Q.lift _) fun p => Q.bind (Q.withConn fun c => Q.islink c _) fun b => ?_
    refine Keeps.ite ?_ ?_
    · exact Q.bind (hv _ _) fun t => ih t
    · exact Q.bind (Q.pure _) fun t => ih t

theorem walk {τ : Type} (c : Conn) (td fl : Bool) {body : τ → Uri → List Str → List Str → OM Sys (τ × List Str)}
    (hb : ∀ t u d f, Keeps R (body t u d f)) : ∀ (depth : Nat) (top : Uri) (t : τ), Keeps R (Any.walk sysOps c td fl body depth top t) := by
  intro depth
  induction depth with
  | zero => intro _ _; exact Q.raise _
  | succ depth ih =>
    intro top t
    refine Q.bind (Q.listdir c _) fun names => Q.bind (Q.classify c _ _) fun ⟨dirs, nondirs⟩ => ?_
    refine Keeps.ite ?_ ?_
    · exact Q.bind (hb _ _ _ _) fun ⟨t, dirs⟩ => Q.walkDirs fl ih top dirs t
    · exact Q.bind (Q.walkDirs fl ih top dirs t) fun t =>
        Q.bind (hb _ _ _ _) fun ⟨t, _⟩ => Q.pure _

/-- removal keeps what removing one thing keeps -/
theorem uRemove (h1 : ∀ c u, Keeps R (sysOps.removefile c u)) (h2 : ∀ c u, Keeps R (sysOps.removedir c u)) (depth : Nat) (u : Uri)
    (rec : Bool) : Keeps R (Any.uRemove sysOps depth u rec) := by
  refine Q.withConn fun c => ?_
  have he : ∀ p, Keeps R (sysOps.islink c p >>= fun b => if b = true then sysOps.removefile c p else sysOps.removedir c p) :=
    fun p => Q.bind (Q.islink c _) fun _ => Keeps.ite (h1 c _) (h2 c _)
  refine Q.bind (Q.islink c _) fun b => Keeps.ite (h1 c _) (Q.bind (Q.exists_ c _) fun b =>
    Keeps.ite (Q.raise _) (Q.bind (Q.isdir c _) fun b => Keeps.ite (Keeps.ite ?_ (h2 c _))
    (Q.bind (Q.isfile c _) fun b => Keeps.ite (h1 c _) (Q.pure _))))
  refine Q.bind (Q.walk c _ _ (fun _ top d f => Q.bind ?_ fun _ => Q.pure _) _ _ _) fun _ => he u
  exact Q.bind (Q.forM (fun x => Q.bind (Q.lift _) fun p => h1 c p) f) fun _ =>
    Q.forM (fun x => Q.bind (Q.lift _) fun p => he p) d

end Quiet
end

theorem quiet_fewer : Quiet Fewer := ⟨Fewer.refl, fun _ _ _ => Fewer.trans, fun _ _ h p => .inl (by rw [h])⟩
theorem quiet_links : Quiet LinksStay := ⟨LinksStay.refl, fun _ _ _ => LinksStay.trans, fun _ _ h p t hp => by rw [← h]; exact hp⟩

theorem fewer_del (s : Sys) (q : List Str) : Fewer s { s with disk := s.disk.del q } := fun p => by
  rw [show (Sys.mk s.mem (s.disk.del q)).disk.tree p = (s.disk.del q).tree p from rfl, tree_del]
  split
  · exact .inr rfl
  · exact .inl rfl

theorem fewer_removefile (c : Conn) (u : Uri) : Keeps Fewer (sysOps.removefile c u) := by
  cases c with
  | mem r => exact quiet_fewer.mem _
  | loc =>
    intro s
    show Fewer s (onDisk (osUnlink u.path) s).2
    unfold onDisk osUnlink
    cases s.disk.find false u.path with
    | here q => dsimp only; split
                · exact Fewer.refl s
                · exact fewer_del s q
    | free c n => exact Fewer.refl s
    | fail e => exact Fewer.refl s

theorem fewer_removedir (c : Conn) (u : Uri) : Keeps Fewer (sysOps.removedir c u) := by
  cases c with
  | mem r => exact quiet_fewer.mem _
  | loc =>
    have : Keeps Fewer (onDisk (osRmdir u.path)) := by
      intro s
      unfold onDisk osRmdir
      cases s.disk.find false u.path with
      | here q =>
        dsimp only
        split
        · split
          · exact Fewer.refl s
          · split
            · exact Fewer.refl s
            · exact fewer_del s q
        · exact Fewer.refl s
      | free c n => exact Fewer.refl s
      | fail e => exact Fewer.refl s
    exact quiet_fewer.bind (quiet_fewer.ask _ _ _) fun _ => Keeps.ite (quiet_fewer.bind (quiet_fewer.raise _) fun _ => this) this

/-- removing never does more to the disk than taking things away -/
theorem fewer_uRemove (depth : Nat) (u : Uri) (rec : Bool) : Keeps Fewer (uRemove sysOps depth u rec) :=
  quiet_fewer.uRemove fewer_removefile fewer_removedir depth u rec

/-- a free name is free -/
theorem hop_free {d : Disk} {fl : Bool} {jump : List Str → List Str → Landing}
    (hj : ∀ a b c n, jump a b = .free c n → d.tree (c ++ [n]) = none) (l : List Str) :
    ∀ cur c n, d.hop fl jump cur l = .free c n → d.tree (c ++ [n]) = none := by
  induction l with
  | nil => intro cur c n h; simp [Disk.hop] at h
  | cons x l ih =>
    intro cur c n h
    rw [Disk.hop] at h
    split at h
    · exact ih _ _ _ h
    · split at h
      · rename_i hv
        split at h
        · simp only [Landing.free.injEq] at h
          rw [← h.1, ← h.2]; exact hv
        · simp at h
      · exact ih _ _ _ h
      · split at h <;> simp at h
      · split at h
        · simp at h
        · exact hj _ _ _ _ h

theorem land_free {d : Disk} {fl : Bool} : ∀ k cur l c n, d.land fl k cur l = .free c n → d.tree (c ++ [n]) = none := by
  intro k
  induction k with
  | zero => intro cur l; exact hop_free (by simp) l cur
  | succ k ih => intro cur l; exact hop_free ih l cur

theorem find_isFree {d : Disk} {fl : Bool} {p : Str} {c : List Str} {n : Str} (h : d.find fl p = .free c n) : d.tree (c ++ [n]) = none := by
  unfold Disk.find at h
  split at h
  · simp at h
  · split at h
    · exact land_free _ _ _ _ _ h
    · split at h
      · exact land_free _ _ _ _ _ h
      · simp at h

/-- putting something where there is no link -/
theorem links_set {s : Sys} {q : List Str} {o : DObj} {d : Disk} (hd : d.ents = (s.disk.set q o).ents)
    (h : isLinkD (s.disk.tree q) = false ∨ s.disk.tree q = some o) : LinksStay s { s with disk := d } := by
  intro p t hp
  have e : d.tree p = (s.disk.set q o).tree p := by unfold Disk.tree; rw [hd]
  show d.tree p = _
  rw [e, tree_set]
  split
  · rename_i e
    subst e
    rcases h with h | h
    · rw [hp] at h; simp [isLinkD] at h
    · rw [← h, hp]
  · exact hp

theorem links_fds {s : Sys} {d : Disk} (hd : d.ents = s.disk.ents) : LinksStay s { s with disk := d } := by
  intro p t hp
  show d.ents.lookup p = _
  rw [hd]; exact hp

theorem links_openR (c : Conn) (u : Uri) : Keeps LinksStay (sysOps.openR c u) := by
  cases c with
  | mem r => exact quiet_links.bind (quiet_links.mem _) fun _ => quiet_links.pure _
  | loc =>
    refine quiet_links.bind (fun s => ?_) fun _ => quiet_links.pure _
    unfold onDisk osOpenR
    cases s.disk.find true u.path with
    | here q => dsimp only; split
                · exact LinksStay.refl s
                · exact links_fds rfl
    | free c n => exact LinksStay.refl s
    | fail e => exact LinksStay.refl s

theorem links_openW (c : Conn) (u : Uri) : Keeps LinksStay (sysOps.openW c u) := by
  cases c with
  | mem r => exact quiet_links.bind (quiet_links.mem _) fun _ => quiet_links.pure _
  | loc =>
    refine quiet_links.bind (fun s => ?_) fun _ => quiet_links.pure _
    unfold onDisk osOpenW
    cases hf : s.disk.find true u.path with
    | here q =>
      dsimp only
      split
      · rename_i hv
        exact links_set (d := ((s.disk.set q _).newFd q).2) rfl (.inl (by rw [hv]; rfl))
      · exact LinksStay.refl s
    | free c n => exact links_set (d := ((s.disk.set (c ++ [n]) _).newFd (c ++ [n])).2) rfl (.inl (by rw [find_isFree hf]; rfl))
    | fail e => exact LinksStay.refl s

theorem links_hRead (n : Nat) (h : Hd) : Keeps LinksStay (hRead n h) := by
  cases h with
  | mem h => exact quiet_links.mem _
  | loc fd =>
    refine quiet_links.bind (fun s => ?_) fun _ => quiet_links.pure _
    unfold onDisk fdRead
    cases s.disk.fds[fd]? with
    | none => exact LinksStay.refl s
    | some x =>
      dsimp only
      split
      · exact links_fds rfl
      · exact LinksStay.refl s

theorem links_hWrite (h : Hd) (b : Mem.PyData) : Keeps LinksStay (hWrite h b) := by
  cases h with
  | mem h => exact quiet_links.mem _
  | loc fd =>
    cases b with
    | str _ => exact quiet_links.raise _
    | bytes b =>
      intro s
      show LinksStay s (onDisk (fdWrite fd b) s).2
      unfold onDisk fdWrite
      cases s.disk.fds[fd]? with
      | none => exact LinksStay.refl s
      | some x =>
        dsimp only
        split
        · rename_i hv
          exact links_set (q := x.1) (o := .file _ _) (d := { s.disk.set x.1 (.file _ _) with fds := _ }) rfl (.inl (by rw [hv]; rfl))
        · exact LinksStay.refl s

theorem links_hSize (h : Hd) : Keeps LinksStay (hSize h) := by
  cases h with
  | mem h => exact quiet_links.mem _
  | loc fd =>
    refine quiet_links.same fun s => ?_
    show (onDisk (fdSize fd) s).2 = s
    unfold onDisk fdSize
    cases s.disk.fds[fd]? with
    | none => rfl
    | some x => dsimp only; split <;> rfl

theorem links_pump (a b : Hd) : Keeps LinksStay (pump a b) := by
  refine quiet_links.bind (links_hSize a) fun n => ?_
  generalize n + 1 = n
  induction n with
  | zero => exact quiet_links.raise _
  | succ n ih =>
    exact quiet_links.bind (links_hRead _ _) fun x => Keeps.ite (quiet_links.pure _) (quiet_links.bind (links_hWrite _ _) fun _ => ih)

/-- copying the content of a file never changes a link -/
theorem links_content (u v : Uri) : Keeps LinksStay (copyContent sysOps u v) :=
  quiet_links.bind (quiet_links.withConn fun c => links_openR c _) fun _ =>
    quiet_links.bind (quiet_links.withConn fun c => links_openW c _) fun _ => links_pump _ _

theorem links_copystat (c : Conn) (u v : Uri) : Keeps LinksStay (sysOps.copystat c u v) := by
  cases c with
  | mem r => exact quiet_links.mem _
  | loc =>
    intro s
    show LinksStay s (onDisk (osCopystat u.path v.path) s).2
    unfold onDisk osCopystat
    cases s.disk.find true u.path with
    | here q =>
      cases s.disk.find true v.path with
      | here q' =>
        dsimp only
        split
        · rename_i o o' ho ho'
          refine links_set rfl ?_
          rw [ho']
          cases o' with
          | link t => right; cases o <;> rfl
          | dir p => left; rfl
          | file p b => left; rfl
        · exact LinksStay.refl s
      | free c n => exact LinksStay.refl s
      | fail e => exact LinksStay.refl s
    | free c n => exact LinksStay.refl s
    | fail e => exact LinksStay.refl s

/-- a path through links stays one -/
theorem Leads.mono {s s' : Sys} (hl : LinksStay s s') {fl : Bool} {n : Nat} {p q : List Str} (h : Leads s.disk fl n p q) :
    Leads s'.disk fl n p q := by
  induction h with
  | here q => exact .here q
  | link hc hn hn' hx _ ih => exact .link (hl _ _ hc) hn hn' hx ih

/-- `_copy_link` among local files: a link with the same text, in place of nothing or of a file -/
theorem copyLink_loc (h : SysOk E r s) {c t e : List Str} {m : Str} (hn : Nm c) (ht : Nm t) (he : Nm (e ++ [m]))
    (hc : s.disk.tree c = some (.link (pathOf t))) {p : Nat} (hp : s.disk.tree e = some (.dir p))
    (hf : s.disk.tree (e ++ [m]) = none ∨ isFileD (s.disk.tree (e ++ [m])) = true) :
    ∃ s', copyLink sysOps .loc (loc c) (loc (e ++ [m])) s = (.ok (), s') ∧ SysOk E r s' ∧ s'.mem = s.mem ∧
      ∀ p, s'.disk.tree p = if p = e ++ [m] then some (.link (pathOf t)) else s.disk.tree p := by
  have e1 : sysOps.islink .loc (loc c) s = (.ok true, s) := by
    show osAsk false isLinkD (loc c) s = _
    simp only [osAsk, stat_here h.disk hn hc (.inl rfl), isLinkD]
  have e2 : uIsfile sysOps (loc (e ++ [m])) s = (.ok (isFileD (s.disk.tree (e ++ [m]))), s) := by
    have hw : Any.withConn sysOps (siteAt E none (e ++ [m])) .isfile (fun c => sysOps.isfile c (loc (e ++ [m]))) s = osAsk true isFileD (loc (e ++ [m])) s :=
      (bind_ok (f := fun c => (do sysOps.hook c (siteAt E none (e ++ [m])) .isfile; sysOps.isfile c (loc (e ++ [m])) : OM Sys Bool)) (site_conn h (k := none) (cs := e ++ [m]))).trans
        (bind_ok (site_hook (k := none) h he .isfile))
    refine hw.trans ?_
    unfold osAsk
    rcases hf with hf | hf
    · have : s.disk.stat true (loc (e ++ [m])).path = none := by unfold Disk.stat; rw [find_free h.disk he hp hf]
      rw [this, hf]
    · cases hv : s.disk.tree (e ++ [m]) with
      | none => rw [hv] at hf; simp [isFileD] at hf
      | some o =>
        rw [stat_here h.disk he hv (.inr (by cases o <;> simp_all [isFileD, isLinkD]))]
  -- the file in the way is taken away
  have mid : ∃ d1 : Disk, DiskOk d1 ∧ d1.tree (e ++ [m]) = none ∧ (∀ p, p ≠ e ++ [m] → d1.tree p = s.disk.tree p) ∧
      (if isFileD (s.disk.tree (e ++ [m])) = true then sysOps.removefile .loc (loc (e ++ [m])) else pure ()) s =
        (.ok (), { s with disk := d1 }) := by
    cases hb : isFileD (s.disk.tree (e ++ [m])) with
    | false =>
      refine ⟨s.disk, h.disk, ?_, fun _ _ => rfl, by rw [if_neg Bool.false_ne_true]; rfl⟩
      rcases hf with hf | hf
      · exact hf
      · rw [hb] at hf; exact absurd hf (by simp)
    | true =>
      cases hv : s.disk.tree (e ++ [m]) with
      | none => rw [hv] at hb; simp [isFileD] at hb
      | some o =>
        have hno : isDirD (some o) = false := by cases o <;> simp_all [isFileD, isDirD]
        refine ⟨s.disk.del (e ++ [m]), h.disk.del (by simp) (h.disk.leaf hv hno), ?_, ?_, ?_⟩
        · rw [tree_del, if_pos rfl]
        · intro p hp; rw [tree_del, if_neg hp]
        · rw [if_pos rfl]
          exact onDisk_ok (osUnlink_ok h.disk he hv hno)
  obtain ⟨d1, ok1, f1, k1, r1⟩ := mid
  have hce : c ≠ e ++ [m] := by
    rintro rfl
    rcases hf with hf | hf <;> rw [hc] at hf <;> simp [isFileD] at hf
  have hee : e ≠ e ++ [m] := fun x => by simpa using congrArg List.length x
  have hc1 : d1.tree c = some (.link (pathOf t)) := (k1 c hce).trans hc
  have hp1 : d1.tree e = some (.dir p) := (k1 e hee).trans hp
  have e3 : sysOps.readlink .loc (loc c) { s with disk := d1 } = (.ok (loc t), { s with disk := d1 }) := by
    have e : onDisk (osReadlink (loc c).path) { s with disk := d1 } = (.ok (pathOf t), { s with disk := d1 }) := by
      refine onDisk_ok (d := d1) ?_
      unfold osReadlink
      rw [find_here ok1 hn hc1 (.inl rfl)]
      simp only [hc1]
    refine (bind_ok e).trans ?_
    show (URI (pathOf t) '/' [], _) = _
    rw [uri_path ht]
  have e4 : sysOps.symlink .loc (loc t) (loc (e ++ [m])) { s with disk := d1 } =
      (.ok (), { s with disk := d1.set (e ++ [m]) (.link (pathOf t)) }) := by
    refine onDisk_ok (s := { s with disk := d1 }) (d := d1.set (e ++ [m]) (.link (pathOf t))) ?_
    show osSymlink (loc t).path (loc (e ++ [m])).path d1 = _
    rw [loc_path ht]
    exact osSymlink_ok ok1 he (pathOf_ne_nil _) hp1 f1
  refine ⟨{ s with disk := d1.set (e ++ [m]) (.link (pathOf t)) }, ?_, h.dsk (ok1.newLink hp1 f1 _), rfl, fun p => ?_⟩
  · unfold copyLink
    refine (bind_ok e1).trans ?_
    rw [Bool.not_true, if_neg Bool.false_ne_true]
    refine (bind_ok e2).trans ?_
    cases hb : isFileD (s.disk.tree (e ++ [m])) with
    | false =>
      rw [hb] at r1
      have : ({ s with disk := d1 } : Sys) = s := (Prod.mk.inj r1).2.symm
      rw [if_neg Bool.false_ne_true]
      rw [this] at e3
      refine (bind_ok e3).trans ?_
      rw [this] at e4
      exact e4
    | true =>
      rw [hb, if_pos rfl] at r1
      rw [if_pos rfl]
      refine (bind_ok r1).trans ((bind_ok e3).trans e4)
  · rw [show (Sys.mk s.mem (d1.set (e ++ [m]) (.link (pathOf t)))).disk.tree p = (d1.set (e ++ [m]) (.link (pathOf t))).tree p from rfl,
      tree_set]
    split
    · rfl
    · rename_i hp; exact k1 p hp

end Verif.Any
