import Verif.Any.LocLink
import Verif.Props.LocalRefusals
/-!
# C95–C97: symbolic links among local files

`s.disk.tree p` is what the operating system has under the names `p`, links included.  `Leads d fl n p q` says that
following `n` links, each of which has a plain absolute path as its text, turns the path `p` into `q`.
-/
namespace Verif.Props
open Verif.Spec Verif.Any Verif.Gen

section
variable {ι : Type} {E : ι → Dict} {r : ι → Nat} {s : Sys}

/-- no link on the way to the last name -/
def Approach (d : Disk) (q : List Str) : Prop := ∀ p, p <+: q → p ≠ q → isLinkD (d.tree p) = false

/-- no link on the way, nor at its end -/
def Direct (d : Disk) (q : List Str) : Prop := ∀ p, p <+: q → isLinkD (d.tree p) = false

theorem Direct.approach {d : Disk} {q : List Str} (h : Direct d q) : Approach d q := fun p hp _ => h p hp

theorem Leads.follow {d : Disk} {fl : Bool} {n : Nat} {p q : List Str} (h : Leads d fl n p q) : Leads d true n p q := by
  induction h with
  | here q => exact .here q
  | link hc hn hn' _ _ ih => exact .link hc hn hn' (.inr rfl) ih

/-! ## C95 -/

/-- islink of something that is there: whether it is a link, not what the link leads to -/
theorem C95_islink (h : SysOk E r s) {cs : List Str} (hn : Nm cs) {o : DObj} (ho : s.disk.tree cs = some o) :
    uIslink sysOps (siteAt E none cs) s = (.ok (isLinkD (some o)), s) := by
  refine (site_wc h (k := none) hn _ _).trans ?_
  show osAsk false isLinkD (loc cs) s = _
  simp only [osAsk, stat_here h.disk hn ho (.inl rfl)]

/-- of something that is not there -/
theorem C95_islink_missing (h : SysOk E r s) {cs : List Str} (hn : Nm cs) (hd : Direct s.disk cs) (ho : s.disk.tree cs = none) :
    uIslink sysOps (siteAt E none cs) s = (.ok false, s) := by
  refine (site_wc h (k := none) hn _ _).trans ?_
  show osAsk false isLinkD (loc cs) s = _
  simp only [osAsk, stat_none h.disk hn ho hd, isLinkD]

/-- symlink makes a link whose text is the path of the first URI, whatever is there or not, and changes nothing else -/
theorem C95_symlink (h : SysOk E r s) {ts e : List Str} {m : Str} (ht : Nm ts) (hn : Nm (e ++ [m])) {p : Nat}
    (hp : s.disk.tree e = some (.dir p)) (hv : s.disk.tree (e ++ [m]) = none) :
    ∃ s', uSymlink sysOps (siteAt E none ts) (siteAt E none (e ++ [m])) s = (.ok (), s') ∧ SysOk E r s' ∧ s'.mem = s.mem ∧
      s'.disk.tree (e ++ [m]) = some (.link (pathOf ts)) ∧ ∀ p, p ≠ e ++ [m] → s'.disk.tree p = s.disk.tree p := by
  refine ⟨{ s with disk := s.disk.set (e ++ [m]) (.link (pathOf ts)) }, ?_, h.dsk (h.disk.newLink hp hv _), rfl, ?_, ?_⟩
  · refine (site_wc h (k := none) ht _ _).trans ?_
    refine onDisk_ok (d := s.disk.set (e ++ [m]) (.link (pathOf ts))) (?_ : osSymlink (loc ts).path (loc (e ++ [m])).path s.disk = _)
    rw [loc_path ht]
    exact osSymlink_ok h.disk hn (pathOf_ne_nil _) hp hv
  · exact (tree_set _ _ _ _).trans (if_pos rfl)
  · intro p hp
    exact (tree_set _ _ _ _).trans (if_neg hp)

/-- where there is something already, a link included, nothing happens -/
theorem C95_symlink_taken (h : SysOk E r s) {ts cs : List Str} (ht : Nm ts) (hn : Nm cs) (hv : s.disk.tree cs ≠ none) :
    uSymlink sysOps (siteAt E none ts) (siteAt E none cs) s = (.error (.os .EEXIST), s) := by
  obtain ⟨o, ho⟩ := Option.ne_none_iff_exists'.1 hv
  refine (site_wc h (k := none) ht _ _).trans ?_
  refine onDisk_ok (d := s.disk) (?_ : osSymlink (loc ts).path (loc cs).path s.disk = _)
  unfold osSymlink
  rw [if_neg (loc_path_ne ht), find_here h.disk hn ho (.inl rfl)]

/-- readlink of a link whose text is a plain absolute path: the URI of that path -/
theorem C95_readlink (h : SysOk E r s) {cs ts : List Str} (hn : Nm cs) (ht : Nm ts) (hv : s.disk.tree cs = some (.link (pathOf ts))) :
    uReadlink sysOps (siteAt E none cs) s = (.ok (siteAt E none ts), s) := by
  refine (site_wc h (k := none) hn _ _).trans ?_
  have e : onDisk (osReadlink (loc cs).path) s = (.ok (pathOf ts), s) := by
    refine onDisk_ok (d := s.disk) ?_
    unfold osReadlink
    rw [find_here h.disk hn hv (.inl rfl)]
    simp only [hv]
  refine (bind_ok e).trans ?_
  show (URI (pathOf ts) '/' [], s) = _
  rw [uri_path ht]
  rfl

/-- of a file or directory -/
theorem C95_readlink_other (h : SysOk E r s) {cs : List Str} (hn : Nm cs) {o : DObj} (hv : s.disk.tree cs = some o)
    (hl : isLinkD (some o) = false) : uReadlink sysOps (siteAt E none cs) s = (.error (.os .EINVAL), s) := by
  refine (site_wc h (k := none) hn _ _).trans ?_
  refine bind_error (onDisk_ok (d := s.disk) (?_ : osReadlink (loc cs).path s.disk = _))
  unfold osReadlink
  rw [find_here h.disk hn hv (.inl rfl)]
  cases o with
  | link t => simp [isLinkD] at hl
  | dir p => simp only [hv]
  | file p b => simp only [hv]

/-- what is asked, listed or opened through at most 40 links is what they lead to, whether there is something or not -/
theorem C95_follow (h : SysOk E r s) {n : Nat} {p q : List Str} (hl : Leads s.disk true n p q) (hk : n ≤ 40) (hn : Nm p) (hn' : Nm q)
    (hq : Direct s.disk q) :
    uExists sysOps (siteAt E none p) s = uExists sysOps (siteAt E none q) s ∧
    uIsfile sysOps (siteAt E none p) s = uIsfile sysOps (siteAt E none q) s ∧
    uIsdir sysOps (siteAt E none p) s = uIsdir sysOps (siteAt E none q) s ∧
    uListdir sysOps (siteAt E none p) s = uListdir sysOps (siteAt E none q) s ∧
    uOpenR sysOps (siteAt E none p) s = uOpenR sysOps (siteAt E none q) s ∧
    uOpenW sysOps (siteAt E none p) s = uOpenW sysOps (siteAt E none q) s := by
  have e := find_leads h.disk hl hk hn hn' fun p hp _ => hq p hp
  have ask : ∀ f, osAsk true f (loc p) s = osAsk true f (loc q) s := fun f => by
    unfold osAsk Disk.stat; rw [e]
  have lst : osListdir (loc p).path s.disk = osListdir (loc q).path s.disk := by unfold osListdir; rw [e]
  have opr : osOpenR (loc p).path s.disk = osOpenR (loc q).path s.disk := by unfold osOpenR; rw [e]
  have opw : osOpenW (loc p).path s.disk = osOpenW (loc q).path s.disk := by unfold osOpenW; rw [e]
  have key : ∀ {α β : Type} {f g : OM Disk α} (k : α → OM Sys β), f s.disk = g s.disk → (onDisk f >>= k) s = (onDisk g >>= k) s :=
    fun k he => by
      show OM.bnd _ _ _ = OM.bnd _ _ _
      unfold OM.bnd onDisk
      rw [he]
  refine ⟨?_, ?_, ?_, ?_, ?_, ?_⟩
  all_goals refine (site_wc h (k := none) hn _ _).trans (Eq.trans ?_ (site_wc h (k := none) hn' _ _).symm)
  · exact ask _
  · exact ask _
  · exact ask _
  · exact key _ lst
  · exact key _ opr
  · exact key _ opw

/-- links on the way, not at the end, are followed also by islink, readlink, mkdir, symlink, and by removing one thing -/
theorem C95_below (h : SysOk E r s) {n : Nat} {p q : List Str} (hl : Leads s.disk false n p q) (hk : n ≤ 40) (hn : Nm p) (hn' : Nm q)
    (hq : Approach s.disk q) :
    uIslink sysOps (siteAt E none p) s = uIslink sysOps (siteAt E none q) s ∧
    uReadlink sysOps (siteAt E none p) s = uReadlink sysOps (siteAt E none q) s ∧
    uMkdir sysOps (siteAt E none p) s = uMkdir sysOps (siteAt E none q) s ∧
    (∀ ts, Nm ts → uSymlink sysOps (siteAt E none ts) (siteAt E none p) s = uSymlink sysOps (siteAt E none ts) (siteAt E none q) s) ∧
    ∀ depth, uRemove sysOps depth (siteAt E none p) false s = uRemove sysOps depth (siteAt E none q) false s := by
  have e := find_leads h.disk hl hk hn hn' fun p hp hor => hq p hp (hor.resolve_right Bool.false_ne_true)
  have ask : ∀ f, osAsk false f (loc p) s = osAsk false f (loc q) s := fun f => by
    unfold osAsk Disk.stat; rw [e]
  have rdl : osReadlink (loc p).path s.disk = osReadlink (loc q).path s.disk := by unfold osReadlink; rw [e]
  have mkd : osMkdir (loc p).path s.disk = osMkdir (loc q).path s.disk := by unfold osMkdir; rw [e]
  have rmd : osRmdir (loc p).path s.disk = osRmdir (loc q).path s.disk := by unfold osRmdir; rw [e]
  have unl : osUnlink (loc p).path s.disk = osUnlink (loc q).path s.disk := by unfold osUnlink; rw [e]
  have sym : ∀ t, osSymlink t (loc p).path s.disk = osSymlink t (loc q).path s.disk := fun t => by unfold osSymlink; rw [e]
  have on : ∀ {α : Type} {f g : OM Disk α}, f s.disk = g s.disk → onDisk f s = onDisk g s := fun he => by
    unfold onDisk; rw [he]
  have bnd : ∀ {α β : Type} {f g : OM Sys α} {k k' : α → OM Sys β}, f s = g s → (∀ a, f s = (.ok a, s) → k a s = k' a s) →
      (∃ x, f s = (x, s)) → (f >>= k) s = (g >>= k') s := fun {α β f g k k'} he hk hx => by
    obtain ⟨x, hx⟩ := hx
    show OM.bnd _ _ _ = OM.bnd _ _ _
    unfold OM.bnd
    rw [← he, hx]
    cases x with
    | error e => rfl
    | ok a => exact hk a hx
  have rf : sysOps.removefile .loc (loc p) s = sysOps.removefile .loc (loc q) s := on unl
  have rd : sysOps.removedir .loc (loc p) s = sysOps.removedir .loc (loc q) s := by
    refine bnd (ask _) (fun b _ => ?_) ⟨_, rfl⟩
    cases b
    · exact on rmd
    · rfl
  refine ⟨?_, ?_, ?_, fun ts ht => ?_, fun depth => ?_⟩
  all_goals first
    | refine (site_wc h (k := none) hn _ _).trans (Eq.trans ?_ (site_wc h (k := none) hn' _ _).symm)
    | refine (site_wc h (k := none) ht _ _).trans (Eq.trans ?_ (site_wc h (k := none) ht _ _).symm)
  · exact ask _
  · have hx : ∃ x, osReadlink (loc p).path s.disk = (x, s.disk) := by
      unfold osReadlink
      cases s.disk.find false (loc p).path with
      | here q => dsimp only; split <;> exact ⟨_, rfl⟩
      | free c n => exact ⟨_, rfl⟩
      | fail e => exact ⟨_, rfl⟩
    obtain ⟨x, hx⟩ := hx
    exact bnd (on rdl) (fun _ _ => rfl) ⟨x, onDisk_ok (d := s.disk) hx⟩
  · show (if (loc p).path = [] then pure () else onDisk (osMkdir (loc p).path)) s =
      (if (loc q).path = [] then pure () else onDisk (osMkdir (loc q).path)) s
    rw [if_neg (loc_path_ne hn), if_neg (loc_path_ne hn')]
    exact on mkd
  · exact on (sym _)
  · refine bnd (ask isLinkD) (fun b hb => ?_) ⟨_, rfl⟩
    cases b
    · have hb' : isLinkD (s.disk.stat false (loc p).path) = false := by
        have := (Prod.mk.inj hb).1
        exact Except.ok.inj this
      have hd : Direct s.disk q := fun x hx => by
        by_cases ex : x = q
        · subst ex
          cases hv : s.disk.tree x with
          | none => rfl
          | some o =>
            unfold Disk.stat at hb'
            rw [e, find_here h.disk hn' hv (.inl rfl)] at hb'
            rwa [← hv]
        · exact hq x hx ex
      have e' := find_leads h.disk (Leads.follow hl) hk hn hn' fun p hp _ => hd p hp
      have ask' : ∀ f, osAsk true f (loc p) s = osAsk true f (loc q) s := fun f => by
        unfold osAsk Disk.stat; rw [e']
      refine bnd (ask' _) (fun b _ => ?_) ⟨_, rfl⟩
      cases b
      · rfl
      · refine bnd (ask' _) (fun b _ => ?_) ⟨_, rfl⟩
        cases b
        · refine bnd (ask' _) (fun b _ => ?_) ⟨_, rfl⟩
          cases b
          · rfl
          · exact rf
        · exact rd
    · exact rf

/-- through more than 40 links nothing is found -/
theorem C95_too_many (h : SysOk E r s) {n : Nat} {p q : List Str} (hl : Leads s.disk true n p q) (hk : 40 < n) (hn : Nm p) :
    uExists sysOps (siteAt E none p) s = (.ok false, s) ∧ uIsfile sysOps (siteAt E none p) s = (.ok false, s) ∧
    uIsdir sysOps (siteAt E none p) s = (.ok false, s) ∧ uListdir sysOps (siteAt E none p) s = (.error (.os .ELOOP), s) ∧
    uOpenR sysOps (siteAt E none p) s = (.error (.os .ELOOP), s) ∧ uOpenW sysOps (siteAt E none p) s = (.error (.os .ELOOP), s) := by
  have e := find_loop h.disk hl hk hn
  have ask : ∀ f, f none = false → osAsk true f (loc p) s = (.ok false, s) := fun f hf => by
    unfold osAsk Disk.stat; rw [e]; simp only [hf]
  refine ⟨?_, ?_, ?_, ?_, ?_, ?_⟩
  all_goals refine (site_wc h (k := none) hn _ _).trans ?_
  · exact ask _ rfl
  · exact ask _ rfl
  · exact ask _ rfl
  · refine bind_error (onDisk_ok (d := s.disk) (?_ : osListdir (loc p).path s.disk = _))
    unfold osListdir; rw [e]
  · refine bind_error (onDisk_ok (d := s.disk) (?_ : osOpenR (loc p).path s.disk = _))
    unfold osOpenR; rw [e]
  · refine bind_error (onDisk_ok (d := s.disk) (?_ : osOpenW (loc p).path s.disk = _))
    unfold osOpenW; rw [e]

/-- links in a circle -/
theorem C95_circle (h : SysOk E r s) {n : Nat} {p : List Str} (hl : Leads s.disk true (n + 1) p p) (hn : Nm p) :
    uExists sysOps (siteAt E none p) s = (.ok false, s) ∧ uIsfile sysOps (siteAt E none p) s = (.ok false, s) ∧
    uIsdir sysOps (siteAt E none p) s = (.ok false, s) ∧ uListdir sysOps (siteAt E none p) s = (.error (.os .ELOOP), s) ∧
    uOpenR sysOps (siteAt E none p) s = (.error (.os .ELOOP), s) ∧ uOpenW sysOps (siteAt E none p) s = (.error (.os .ELOOP), s) := by
  obtain ⟨m, hm, hl'⟩ := hl.circle 40
  exact C95_too_many h hl' hm hn

/-! ## C96 -/

theorem fewer_same {s' : Sys} (h : Fewer s s') {p : List Str} (hv : siteV r s' none p = siteV r s none p) :
    s'.disk.tree p = s.disk.tree p := by
  rcases h p with e | e
  · exact e
  · have := (siteV_lnone (r := r)).2 e
    rw [hv] at this
    rw [e, siteV_lnone.1 this]

/-- remove of a link, recursive or not, removes the link and nothing else -/
theorem C96_link (h : SysOk E r s) (hr : Function.Injective r) {q : List Str} (hn : Nm q) (hl : siteV r s none q = some .other)
    (depth : Nat) (rec : Bool) :
    ∃ s', uRemove sysOps depth (siteAt E none q) rec s = (.ok (), s') ∧ SysOk E r s' ∧ siteV r s' none q = none ∧
      (∀ j p, ¬ (j = none ∧ p = q) → siteV r s' j p = siteV r s j p) ∧ ∀ p, p ≠ q → s'.disk.tree p = s.disk.tree p := by
  obtain ⟨s', h1, h2, h3⟩ := (linked_loc (E := E) hr).uRemove_link (depth := depth) (rec := rec) h hn hl
  change siteV r s' = upd (siteV r s) none q none at h3
  have h4 : ∀ j p, ¬ (j = none ∧ p = q) → siteV r s' j p = siteV r s j p := fun j p hj => by rw [h3, upd_ne hj]
  refine ⟨s', h1, h2, by rw [h3, upd_same], h4, fun p hp => fewer_same (r := r) ?_ (h4 none p (by simp [hp]))⟩
  have h5 : uRemove sysOps depth (siteAt E none q) rec s = _ := h1
  have := fewer_uRemove depth (siteAt E none q) rec s
  rwa [h5] at this

/-- recursive remove of a directory with links in it, at any depth and leading anywhere, removes the directory and what
    is below it, the links included, and nothing the links lead to -/
theorem C96_tree (h : SysOk E r s) (hr : Function.Injective r) {q : List Str}
    (hsub : ∀ t, siteV r s none (q ++ t) ≠ none → Nm (q ++ t)) (hq : q ≠ []) (hd : siteV r s none q = some .dir) {depth : Nat}
    (hh : ∀ x, siteV r s none (q ++ x) = some .dir → x.length < depth) :
    ∃ s', uRemove sysOps depth (siteAt E none q) true s = (.ok (), s') ∧ SysOk E r s' ∧
      (∀ p, q <+: p → siteV r s' none p = none) ∧ (∀ j p, ¬ (j = none ∧ q <+: p) → siteV r s' j p = siteV r s j p) ∧
      ∀ p, ¬ q <+: p → s'.disk.tree p = s.disk.tree p := by
  obtain ⟨s', h1, h2, h3⟩ := (linked_loc (E := E) hr).uRemove_tree h hsub hq hd hh
  change siteV r s' = wipe (siteV r s) none (fun p => q <+: p) at h3
  have h4 : ∀ j p, ¬ (j = none ∧ q <+: p) → siteV r s' j p = siteV r s j p := fun j p hj => by
    rw [h3]; simp only [wipe, if_neg hj]
  refine ⟨s', h1, h2, fun p hp => ?_, h4, fun p hp => fewer_same (r := r) ?_ (h4 none p (by simp [hp]))⟩
  · rw [h3]; simp [wipe, hp]
  · have h5 : uRemove sysOps depth (siteAt E none q) true s = _ := h1
    have := fewer_uRemove depth (siteAt E none q) true s
    rwa [h5] at this

/-! ## C97 -/

/-- Copying a link as a link (`followlinks=False`), the link leading to a file (to a directory, if the copy is recursive)
    through at most 40 links: under the new name, or under its own in a directory, there is a link with the same text, in
    place of the file there was there if there was one; nothing else changes. -/
theorem C97_link (h : SysOk E r s) {init t q : List Str} {n m : Str} {ds e : List Str} {k : Nat} {rec : Bool}
    (hn : Nm (init ++ [n])) (ht : Nm t) (hc : s.disk.tree (init ++ [n]) = some (.link (pathOf t))) (hl : Leads s.disk true k t q)
    (hk : k < 40) (hq : Nm q) {o : DObj} (ho : s.disk.tree q = some o)
    (hrec : if rec then isDirD (some o) = true else isFileD (some o) = true)
    (hds : Nm ds) (he : Nm (e ++ [m])) (hT : FileTarget (siteV r s none) ds n (e ++ [m])) {p : Nat} (hp : s.disk.tree e = some (.dir p))
    (hf : s.disk.tree (e ++ [m]) = none ∨ isFileD (s.disk.tree (e ++ [m])) = true) (depth : Nat) (ig : List Str) :
    ∃ s', uCopy sysOps depth (siteAt E none (init ++ [n])) (siteAt E none ds) rec ig false s = (.ok (), s') ∧ SysOk E r s' ∧
      s'.mem = s.mem ∧ s'.disk.tree (e ++ [m]) = some (.link (pathOf t)) ∧
      ∀ p, p ≠ e ++ [m] → s'.disk.tree p = s.disk.tree p := by
  have hlo : isLinkD (some o) = false := by
    cases o with
    | link t => cases rec <;> simp [isDirD, isFileD] at hrec
    | dir p => rfl
    | file p b => rfl
  have hdir : Direct s.disk q := fun x hx => by
    by_cases ex : x = q
    · rw [ex, ho]; exact hlo
    · obtain ⟨m', hm'⟩ := h.disk.above (by rw [ho]; simp) hx ex
      rw [hm']; rfl
  have hL : Leads s.disk true (k + 1) (init ++ [n]) q := by
    have := Leads.link (fl := true) (x := []) hc (by simpa using hn) (by simpa using ht) (.inr rfl) (by simpa using hl)
    simpa using this
  obtain ⟨f1, f2, f3, -⟩ := C95_follow (E := E) (r := r) h hL (by omega) hn hq hdir
  have st : s.disk.stat true (loc q).path = some o := stat_here h.disk hq ho (.inr hlo)
  have ask : ∀ f, osAsk true f (loc q) s = (.ok (f (some o)), s) := fun f => by unfold osAsk; rw [st]
  have g1 : uExists sysOps (siteAt E none (init ++ [n])) s = (.ok true, s) :=
    f1.trans ((site_wc h (k := none) hq _ _).trans (ask _))
  have g2 : uIsfile sysOps (siteAt E none (init ++ [n])) s = (.ok (isFileD (some o)), s) :=
    f2.trans ((site_wc h (k := none) hq _ _).trans (ask _))
  have g3 : uIsdir sysOps (siteAt E none (init ++ [n])) s = (.ok (isDirD (some o)), s) :=
    f3.trans ((site_wc h (k := none) hq _ _).trans (ask _))
  have g4 : uIslink sysOps (siteAt E none (init ++ [n])) s = (.ok true, s) := C95_islink h hn hc
  obtain ⟨s', c1, c2, c3, c4⟩ := copyLink_loc h hn ht he hc hp hf
  -- where the copy goes
  have dest : ∃ b, uIsdir sysOps (siteAt E none ds) s = (.ok b, s) ∧
      ∀ {β : Type} (K : Uri → OM Sys β), (if b = true then (do let x ← OM.lift ((siteAt E none ds).div (siteAt E none (init ++ [n])).last); K x)
        else (do let x ← pure (siteAt E none ds); K x)) s = K (siteAt E none (e ++ [m])) s := by
    generalize hg : e ++ [m] = g at *
    cases hT with
    | into hd =>
      refine ⟨true, ?_, fun K => ?_⟩
      · refine (site_wc h (k := none) hds _ _).trans ((loc_isdir h hds (straight_dir h hd)).trans ?_)
        obtain ⟨x, hx⟩ := siteV_ldir.1 hd
        rw [hx]; rfl
      · rw [if_pos rfl, site_last hn]
        have : (siteAt E none ds).div n = .ok (siteAt E none (ds ++ [n])) := site_div he (by simp) (by simp [slash])
        rw [this]; rfl
    | at_ hd =>
      refine ⟨false, ?_, fun K => by rw [if_neg Bool.false_ne_true]; rfl⟩
      subst hg
      have hs : Straight (siteV r s none) (e ++ [m]) := fun x hx => by
        rw [← isLink_siteV]
        by_cases ex : x = e ++ [m]
        · rw [ex]; rcases hf with hf | hf
          · rw [hf]; rfl
          · cases hv : s.disk.tree (e ++ [m]) with
            | none => rfl
            | some o => rw [hv] at hf; cases o <;> simp_all [isFileD, isLinkD]
        · have hxe : x <+: e := by
            obtain ⟨y, hy⟩ := hx
            rcases List.eq_nil_or_concat y with rfl | ⟨y', z, rfl⟩
            · rw [List.append_nil] at hy; exact absurd hy ex
            · rw [List.concat_eq_append, ← List.append_assoc] at hy
              exact ⟨y', (List.append_inj' hy rfl).1⟩
          by_cases ex2 : x = e
          · rw [ex2, hp]; rfl
          · obtain ⟨z, hz⟩ := h.disk.above (by rw [hp]; simp) hxe ex2
            rw [hz]; rfl
      refine (site_wc h (k := none) hds _ _).trans ((loc_isdir h hds hs).trans ?_)
      rcases hf with hf | hf
      · rw [hf]; rfl
      · cases hv : s.disk.tree (e ++ [m]) with
        | none => rfl
        | some o => rw [hv] at hf; cases o <;> simp_all [isFileD, isDirD]
  obtain ⟨b, d1, d2⟩ := dest
  refine ⟨s', ?_, c2, c3, (c4 _).trans (if_pos rfl), fun p hp => (c4 p).trans (if_neg hp)⟩
  refine (site_wc h (k := none) hn _ _).trans ?_
  unfold Any.copy
  refine (bind_ok g1).trans ?_
  rw [Bool.not_true, if_neg Bool.false_ne_true]
  cases rec with
  | false =>
    rw [if_neg Bool.false_ne_true] at hrec
    rw [Bool.not_false, if_pos rfl]
    refine (bind_ok g2).trans ?_
    rw [hrec, Bool.not_true, if_neg Bool.false_ne_true]
    refine (bind_ok d1).trans ((d2 _).trans ?_)
    unfold Any.copyOne
    refine (bind_ok g4).trans ?_
    rw [Bool.not_false, Bool.and_true, if_pos rfl]
    exact c1
  | true =>
    rw [if_pos rfl] at hrec
    rw [Bool.not_true, if_neg Bool.false_ne_true]
    refine (bind_ok g3).trans ?_
    rw [hrec, Bool.not_true, if_neg Bool.false_ne_true]
    refine (bind_ok d1).trans ((d2 _).trans ?_)
    refine (bind_ok g4).trans ?_
    rw [Bool.not_false, Bool.and_true, if_pos rfl]
    exact c1

/-- Copying with `followlinks=True` a link that leads, through at most 40 links, to a file: under the new name, or under
    that of the link in a directory, here or in memory, there is a file with the bytes of the file the link leads to;
    nothing else changes. -/
theorem C97_content (h : SysOk E r s) (hr : Function.Injective r) {k' : Option ι} {init q : List Str} {n m : Str} {ds e : List Str} {k : Nat}
    {d : Bytes} (hn : Nm (init ++ [n])) (hl : Leads s.disk true k (init ++ [n]) q) (hk : k ≤ 40) (hq : Nm q)
    (hv : siteV r s none q = some (.file d)) (hds : Nm ds) (he : Nm (e ++ [m]))
    (hT : FileTarget (siteV r s k') ds n (e ++ [m])) (hp : siteV r s k' e = some .dir)
    (hf : siteV r s k' (e ++ [m]) = none ∨ isF (siteV r s k' (e ++ [m])) = true) (hne : ¬ (k' = none ∧ q = e ++ [m]))
    (depth : Nat) (ig : List Str) :
    ∃ s', uCopy sysOps depth (siteAt E none (init ++ [n])) (siteAt E k' ds) false ig true s = (.ok (), s') ∧ SysOk E r s' ∧
      siteV r s' k' (e ++ [m]) = some (.file d) ∧ (∀ j p, ¬ (j = k' ∧ p = e ++ [m]) → siteV r s' j p = siteV r s j p) ∧
      ∀ p t, s.disk.tree p = some (.link t) → s'.disk.tree p = some (.link t) := by
  obtain ⟨pm, ho⟩ := siteV_lfile.1 hv
  have direct : ∀ {s : Sys}, SysOk E r s → siteV r s none q = some (.file d) → Direct s.disk q := fun {s} h hv x hx => by
    obtain ⟨pm, ho⟩ := siteV_lfile.1 hv
    by_cases ex : x = q
    · rw [ex, ho]; rfl
    · obtain ⟨m', hm'⟩ := h.disk.above (by rw [ho]; simp) hx ex
      rw [hm']; rfl
  obtain ⟨f1, f2, -, -, f5, -⟩ := C95_follow (E := E) (r := r) h hl hk hn hq (direct h hv)
  have st : s.disk.stat true (loc q).path = some (.file pm d) := stat_here h.disk hq ho (.inr rfl)
  have ask : ∀ f, osAsk true f (loc q) s = (.ok (f (some (.file pm d))), s) := fun f => by unfold osAsk; rw [st]
  have g1 : uExists sysOps (siteAt E none (init ++ [n])) s = (.ok true, s) :=
    f1.trans ((site_wc h (k := none) hq _ _).trans (ask _))
  have g2 : uIsfile sysOps (siteAt E none (init ++ [n])) s = (.ok true, s) :=
    f2.trans ((site_wc h (k := none) hq _ _).trans (ask _))
  have g4 : ∃ b, uIslink sysOps (siteAt E none (init ++ [n])) s = (.ok b, s) := ⟨_, (site_wc h (k := none) hn _ _).trans rfl⟩
  obtain ⟨b4, g4⟩ := g4
  let L := sysLaws E r hr
  -- where the copy goes
  have dest : ∃ b, uIsdir sysOps (siteAt E k' ds) s = (.ok b, s) ∧
      ∀ {β : Type} (K : Uri → OM Sys β), (if b = true then (do let x ← OM.lift ((siteAt E k' ds).div (siteAt E none (init ++ [n])).last); K x)
        else (do let x ← pure (siteAt E k' ds); K x)) s = K (siteAt E k' (e ++ [m])) s := by
    generalize hg : e ++ [m] = g at *
    cases hT with
    | into hd =>
      refine ⟨true, ?_, fun K => ?_⟩
      · have := L.uIsdir h hds (L.clear_dir h hd)
        rw [show L.V s k' ds = _ from hd] at this
        exact this
      · rw [if_pos rfl, site_last hn]
        have : (siteAt E k' ds).div n = .ok (siteAt E k' (ds ++ [n])) := site_div he (by simp) (by simp [slash])
        rw [this]; rfl
    | at_ hd =>
      refine ⟨false, ?_, fun K => by rw [if_neg Bool.false_ne_true]; rfl⟩
      subst hg
      have hcl : Clear (L.V s k') (e ++ [m]) := by
        refine L.clear_in h hp ?_
        show siteV r s k' (e ++ [m]) ≠ some .other
        rcases hf with hf | hf
        · rw [hf]; simp
        · intro h'; rw [h'] at hf; simp [isF] at hf
      have := L.uIsdir h hds hcl
      have hb : Any.isD (L.V s k' (e ++ [m])) = false := by
        cases hb : Any.isD (L.V s k' (e ++ [m])) with
        | false => rfl
        | true => exact absurd (isD_iff.1 hb) hd
      rw [hb] at this
      exact this
  obtain ⟨b, d1, d2⟩ := dest
  obtain ⟨s1, e1, ok1, v1⟩ := site_content h hr hq he hv hp hf (fun c => hne ⟨c.1.symm, c.2⟩)
  have e1' : copyContent sysOps (siteAt E none (init ++ [n])) (siteAt E k' (e ++ [m])) s = (.ok (), s1) := by
    refine Eq.trans ?_ e1
    show OM.bnd _ _ _ = OM.bnd _ _ _
    unfold OM.bnd
    rw [f5]
  have st1 : LinksStay s s1 := by
    have := links_content (siteAt E none q) (siteAt E k' (e ++ [m])) s
    rwa [e1] at this
  -- the permissions
  have fin : ∃ s', (if (siteAt E none (init ++ [n])).scheme = (siteAt E k' (e ++ [m])).scheme then
      sysOps.copystat (siteC r none) (siteAt E none (init ++ [n])) (siteAt E k' (e ++ [m])) else pure ()) s1 = (.ok (), s') ∧
      SysOk E r s' ∧ siteV r s' = siteV r s1 ∧ LinksStay s1 s' := by
    cases k' with
    | some j =>
      refine ⟨s1, ?_, ok1, rfl, LinksStay.refl _⟩
      rw [if_neg (by simp [siteAt, Gen.mem, loc, Uri.scheme])]
      rfl
    | none =>
      have hv1 : siteV r s1 none q = some (.file d) := by rw [v1, upd_ne (fun c => hne ⟨rfl, c.2⟩)]; exact hv
      obtain ⟨s2, c1, c2, c3⟩ := site_copystat ok1 hr hq he (d := d) (d' := d) hv1 (by rw [v1, upd_same])
      have hfind := find_leads ok1.disk (hl.mono st1) hk hn hq fun p hp _ => direct ok1 hv1 p hp
      have c1' : sysOps.copystat .loc (loc (init ++ [n])) (loc (e ++ [m])) s1 = (.ok (), s2) := by
        refine Eq.trans ?_ c1
        show onDisk (osCopystat _ _) s1 = onDisk (osCopystat _ _) s1
        have : osCopystat (loc (init ++ [n])).path (loc (e ++ [m])).path s1.disk = osCopystat (loc q).path (loc (e ++ [m])).path s1.disk := by
          unfold osCopystat; rw [hfind]
        unfold onDisk
        rw [this]
        rfl
      refine ⟨s2, ?_, c2, c3, ?_⟩
      · rw [if_pos (show (siteAt E none (init ++ [n])).scheme = (siteAt E none (e ++ [m])).scheme from rfl)]; exact c1'
      · have := links_copystat .loc (loc (init ++ [n])) (loc (e ++ [m])) s1
        rwa [c1'] at this
  obtain ⟨s', c1, c2, c3, c4⟩ := fin
  refine ⟨s', ?_, c2, by rw [c3, v1, upd_same], fun j p hj => by rw [c3, v1, upd_ne hj], fun p t hpt => c4 _ _ (st1 _ _ hpt)⟩
  refine (site_wc h (k := none) hn _ _).trans ?_
  unfold Any.copy
  refine (bind_ok g1).trans ?_
  rw [Bool.not_true, if_neg Bool.false_ne_true, Bool.not_false, if_pos rfl]
  refine (bind_ok g2).trans ?_
  rw [Bool.not_true, if_neg Bool.false_ne_true]
  refine (bind_ok d1).trans ((d2 _).trans ?_)
  unfold Any.copyOne
  refine (bind_ok g4).trans ?_
  rw [Bool.not_true, Bool.and_false, if_neg Bool.false_ne_true]
  exact (bind_ok e1').trans c1

end

/-! ## Concrete cases -/

/-- local files with links: to a directory, to a file, to a link, to nothing, in a circle, with a relative text, to a file
    whose name has a question mark; and /w, a directory with links in it -/
def linkDisk : Disk :=
  ⟨[([], .dir 0o755), ([cl!"t"], .dir 0o755), ([cl!"t", cl!"d"], .dir 0o700), ([cl!"t", cl!"g"], .file 0o644 [1, 2, 3]),
    ([cl!"t", cl!"d", cl!"k"], .link cl!"../g"), ([cl!"l"], .link cl!"/t"), ([cl!"ll"], .link cl!"/l"), ([cl!"m"], .link cl!"/t/g"),
    ([cl!"d"], .link cl!"/nope"), ([cl!"c1"], .link cl!"/c2"), ([cl!"c2"], .link cl!"/c1"), ([cl!"f?b=c"], .file 0o644 [5]),
    ([cl!"q"], .link cl!"/f?b=c"), ([cl!"w"], .dir 0o755), ([cl!"w", cl!"x"], .link cl!"/t"), ([cl!"w", cl!"y"], .file 0o600 [8]),
    ([cl!"w", cl!"z"], .link cl!"/nope"), ([cl!"w", cl!"v"], .dir 0o755), ([cl!"w", cl!"v", cl!"up"], .link cl!".."),
    ([cl!"a"], .dir 0o755), ([cl!"a", cl!"f"], .file 0o644 [7])], [], 0o22, []⟩

/-- these and the sample memory file system -/
def linkSys : Sys := ⟨sample, linkDisk⟩

theorem linkSys_ok : SysOk (fun _ : Unit => []) (fun _ => 0) linkSys :=
  ⟨sampleSys_ok.inv, sampleSys_ok.fs, diskOk_of (by decide) (by decide) (by decide)⟩

/-- what there is -/
abbrev lV := siteV (fun _ : Unit => 0) linkSys

theorem leads_ll : Leads linkSys.disk true 2 [cl!"ll", cl!"g"] [cl!"t", cl!"g"] :=
  .link (c := [cl!"ll"]) (t := [cl!"l"]) (x := [cl!"g"]) (by decide) (by decide +kernel) (by decide +kernel) (.inl (by simp))
    (.link (c := [cl!"l"]) (t := [cl!"t"]) (x := [cl!"g"]) (by decide) (by decide +kernel) (by decide +kernel) (.inl (by simp)) (.here _))

theorem leads_l {x : List Str} (hx : Nm (cl!"l" :: x)) (hx' : Nm (cl!"t" :: x)) (hne : x ≠ []) : Leads linkSys.disk false 1 (cl!"l" :: x) (cl!"t" :: x) :=
  .link (c := [cl!"l"]) (t := [cl!"t"]) (x := x) (by decide) hx hx' (.inl hne) (.here _)

example : uIslink sysOps (sAt none [cl!"d"]) linkSys = (.ok true, linkSys) := C95_islink linkSys_ok (o := .link cl!"/nope") (by decide +kernel) (by decide)
example : uIslink sysOps (sAt none [cl!"t"]) linkSys = (.ok false, linkSys) := C95_islink linkSys_ok (o := .dir 0o755) (by decide +kernel) (by decide)
example : uIslink sysOps (sAt none [cl!"t", cl!"nope"]) linkSys = (.ok false, linkSys) :=
  C95_islink_missing linkSys_ok (by decide +kernel) (all_prefixes (by decide +kernel)) (by decide)

/-- a link to something that is not there -/
example : ∃ s', uSymlink sysOps (sAt none [cl!"no", cl!"where"]) (sAt none [cl!"t", cl!"n"]) linkSys = (.ok (), s') ∧
    s'.disk.tree [cl!"t", cl!"n"] = some (.link cl!"/no/where") := by
  obtain ⟨s', h1, -, -, h2, -⟩ := C95_symlink linkSys_ok (ts := [cl!"no", cl!"where"]) (e := [cl!"t"]) (m := cl!"n") (p := 0o755)
    (by decide +kernel) (by decide +kernel) (by decide) (by decide)
  exact ⟨s', h1, h2⟩

example : uSymlink sysOps (sAt none [cl!"t"]) (sAt none [cl!"d"]) linkSys = (.error (.os .EEXIST), linkSys) :=
  C95_symlink_taken linkSys_ok (by decide +kernel) (by decide +kernel) (by decide)

example : uReadlink sysOps (sAt none [cl!"m"]) linkSys = (.ok (sAt none [cl!"t", cl!"g"]), linkSys) :=
  C95_readlink linkSys_ok (by decide +kernel) (by decide +kernel) (by decide)

example : uReadlink sysOps (sAt none [cl!"t", cl!"g"]) linkSys = (.error (.os .EINVAL), linkSys) :=
  C95_readlink_other linkSys_ok (o := .file 0o644 [1, 2, 3]) (by decide +kernel) (by decide) rfl

/-- /ll/g is opened as /t/g -/
example : uOpenW sysOps (sAt none [cl!"ll", cl!"g"]) linkSys = uOpenW sysOps (sAt none [cl!"t", cl!"g"]) linkSys :=
  (C95_follow linkSys_ok leads_ll (by decide) (by decide +kernel) (by decide +kernel) (all_prefixes (by decide +kernel))).2.2.2.2.2

/-- /l/new is made as /t/new; removing /l/g removes /t/g -/
example : uMkdir sysOps (sAt none [cl!"l", cl!"new"]) linkSys = uMkdir sysOps (sAt none [cl!"t", cl!"new"]) linkSys :=
  (C95_below linkSys_ok (leads_l (by decide +kernel) (by decide +kernel) (by simp)) (by decide) (by decide +kernel) (by decide +kernel)
    (fun p hp _ => all_prefixes (P := fun p => isLinkD (linkSys.disk.tree p) = false) (by decide +kernel) p hp)).2.2.1

example : uRemove sysOps 9 (sAt none [cl!"l", cl!"g"]) false linkSys = uRemove sysOps 9 (sAt none [cl!"t", cl!"g"]) false linkSys :=
  (C95_below linkSys_ok (leads_l (by decide +kernel) (by decide +kernel) (by simp)) (by decide) (by decide +kernel) (by decide +kernel)
    (fun p hp _ => all_prefixes (P := fun p => isLinkD (linkSys.disk.tree p) = false) (by decide +kernel) p hp)).2.2.2.2 9

/-- /c1 and /c2 -/
example : uListdir sysOps (sAt none [cl!"c1"]) linkSys = (.error (.os .ELOOP), linkSys) :=
  (C95_circle linkSys_ok (n := 1) (.link (c := [cl!"c1"]) (t := [cl!"c2"]) (x := []) (by decide) (by decide +kernel) (by decide +kernel) (.inr rfl)
    (.link (c := [cl!"c2"]) (t := [cl!"c1"]) (x := []) (by decide) (by decide +kernel) (by decide +kernel) (.inr rfl) (.here _)))
    (by decide +kernel)).2.2.2.1

/-- the link goes, the directory it leads to stays -/
example : ∃ s', uRemove sysOps 9 (sAt none [cl!"l"]) true linkSys = (.ok (), s') ∧ siteV (fun _ : Unit => 0) s' none [cl!"l"] = none ∧
    s'.disk.tree [cl!"t", cl!"g"] = some (.file 0o644 [1, 2, 3]) := by
  obtain ⟨s', h1, -, h2, -, h3⟩ := C96_link linkSys_ok unit_inj (q := [cl!"l"]) (by decide +kernel) (by decide +kernel) 9 true
  exact ⟨s', h1, h2, (h3 _ (by decide)).trans (by decide)⟩

theorem lSub {q : List Str} (h : ∀ p ∈ linkDisk.ents.map (·.1), q <+: p → Nm p) : ∀ t, lV none (q ++ t) ≠ none → Nm (q ++ t) := by
  intro t ht
  refine h _ ?_ (List.prefix_append _ _)
  obtain ⟨e, he, e1⟩ := (lookup_isSome linkDisk.ents (q ++ t)).2 fun e => ht (siteV_lnone.2 e)
  exact List.mem_map.2 ⟨e, he, e1⟩

theorem lDepth {q : List Str} {n : Nat} (h : ∀ p ∈ linkDisk.ents.map (·.1), p.length < n + q.length) :
    ∀ x, lV none (q ++ x) = some .dir → x.length < n := by
  intro x hx
  obtain ⟨e, he, e1⟩ := (lookup_isSome linkDisk.ents (q ++ x)).2 fun e => by
    have : lV none (q ++ x) = none := siteV_lnone.2 e
    rw [this] at hx; simp at hx
  have := h _ (List.mem_map.2 ⟨e, he, e1⟩)
  rw [List.length_append] at this
  omega

/-- /w with its links to /t, to nothing and to .. goes, /t stays -/
example : ∃ s', uRemove sysOps 9 (sAt none [cl!"w"]) true linkSys = (.ok (), s') ∧
    siteV (fun _ : Unit => 0) s' none [cl!"w", cl!"v", cl!"up"] = none ∧ s'.disk.tree [cl!"t", cl!"g"] = some (.file 0o644 [1, 2, 3]) ∧
    s'.disk.tree [cl!"l"] = some (.link cl!"/t") := by
  obtain ⟨s', h1, -, h2, -, h3⟩ := C96_tree linkSys_ok unit_inj (q := [cl!"w"]) (lSub (by decide +kernel)) (by decide) (by decide +kernel)
    (depth := 9) (lDepth (by decide +kernel))
  exact ⟨s', h1, h2 _ (by decide), (h3 _ (by decide)).trans (by decide), (h3 _ (by decide)).trans (by decide)⟩

/-- /ll, a link to the directory /t through /l, copied as a link into /w -/
example : ∃ s', uCopy sysOps 9 (sAt none [cl!"ll"]) (sAt none [cl!"w"]) true [] false linkSys = (.ok (), s') ∧
    s'.disk.tree [cl!"w", cl!"ll"] = some (.link cl!"/l") := by
  obtain ⟨s', h1, -, -, h2, -⟩ := C97_link linkSys_ok (init := []) (n := cl!"ll") (t := [cl!"l"]) (q := [cl!"t"]) (e := [cl!"w"]) (m := cl!"ll")
    (ds := [cl!"w"]) (k := 1) (rec := true) (o := .dir 0o755) (p := 0o755) (by decide +kernel) (by decide +kernel) (by decide)
    (.link (c := [cl!"l"]) (t := [cl!"t"]) (x := []) (by decide) (by decide +kernel) (by decide +kernel) (.inr rfl) (.here _)) (by decide)
    (by decide +kernel) (by decide) (by decide) (by decide +kernel) (by decide +kernel) (.into (by decide +kernel)) (by decide) (.inl (by decide)) 9 []
  exact ⟨s', h1, h2⟩

/-- /m, a link to /t/g, copied as a link over /w/y -/
example : ∃ s', uCopy sysOps 9 (sAt none [cl!"m"]) (sAt none [cl!"w", cl!"y"]) false [] false linkSys = (.ok (), s') ∧
    s'.disk.tree [cl!"w", cl!"y"] = some (.link cl!"/t/g") := by
  obtain ⟨s', h1, -, -, h2, -⟩ := C97_link linkSys_ok (init := []) (n := cl!"m") (t := [cl!"t", cl!"g"]) (q := [cl!"t", cl!"g"]) (e := [cl!"w"]) (m := cl!"y")
    (ds := [cl!"w", cl!"y"]) (k := 0) (rec := false) (o := .file 0o644 [1, 2, 3]) (p := 0o755) (by decide +kernel) (by decide +kernel) (by decide)
    (.here _) (by decide) (by decide +kernel) (by decide) (by decide) (by decide +kernel) (by decide +kernel) (.at_ (by decide +kernel)) (by decide)
    (.inr (by decide)) 9 []
  exact ⟨s', h1, h2⟩

/-- the bytes of /t/g, through the link /m, to /w/m, and to /x in memory -/
example : ∃ s', uCopy sysOps 9 (sAt none [cl!"m"]) (sAt none [cl!"w"]) false [] true linkSys = (.ok (), s') ∧
    siteV (fun _ : Unit => 0) s' none [cl!"w", cl!"m"] = some (.file [1, 2, 3]) := by
  obtain ⟨s', h1, -, h2, -⟩ := C97_content linkSys_ok unit_inj (k' := none) (init := []) (n := cl!"m") (q := [cl!"t", cl!"g"]) (e := [cl!"w"])
    (m := cl!"m") (ds := [cl!"w"]) (k := 1) (d := [1, 2, 3]) (by decide +kernel)
    (.link (c := [cl!"m"]) (t := [cl!"t", cl!"g"]) (x := []) (by decide) (by decide +kernel) (by decide +kernel) (.inr rfl) (.here _)) (by decide)
    (by decide +kernel) (by decide +kernel) (by decide +kernel) (by decide +kernel) (.into (by decide +kernel)) (by decide +kernel)
    (.inl (by decide +kernel)) (by decide) 9 []
  exact ⟨s', h1, h2⟩

example : ∃ s', uCopy sysOps 9 (sAt none [cl!"m"]) (sAt (some ()) [cl!"x"]) false [] true linkSys = (.ok (), s') ∧
    siteV (fun _ : Unit => 0) s' (some ()) [cl!"x"] = some (.file [1, 2, 3]) := by
  obtain ⟨s', h1, -, h2, -⟩ := C97_content linkSys_ok unit_inj (k' := some ()) (init := []) (n := cl!"m") (q := [cl!"t", cl!"g"]) (e := [])
    (m := cl!"x") (ds := [cl!"x"]) (k := 1) (d := [1, 2, 3]) (by decide +kernel)
    (.link (c := [cl!"m"]) (t := [cl!"t", cl!"g"]) (x := []) (by decide) (by decide +kernel) (by decide +kernel) (.inr rfl) (.here _)) (by decide)
    (by decide +kernel) (by decide +kernel) (by decide +kernel) (by decide +kernel) (.at_ (by decide +kernel)) (by decide +kernel)
    (.inl (by decide +kernel)) (by decide) 9 []
  exact ⟨s', h1, h2⟩

/-! ## What does not hold -/

/-- A link with a relative text is copied with another text: the copy of /t/d/k → ../g, which leads to the file /t/g, is
    a link to /g, where there is nothing. -/
theorem C97_relative_refuted : ∃ s : Sys, SysOk (fun _ : Unit => []) (fun _ => 0) s ∧
    s.disk.tree [cl!"t", cl!"d", cl!"k"] = some (.link cl!"../g") ∧
    (uIsfile sysOps (sAt none [cl!"t", cl!"d", cl!"k"]) s).1 = .ok true ∧
    (uCopy sysOps 9 (sAt none [cl!"t", cl!"d", cl!"k"]) (sAt none [cl!"n"]) false [] false s).1 = .ok () ∧
    (uCopy sysOps 9 (sAt none [cl!"t", cl!"d", cl!"k"]) (sAt none [cl!"n"]) false [] false s).2.disk.tree [cl!"n"] = some (.link cl!"/g") ∧
    (uExists sysOps (sAt none [cl!"n"]) (uCopy sysOps 9 (sAt none [cl!"t", cl!"d", cl!"k"]) (sAt none [cl!"n"]) false [] false s).2).1 =
      .ok false :=
  ⟨linkSys, linkSys_ok, by decide +kernel, by decide +kernel, by decide +kernel, by decide +kernel, by decide +kernel⟩

/-- A link to a file with a question mark in its name loses what is after it. -/
theorem C97_question_refuted : ∃ s : Sys, SysOk (fun _ : Unit => []) (fun _ => 0) s ∧
    s.disk.tree [cl!"q"] = some (.link cl!"/f?b=c") ∧ (uIsfile sysOps (sAt none [cl!"q"]) s).1 = .ok true ∧
    (uCopy sysOps 9 (sAt none [cl!"q"]) (sAt none [cl!"n"]) false [] false s).1 = .ok () ∧
    (uCopy sysOps 9 (sAt none [cl!"q"]) (sAt none [cl!"n"]) false [] false s).2.disk.tree [cl!"n"] = some (.link cl!"/f") :=
  ⟨linkSys, linkSys_ok, by decide +kernel, by decide +kernel, by decide +kernel, by decide +kernel⟩

/-- Copying a link onto itself as a link removes it, and raises. -/
theorem C97_itself_refuted : ∃ s : Sys, SysOk (fun _ : Unit => []) (fun _ => 0) s ∧ s.disk.tree [cl!"m"] = some (.link cl!"/t/g") ∧
    (uCopy sysOps 9 (sAt none [cl!"m"]) (sAt none [cl!"m"]) false [] false s).1 = .error (.os .ENOENT) ∧
    (uCopy sysOps 9 (sAt none [cl!"m"]) (sAt none [cl!"m"]) false [] false s).2.disk.tree [cl!"m"] = none :=
  ⟨linkSys, linkSys_ok, by decide +kernel, by decide +kernel, by decide +kernel⟩

/-- Copying a link as a link to the file it leads to: the file is lost, in its place is a link to itself. -/
theorem C97_target_refuted : ∃ s : Sys, SysOk (fun _ : Unit => []) (fun _ => 0) s ∧ s.disk.tree [cl!"m"] = some (.link cl!"/t/g") ∧
    s.disk.tree [cl!"t", cl!"g"] = some (.file 0o644 [1, 2, 3]) ∧
    (uCopy sysOps 9 (sAt none [cl!"m"]) (sAt none [cl!"t", cl!"g"]) false [] false s).1 = .ok () ∧
    (uCopy sysOps 9 (sAt none [cl!"m"]) (sAt none [cl!"t", cl!"g"]) false [] false s).2.disk.tree [cl!"t", cl!"g"] = some (.link cl!"/t/g") :=
  ⟨linkSys, linkSys_ok, by decide +kernel, by decide +kernel, by decide +kernel, by decide +kernel⟩

/-- Copying a local link as a link over a file in memory: the *local* file of that path is replaced, the file in memory
    stays. -/
theorem C97_memory_refuted : ∃ s : Sys, SysOk (fun _ : Unit => []) (fun _ => 0) s ∧ s.disk.tree [cl!"m"] = some (.link cl!"/t/g") ∧
    s.disk.tree [cl!"a", cl!"f"] = some (.file 0o644 [7]) ∧ siteV (fun _ : Unit => 0) s (some ()) [cl!"a", cl!"f"] = some (.file [104, 105]) ∧
    (uCopy sysOps 9 (sAt none [cl!"m"]) (sAt (some ()) [cl!"a", cl!"f"]) false [] false s).1 = .ok () ∧
    (uCopy sysOps 9 (sAt none [cl!"m"]) (sAt (some ()) [cl!"a", cl!"f"]) false [] false s).2.disk.tree [cl!"a", cl!"f"] = some (.link cl!"/t/g") ∧
    siteV (fun _ : Unit => 0) (uCopy sysOps 9 (sAt none [cl!"m"]) (sAt (some ()) [cl!"a", cl!"f"]) false [] false s).2 (some ()) [cl!"a", cl!"f"] =
      some (.file [104, 105]) :=
  ⟨linkSys, linkSys_ok, by decide +kernel, by decide +kernel, by decide +kernel, by decide +kernel, by decide +kernel, by decide +kernel⟩

end Verif.Props
