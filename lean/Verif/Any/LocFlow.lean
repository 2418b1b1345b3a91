import Verif.Any.Flow
import Verif.Any.LocLink
/-!
# Copying local trees with links in them, or seen through links

While a tree is copied to a new name nothing is taken away, so a path that leads to an object goes on leading there.
-/
namespace Verif.Any
open Verif.Spec Verif.Gen

/-! ## Where paths lead when objects are added -/

/-- what there is stays, links with their texts -/
def Grows (d d' : Disk) : Prop := ∀ p o, d.tree p = some o →
  ∃ o', d'.tree p = some o' ∧ kindL o' = kindL o ∧ ∀ t, o = .link t → o' = .link t

theorem hop_mono {d d' : Disk} (hg : Grows d d') {fl : Bool} {j j' : List Str → List Str → Landing}
    (hj : ∀ a b q, j a b = .here q → j' a b = .here q) (l : List Str) :
    ∀ cur q, d.hop fl j cur l = .here q → d'.hop fl j' cur l = .here q := by
  induction l with
  | nil => intro cur q h; exact h
  | cons n l ih =>
    intro cur q h
    rw [Disk.hop] at h ⊢
    split at h
    · rename_i hn; rw [if_pos hn]; exact ih _ _ h
    · rename_i hn
      rw [if_neg hn]
      cases hv : d.tree (cur ++ [n]) with
      | none => rw [hv] at h; simp only at h; split at h <;> simp at h
      | some o =>
        rw [hv] at h
        obtain ⟨o', h1, h2, h3⟩ := hg _ _ hv
        rw [h1]
        cases o with
        | dir p =>
          cases o' with
          | dir p' => exact ih _ _ h
          | file _ _ => simp [kindL] at h2
          | link _ => simp [kindL] at h2
        | file p b =>
          cases o' with
          | dir p' => simp [kindL] at h2
          | file _ _ => exact h
          | link _ => simp [kindL] at h2
        | link t =>
          rw [h3 t rfl]
          simp only at h ⊢
          split at h
          · rename_i hc; rw [if_pos hc]; exact h
          · rename_i hc; rw [if_neg hc]; exact hj _ _ _ h

theorem land_mono {d d' : Disk} (hg : Grows d d') {fl : Bool} : ∀ k cur l q, d.land fl k cur l = .here q → d'.land fl k cur l = .here q
  | 0, cur, l, q, h => hop_mono hg (by simp) l cur q h
  | k + 1, cur, l, q, h => hop_mono hg (land_mono hg k) l cur q h

theorem find_mono {d d' : Disk} (hg : Grows d d') {fl : Bool} {p q : List Str} (hn : Nm p) (h : d.find fl (loc p).path = .here q) :
    d'.find fl (loc p).path = .here q := by
  rw [find_land hn] at h ⊢
  exact land_mono hg _ _ _ _ h

/-- the last name of a path is looked up in what the path before it leads to -/
theorem hop_snoc {d : Disk} (hd : DiskOk d) {fl : Bool} {m : Str} {j j' : List Str → List Str → Landing} {i : Nat}
    (hj : ∀ a b, (∃ p, d.tree a = some (.dir p)) → (∃ q p i, j' a b = .here q ∧ d.tree q = some (.dir p) ∧ j a (b ++ [m]) = d.land fl i q [m]) ∨
      ∃ e, j a (b ++ [m]) = .fail e)
    (hi : ∀ q, d.hop fl j q [m] = d.land fl i q [m]) (l : List Str) :
    ∀ cur, (∃ p, d.tree cur = some (.dir p)) →
    (∃ q p i, d.hop true j' cur l = .here q ∧ d.tree q = some (.dir p) ∧ d.hop fl j cur (l ++ [m]) = d.land fl i q [m]) ∨
      ∃ e, d.hop fl j cur (l ++ [m]) = .fail e := by
  induction l with
  | nil =>
    intro cur ⟨p, hp⟩
    exact .inl ⟨cur, p, i, rfl, hp, by rw [List.nil_append]; exact hi cur⟩
  | cons n l ih =>
    intro cur hc
    rw [List.cons_append, Disk.hop, Disk.hop]
    by_cases hn : n = cl!".."
    · rw [if_pos hn, if_pos hn]
      refine ih _ ?_
      rcases List.eq_nil_or_concat cur with rfl | ⟨c, x, rfl⟩
      · exact hc
      · rw [List.concat_eq_append, List.dropLast_concat]
        rw [List.concat_eq_append] at hc
        obtain ⟨p, hp⟩ := hc
        exact hd.tree c x (by rw [hp]; simp)
    · rw [if_neg hn, if_neg hn]
      cases hv : d.tree (cur ++ [n]) with
      | none => exact .inr ⟨.os .ENOENT, by simp⟩
      | some o =>
        cases o with
        | dir p => exact ih _ ⟨p, hv⟩
        | file p b => exact .inr ⟨.os .ENOTDIR, by simp⟩
        | link t =>
          simp only [List.append_eq_nil_iff, List.cons_ne_self, and_false, false_and, if_false, Bool.true_eq_false]
          rw [← List.append_assoc]
          refine hj _ _ ?_
          split
          · exact hd.root
          · exact hc

theorem land_snoc {d : Disk} (hd : DiskOk d) {fl : Bool} {m : Str} : ∀ k cur l, (∃ p, d.tree cur = some (.dir p)) →
    (∃ q p i, d.land true k cur l = .here q ∧ d.tree q = some (.dir p) ∧ d.land fl k cur (l ++ [m]) = d.land fl i q [m]) ∨
      ∃ e, d.land fl k cur (l ++ [m]) = .fail e
  | 0, cur, l, h => hop_snoc hd (i := 0) (fun _ _ _ => .inr ⟨_, rfl⟩) (fun _ => rfl) l cur h
  | k + 1, cur, l, h => hop_snoc hd (i := k + 1) (fun a b h => land_snoc hd k a b h) (fun _ => rfl) l cur h

/-- what is found is there -/
theorem find_snoc {d : Disk} (hd : DiskOk d) {p : List Str} {m : Str} (hn : Nm (p ++ [m])) {o : DObj}
    (h : d.stat true (loc (p ++ [m])).path = some o) :
    ∃ q pm, d.find true (loc p).path = .here q ∧ d.tree q = some (.dir pm) ∧ d.tree (q ++ [m]) ≠ none := by
  unfold Disk.stat at h
  rw [find_land hn] at h
  rw [find_land hn.of_prefix]
  rcases land_snoc hd (fl := true) (m := m) 40 [] p hd.root with ⟨q, pm, i, h1, h2, h3⟩ | ⟨e, he⟩
  · refine ⟨q, pm, h1, h2, fun hv => ?_⟩
    rw [h3] at h
    have : d.land true i q [m] = .free q m := by
      cases i <;> simp [Disk.land, Disk.hop, hn.dots m (by simp), hv]
    rw [this] at h
    simp at h
  · rw [he] at h; simp at h

/-! ## The rest of a state while a tree is written -/

section
variable {ι : Type} {E : ι → Dict} {r : ι → Nat}

theorem links_mkdir (c : Conn) (u : Uri) : Keeps LinksStay (sysOps.mkdir c u) := by
  cases c with
  | mem r => exact quiet_links.mem _
  | loc =>
    show Keeps LinksStay (if u.path = [] then pure () else onDisk (osMkdir u.path))
    refine Keeps.ite (quiet_links.pure _) fun s => ?_
    unfold onDisk osMkdir
    cases hf : s.disk.find false u.path with
    | here q => exact LinksStay.refl s
    | free c n => exact links_set (d := s.disk.set (c ++ [n]) _) rfl (.inl (by rw [find_isFree hf]; rfl))
    | fail e => exact LinksStay.refl s

theorem links_makedirs0 : ∀ (depth : Nat) (u : Uri), Keeps LinksStay (Any.makedirs sysOps depth u)
  | 0, _ => quiet_links.raise _
  | depth + 1, u => by
    have hm : Keeps LinksStay (uMkdir sysOps u) := quiet_links.withConn fun c => links_mkdir c _
    refine quiet_links.bind (quiet_links.withConn fun c => quiet_links.isdir c _) fun b => Keeps.ite (quiet_links.pure _) ?_
    refine quiet_links.bind (quiet_links.lift _) fun x => ?_
    refine quiet_links.bind (quiet_links.withConn fun c => quiet_links.isdir c _) fun b => ?_
    refine Keeps.ite (quiet_links.bind (links_makedirs0 depth _) fun _ => ?_) ?_
    · exact Keeps.ite hm (quiet_links.pure _)
    · exact Keeps.ite hm (quiet_links.pure _)

theorem links_makedirs (depth : Nat) (u : Uri) : Keeps LinksStay (Any.uMakedirs sysOps depth u) :=
  quiet_links.withConn fun _ => links_makedirs0 depth u

/-- the text of a link -/
def linkText : Option DObj → Str
  | some (.link t) => t
  | _ => []

/-- what there is, local links with their texts -/
def siteE (r : ι → Nat) (s : Sys) (k : Option ι) (p : List Str) : Option Ent :=
  match siteV r s k p with
  | none => none
  | some .dir => some .dir
  | some (.file d) => some (.file d)
  | some .other => some (.link (match k with | none => linkText (s.disk.tree p) | some _ => []))

theorem siteE_none {s : Sys} {k : Option ι} {p : List Str} : siteE r s k p = none ↔ siteV r s k p = none := by
  unfold siteE
  cases h : siteV r s k p with
  | none => simp
  | some o => cases o <;> simp

theorem siteE_dir {s : Sys} {k : Option ι} {p : List Str} : siteE r s k p = some .dir ↔ siteV r s k p = some .dir := by
  unfold siteE
  cases h : siteV r s k p with
  | none => simp
  | some o => cases o <;> simp

theorem siteE_file {s : Sys} {k : Option ι} {p : List Str} {d : Bytes} : siteE r s k p = some (.file d) ↔ siteV r s k p = some (.file d) := by
  unfold siteE
  cases h : siteV r s k p with
  | none => simp
  | some o => cases o <;> simp

theorem siteE_link {s : Sys} {p : List Str} {t : Str} : siteE r s none p = some (.link t) ↔ s.disk.tree p = some (.link t) := by
  unfold siteE
  cases h : s.disk.tree p with
  | none => simp [siteV, h]
  | some o => cases o <;> simp [siteV, h, kindL, linkText]

/-- what is the same stays the same with its text -/
theorem siteE_same {s s' : Sys} (hl : LinksStay s s') {k : Option ι} {p : List Str} (hv : siteV r s' k p = siteV r s k p) :
    siteE r s' k p = siteE r s k p := by
  unfold siteE
  rw [hv]
  cases h : siteV r s k p with
  | none => rfl
  | some o =>
    cases o with
    | dir => rfl
    | file d => rfl
    | other =>
      cases k with
      | some i => rfl
      | none =>
        obtain ⟨t, ht⟩ := siteV_lother.1 h
        simp only [ht, hl _ _ ht]

theorem siteE_upd {s s' : Sys} (hl : LinksStay s s') {k : Option ι} {q : List Str} {x : Kind} (hv : siteV r s' = upd (siteV r s) k q (some x))
    (p : List Str) (hp : p ≠ q) : siteE r s' k p = siteE r s k p :=
  siteE_same hl (by rw [hv, upd_ne (fun h => hp h.2)])

theorem grows_of {s0 s : Sys} (hl : LinksStay s0 s) (ho : ∀ p, siteV r s0 none p ≠ none → siteV r s none p = siteV r s0 none p) :
    Grows s0.disk s.disk := by
  intro p o hp
  have hv : siteV r s0 none p = some (kindL o) := by simp [siteV, hp]
  have := ho p (by rw [hv]; simp)
  rw [hv] at this
  cases hs : s.disk.tree p with
  | none => simp [siteV, hs] at this
  | some o' =>
    refine ⟨o', rfl, by simpa [siteV, hs] using this, ?_⟩
    rintro t rfl
    have := hl _ _ hp
    rw [hs] at this
    exact Option.some.inj this

/-- While something is written to the new name `e` at the place `k'`: what was there stays, and only on the way to `e` and below
    it there is something new. -/
structure Held (E : ι → Dict) (r : ι → Nat) (k' : Option ι) (e : List Str) (s0 s : Sys) : Prop where
  ok : SysOk E r s
  links : LinksStay s0 s
  old : ∀ j p, siteV r s0 j p ≠ none → siteV r s j p = siteV r s0 j p
  rest : ∀ j p, ¬ (j = k' ∧ (e <+: p ∨ p <+: e)) → siteV r s j p = siteV r s0 j p
  way : ∀ p, p <+: e → siteV r s k' p = some .dir ∨ siteV r s k' p = none

namespace Held
variable {k' : Option ι} {e : List Str} {s0 s : Sys}

theorem grows (h : Held E r k' e s0 s) : Grows s0.disk s.disk := grows_of h.links fun p hp => h.old none p hp

theorem find (h : Held E r k' e s0 s) {fl : Bool} {p q : List Str} (hn : Nm p) (hf : s0.disk.find fl (loc p).path = .here q) :
    s.disk.find fl (loc p).path = .here q := find_mono h.grows hn hf

/-- one more object below `e` -/
theorem step (h : Held E r k' e s0 s) (hnew : ∀ x, siteV r s0 k' (e ++ x) = none) {s' : Sys} (ok : SysOk E r s') (hl : LinksStay s s')
    {x : List Str} (hx : x ≠ []) {v : Kind} (hv : siteV r s' = upd (siteV r s) k' (e ++ x) (some v)) : Held E r k' e s0 s' where
  ok := ok
  links := h.links.trans hl
  old j p hp := by
    rw [hv, upd_ne]
    · exact h.old j p hp
    · rintro ⟨rfl, rfl⟩; exact hp (hnew x)
  rest j p hp := by
    rw [hv, upd_ne]
    · exact h.rest j p hp
    · rintro ⟨rfl, rfl⟩; exact hp ⟨rfl, .inl (List.prefix_append _ _)⟩
  way p hp := by
    rw [hv, upd_ne]
    · exact h.way p hp
    · rintro ⟨-, rfl⟩
      have := hp.length_le
      have h2 : 0 < x.length := List.length_pos_iff.2 hx
      simp only [List.length_append] at this
      omega

end Held

/-- copying the bytes of the file a path leads to -/
theorem file_through {s : Sys} (h : SysOk E r s) (hr : Function.Injective r) {k' : Option ι} {p q a : List Str} {n : Str} {d : Bytes}
    (hn : Nm p) (hf : s.disk.find true (loc p).path = .here q) (hq : Nm q) (hv : siteV r s none q = some (.file d)) (he : Nm (a ++ [n]))
    (hp : siteV r s k' a = some .dir) (hfree : siteV r s k' (a ++ [n]) = none) :
    ∃ s', (do
        copyContent sysOps (siteAt E none p) (siteAt E k' (a ++ [n]))
        if (siteAt E none p).scheme = (siteAt E k' (a ++ [n])).scheme then
          sysOps.copystat (siteC r none) (siteAt E none p) (siteAt E k' (a ++ [n])) : OM Sys Unit) s = (.ok (), s') ∧ SysOk E r s' ∧
      siteV r s' = upd (siteV r s) k' (a ++ [n]) (some (.file d)) ∧ LinksStay s s' := by
  have hne : ¬ (k' = none ∧ q = a ++ [n]) := by rintro ⟨rfl, rfl⟩; rw [hv] at hfree; simp at hfree
  obtain ⟨s1, e1, ok1, v1⟩ := site_content h hr hq he hv hp (.inl hfree) (fun c => hne ⟨c.1.symm, c.2⟩)
  have hfq : s.disk.find true (loc q).path = .here q := by
    obtain ⟨pm, ho⟩ := siteV_lfile.1 hv
    exact find_here h.disk hq ho (.inr rfl)
  have e1' : copyContent sysOps (siteAt E none p) (siteAt E k' (a ++ [n])) s = (.ok (), s1) := by
    refine Eq.trans ?_ e1
    have ho : uOpenR sysOps (siteAt E none p) s = uOpenR sysOps (siteAt E none q) s := by
      let L := sysLaws E r hr
      refine (L.withConn (k := none) h hn _ _).trans (Eq.trans ?_ (L.withConn (k := none) h hq _ _).symm)
      have : osOpenR (loc p).path s.disk = osOpenR (loc q).path s.disk := by unfold osOpenR; rw [hf, hfq]
      show OM.bnd (onDisk (osOpenR (loc p).path)) _ s = OM.bnd (onDisk (osOpenR (loc q).path)) _ s
      unfold OM.bnd onDisk
      rw [this]
    show OM.bnd _ _ _ = OM.bnd _ _ _
    unfold OM.bnd
    rw [ho]
  have st1 : LinksStay s s1 := by
    have := links_content (siteAt E none q) (siteAt E k' (a ++ [n])) s
    rwa [e1] at this
  have hm : siteV r s1 none q = some (.file d) := by rw [v1, upd_ne (fun c => hne ⟨c.1.symm, c.2⟩)]; exact hv
  -- the permissions
  have fin : ∃ s', (if (siteAt E none p).scheme = (siteAt E k' (a ++ [n])).scheme then
      sysOps.copystat (siteC r none) (siteAt E none p) (siteAt E k' (a ++ [n])) else pure ()) s1 = (.ok (), s') ∧
      SysOk E r s' ∧ siteV r s' = siteV r s1 ∧ LinksStay s1 s' := by
    cases k' with
    | some j =>
      refine ⟨s1, ?_, ok1, rfl, LinksStay.refl _⟩
      rw [if_neg (by simp [siteAt, Gen.mem, loc, Uri.scheme])]
      rfl
    | none =>
      obtain ⟨s2, c1, c2, c3⟩ := site_copystat ok1 hr hq he (d := d) (d' := d) hm (by rw [v1, upd_same])
      have hg : Grows s.disk s1.disk := by
        refine grows_of st1 (r := r) fun p hp => ?_
        rw [v1, upd_ne]; rintro ⟨-, rfl⟩; exact hp hfree
      have hf1 := find_mono hg hn hf
      have hfq1 := find_mono hg hq hfq
      have c1' : sysOps.copystat .loc (loc p) (loc (a ++ [n])) s1 = (.ok (), s2) := by
        refine Eq.trans ?_ c1
        show onDisk (osCopystat _ _) s1 = onDisk (osCopystat _ _) s1
        have : osCopystat (loc p).path (loc (a ++ [n])).path s1.disk = osCopystat (loc q).path (loc (a ++ [n])).path s1.disk := by
          unfold osCopystat; rw [hf1, hfq1]
        unfold onDisk
        rw [this]
        rfl
      refine ⟨s2, ?_, c2, c3, ?_⟩
      · rw [if_pos (show (siteAt E none p).scheme = (siteAt E none (a ++ [n])).scheme from rfl)]; exact c1'
      · have := links_copystat .loc (loc p) (loc (a ++ [n])) s1
        rwa [c1'] at this
  obtain ⟨s', c1, c2, c3, c4⟩ := fin
  exact ⟨s', (bind_ok e1').trans c1, c2, by rw [c3, v1], st1.trans c4⟩

/-! ## Reading a local tree -/

/-- A local tree, as it is read in the states that satisfy `J`. -/
structure Reading (E : ι → Dict) (r : ι → Nat) (J : Sys → Prop) (fl : Bool) (src : List Str) where
  ok : ∀ {s}, J s → SysOk E r s
  T : List Str → Option Ent
  ld : List Str → Bool
  names : List Str → List Str
  parent : ∀ {x n}, T (x ++ [n]) ≠ none → T x = some .dir
  sorted : ∀ {x}, (names x).Pairwise strLt
  mem_names : ∀ {x n}, n ∈ names x ↔ T (x ++ [n]) ≠ none
  nm : ∀ {x}, T x ≠ none → Nm (src ++ x)
  listing : ∀ {s x}, J s → T x = some .dir →
    ∃ q, s.disk.find true (loc (src ++ x)).path = .here q ∧ isDirD (s.disk.tree q) = true ∧ sortStr (s.disk.names q) = names x
  isdir : ∀ {s x o}, J s → T x = some o →
    isDirD (s.disk.stat true (loc (src ++ x)).path) = (match o with | .dir => true | .file _ => false | .link _ => ld x)
  islink : ∀ {s x o}, J s → T x = some o →
    (isLinkD (s.disk.stat false (loc (src ++ x)).path) && !fl) = (match o with | .link _ => true | _ => false)

/-- what copying it to the new name `e` at the place `k'` takes besides -/
structure Writing {E : ι → Dict} {r : ι → Nat} {k' : Option ι} {e : List Str} {s0 : Sys} {fl : Bool} {src : List Str}
    (R : Reading E r (Held E r k' e s0) fl src) : Prop where
  trim : ∀ {x n}, R.T (x ++ [n]) = some .dir → Trimmed n
  file : ∀ {s x d}, Held E r k' e s0 s → R.T x = some (.file d) →
    ∃ q, s.disk.find true (loc (src ++ x)).path = .here q ∧ Nm q ∧ siteV r s none q = some (.file d)
  link : ∀ {x t}, R.T x = some (.link t) → k' = none ∧ s0.disk.tree (src ++ x) = some (.link t) ∧ ∃ ts, Nm ts ∧ t = pathOf ts

namespace Reading
section
variable {J : Sys → Prop} {fl : Bool} {src : List Str} (R : Reading E r J fl src)

theorem wc {s : Sys} (h : SysOk E r s) {k : Option ι} {cs : List Str} (hn : Nm cs) {α : Type} (m : Mem.Meth) (body : sysOps.Conn → OM Sys α) :
    Any.withConn sysOps (siteAt E k cs) m body s = body (siteC r k) s :=
  (bind_ok (f := fun c => (do sysOps.hook c (siteAt E k cs) m; body c : OM Sys α)) (site_conn h)).trans (bind_ok (site_hook h hn m))

theorem uIslink {s : Sys} (h : J s) {x : List Str} (hx : R.T x ≠ none) :
    Any.uIslink sysOps (siteAt E none (src ++ x)) s = (.ok (isLinkD (s.disk.stat false (loc (src ++ x)).path)), s) :=
  (wc (R.ok h) (R.nm hx) _ _).trans rfl

/-- it can be read -/
def source : Source sysOps fl where
  c := siteC r none
  J := J
  T := R.T
  src x := siteAt E none (src ++ x)
  ld := R.ld
  names := R.names
  parent := R.parent
  sorted := R.sorted
  mem_names := R.mem_names
  listdir {s x} h hd := by
    obtain ⟨q, h1, h2, h3⟩ := R.listing h hd
    refine ⟨sortStr (s.disk.names q), ?_, ?_⟩
    · have : osListdir (loc (src ++ x)).path s.disk = (.ok (s.disk.names q), s.disk) := by
        unfold osListdir
        rw [h1]
        simp only [h2, if_true]
      exact bind_ok (onDisk_ok this)
    · rw [sortStr_of_pairwise (pairwise_sortStr (diskNames_nodup (R.ok h).disk.nodup q)), h3]
  div {x n} hx := by
    have := site_div (E := E) (k := none) (cs := src ++ x) (ns := [n]) (p := n) (by rw [List.append_assoc]; exact R.nm hx) (by simp) (by simp [slash])
    rw [List.append_assoc] at this
    exact this
  isdir {s x n o} h ho := by
    have := R.isdir h ho
    show osAsk true isDirD (loc (src ++ (x ++ [n]))) s = _
    unfold osAsk
    rw [this]
    cases o <;> rfl
  islink {s x n o} h ho := ⟨_, R.uIslink h (by rw [ho]; simp), R.islink h ho⟩

theorem uWalk {s : Sys} (h : J s) (hroot : R.T [] = some .dir) {td : Bool} {depth : Nat} (hh : ∀ x, R.T x = some .dir → x.length < depth) :
    ∃ ps : List (List Str), Any.uWalk sysOps depth (siteAt E none src) td fl s = (.ok (ps.map R.source.row), s) ∧
      (∀ p, p ∈ ps ↔ R.T p = some .dir) ∧ ps.Pairwise (Order td) := by
  obtain ⟨ps, h1, h2, h3⟩ := R.source.walk_collect td h depth [] [] hroot (fun y hy => hh y (by rw [List.nil_append] at hy; exact hy))
  refine ⟨ps, ?_, fun p => by rw [h2]; exact ⟨fun h => h.2, fun h => ⟨List.nil_prefix, h⟩⟩, h3⟩
  have hn : Nm src := by have := R.nm (x := []) (by rw [hroot]; simp); rwa [List.append_nil] at this
  refine (wc (R.ok h) hn _ _).trans ?_
  have c1 : R.source.src [] = siteAt E none src := by show siteAt E none (src ++ []) = _; rw [List.append_nil]
  rw [c1, List.nil_append] at h1
  exact h1

end

section
variable {k' : Option ι} {e : List Str} {s0 : Sys} {fl : Bool} {src : List Str} (R : Reading E r (Held E r k' e s0) fl src)

/-- and be written -/
def sink (W : Writing R) (hr : Function.Injective r) (hsrc : src ≠ []) (he : Nm e) (he0 : e ≠ []) (hnew : ∀ x, siteV r s0 k' (e ++ x) = none) {depth : Nat}
    (hdep : 0 < depth) : Sink R.source depth where
  D s x := siteE r s k' (e ++ x)
  dst x := siteAt E k' (e ++ x)
  div {x n} hx := by
    have := site_div (E := E) (k := k') (cs := e ++ x) (ns := [n]) (p := n) (by
      rw [List.append_assoc]; exact he.append he0 (R.nm hx)) (by simp) (by simp [slash])
    rw [List.append_assoc] at this
    exact this
  base {s x} hx := by
    have hn : Nm (src ++ x) := R.nm (by
      have : R.T x = some .dir := hx
      rw [this]; simp)
    have ht : ∀ n ∈ x, Trimmed n := by
      intro n hn'
      obtain ⟨a, b, rfl⟩ := List.append_of_mem hn'
      refine W.trim (x := a) ?_
      by_contra hc
      have := R.source.below (x := a ++ [n]) hc (y := b)
      by_cases hb : b = []
      · subst hb; exact hc hx
      · have := this hb
        simp only [List.append_assoc, List.singleton_append] at this
        rw [hx] at this; simp at this
    have := (sysLaws E r hr).dbase (k := none) (k' := k') (s := s) hn hsrc (he.append he0 hn) ht
    simp only [List.append_nil, show R.source.src [] = siteAt E none src by show siteAt E none (src ++ []) = _; rw [List.append_nil]]
    exact this
  mkdir {s x n} h ht hd hv := by
    have hn : Nm (e ++ x ++ [n]) := by
      rw [List.append_assoc]; exact he.append he0 (R.nm (by
        have : R.T (x ++ [n]) = some .dir := ht
        rw [this]; simp))
    have hv' : siteV r s k' (e ++ x ++ [n]) = none := by rw [List.append_assoc]; exact siteE_none.1 hv
    obtain ⟨s', h1, h2, h3⟩ := (sysLaws E r hr).uMakedirs1 (k := k') hdep h.ok hn (siteE_dir.1 hd) hv'
    have hl : LinksStay s s' := by
      have := links_makedirs depth (siteAt E k' (e ++ x ++ [n])) s
      rwa [show Any.uMakedirs sysOps depth (siteAt E k' (e ++ x ++ [n])) s = _ from h1] at this
    change siteV r s' = upd (siteV r s) k' (e ++ x ++ [n]) (some .dir) at h3
    rw [List.append_assoc] at h1 h3
    refine ⟨s', h1, h.step hnew h2 hl (by simp) h3, funext fun p => ?_⟩
    by_cases hp : p = x ++ [n]
    · subst hp; rw [put_same]; exact siteE_dir.2 (by rw [h3, upd_same])
    · rw [put_ne hp]; exact siteE_upd hl h3 _ (by simpa using hp)
  file {s x n d} h ht hd hv := by
    have hnm : Nm (src ++ (x ++ [n])) := R.nm (by
        have : R.T (x ++ [n]) = some (.file d) := ht
        rw [this]; simp)
    have hn : Nm (e ++ x ++ [n]) := by rw [List.append_assoc]; exact he.append he0 hnm
    have hv' : siteV r s k' (e ++ x ++ [n]) = none := by rw [List.append_assoc]; exact siteE_none.1 hv
    obtain ⟨q, g1, g2, g3⟩ := W.file h ht
    obtain ⟨s', h1, h2, h3, hl⟩ := file_through h.ok hr hnm g1 g2 g3 hn (siteE_dir.1 hd) hv'
    rw [List.append_assoc] at h1 h3
    refine ⟨s', h1, h.step hnew h2 hl (by simp) h3, funext fun p => ?_⟩
    by_cases hp : p = x ++ [n]
    · subst hp; rw [put_same]; exact siteE_file.2 (by rw [h3, upd_same])
    · rw [put_ne hp]; exact siteE_upd hl h3 _ (by simpa using hp)
  link {s x n t} h ht hd hv := by
    have ht' : R.T (x ++ [n]) = some (.link t) := ht
    have hnm : Nm (src ++ (x ++ [n])) := R.nm (by rw [ht']; simp)
    obtain ⟨rfl, g2, ts, g3, rfl⟩ := W.link ht'
    have hn : Nm (e ++ x ++ [n]) := by rw [List.append_assoc]; exact he.append he0 hnm
    have hv' : s.disk.tree (e ++ x ++ [n]) = none := by rw [List.append_assoc]; exact siteV_lnone.1 (siteE_none.1 hv)
    obtain ⟨pm, hpm⟩ := siteV_ldir.1 (siteE_dir.1 hd)
    obtain ⟨s', h1, h2, h3, h4⟩ := copyLink_loc h.ok hnm g3 hn (h.links _ _ g2) hpm (.inl hv')
    have hl : LinksStay s s' := by
      intro p t hp
      rw [h4, if_neg]
      · exact hp
      · rintro rfl; rw [hv'] at hp; simp at hp
    have h5 : siteV r s' = upd (siteV r s) none (e ++ (x ++ [n])) (some .other) := by
      rw [← List.append_assoc]
      funext j p
      cases j with
      | some i => rw [upd_ne (by simp)]; simp only [siteV, h3]
      | none =>
        by_cases hp : p = e ++ x ++ [n]
        · subst hp; rw [upd_same]; simp [siteV, h4, kindL]
        · rw [upd_ne (by simpa using hp)]; simp only [siteV, h4, if_neg hp]
    refine ⟨s', ?_, h.step hnew h2 hl (by simp) h5, funext fun p => ?_⟩
    · rw [List.append_assoc] at h1; exact h1
    · by_cases hp : p = x ++ [n]
      · subst hp; rw [put_same]; exact siteE_link.2 (by rw [h4, ← List.append_assoc, if_pos rfl])
      · rw [put_ne hp]; exact siteE_upd hl h5 _ (by simpa using hp)

/-- copying the tree to a new name -/
theorem copy {init : List Str} {n : Str} {R : Reading E r (Held E r k' e s0) fl (init ++ [n])} (W : Writing R) (h : SysOk E r s0) (hr : Function.Injective r)
    {ds ig : List Str} {depth : Nat} (hroot : R.T [] = some .dir) (hds : Nm ds) (he : Nm e) (ht : Target (siteV r s0 k') ds n e)
    (hclear : ∀ p, p <+: e → siteV r s0 k' p = some .dir ∨ siteV r s0 k' p = none) (hnew : siteV r s0 k' e = none) (hl : e.length < depth)
    (hh : ∀ x, R.T x = some .dir → x.length < depth) :
    ∃ s', uCopy sysOps depth (siteAt E none (init ++ [n])) (siteAt E k' ds) true ig fl s0 = (.ok (), s') ∧ Held E r k' e s0 s' ∧
      siteV r s' k' e = some .dir ∧ ∀ x, x ≠ [] → siteE r s' k' (e ++ x) = R.source.kept ig x := by
  let L := sysLaws E r hr
  have hn : Nm (init ++ [n]) := by have := R.nm (x := []) (by rw [hroot]; simp); rwa [List.append_nil] at this
  have he0 : e ≠ [] := by rintro rfl; rw [site_root h] at hnew; simp at hnew
  have hnone : ∀ x, siteV r s0 k' (e ++ x) = none := fun x => L.none_below h hnew
  have h00 : Held E r k' e s0 s0 := ⟨h, LinksStay.refl _, fun _ _ _ => rfl, fun _ _ _ => rfl, hclear⟩
  have hcds : Clear (siteV r s0 k') ds := by
    cases ht with
    | into hd => exact L.clear_dir h hd
    | new hd => exact ⟨fun p hp _ => hclear p hp, by rw [hd]; simp⟩
  have hdep : 0 < depth := Nat.zero_lt_of_lt hl
  obtain ⟨s1, a1, a2, a3⟩ := L.uMakedirs (k := k') h he hclear hl
  change siteV r s1 = mkdirs (siteV r s0) k' e at a3
  have hl1 : LinksStay s0 s1 := by
    have := links_makedirs depth (siteAt E k' e) s0
    rwa [show Any.uMakedirs sysOps depth (siteAt E k' e) s0 = _ from a1] at this
  have h1 : Held E r k' e s0 s1 := by
    refine ⟨a2, hl1, fun j p hp => ?_, fun j p hp => ?_, fun p hp => .inl (by rw [a3]; simp [mkdirs, hp])⟩
    · rw [a3]; unfold mkdirs; split
      · rename_i hc
        obtain ⟨rfl, hc⟩ := hc
        rcases hclear p hc with h | h
        · exact h.symm
        · exact absurd h hp
      · rfl
    · rw [a3]; unfold mkdirs; rw [if_neg]; rintro ⟨rfl, hc⟩; exact hp ⟨rfl, .inr hc⟩
  let K := R.sink W hr (by simp) he he0 hnone hdep
  obtain ⟨s2, b1, b2, b3⟩ := K.walk (ig := ig) depth [] h1 hroot R.source.cut_nil (by
      show siteE r s1 k' (e ++ []) = some .dir
      rw [List.append_nil, siteE_dir, a3]; simp [mkdirs]) (by
      intro y hy
      show siteE r s1 k' (e ++ ([] ++ y)) = none
      rw [List.nil_append, siteE_none, a3]
      unfold mkdirs
      rw [if_neg, hnone]
      rintro ⟨-, hc⟩
      have := hc.length_le
      have h2 : 0 < y.length := List.length_pos_iff.2 hy
      simp only [List.length_append] at this
      omega) (fun y hy => hh y (by rw [List.nil_append] at hy; exact hy))
  -- the way there
  obtain ⟨q, g1, g2, -⟩ := R.listing h00 hroot
  rw [List.append_nil] at g1
  have hst : s0.disk.stat true (loc (init ++ [n])).path = s0.disk.tree q := by unfold Disk.stat; rw [g1]
  obtain ⟨o, ho⟩ : ∃ o, s0.disk.tree q = some o := by
    cases hv : s0.disk.tree q with
    | none => rw [hv] at g2; simp [isDirD] at g2
    | some o => exact ⟨o, rfl⟩
  have e1 : uExists sysOps (siteAt E none (init ++ [n])) s0 = (.ok true, s0) := by
    refine (wc h hn _ _).trans ?_
    show osAsk true _ (loc (init ++ [n])) s0 = _
    unfold osAsk
    rw [hst, ho]
    rfl
  have e2 : Any.uIsdir sysOps (siteAt E none (init ++ [n])) s0 = (.ok true, s0) := by
    refine (wc h hn _ _).trans ?_
    show osAsk true isDirD (loc (init ++ [n])) s0 = _
    unfold osAsk
    rw [hst, g2]
  have e3 := R.uIslink h00 (x := []) (by rw [hroot]; simp)
  have e4 := R.islink h00 (x := []) hroot
  rw [List.append_nil] at e3 e4
  have fin : (do
      if (← Any.uIslink sysOps (siteAt E none (init ++ [n]))) && !fl then copyLink sysOps (siteC r none) (siteAt E none (init ++ [n])) (siteAt E k' e)
      else
        Any.uMakedirs sysOps depth (siteAt E k' e)
        copyWalk sysOps depth (siteC r none) ig fl (siteAt E none (init ++ [n])) (siteAt E k' e) : OM Sys Unit) s0 = (.ok (), s2) := by
    refine (bind_ok e3).trans ?_
    rw [e4, if_neg Bool.false_ne_true]
    refine (bind_ok a1).trans ?_
    refine (wc a2 hn _ _).trans ?_
    have b1' := b1
    unfold Sink.copier at b1'
    have c1 : R.source.src [] = siteAt E none (init ++ [n]) := by show siteAt E none (init ++ [n] ++ []) = _; rw [List.append_nil]
    have c2 : K.dst [] = siteAt E k' e := by show siteAt E k' (e ++ []) = _; rw [List.append_nil]
    rw [c1, c2] at b1'
    exact b1'
  have hD : ∀ p, siteE r s2 k' (e ++ p) = if [] <+: p ∧ p ≠ [] then R.source.kept ig p else siteE r s1 k' (e ++ p) := b3
  refine ⟨s2, ?_, b2, ?_, fun x hx => ?_⟩
  · refine (wc h hn _ _).trans ?_
    unfold Any.copy
    refine (bind_ok e1).trans ?_
    rw [Bool.not_true, if_neg Bool.false_ne_true]
    refine (bind_ok e2).trans ?_
    rw [Bool.not_true, if_neg Bool.false_ne_true]
    refine (bind_ok (L.uIsdir h hds hcds)).trans ?_
    cases ht with
    | into hd =>
      have : isD (L.V s0 k' ds) = true := by rw [show L.V s0 k' ds = _ from hd]; rfl
      rw [this, if_pos rfl, site_last hn]
      have : (siteAt E k' ds).div n = .ok (siteAt E k' (ds ++ [n])) := site_div he (by simp) (by simp [slash])
      rw [this]
      exact fin
    | new hd =>
      have : isD (L.V s0 k' e) = false := by rw [show L.V s0 k' e = _ from hd]; rfl
      rw [this, if_neg Bool.false_ne_true]
      exact fin
  · have := hD []
    rw [if_neg (by simp), List.append_nil] at this
    refine siteE_dir.1 (this.trans (siteE_dir.2 ?_))
    rw [a3]; simp [mkdirs]
  · rw [hD, if_pos ⟨List.nil_prefix, hx⟩]

end
end Reading
end
end Verif.Any
