import Verif.Props.LocalLinks
import Verif.Props.UriMisc
/-!
# Relative local URIs (C114)

A relative local URI has the path `./…`, which the operating system takes from the current directory of the process.  It
means what the absolute URI means that names the current directory first.
-/
namespace Verif.Props
open Verif.Mem (World)
open Verif.Any Verif.Spec Verif.Gen

/-! ## Paths -/

theorem comps_dot (r : Str) : comps (cl!"./" ++ r) = comps r := by
  unfold comps
  rw [show cl!"./" ++ r = cl!"." ++ '/' :: r from rfl, splitC_append (by decide)]
  simp

theorem comps_from {c : List Str} (h : Nm c) (r : Str) : comps (slash c ++ '/' :: r) = c ++ comps r := by
  have e := comps_pathOf h
  unfold comps at e ⊢
  rw [splitC_append_sep, List.filter_append]
  congr 1
  cases c with
  | nil => rfl
  | cons x c => exact e

/-- going on from a directory -/
theorem land_parent {d : Disk} (h : DiskOk d) {fl : Bool} {k : Nat} {c rest : List Str} (hn : ∀ n ∈ c, n ≠ cl!"..")
    (hc : isDirD (d.tree c) = true) : d.land fl k [] (c ++ rest) = d.land fl k c rest := by
  have : ∃ m, d.tree c = some (.dir m) := by
    cases e : d.tree c with
    | none => rw [e] at hc; exact absurd hc (by simp [isDirD])
    | some o => cases o with
      | dir m => exact ⟨m, rfl⟩
      | file p b => rw [e] at hc; exact absurd hc (by simp [isDirD])
      | link t => rw [e] at hc; exact absurd hc (by simp [isDirD])
  obtain ⟨m, hm⟩ := this
  cases k <;> exact hop_parent h hn hm

/-- C114: the path `./r` leads where `r` after the path of the current directory leads. -/
theorem C114_path {d : Disk} (h : DiskOk d) (hn : Nm d.cwd) (hc : isDirD (d.tree d.cwd) = true) (fl : Bool) (r : Str) :
    d.find fl (cl!"./" ++ r) = d.find fl (slash d.cwd ++ '/' :: r) := by
  have e : ∃ t, slash d.cwd ++ '/' :: r = '/' :: t := by
    cases d.cwd with
    | nil => exact ⟨r, rfl⟩
    | cons x c => exact ⟨_, rfl⟩
  obtain ⟨t, ht⟩ := e
  unfold Disk.find
  rw [comps_from hn, comps_dot, land_parent h hn.dots hc]
  rw [ht, if_neg (by simp), if_neg (by simp [startsWith, List.isPrefixOf]), if_pos hc, if_neg (by simp),
    if_pos (by simp [startsWith, List.isPrefixOf])]

/-- C114: where the current directory is gone, a relative path leads nowhere. -/
theorem C114_gone {d : Disk} (hc : isDirD (d.tree d.cwd) = false) (fl : Bool) (r : Str) :
    d.find fl (cl!"./" ++ r) = .fail (.os .ENOENT) := by
  unfold Disk.find
  rw [if_neg (by simp), if_neg (by simp [startsWith, List.isPrefixOf]), if_neg (by simp [hc])]

/-! ## Calls -/

/-- a local URI without reserved parameters -/
structure IsLocal (u : Uri) : Prop where
  scheme : u.scheme = some cl!"file"
  extras : u.allExtras.any (fun kv => kv.1 ∈ Mem.reservedNames) = false

theorem IsLocal.loc (cs : List Str) : IsLocal (Any.loc cs) := ⟨rfl, by simp⟩

theorem IsLocal.conn {α : Type} {u : Uri} (h : IsLocal u) (m : Mem.Meth) (f : Conn → OM Sys α) (s : Sys) :
    withConn sysOps u m f s = f .loc s := by
  show OM.bnd (sysConn u) _ s = _
  rw [sysConn, if_neg (by simp [h.extras]), if_pos h.scheme]
  rfl

/-- two local URIs whose paths lead to the same place -/
structure SamePlace (d : Disk) (u v : Uri) : Prop where
  fst : IsLocal u
  snd : IsLocal v
  find : ∀ fl, d.find fl u.path = d.find fl v.path
  ne : (u.path = []) = (v.path = [])

variable {s : Sys} {u v : Uri}

theorem SamePlace.ask (h : SamePlace s.disk u v) (fl : Bool) (f : Option DObj → Bool) : osAsk fl f u s = osAsk fl f v s := by
  unfold osAsk Disk.stat; rw [h.find]

theorem onDisk_congr {α : Type} {m m' : OM Disk α} (h : m s.disk = m' s.disk) : onDisk m s = onDisk m' s := by
  unfold onDisk; rw [h]

theorem bnd_congr {α β : Type} {m m' : OM Sys α} {f f' : α → OM Sys β} (h : m s = m' s)
    (hf : ∀ a s', m s = (.ok a, s') → f a s' = f' a s') : (m >>= f) s = (m' >>= f') s := by
  show OM.bnd m f s = OM.bnd m' f' s
  unfold OM.bnd
  rw [← h]
  cases e : m s with
  | mk x s' => cases x with
    | error e => rfl
    | ok a => exact hf a s' e

theorem SamePlace.ask_bind {α : Type} (h : SamePlace s.disk u v) (fl : Bool) (f : Option DObj → Bool) {g g' : Bool → OM Sys α}
    (hg : ∀ b, g b s = g' b s) : (osAsk fl f u >>= g) s = (osAsk fl f v >>= g') s := by
  refine bnd_congr (h.ask fl f) fun a s' e => ?_
  simp only [osAsk, Prod.mk.injEq] at e
  rw [← e.2]
  exact hg a

theorem SamePlace.with_ {α : Type} {m : Mem.Meth} (h : SamePlace s.disk u v) {f g : Conn → OM Sys α} (hf : f .loc s = g .loc s) :
    withConn sysOps u m f s = withConn sysOps v m g s := by
  rw [h.fst.conn, h.snd.conn, hf]

theorem IsLocal.with_ {α : Type} {m : Mem.Meth} {t : Uri} (h : IsLocal t) {f g : Conn → OM Sys α} (hf : f .loc s = g .loc s) :
    withConn sysOps t m f s = withConn sysOps t m g s := by
  rw [h.conn, h.conn, hf]

/-- C114: URIs that lead to the same place answer the same. -/
theorem C114_ask (h : SamePlace s.disk u v) :
    uExists sysOps u s = uExists sysOps v s ∧ uIsfile sysOps u s = uIsfile sysOps v s ∧
    uIsdir sysOps u s = uIsdir sysOps v s ∧ uIslink sysOps u s = uIslink sysOps v s ∧
    uReadlink sysOps u s = uReadlink sysOps v s ∧ uListdir sysOps u s = uListdir sysOps v s := by
  refine ⟨h.with_ (h.ask ..), h.with_ (h.ask ..), h.with_ (h.ask ..), h.with_ (h.ask ..), h.with_ ?_, h.with_ ?_⟩
  · exact bnd_congr (onDisk_congr (by unfold osReadlink; rw [h.find])) fun _ _ _ => rfl
  · exact bnd_congr (onDisk_congr (by unfold osListdir; rw [h.find])) fun _ _ _ => rfl

/-- C114: and do the same. -/
theorem C114_do (h : SamePlace s.disk u v) :
    uMkdir sysOps u s = uMkdir sysOps v s ∧ uOpenR sysOps u s = uOpenR sysOps v s ∧
    uOpenW sysOps u s = uOpenW sysOps v s ∧ uMd5 sysOps u s = uMd5 sysOps v s ∧
    (∀ n, uRemove sysOps n u false s = uRemove sysOps n v false s) ∧
    (∀ t, IsLocal t → uSymlink sysOps t u s = uSymlink sysOps t v s) ∧
    (∀ t, uCopystat sysOps u t s = uCopystat sysOps v t s) ∧
    (∀ t, IsLocal t → uCopystat sysOps t u s = uCopystat sysOps t v s) := by
  have hR : uOpenR sysOps u s = uOpenR sysOps v s := by
    refine h.with_ ?_
    exact bnd_congr (onDisk_congr (by unfold osOpenR; rw [h.find])) fun _ _ _ => rfl
  refine ⟨?_, hR, ?_, ?_, fun n => ?_, fun t ht => ?_, fun t => ?_, fun t ht => ?_⟩
  · refine h.with_ ?_
    show (if u.path = [] then pure () else onDisk (osMkdir u.path) : OM Sys Unit) s =
      (if v.path = [] then pure () else onDisk (osMkdir v.path) : OM Sys Unit) s
    simp only [h.ne]
    split
    · rfl
    · exact onDisk_congr (by unfold osMkdir; rw [h.find])
  · refine h.with_ ?_
    exact bnd_congr (onDisk_congr (by unfold osOpenW; rw [h.find])) fun _ _ _ => rfl
  · refine h.with_ ?_
    exact bnd_congr hR fun _ _ _ => rfl
  · have hu : onDisk (osUnlink u.path) s = onDisk (osUnlink v.path) s := onDisk_congr (by unfold osUnlink; rw [h.find])
    refine h.with_ ?_
    refine h.ask_bind _ _ fun b => ?_
    cases b
    · refine h.ask_bind _ _ fun b => ?_
      cases b
      · rfl
      · refine h.ask_bind _ _ fun b => ?_
        cases b
        · refine h.ask_bind _ _ fun b => ?_
          cases b
          · rfl
          · exact hu
        · refine h.ask_bind _ _ fun b => ?_
          cases b
          · exact onDisk_congr (by unfold osRmdir; rw [h.find])
          · rfl
    · exact hu
  · refine ht.with_ ?_
    exact onDisk_congr (by unfold osSymlink; rw [h.find])
  · refine h.with_ ?_
    exact onDisk_congr (by unfold osCopystat; rw [h.find])
  · refine ht.with_ ?_
    exact onDisk_congr (by unfold osCopystat; rw [h.find])

/-! ## Relative URIs -/

/-- C114: a relative path gives a URI that leads where the absolute one leads that begins with the current directory:
    any local URI with that path, and the one of the names if there is no `..`. -/
theorem C114_relative {d : Disk} (h : DiskOk d) (hn : Nm d.cwd) (hc : isDirD (d.tree d.cwd) = true) {r : Str}
    (hr : NoneOf cl!"?#\\" r) (hi : hasSub cl!"((" r = false) (h1 : ∀ t, r ≠ '/' :: t) (h2 : ∀ t, r ≠ '.' :: t)
    (h3 : ∀ a t, r ≠ a :: ':' :: t) (h4 : hasSub cl!"://" r = false) :
    ∃ u, URI r = .ok u ∧ u.isAbsolute = false ∧
      (∀ v, IsLocal v → v.path = slash d.cwd ++ '/' :: r → SamePlace d u v) ∧
      ∀ cs, cs = d.cwd ++ comps r → Nm cs → ∃ v, URI (cl!"file://" ++ pathOf cs) = .ok v ∧ v.path = pathOf cs ∧ SamePlace d u v := by
  obtain ⟨u, e1, e2, e3, e4, -, e6⟩ := relative_uri hr hi h1 h2 h3 h4
  have hu : IsLocal u := ⟨e4, by rw [e6]; rfl⟩
  refine ⟨u, e1, e3, fun v hv hp => ⟨hu, hv, fun fl => ?_, ?_⟩, ?_⟩
  · rw [e2, hp, C114_path h hn hc]
  · rw [e2, hp]; simp
  · rintro cs rfl hcs
    refine ⟨loc (d.cwd ++ comps r), loc_eq hcs, loc_path hcs, hu, .loc _, fun fl => ?_, ?_⟩
    · rw [e2, C114_path h hn hc, find_loc hcs]
      have e : ∃ t, slash d.cwd ++ '/' :: r = '/' :: t := by
        cases d.cwd with
        | nil => exact ⟨r, rfl⟩
        | cons x c => exact ⟨_, rfl⟩
      obtain ⟨t, ht⟩ := e
      unfold Disk.find
      rw [comps_from hn, ht, if_neg (by simp), if_pos (by simp [startsWith, List.isPrefixOf])]
      rfl
    · rw [e2]
      simp [loc_path_ne hcs]

/-- C114: where the current directory is gone, there is nothing at a relative URI, and nothing can be made. -/
theorem C114_nothing {s : Sys} (hc : isDirD (s.disk.tree s.disk.cwd) = false) {r : Str}
    (hr : NoneOf cl!"?#\\" r) (hi : hasSub cl!"((" r = false) (h1 : ∀ t, r ≠ '/' :: t) (h2 : ∀ t, r ≠ '.' :: t)
    (h3 : ∀ a t, r ≠ a :: ':' :: t) (h4 : hasSub cl!"://" r = false) :
    ∃ u, URI r = .ok u ∧ uExists sysOps u s = (.ok false, s) ∧ uIslink sysOps u s = (.ok false, s) ∧
      uListdir sysOps u s = (.error (.os .ENOENT), s) ∧ uMkdir sysOps u s = (.error (.os .ENOENT), s) ∧
      uOpenR sysOps u s = (.error (.os .ENOENT), s) ∧ uOpenW sysOps u s = (.error (.os .ENOENT), s) ∧
      ∀ n rec, uRemove sysOps n u rec s = (.error .fileDoesNotExist, s) := by
  obtain ⟨u, e1, e2, -, e4, -, e6⟩ := relative_uri hr hi h1 h2 h3 h4
  have hu : IsLocal u := ⟨e4, by rw [e6]; rfl⟩
  have hf (fl) : s.disk.find fl u.path = .fail (.os .ENOENT) := by rw [e2]; exact C114_gone hc fl r
  have ha (fl f) : osAsk fl f u s = (.ok (f none), s) := by unfold osAsk Disk.stat; rw [hf]
  have hd {α : Type} {m : OM Disk α} {e : PyErr} (h : m s.disk = (.error e, s.disk)) : onDisk m s = (.error e, s) := by
    unfold onDisk; rw [h]
  refine ⟨u, e1, ?_, ?_, ?_, ?_, ?_, ?_, fun n rec => ?_⟩
  · exact (hu.conn _ _ _).trans (ha ..)
  · exact (hu.conn _ _ _).trans (ha ..)
  · exact (hu.conn _ _ _).trans (bind_error (hd (by unfold osListdir; rw [hf])))
  · refine (hu.conn _ _ _).trans ?_
    show (if u.path = [] then pure () else onDisk (osMkdir u.path) : OM Sys Unit) s = _
    rw [if_neg (by rw [e2]; simp)]
    exact hd (by unfold osMkdir; rw [hf])
  · exact (hu.conn _ _ _).trans (bind_error (hd (by unfold osOpenR; rw [hf])))
  · exact (hu.conn _ _ _).trans (bind_error (hd (by unfold osOpenW; rw [hf])))
  · refine (hu.conn _ _ _).trans ((bind_ok (ha ..)).trans ?_)
    exact bind_ok (ha ..)

/-! ## Cases -/

/-- a process in the directory `/w/x`, with the file `/w/x/a/f` and the link `/w/x/l` to `a` -/
def cwdDisk : Disk :=
  ⟨[([], .dir 0o755), ([cl!"w"], .dir 0o755), ([cl!"w", cl!"x"], .dir 0o755), ([cl!"w", cl!"x", cl!"a"], .dir 0o755),
    ([cl!"w", cl!"x", cl!"a", cl!"f"], .file 0o644 [1, 2]), ([cl!"w", cl!"x", cl!"l"], .link cl!"a")], [cl!"w", cl!"x"], 0o022, []⟩

/-- the same, with the memory file systems of the other examples -/
def cwdSys : Sys := ⟨sample, cwdDisk⟩

theorem cwdDisk_ok : DiskOk cwdDisk := diskOk_of (by decide) (by decide) (by decide)

/-- the file `a/f` -/
example : ∃ u, URI cl!"a/f" = .ok u ∧ u.isAbsolute = false ∧ ∃ v, URI cl!"file:///w/x/a/f" = .ok v ∧
    SamePlace cwdSys.disk u v ∧ uExists sysOps u cwdSys = uExists sysOps v cwdSys ∧ uOpenR sysOps u cwdSys = uOpenR sysOps v cwdSys := by
  obtain ⟨u, a, b, -, c⟩ := C114_relative (r := cl!"a/f") cwdDisk_ok (by decide) (by decide +kernel) (by decide) (by decide) (by simp)
    (by simp) (by simp) (by decide)
  obtain ⟨v, d, -, e⟩ := c [cl!"w", cl!"x", cl!"a", cl!"f"] (by decide +kernel) (by decide)
  exact ⟨u, a, b, v, d, e, (C114_ask (s := cwdSys) e).1, (C114_do (s := cwdSys) e).2.1⟩

example : ((do let u ← OM.lift (URI cl!"l/f"); uIsfile sysOps u : OM Sys Bool) cwdSys).1 = .ok true := by decide +kernel
example : ((do let u ← OM.lift (URI cl!"l/../a/f"); uIsfile sysOps u : OM Sys Bool) cwdSys).1 = .ok true := by decide +kernel
example : ((do let u ← OM.lift (URI cl!"w/x"); uExists sysOps u : OM Sys Bool) cwdSys).1 = .ok false := by decide +kernel

/-- the current directory is gone -/
def goneSys : Sys := ⟨sample, { cwdDisk with ents := [([], .dir 0o755), ([cl!"w"], .dir 0o755)] }⟩

example : ∃ u, URI cl!"a/f" = .ok u ∧ uMkdir sysOps u goneSys = (.error (.os .ENOENT), goneSys) := by
  obtain ⟨u, a, -, -, -, b, -⟩ := C114_nothing (s := goneSys) (r := cl!"a/f") (by decide +kernel) (by decide) (by decide) (by simp)
    (by simp) (by simp) (by decide)
  exact ⟨u, a, b⟩

/-- C114: as the target of a link a relative URI does not mean what the absolute one means: the link `a/k` to the URI `l`,
    where `l` exists, leads to nothing, since its text is taken from the directory of the link. -/
theorem C114_symlink_refuted : ∃ l k t, URI cl!"l" = .ok l ∧ URI cl!"a/k" = .ok k ∧ URI cl!"file:///w/x/l" = .ok t ∧
    SamePlace cwdSys.disk l t ∧ (uExists sysOps l cwdSys).1 = .ok true ∧
    ((do uSymlink sysOps l k; uExists sysOps k : OM Sys Bool) cwdSys).1 = .ok false ∧
    ((do uSymlink sysOps t k; uExists sysOps k : OM Sys Bool) cwdSys).1 = .ok true := by
  obtain ⟨l, a, -, -, c⟩ := C114_relative (r := cl!"l") cwdDisk_ok (by decide) (by decide +kernel) (by decide) (by decide) (by simp)
    (by simp) (by simp) (by decide)
  obtain ⟨t, d, -, e⟩ := c [cl!"w", cl!"x", cl!"l"] (by decide +kernel) (by decide)
  obtain ⟨k, a', -⟩ := C114_relative (r := cl!"a/k") cwdDisk_ok (by decide) (by decide +kernel) (by decide) (by decide) (by simp)
    (by simp) (by simp) (by decide)
  refine ⟨l, k, t, a, a', d, e, ?_, ?_, ?_⟩
  · have : ((do let l ← OM.lift (URI cl!"l"); uExists sysOps l : OM Sys Bool) cwdSys).1 = .ok true := by decide +kernel
    rwa [bind_lift a] at this
  · have : ((do let l ← OM.lift (URI cl!"l"); let k ← OM.lift (URI cl!"a/k"); uSymlink sysOps l k; uExists sysOps k : OM Sys Bool) cwdSys).1
        = .ok false := by decide +kernel
    rwa [bind_lift a, bind_lift a'] at this
  · have : ((do let t ← OM.lift (URI cl!"file:///w/x/l"); let k ← OM.lift (URI cl!"a/k"); uSymlink sysOps t k; uExists sysOps k : OM Sys Bool) cwdSys).1
        = .ok true := by decide +kernel
    rwa [bind_lift (show URI cl!"file:///w/x/l" = .ok t from d), bind_lift a'] at this

end Verif.Props
