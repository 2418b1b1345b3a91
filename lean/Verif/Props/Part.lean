import Verif.Any.Reqs
import Verif.Props.Arc
/-!
# C123: the backends do not disturb each other

For programs with URIs of any text at all and in any state of the file systems: nothing is said here of what the calls do, only
that it depends on, and changes, nothing of the other backends.
-/
namespace Verif.Props
open Verif Verif.Any Verif.Spec


/-- the texts of memory URIs and of local URIs.  Of the texts without '://' those are left out that have a backslash or begin with a dot,
    but './…' and '.' are allowed. -/
def Ordinary (t : Str) : Prop :=
  (∃ r, t = cl!"memory://" ++ r) ∨
  (∃ r, ((∃ y, r = '/' :: y) ∨ r = cl!"." ∨ ∃ y, r = '.' :: '/' :: y) ∧ (t = r ∨ t = cl!"file://" ++ r)) ∨
  (hasSub cl!"://" t = false ∧ '\\' ∉ t ∧ ∀ y, t ≠ '.' :: y)

/-- the texts of memory URIs without host, user or port -/
def OfMemory (t : Str) : Prop := ∃ r, t = cl!"memory:///" ++ r

/-- the texts of local URIs -/
def OfLocal (t : Str) : Prop :=
  (∃ r, ((∃ y, r = '/' :: y) ∨ r = cl!"." ∨ ∃ y, r = '.' :: '/' :: y) ∧ (t = r ∨ t = cl!"file://" ++ r)) ∨
  (hasSub cl!"://" t = false ∧ '\\' ∉ t ∧ ∀ y, t ≠ '.' :: y)

/-- the URIs that come from texts of `P` by joining names and splitting -/
inductive Made (P : Str → Prop) : Uri → Prop
  | text {cls t sep E u} : P t → Uri.mk' cls t sep E = .ok u → Made P u
  | join {u n v} : Made P u → u.div n = .ok v → Made P v
  | split {u v n} : Made P u → u.split = .ok (v, n) → Made P v

/-- the calls that the program makes are on URIs that come from texts of `P` -/
def StaysWith {σ : Type} (P : Str → Prop) (step : Req → OM σ Rep) (pr : UPrg) (n : Nat) (s : σ) : Prop :=
  ∀ k < n, ∀ a, pr (pr.exec step k s).1 = some a → ∀ u ∈ a.uses, Made P u

theorem made_stays {u : Uri} (h : Made Ordinary u) : Stays u := by
  induction h with
  | text ht hm =>
    rcases ht with ⟨r, rfl⟩ | ⟨r, hr, ht⟩ | ⟨h0, hb, hd⟩
    · exact mk_other (x := cl!"memory") (.inl ⟨trivial, rfl⟩) hm
    · exact mk_local hr ht hm
    · exact mk_relative h0 hb hd hm
  | join _ he ih => exact ih.div he
  | split _ he ih => exact ih.split he

theorem made_mem {u : Uri} (h : Made OfMemory u) : MemStays u := by
  induction h with
  | text ht hm =>
    obtain ⟨r, rfl⟩ := ht
    exact mk_mem hm
  | join _ he ih => exact ih.div he
  | split _ he ih => exact ih.split he

theorem made_ordinary {u : Uri} (h : Made OfMemory u) : Made Ordinary u := by
  induction h with
  | text ht hm =>
    obtain ⟨r, rfl⟩ := ht
    exact .text (.inl ⟨'/' :: r, by simp⟩) hm
  | join _ he ih => exact ih.join he
  | split _ he ih => exact ih.split he

theorem made_loc {u : Uri} (h : Made OfLocal u) : StaysIn False u := by
  induction h with
  | text ht hm =>
    rcases ht with ⟨r, hr, ht⟩ | ⟨h0, hb, hd⟩
    · exact mk_local hr ht hm
    · exact mk_relative h0 hb hd hm
  | join _ he ih => exact ih.div he
  | split _ he ih => exact ih.split he

theorem made_ordinary' {u : Uri} (h : Made OfLocal u) : Made Ordinary u := by
  induction h with
  | text ht hm => exact .text (.inr ht) hm
  | join _ he ih => exact ih.join he
  | split _ he ih => exact ih.split he

/-- **C123** A program on memory URIs and local URIs, with the zip backend there: the answers and the changes in both file systems are those
without it, whatever is in the archives and in the connections to them, and these connections are as before. -/
theorem C123_program (C : Codec) (depth : Nat) (pr : UPrg) (n : Nat) (s : Arc)
    (h : StaysWith Ordinary (Req.run sysOps sRead sWrite depth) pr n s.sys) :
    pr.exec (Req.run (arcOps C) (mRead C) (mWrite C) depth) n s =
      ((pr.exec (Req.run sysOps sRead sWrite depth) n s.sys).1,
        { s with sys := (pr.exec (Req.run sysOps sRead sWrite depth) n s.sys).2 }) :=
  exec_part arcLens pr s n fun k hk a ha =>
    req_part (arcPart C) (fun h => mRead_part C h) (fun h l => mWrite_part C h l) depth a fun u hu => made_stays (h k hk a ha u hu)

/-- A program on memory URIs without host, with the local backend there: the answers and the changes are those of the memory backend alone, whatever is
in the local file system, and nothing in it has changed. -/
theorem C123_memory (depth : Nat) (pr : UPrg) (n : Nat) (s : Sys) (h : StaysWith OfMemory (Req.run memOps memRead memWrite depth) pr n s.mem) :
    pr.exec (Req.run sysOps sRead sWrite depth) n s =
      ((pr.exec (Req.run memOps memRead memWrite depth) n s.mem).1,
        { s with mem := (pr.exec (Req.run memOps memRead memWrite depth) n s.mem).2 }) :=
  exec_part memLens pr s n fun k hk a ha =>
    req_part memPart (fun h => memRead_part h) (fun h l => memWrite_part h l) depth a fun u hu => made_mem (h k hk a ha u hu)

/-- A program on local URIs, with the memory backend there: the answers and the changes are those of the local backend alone, whatever is in
the memory file systems, and nothing in them has changed. -/
theorem C123_local (depth : Nat) (pr : UPrg) (n : Nat) (s : Sys) (h : StaysWith OfLocal (Req.run locOps locRead locWrite depth) pr n s.disk) :
    pr.exec (Req.run sysOps sRead sWrite depth) n s =
      ((pr.exec (Req.run locOps locRead locWrite depth) n s.disk).1,
        { s with disk := (pr.exec (Req.run locOps locRead locWrite depth) n s.disk).2 }) :=
  exec_part locLens pr s n fun k hk a ha =>
    req_part locPart (fun h => locRead_part h) (fun h l => locWrite_part h l) depth a fun u hu => made_loc (h k hk a ha u hu)

/-- The same with all three backends there. -/
theorem C123_local_alone (C : Codec) (depth : Nat) (pr : UPrg) (n : Nat) (s : Arc)
    (h : StaysWith OfLocal (Req.run locOps locRead locWrite depth) pr n s.sys.disk) :
    pr.exec (Req.run (arcOps C) (mRead C) (mWrite C) depth) n s =
      ((pr.exec (Req.run locOps locRead locWrite depth) n s.sys.disk).1,
        { s with sys := { s.sys with disk := (pr.exec (Req.run locOps locRead locWrite depth) n s.sys.disk).2 } }) := by
  have hm := fun k (hk : k ≤ n) => C123_local depth pr k s.sys fun j hj => h j (Nat.lt_of_lt_of_le hj hk)
  rw [C123_program C depth pr n s, hm n (Nat.le_refl n)]
  intro k hk a ha u hu
  rw [hm k (Nat.le_of_lt hk)] at ha
  exact made_ordinary' (h k hk a ha u hu)

/-- The same for memory URIs with all three backends there. -/
theorem C123_memory_alone (C : Codec) (depth : Nat) (pr : UPrg) (n : Nat) (s : Arc)
    (h : StaysWith OfMemory (Req.run memOps memRead memWrite depth) pr n s.sys.mem) :
    pr.exec (Req.run (arcOps C) (mRead C) (mWrite C) depth) n s =
      ((pr.exec (Req.run memOps memRead memWrite depth) n s.sys.mem).1,
        { s with sys := { s.sys with mem := (pr.exec (Req.run memOps memRead memWrite depth) n s.sys.mem).2 } }) := by
  have hm := fun k (hk : k ≤ n) => C123_memory depth pr k s.sys fun j hj => h j (Nat.lt_of_lt_of_le hj hk)
  rw [C123_program C depth pr n s, hm n (Nat.le_refl n)]
  intro k hk a ha u hu
  rw [hm k (Nat.le_of_lt hk)] at ha
  exact made_ordinary (h k hk a ha u hu)

/-- The URIs that a walk gives come from the same texts, so a program may go on with them. -/
theorem C123_walk_finds {σ : Type} {O : Ops σ} {P : Str → Prop} {depth : Nat} {u : Uri} {td fl : Bool} (hu : Made P u) {s s' : σ}
    {rows : List (Uri × List Str × List Str)} (h : uWalk O depth u td fl s = (.ok rows, s')) : ∀ r ∈ rows, Made P r.1 :=
  uWalk_sees (H := Made P) (fun h e => h.join e) hu h

/-- So do those that `glob` gives. -/
theorem C123_glob_finds {σ : Type} {O : Ops σ} {P : Str → Prop} {u : Uri} {m : Str → Bool} (hu : Made P u) {s s' : σ}
    {l : List Uri} (h : uGlob O u m s = (.ok l, s')) : ∀ v ∈ l, Made P v :=
  uGlob_sees (H := Made P) (fun h e => h.join e) hu h

/-! ## Examples -/

/-- odd texts: with parameters, names like those of archives, '((' in names, no scheme -/
def partTexts : List Str :=
  [cl!"memory:///a/f?k=v", cl!"memory://zip/((x))", cl!"/a/zip:", cl!"a/f", cl!"file:///a/f#((y))", cl!"./a"]

example : ∀ t ∈ partTexts, Ordinary t := by
  intro t ht
  simp only [partTexts, List.mem_cons, List.not_mem_nil, or_false] at ht
  rcases ht with rfl | rfl | rfl | rfl | rfl | rfl
  · exact .inl ⟨_, rfl⟩
  · exact .inl ⟨_, rfl⟩
  · exact .inr (.inl ⟨_, .inl ⟨_, rfl⟩, .inl rfl⟩)
  · exact .inr (.inr ⟨by decide, by decide, by intro y h; simp at h⟩)
  · exact .inr (.inl ⟨_, .inl ⟨_, rfl⟩, .inr rfl⟩)
  · exact .inr (.inl ⟨_, .inr (.inr ⟨_, rfl⟩), .inl rfl⟩)

/-- Walks through the local file system, goes on with the second URI it found, and copies the files there into the memory file system. -/
def partPrg : UPrg
  | [] => some (.walk (uri! cl!"/") true true)
  | [.ok (.rows (_ :: (u, _, _) :: _))] => some (.join u cl!"f")
  | [_, .ok (.uri u)] => some (.copy u (uri! cl!"memory:///g") false [] true)
  | [_, _, .ok _] => some (.read (uri! cl!"memory:///g"))
  | _ => none

/-- the URIs that this program uses -/
def partUris (u : Uri) : Bool :=
  URI cl!"/" = .ok u || URI cl!"memory:///g" = .ok u || (uri! cl!"/").div cl!"a" = .ok u ||
    (match (uri! cl!"/").div cl!"a" with
      | .ok v => v.div cl!"f" = .ok u
      | .error _ => false)

theorem partUris_made {u : Uri} (h : partUris u = true) : Made Ordinary u := by
  have h1 : Made Ordinary (uri! cl!"/") := .text (t := cl!"/") (.inr (.inl ⟨_, .inl ⟨_, rfl⟩, .inl rfl⟩)) (by decide +kernel : URI cl!"/" = .ok _)
  simp only [partUris, Bool.or_eq_true, decide_eq_true_eq] at h
  rcases h with ((h | h) | h) | h
  · exact .text (t := cl!"/") (.inr (.inl ⟨_, .inl ⟨_, rfl⟩, .inl rfl⟩)) h
  · exact .text (t := cl!"memory:///g") (.inl ⟨_, rfl⟩) h
  · exact h1.join h
  · split at h
    · rename_i v hv
      exact (h1.join hv).join (of_decide_eq_true h)
    · cases h

theorem partPrg_run : ((partPrg.exec (Req.run sysOps sRead sWrite 50) 5 twinSys).1.getLast? = some (.ok (.bytes [104, 105])) : Bool) = true := by
  decide +kernel

theorem partPrg_within : StaysWith Ordinary (Req.run sysOps sRead sWrite 50) partPrg 5 twinSys := by
  have : (List.range 5).all (fun k => match partPrg (partPrg.exec (Req.run sysOps sRead sWrite 50) k twinSys).1 with
      | none => true
      | some a => a.uses.all partUris) = true := by decide +kernel
  intro k hk a ha u hu
  have := List.all_eq_true.1 this k (List.mem_range.2 hk)
  rw [ha] at this
  exact partUris_made (List.all_eq_true.1 this u hu)

/-- whatever the connections to archives are -/
example (s : Arc) (hs : s.sys = twinSys) :
    (partPrg.exec (Req.run (arcOps toy) (mRead toy) (mWrite toy) 50) 5 s).1.getLast? = some (.ok (.bytes [104, 105])) := by
  rw [C123_program toy 50 partPrg 5 s (hs ▸ partPrg_within)]
  dsimp only
  rw [hs]
  exact of_decide_eq_true partPrg_run

example (s : Arc) (hs : s.sys = twinSys) :
    (partPrg.exec (Req.run (arcOps toy) (mRead toy) (mWrite toy) 50) 5 s).2.handle = s.handle := by
  rw [C123_program toy 50 partPrg 5 s (hs ▸ partPrg_within)]

/-- Looks for files, reads the first and removes it; `x` is the directory. -/
def partOne (x : Uri) : UPrg
  | [] => some (.glob x fun _ => true)
  | [.ok (.uris (u :: _))] => some (.read u)
  | [.ok (.uris (u :: _)), _] => some (.remove u false)
  | [_, _, _] => some (.listdir x)
  | _ => none

theorem partOne_within {P : Str → Prop} {t : Str} (ht : P t) {x : Uri} (hx : URI t = .ok x) {y : Uri} {n : Str} (hy : x.div n = .ok y)
    {σ : Type} {step : Req → OM σ Rep} {s : σ}
    (h : (List.range 5).all (fun k => match partOne x (UPrg.exec step (partOne x) k s).1 with
      | none => true
      | some a => a.uses.all fun u => decide (u = x) || decide (u = y)) = true) : StaysWith P step (partOne x) 5 s := by
  intro k hk a ha u hu
  have := List.all_eq_true.1 h k (List.mem_range.2 hk)
  rw [ha] at this
  have := List.all_eq_true.1 this u hu
  simp only [Bool.or_eq_true, decide_eq_true_eq] at this
  have hm : Made P x := .text ht hx
  rcases this with rfl | rfl
  · exact hm
  · exact hm.join hy

/-- whatever the local files and the connections to archives are -/
example (s : Arc) (hs : s.sys.mem = twinMem) :
    (UPrg.exec (Req.run (arcOps toy) (mRead toy) (mWrite toy) 50) (partOne (uri! cl!"memory:///a")) 5 s).1[1]? = some (.ok (.bytes [104, 105])) ∧
      (UPrg.exec (Req.run (arcOps toy) (mRead toy) (mWrite toy) 50) (partOne (uri! cl!"memory:///a")) 5 s).2.sys.disk = s.sys.disk := by
  rw [C123_memory_alone toy 50 (partOne (uri! cl!"memory:///a")) 5 s
    (hs ▸ partOne_within (t := cl!"memory:///a") ⟨_, rfl⟩ (by decide +kernel) (n := cl!"f") (y := ((uri! cl!"memory:///a").div cl!"f").toOption.getD (uri! cl!"/"))
      (by decide +kernel) (by decide +kernel))]
  dsimp only
  rw [hs]
  exact ⟨by decide +kernel, rfl⟩

/-- whatever the memory file systems and the connections to archives are -/
example (s : Arc) (hs : s.sys.disk = twinSys.disk) :
    (UPrg.exec (Req.run (arcOps toy) (mRead toy) (mWrite toy) 50) (partOne (uri! cl!"/a")) 5 s).1[1]? = some (.ok (.bytes [104, 105])) ∧
      (UPrg.exec (Req.run (arcOps toy) (mRead toy) (mWrite toy) 50) (partOne (uri! cl!"/a")) 5 s).2.sys.mem = s.sys.mem := by
  rw [C123_local_alone toy 50 (partOne (uri! cl!"/a")) 5 s
    (hs ▸ partOne_within (t := cl!"/a") (.inl ⟨_, .inl ⟨_, rfl⟩, .inl rfl⟩) (by decide +kernel) (n := cl!"f") (y := ((uri! cl!"/a").div cl!"f").toOption.getD (uri! cl!"/"))
      (by decide +kernel) (by decide +kernel))]
  dsimp only
  rw [hs]
  exact ⟨by decide +kernel, rfl⟩

/-- the rows that `partPrg` goes on with -/
example : ∃ rows s', uWalk sysOps 50 (uri! cl!"/") true true twinSys = (.ok rows, s') ∧ rows.length = 2 ∧ ∀ r ∈ rows, Made Ordinary r.1 := by
  have h1 : Made Ordinary (uri! cl!"/") := .text (t := cl!"/") (.inr (.inl ⟨_, .inl ⟨_, rfl⟩, .inl rfl⟩)) (by decide +kernel : URI cl!"/" = .ok _)
  have h2 : (match (uWalk sysOps 50 (uri! cl!"/") true true twinSys).1 with
    | .ok rows => decide (rows.length = 2)
    | .error _ => false) = true := by decide +kernel
  generalize hw : uWalk sysOps 50 (uri! cl!"/") true true twinSys = w at h2 ⊢
  obtain ⟨x, s'⟩ := w
  cases x with
  | error e => simp at h2
  | ok rows => exact ⟨rows, s', rfl, of_decide_eq_true h2, C123_walk_finds h1 hw⟩

example : ∃ l s', uGlob sysOps (uri! cl!"memory:///a") (fun _ => true) twinSys = (.ok l, s') ∧ l.length = 1 ∧ ∀ v ∈ l, Made OfMemory v := by
  have h1 : Made OfMemory (uri! cl!"memory:///a") := .text (t := cl!"memory:///a") ⟨_, rfl⟩ (by decide +kernel : URI cl!"memory:///a" = .ok _)
  have h2 : (match (uGlob sysOps (uri! cl!"memory:///a") (fun _ => true) twinSys).1 with
    | .ok l => decide (l.length = 1)
    | .error _ => false) = true := by decide +kernel
  generalize hw : uGlob sysOps (uri! cl!"memory:///a") (fun _ => true) twinSys = w at h2 ⊢
  obtain ⟨x, s'⟩ := w
  cases x with
  | error e => simp at h2
  | ok l => exact ⟨l, s', rfl, of_decide_eq_true h2, C123_glob_finds h1 hw⟩

/-- Refuted: "a text without '://' is that of a local file".  Backslashes are replaced before the scheme is looked for. -/
theorem C123_backslash_refuted : ∃ t : Str, hasSub cl!"://" t = false ∧ (URI t).map Uri.scheme = .ok (some cl!"zip") :=
  ⟨cl!"zip:\\\\((/x))/m", by decide, by decide +kernel⟩

end Verif.Props
