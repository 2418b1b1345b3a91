import Verif.Any.PartSys
/-!
# The tables of operations inside each other

The memory backend alone (`memOps`) in the memory and local backend (`sysOps`).
-/
namespace Verif.Any
open Spec

/-! ## Memory URIs -/

/-- the URIs that can be made from texts `memory:///…` by joining and splitting -/
structure MemStays (u : Uri) : Prop where
  text : ∃ r, u.uri = cl!"memory:///" ++ r
  scheme : u.scheme = some cl!"memory"
  netloc : u.parse.listNetloc = []
  path : ∃ r, u.parse.path = '/' :: r

theorem post_root {x inner r : Str} {q : Parts} (hx : NoneOf cl!":/?#" x) (h0 : x ≠ []) (hh : isHttp (some x) = false)
    (h : urisplitPost inner (reMatch (x ++ cl!":///" ++ r)) = .ok q) :
    q.scheme = some x ∧ q.authority = some [] ∧ ∃ y, q.path = '/' :: y := by
  have e : reScheme (x ++ cl!":///" ++ r) = (some x, cl!"///" ++ r) := by
    have := reScheme_prefix (r := cl!"///" ++ r) h0 hx
    simpa using this
  have es : (reMatch (x ++ cl!":///" ++ r)).scheme = some x := by unfold reMatch; rw [e]
  have ea : (reMatch (x ++ cl!":///" ++ r)).authority = some [] := by unfold reMatch; rw [e]; rfl
  have ep : ∃ y, (reMatch (x ++ cl!":///" ++ r)).path = '/' :: y := by unfold reMatch; rw [e]; exact ⟨_, rfl⟩
  generalize reMatch (x ++ cl!":///" ++ r) = p at *
  refine ⟨(urisplitPost_scheme h).trans es, ?_⟩
  obtain ⟨s, a, pa, qu, fr⟩ := p
  simp only at es ea ep
  obtain ⟨y, rfl⟩ := ep
  subst es ea
  unfold urisplitPost at h
  simp only [hh, Bool.false_eq_true, if_false] at h
  rw [show replaceS INNER inner [] = [] from rfl] at h
  rw [if_neg (by decide)] at h
  dsimp only at h
  split at h <;> (simp only [Except.ok.injEq] at h; rw [← h]; exact ⟨rfl, _, rfl⟩)

theorem finish_mem {cls : UriClass} {r : Str} {sep : Char} {E : Dict} {u : Uri}
    (h : Uri.finish cls (cl!"memory:///" ++ r) sep E = .ok u) : MemStays u := by
  unfold Uri.finish at h
  cases hp : UriParse.init (cl!"memory:///" ++ r) with
  | error e => rw [hp] at h; simp at h
  | ok p =>
    rw [hp] at h
    simp only [Except.ok.injEq] at h
    have hs : p.scheme = some cl!"memory" ∧ p.listNetloc = [] ∧ ∃ y, p.path = '/' :: y := by
      unfold UriParse.init at hp
      cases hu : urisplit (cl!"memory:///" ++ r) with
      | error e => rw [hu] at hp; simp at hp
      | ok q =>
        rw [hu] at hp
        have hq : q.scheme = some cl!"memory" ∧ q.authority = some [] ∧ ∃ y, q.path = '/' :: y := by
          unfold urisplit at hu
          rw [findInner_skip (a := cl!"memory:///") (by decide)] at hu
          cases hf : findInner r with
          | none =>
            rw [hf] at hu
            exact post_root (x := cl!"memory") (by decide) (by decide) rfl hu
          | some x =>
            obtain ⟨a, m, b⟩ := x
            rw [hf] at hu
            exact post_root (x := cl!"memory") (r := a ++ INNER ++ b) (by decide) (by decide) rfl hu
        obtain ⟨h1, h2, h3⟩ := hq
        refine ⟨(ofParts_parts hp).1.trans h1, ofParts_netloc hp (.inr h2), ?_⟩
        rw [(ofParts_parts hp).2]
        exact h3
    rw [← h]
    exact ⟨⟨r, rfl⟩, hs.1, hs.2.1, hs.2.2⟩

theorem mk_mem {cls : UriClass} {r : Str} {sep : Char} {E : Dict} {u : Uri}
    (h : Uri.mk' cls (cl!"memory:///" ++ r) sep E = .ok u) : MemStays u := by
  unfold Uri.mk' at h
  have := normInput_scheme (x := cl!"memory") (r := '/' :: r) (by decide) (by decide) (by decide)
  rw [show cl!"memory:///" ++ r = cl!"memory" ++ cl!"://" ++ '/' :: r by simp, this] at h
  exact finish_mem h

theorem MemStays.div {u v : Uri} {n : Str} (hu : MemStays u) (h : u.div n = .ok v) : MemStays v := by
  unfold Uri.div Uri.join at h
  cases hp : u.joinPath [n] with
  | error e => rw [hp] at h; simp at h
  | ok p =>
    rw [hp] at h
    simp only at h
    split at h
    · simp at h
    · rename_i w hw
      simp only [Except.ok.injEq] at h
      have hlp : ∃ y, p = '/' :: y := by
        have : ∃ y, p = rstripC '/' u.parse.path ++ '/' :: y := by
          unfold Uri.joinPath at hp
          split at hp <;> simp [joinS] at hp <;> exact ⟨_, hp.symm⟩
        obtain ⟨y, rfl⟩ := this
        obtain ⟨r, e⟩ := hu.path
        rw [e]
        unfold rstripC
        split
        · exact ⟨_, rfl⟩
        · exact ⟨_, rfl⟩
      obtain ⟨y, rfl⟩ := hlp
      unfold uriFromParts at hw
      rw [show u.parse.scheme = some cl!"memory" from hu.scheme, hu.netloc] at hw
      have := mk_mem (r := y ++ (if u.parse.query = [] then [] else cl!"?" ++ urlencode u.parse.query)) (by simpa using hw)
      rw [← h]
      exact ⟨this.text, this.scheme, this.netloc, this.path⟩

theorem MemStays.split {u v : Uri} {t : Str} (hu : MemStays u) (h : u.split = .ok (v, t)) : MemStays v := by
  have key : ∀ {w : Uri}, Uri.mk' u.cls (Uri.splitStr u.uri).1 u.sep u.allExtras = .ok w → MemStays w := by
    intro w hw
    have hsome : ∀ {a b : Str}, rsplit1 '/' u.uri = some (a, b) → (Uri.splitStr u.uri).1 =
        (if (if endsWith a cl!"//" then a ++ cl!"/" else a) = [] then cl!"." else if endsWith a cl!"//" then a ++ cl!"/" else a) := by
      intro a b e
      unfold Uri.splitStr
      rw [e]
    obtain ⟨r, e⟩ := hu.text
    by_cases hm : '/' ∈ r
    · obtain ⟨a, b, hr, hb⟩ := rsplit1_last hm
      have h1 : rsplit1 '/' u.uri = some (cl!"memory:///" ++ a, b) := by
        rw [e, hr, ← List.append_assoc]
        exact rsplit1_append hb
      rw [hsome h1, if_neg (by split <;> simp)] at hw
      split at hw
      · rw [List.append_assoc] at hw
        exact mk_mem hw
      · exact mk_mem hw
    · have h1 : rsplit1 '/' u.uri = some (cl!"memory://", r) := by
        rw [e, show cl!"memory:///" ++ r = cl!"memory://" ++ '/' :: r by simp]
        exact rsplit1_append hm
      rw [hsome h1] at hw
      exact mk_mem (r := []) hw
  unfold Uri.split at h
  dsimp only at h
  cases hw : Uri.mk' u.cls (Uri.splitStr u.uri).1 u.sep u.allExtras with
  | error e => rw [hw] at h; simp at h
  | ok w =>
    rw [hw] at h
    simp only [Except.ok.injEq, Prod.mk.injEq] at h
    exact h.1 ▸ key hw

/-! ## The tables -/

/-- the part of the state that belongs to the memory backend -/
def memLens : Lens Sys Mem.World := ⟨Sys.mem, fun s a => { s with mem := a }, fun _ _ => rfl, fun _ => rfl, fun _ _ _ => rfl⟩

/-- a computation of the memory backend, as one of this monad -/
def omM {α : Type} (m : Mem.M α) : OM Mem.World α := m

theorem omM_bind {α β : Type} (a : Mem.M α) (f : α → Mem.M β) : omM (a >>= f) = (omM a >>= fun x => omM (f x)) := by
  funext w
  show Mem.M.bnd a f w = OM.bnd (omM a) (fun x => omM (f x)) w
  unfold Mem.M.bnd OM.bnd omM
  cases a w with
  | mk x w' => cases x <;> rfl

theorem pump_up (a b : Mem.Handle) : pump (.mem a) (.mem b) = memLens.up (memOps.pump a b) := by
  have h : ∀ n, pumpLoop (.mem a) (.mem b) n = memLens.up (omM (Gen.copyFileObj a b n)) := by
    intro n
    induction n with
    | zero => exact up_raise memLens _
    | succ n ih =>
      show _ = memLens.up (omM (a.read 8192 >>= fun x => if Gen.isEmptyData x then pure () else b.write x >>= fun _ => Gen.copyFileObj a b n))
      rw [omM_bind]
      refine up_bind (L := memLens) (a := omM (a.read 8192)) (g := fun x => omM (if Gen.isEmptyData x then pure () else b.write x >>= fun _ => Gen.copyFileObj a b n)) fun x => ?_
      show (if Gen.isEmptyData x then pure () else hWrite (.mem b) x >>= fun _ => pumpLoop (.mem a) (.mem b) n) = memLens.up (omM _)
      split
      · exact up_pure memLens _
      · rw [omM_bind]
        rw [ih]
        exact up_bind (L := memLens) (a := omM (b.write x)) (g := fun _ => omM (Gen.copyFileObj a b n)) fun _ => rfl
  show _ = memLens.up (omM (a.size >>= fun n => Gen.copyFileObj a b (n + 1)))
  rw [omM_bind]
  exact up_bind (L := memLens) (a := omM a.size) (g := fun n => omM (Gen.copyFileObj a b (n + 1))) fun n => h _

theorem blocks_up (a : Mem.Handle) : blocks (.mem a) = memLens.up (memOps.blocks a) := by
  have h : ∀ n, blockLoop (.mem a) n = memLens.up (omM (Gen.md5Loop a n)) := by
    intro n
    induction n with
    | zero => exact up_raise memLens _
    | succ n ih =>
      show _ = memLens.up (omM (a.read 4096 >>= fun x => match x with
        | .bytes b => if b = [] then pure [] else Gen.md5Loop a n >>= fun r => pure (b :: r)
        | .str _ => Mem.M.raise .typeError))
      rw [omM_bind]
      refine up_bind (L := memLens) (a := omM (a.read 4096)) (g := fun x => omM (match x with
        | .bytes b => if b = [] then pure [] else Gen.md5Loop a n >>= fun r => pure (b :: r)
        | .str _ => Mem.M.raise .typeError)) fun x => ?_
      cases x with
      | str _ => exact up_raise memLens _
      | bytes b =>
        show (if b = [] then pure [] else blockLoop (.mem a) n >>= fun r => pure (b :: r)) = memLens.up (omM (if b = [] then pure [] else Gen.md5Loop a n >>= fun r => pure (b :: r)))
        split
        · exact up_pure memLens _
        · rw [ih, omM_bind]
          exact up_bind (L := memLens) (a := omM (Gen.md5Loop a n)) (g := fun r => omM (pure (b :: r))) fun r => up_pure memLens _
  show _ = memLens.up (omM (a.size >>= fun n => Gen.md5Loop a (n + 1)))
  rw [omM_bind]
  exact up_bind (L := memLens) (a := omM a.size) (g := fun n => omM (Gen.md5Loop a (n + 1))) fun n => h _

/-- `sysOps` contains `memOps` -/
def memPart : OpsIn memOps sysOps where
  toLens := memLens
  Here := MemStays
  cn := Conn.mem
  hd := Hd.mem
  div := MemStays.div
  split := MemStays.split
  conn := by
    intro u hu
    show sysConn u = memLens.up (omM (Mem.getConnection u) >>= fun c => pure (Conn.mem c))
    unfold sysConn
    by_cases h : (u.allExtras.any fun kv => kv.1 ∈ Mem.reservedNames) = true
    · rw [if_pos h]
      funext s
      have : omM (Mem.getConnection u) s.mem = (.error .typeError, s.mem) := by unfold omM Mem.getConnection; rw [if_pos h]
      unfold Lens.up
      rw [show memLens.get s = s.mem from rfl, bind_error this]
      rfl
    · rw [if_neg h, if_neg (by rw [hu.scheme]; decide)]
      exact up_bind memLens fun _ => up_pure memLens _
  hook _ _ _ := rfl
  exists_ _ _ := rfl
  isfile _ _ := rfl
  isdir _ _ := rfl
  islink _ _ := rfl
  readlink _ _ := rfl
  symlink _ _ _ := rfl
  listdir _ _ := rfl
  mkdir _ _ := rfl
  removefile _ _ := rfl
  removedir _ _ := rfl
  copystat _ _ _ := rfl
  openR _ _ := up_bind memLens fun _ => up_pure memLens _
  openW _ _ := up_bind memLens fun _ => up_pure memLens _
  pump := pump_up
  blocks := blocks_up
  moveSelf _ _ _ := rfl

end Verif.Any
