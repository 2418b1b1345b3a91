import Verif.Any.LinkMany
import Verif.Any.Reqs
import Verif.Props.SameLinks
/-!
# Several file systems of the repository and the plain ones: calls in one of them, and from one to another
-/
namespace Verif.Any
open Verif.Spec Verif.Gen Verif.Props
open Mem (World Meth)

/-! ## What a call does not touch -/

theorem loc_stays (cs : List Str) : StaysIn False (loc cs) := by
  have hp : ∃ y, pathOf cs = '/' :: y := by
    unfold pathOf
    split
    · exact ⟨[], rfl⟩
    · cases cs with
      | nil => simp_all
      | cons c l => exact ⟨_, rfl⟩
  obtain ⟨y, hy⟩ := hp
  refine ⟨.inr ⟨pathOf cs, .inl ⟨y, hy⟩, .inl rfl⟩, .inr (.inr (.inr ⟨rfl, rfl, .inl ⟨y, hy⟩⟩))⟩

/-- what is done in a memory file system leaves the local files alone, and the other way round -/
def SparesRest {ι : Type} (k : Option ι) {α : Type} (b : OM Sys α) : Prop :=
  ∀ s, (k = none → (b s).2.mem = s.mem) ∧ ∀ i, k = some i → (b s).2.disk = s.disk

section
variable {ι : Type} {E : ι → Dict} {r : ι → Nat} {k : Option ι} {s : Sys}

theorem spares_mem {α : Type} {i : ι} {b : OM Sys α} {m : OM World α} (h : b = memLens.up m) : SparesRest (some i) b := by
  subst h
  exact fun s => ⟨fun e => by simp at e, fun _ _ => rfl⟩

theorem spares_loc {α : Type} {b : OM Sys α} {m : OM Disk α} (h : b = locLens.up m) : SparesRest (none : Option ι) b := by
  subst h
  exact fun s => ⟨fun _ => rfl, fun _ e => by simp at e⟩

theorem spares_exists (cs : List Str) : SparesRest k (uExists sysOps (siteAt E k cs)) := by
  cases k with
  | none => exact spares_loc (locPart.uExists (loc_stays cs))
  | some i => exact spares_mem (memPart.uExists (mem_stays (E i) cs))

theorem spares_isfile (cs : List Str) : SparesRest k (uIsfile sysOps (siteAt E k cs)) := by
  cases k with
  | none => exact spares_loc (locPart.uIsfile (loc_stays cs))
  | some i => exact spares_mem (memPart.uIsfile (mem_stays (E i) cs))

theorem spares_isdir (cs : List Str) : SparesRest k (uIsdir sysOps (siteAt E k cs)) := by
  cases k with
  | none => exact spares_loc (locPart.uIsdir (loc_stays cs))
  | some i => exact spares_mem (memPart.uIsdir (mem_stays (E i) cs))

theorem spares_islink (cs : List Str) : SparesRest k (uIslink sysOps (siteAt E k cs)) := by
  cases k with
  | none => exact spares_loc (locPart.uIslink (loc_stays cs))
  | some i => exact spares_mem (memPart.uIslink (mem_stays (E i) cs))

theorem spares_makedirs (depth : Nat) (cs : List Str) : SparesRest k (uMakedirs sysOps depth (siteAt E k cs)) := by
  cases k with
  | none => exact spares_loc (locPart.uMakedirs depth (loc_stays cs))
  | some i => exact spares_mem (memPart.uMakedirs depth (mem_stays (E i) cs))

theorem spares_remove (depth : Nat) (cs : List Str) (rec : Bool) : SparesRest k (uRemove sysOps depth (siteAt E k cs) rec) := by
  cases k with
  | none => exact spares_loc (locPart.uRemove depth (loc_stays cs) rec)
  | some i => exact spares_mem (memPart.uRemove depth (mem_stays (E i) cs) rec)

theorem spares_listdir (cs : List Str) : SparesRest k (sysOps.listdir (siteC r k) (siteAt E k cs)) := by
  cases k with
  | none => exact spares_loc (locPart.listdir () (siteAt E none cs))
  | some i => exact spares_mem (memPart.listdir (r i) (siteAt E (some i) cs))

theorem spares_classify (cs : List Str) (l : List Str) : SparesRest k (classify sysOps (siteC r k) (siteAt E k cs) l) := by
  cases k with
  | none => exact spares_loc (locPart.classify () (siteAt E none cs) l)
  | some i => exact spares_mem (memPart.classify (r i) (siteAt E (some i) cs) l)

theorem spares_openR (cs : List Str) : SparesRest k (uOpenR sysOps (siteAt E k cs)) := by
  cases k with
  | none => exact spares_loc (locPart.uOpenR (loc_stays cs))
  | some i => exact spares_mem (memPart.uOpenR (mem_stays (E i) cs))

theorem spares_openW (cs : List Str) : SparesRest k (uOpenW sysOps (siteAt E k cs)) := by
  cases k with
  | none => exact spares_loc (locPart.uOpenW (loc_stays cs))
  | some i => exact spares_mem (memPart.uOpenW (mem_stays (E i) cs))

/-- the call as one of C123 -/
def lReq (E : ι → Dict) (k : Option ι) : LAct → Req
  | .exists_ p => .exists_ (siteAt E k p)
  | .isfile p => .isfile (siteAt E k p)
  | .isdir p => .isdir (siteAt E k p)
  | .listdir p => .listdir (siteAt E k p)
  | .read p => .read (siteAt E k p)
  | .md5 p => .md5 (siteAt E k p)
  | .write p l => .write (siteAt E k p) l
  | .islink p => .islink (siteAt E k p)
  | .readlink p => .readlink (siteAt E k p)
  | .mkdir p => .mkdir (siteAt E k p)
  | .symlink x p => .symlink (siteAt E k x) (siteAt E k p)
  | .remove p => .remove (siteAt E k p) false
  | .removeTree p => .remove (siteAt E k p) true
  | .makedirs p => .makedirs (siteAt E k p)
  | .walk p td fl => .walk (siteAt E k p) td fl
  | .glob p m => .glob (siteAt E k p) m
  | .copy p q rec ig fl => .copy (siteAt E k p) (siteAt E k q) rec ig fl
  | .move p q => .move (siteAt E k p) (siteAt E k q)

theorem snd_map {σ α β : Type} (m : OM σ α) (f : α → β) (s : σ) : ((m >>= fun x => pure (f x)) s).2 = (m s).2 := by
  show (OM.bnd m _ s).2 = _
  unfold OM.bnd
  rcases m s with ⟨x | x, s'⟩ <;> rfl

theorem lReq_state (E : ι → Dict) (k : Option ι) (depth : Nat) (a : LAct) (s : Sys) :
    (a.run E k depth s).2 = ((lReq E k a).run sysOps sRead sWrite depth s).2 := by
  cases a <;> simp only [LAct.run, lReq, Req.run] <;> exact (snd_map _ _ s).trans (snd_map _ _ s).symm

theorem lReq_uses (E : ι → Dict) (k : Option ι) (a : LAct) : ∀ u ∈ (lReq E k a).uses, ∃ cs, u = siteAt E k cs := by
  cases a <;> simp only [lReq, Req.uses] <;> intro u hu <;> simp only [List.mem_cons, List.not_mem_nil, or_false] at hu <;>
    first
      | exact ⟨_, hu⟩
      | (rcases hu with hu | hu <;> exact ⟨_, hu⟩)

theorem spares_act (depth : Nat) (a : LAct) : SparesRest k (a.run E k depth) := by
  have h : SparesRest k ((lReq E k a).run sysOps sRead sWrite depth) := by
    cases k with
    | none => exact spares_loc (req_part locPart (fun h => locRead_part h) (fun h l => locWrite_part h l) depth _ fun u hu => by
        obtain ⟨cs, rfl⟩ := lReq_uses E none a u hu
        exact loc_stays cs)
    | some i => exact spares_mem (req_part memPart (fun h => memRead_part h) (fun h l => memWrite_part h l) depth _ fun u hu => by
        obtain ⟨cs, rfl⟩ := lReq_uses E (some i) a u hu
        exact mem_stays (E i) cs)
  intro s
  rw [lReq_state]
  exact h s

/-- the links at all other names stay -/
theorem Keep.links {q : List Str} {s' : Sys} (h : Keep E r k q s s') (hs : (k = none → s'.mem = s.mem) ∧ ∀ i, k = some i → s'.disk = s.disk) :
    ∀ j p x, ¬ (j = k ∧ p = q) → LinkTo E r s j p x → LinkTo E r s' j p x := by
  intro j p x hne hl
  by_cases hj : j = k
  · subst hj
    exact h.1 p x (fun c => hne ⟨rfl, c⟩) hl
  · cases j with
    | none =>
      cases k with
      | none => exact absurd rfl hj
      | some i =>
        show s'.disk.tree p = _
        rw [hs.2 i rfl]; exact hl
    | some j =>
      cases k with
      | none =>
        show ∃ m z, view s'.mem (r j) p = _
        rw [hs.1 rfl]; exact hl
      | some i =>
        show ∃ m z, view s'.mem (r j) p = _
        rw [h.2 i rfl j fun c => hj (by rw [c])]; exact hl

/-- no link is at the name of an open file -/
theorem RdAt.noLink {q : List Str} {hd : Hd} {data : Bytes} {pos : Nat} (h : RdAt r s k q hd data pos) (x : List Str) : ¬ LinkTo E r s k q x := by
  intro hl
  have hv := h.siteV
  cases k with
  | none =>
    have hl : s.disk.tree q = some (.link (pathOf x)) := hl
    rw [siteV_lfile] at hv
    rw [hl] at hv
    simp at hv
  | some i =>
    obtain ⟨m, z, hl⟩ := hl
    rw [siteV_file] at hv
    rw [hl] at hv
    simp at hv

theorem spares_hRead {q : List Str} {hd : Hd} {data : Bytes} {pos : Nat} (h : RdAt r s k q hd data pos) (n : Nat) : SparesRest k (hRead n hd) := by
  cases k <;> cases hd
  · exact h.elim
  · rename_i fd
    refine fun s => ⟨fun _ => ?_, fun _ e => by simp at e⟩
    have := snd_map (onDisk (fdRead fd n)) Mem.PyData.bytes s
    show ((onDisk (fdRead fd n) >>= fun b => pure (Mem.PyData.bytes b)) s).2.mem = _
    rw [this]; rfl
  · exact fun s => ⟨fun e => by simp at e, fun _ _ => rfl⟩
  · exact h.elim

theorem spares_hWrite {q : List Str} {hd : Hd} {data : Bytes} (h : WrAt r s k q hd data) (b : Bytes) : SparesRest k (hWrite hd (.bytes b)) := by
  cases k <;> cases hd
  · exact h.elim
  · exact fun s => ⟨fun _ => rfl, fun _ e => by simp at e⟩
  · exact fun s => ⟨fun e => by simp at e, fun _ _ => rfl⟩
  · exact h.elim

theorem pump_links (hr : Function.Injective r) {k' : Option ι} {f g : List Str} {inf outf : Hd} {data : Bytes} (hne : ¬ (k' = k ∧ g = f)) (n : Nat) :
    ∀ {s : Sys} {b : Bytes} {pos : Nat}, SysOk E r s → RdAt r s k f inf data pos → WrAt r s k' g outf b →
      ∀ j p x, ¬ (j = k' ∧ p = g) → LinkTo E r s j p x → LinkTo E r (pumpLoop inf outf n s).2 j p x := by
  induction n with
  | zero => intro s b pos _ _ _ j p x _ hl; exact hl
  | succ n ih =>
    intro s b pos h hrd hwr j p x hj hl
    obtain ⟨s1, e1, ok1, v1, rd1, keep1⟩ := read_step h hr hrd 8192
    have k1 : Keep E r k f s s1 := keep_read h hr hrd e1
    have p1 := spares_hRead hrd 8192 s
    rw [e1] at p1
    have l1 : LinkTo E r s1 j p x := by
      refine k1.links p1 j p x ?_ hl
      rintro ⟨rfl, rfl⟩
      exact hrd.noLink x hl
    unfold pumpLoop
    rw [bind_ok e1]
    split
    · exact l1
    · have w1 := keep1 hne hwr
      obtain ⟨s2, e2, ok2, v2, wr2, keep2⟩ := write_step ok1 hr w1 ((data.drop pos).take 8192)
      have k2 : Keep E r k' g s1 s2 := keep_write ok1 hr w1 e2
      have p2 := spares_hWrite w1 ((data.drop pos).take 8192) s1
      rw [e2] at p2
      rw [bind_ok e2]
      exact ih ok2 (keep2 (fun e => hne ⟨e.1.symm, e.2.symm⟩) rd1) wr2 j p x hj (k2.links p2 j p x hj l1)

end

/-! ## All places at once -/

section
variable {ι κ : Type} {E : ι → Dict} {r : ι → Nat} {site : κ → Option ι} {s0 s : Sys} {T : κ → LTree}

/-- all places hold their trees, the others are as in `s0` -/
structure LHoldAll (E : ι → Dict) (r : ι → Nat) (site : κ → Option ι) (s0 s : Sys) (T : κ → LTree) : Prop where
  ok : SysOk E r s
  here : ∀ k, LHolds E r s (site k) (T k)
  there : ∀ j, (∀ k, site k ≠ j) → siteV r s j = siteV r s0 j

/-- the same outcome, with results that correspond -/
inductive MRes (E : ι → Dict) (r : ι → Nat) (site : κ → Option ι) (s0 : Sys) {α β : Type} (R : α → β → Prop) :
    Except PyErr α × (κ → LTree) → Except PyErr β × Sys → Prop
  | out (T : κ → LTree) (y) : MRes E r site s0 R (.error .outside, T) y
  | ok {a b T s} : R a b → LHoldAll E r site s0 s T → MRes E r site s0 R (.ok a, T) (.ok b, s)
  | err {e T s} : LHoldAll E r site s0 s T → MRes E r site s0 R (.error e, T) (.error e, s)

/-- `b` does what `a` does -/
def MLike (E : ι → Dict) (r : ι → Nat) (site : κ → Option ι) (s0 : Sys) {α β : Type} (R : α → β → Prop) (a : OM (κ → LTree) α) (b : OM Sys β) :
    Prop :=
  ∀ T s, LHoldAll E r site s0 s T → MRes E r site s0 R (a T) (b s)

theorem mlike_bind {α β α' β' : Type} {R : α → β → Prop} {R' : α' → β' → Prop} {a : OM (κ → LTree) α} {b : OM Sys β} {f : α → OM (κ → LTree) α'}
    {g : β → OM Sys β'} (h : MLike E r site s0 R a b) (hf : ∀ x y, R x y → MLike E r site s0 R' (f x) (g y)) :
    MLike E r site s0 R' (a >>= f) (b >>= g) := by
  intro T s hrel
  have := h T s hrel
  show MRes E r site s0 R' (OM.bnd a f T) (OM.bnd b g s)
  unfold OM.bnd
  revert this
  generalize a T = x
  generalize b s = y
  intro this
  cases this with
  | out => exact .out _ _
  | ok h1 h2 => exact hf _ _ h1 _ _ h2
  | err h => exact .err h

theorem mlike_pure {α β : Type} {R : α → β → Prop} {x : α} {y : β} (h : R x y) : MLike E r site s0 R (pure x) (pure y) :=
  fun _ _ hr => .ok h hr

theorem mlike_raise {α β : Type} {R : α → β → Prop} (e : PyErr) :
    MLike E r site s0 R (OM.raise e : OM (κ → LTree) α) (OM.raise e : OM Sys β) :=
  fun _ _ hr => .err hr

theorem mlike_out {α β : Type} {R : α → β → Prop} {b : OM Sys β} : MLike E r site s0 R (OM.raise .outside : OM (κ → LTree) α) b :=
  fun _ _ _ => .out _ _

theorem mlike_lift {α β γ : Type} {R : α → γ → Prop} {a : OM (κ → LTree) α} {x : Except PyErr β} {b : β} {g : β → OM Sys γ} (hx : x = .ok b)
    (h : MLike E r site s0 R a (g b)) : MLike E r site s0 R a (OM.lift x >>= g) := by
  intro T s hr
  have e : (OM.lift x >>= g : OM Sys γ) s = g b s := bind_ok (by rw [lift_apply, hx])
  rw [e]
  exact h T s hr

theorem mlike_ite {α β : Type} {R : α → β → Prop} {c : Prop} [Decidable c] {a a' : OM (κ → LTree) α} {b b' : OM Sys β}
    (h : c → MLike E r site s0 R a b) (h' : ¬ c → MLike E r site s0 R a' b') : MLike E r site s0 R (if c then a else a') (if c then b else b') := by
  split
  · rename_i hc; exact h hc
  · rename_i hc; exact h' hc

theorem MLike.mono {α β : Type} {R R' : α → β → Prop} {a : OM (κ → LTree) α} {b : OM Sys β} (h : MLike E r site s0 R a b)
    (hR : ∀ x y, R x y → R' x y) : MLike E r site s0 R' a b := by
  intro T s hr
  have := h T s hr
  revert this
  generalize a T = x
  generalize b s = y
  intro this
  cases this with
  | out => exact .out _ _
  | ok e h => exact .ok (hR _ _ e) h
  | err h => exact .err h

theorem mlike_mapR {α β γ : Type} {R : α → β → Prop} {R' : α → γ → Prop} {a : OM (κ → LTree) α} {b : OM Sys β} {f : β → γ}
    (h : MLike E r site s0 R a b) (hR : ∀ x y, R x y → R' x (f y)) : MLike E r site s0 R' a (b >>= fun y => pure (f y)) := by
  have h3 := mlike_bind (R' := R') (f := fun x => pure x) (g := fun y => pure (f y)) h fun x y hxy => mlike_pure (hR x y hxy)
  rwa [bind_pure] at h3

theorem mlike_conn {α β : Type} {R : α → β → Prop} {k : Option ι} {cs : List Str} (hn : Nm cs) (m : Meth) {a : OM (κ → LTree) α}
    {g : sysOps.Conn → OM Sys β} (h : MLike E r site s0 R a (g (siteC r k))) : MLike E r site s0 R a (withConn sysOps (siteAt E k cs) m g) := by
  intro T s hr
  have : withConn sysOps (siteAt E k cs) m g s = g (siteC r k) s := site_wc hr.ok hn m g
  rw [this]
  exact h T s hr

theorem LHoldAll.same {s' : Sys} (h : LHoldAll E r site s0 s T) (hok : SysOk E r s') (hv : siteV r s' = siteV r s)
    (hl : ∀ j p x, siteV r s j p = some .other → LinkTo E r s j p x → LinkTo E r s' j p x) : LHoldAll E r site s0 s' T := by
  refine ⟨hok, fun k => ⟨fun p => by rw [hv]; exact (h.here k).here p, fun p x hx => ?_, (h.here k).keys⟩, fun j hj => by rw [hv]; exact h.there j hj⟩
  obtain ⟨h1, h2⟩ := (h.here k).links p x hx
  exact ⟨h1, hl _ _ _ (by rw [(h.here k).here, hx]; rfl) h2⟩

theorem mlike_dest {p q : List Str} {d : Bool} {c c' : Option ι} (hp : p ≠ []) (hn : Nm p) (hq : Nm (if d then q ++ [p.getLastD []] else q)) {β : Type}
    {a : OM (κ → LTree) Unit} {g : Uri → OM Sys β} {R : Unit → β → Prop}
    (h : MLike E r site s0 R a (g (siteAt E c' (if d then q ++ [p.getLastD []] else q)))) :
    MLike E r site s0 R a ((if d then OM.lift ((siteAt E c' q).div (siteAt E c p).last) else pure (siteAt E c' q)) >>= g) := by
  rcases List.eq_nil_or_concat p with rfl | ⟨i, n, rfl⟩
  · exact absurd rfl hp
  · rw [List.concat_eq_append] at *
    have e : (siteAt E c (i ++ [n])).last = n := site_last hn
    have e' : (i ++ [n]).getLastD [] = n := by simp
    rw [e'] at hq h
    cases d
    · exact h
    · rw [if_pos rfl, e]
      exact mlike_lift (nm_div hq) h

variable [DecidableEq κ]

/-- what is done in one place -/
theorem mlike_at (hs : Function.Injective site) {α β : Type} {R : α → β → Prop} {k : κ} {a : OM LTree α} {b : OM Sys β}
    (h : ∀ F, LLike E r (site k) F R a b) (hsp : SparesRest (site k) b) : MLike E r site s0 R (lAt k a) b := by
  intro T s hT
  have h3 := h _ _ _ ((hT.here k).rel hT.ok)
  have hp := hsp s
  have e : lAt k a T = ((a (T k)).1, lSetAt T k (a (T k)).2) := rfl
  rw [e]
  revert h3 hp
  generalize a (T k) = x
  generalize b s = y
  intro h3 hp
  have key : ∀ t s', (site k = none → s'.mem = s.mem) → (∀ i, site k = some i → s'.disk = s.disk) →
      LRel E r (site k) ⟨siteV r s, fun j => view s.mem (r j)⟩ t s' → LHoldAll E r site s0 s' (lSetAt T k t) := by
    intro t s' hm hd g2
    refine ⟨g2.ok, fun k' => ?_, fun j hj => (g2.there j fun c => hj k c.symm).trans (hT.there j hj)⟩
    unfold lSetAt
    by_cases hk : k' = k
    · rw [if_pos hk, hk]
      exact lholds_of_rel g2
    · rw [if_neg hk]
      have hne : site k' ≠ site k := fun c => hk (hs c)
      refine ⟨fun p => ?_, fun p x hx => ?_, (hT.here k').keys⟩
      · rw [g2.there _ hne]; exact (hT.here k').here p
      · obtain ⟨h1, h2⟩ := (hT.here k').links p x hx
        refine ⟨h1, ?_⟩
        revert h2 hne g2 hm hd
        generalize site k = c
        generalize site k' = c'
        intro hm hd g2 hne h2
        cases c' with
        | none =>
          cases c with
          | none => exact absurd rfl hne
          | some i =>
            show s'.disk.tree p = _
            rw [hd i rfl]; exact h2
        | some j =>
          cases c with
          | none =>
            show ∃ m z, view s'.mem (r j) p = _
            rw [hm rfl]; exact h2
          | some i =>
            show ∃ m z, view s'.mem (r j) p = _
            rw [g2.rest i rfl j fun c => hne (by rw [c])]; exact h2
  cases h3 with
  | out => exact .out _ _
  | ok h1 h2 => exact .ok h1 (key _ _ hp.1 hp.2 h2)
  | err h2 => exact .err (key _ _ hp.1 hp.2 h2)

theorem LHoldAll.put (hs : Function.Injective site) {s' : Sys} {k : κ} {g : List Str} {d : Bytes} (h : LHoldAll E r site s0 s T) (hok : SysOk E r s')
    (hg : g ≠ []) (hv : siteV r s' = upd (siteV r s) (site k) g (some (.file d)))
    (hl : ∀ j p x, ¬ (j = site k ∧ p = g) → LinkTo E r s j p x → LinkTo E r s' j p x) :
    LHoldAll E r site s0 s' (lSetAt T k ((T k).set g (.file d))) := by
  refine ⟨hok, fun k' => ?_, fun j hj => ?_⟩
  · unfold lSetAt
    by_cases hk : k' = k
    · subst hk
      rw [if_pos rfl]
      refine ⟨fun p => ?_, fun p x hx => ?_, LTree.keys_set (h.here k').keys _ _⟩
      · rw [hv, LTree.get_set hg]
        by_cases hp : p = g
        · subst hp; rw [upd_same, if_pos rfl]; rfl
        · rw [upd_ne (fun c => hp c.2), if_neg hp]; exact (h.here k').here p
      · rw [LTree.get_set hg] at hx
        by_cases hp : p = g
        · rw [if_pos hp] at hx; simp at hx
        · rw [if_neg hp] at hx
          obtain ⟨h1, h2⟩ := (h.here k').links p x hx
          exact ⟨h1, hl _ _ _ (fun c => hp c.2) h2⟩
    · rw [if_neg hk]
      have hne : ∀ p, ¬ (site k' = site k ∧ p = g) := fun p c => hk (hs c.1)
      refine ⟨fun p => ?_, fun p x hx => ?_, (h.here k').keys⟩
      · rw [hv, upd_ne (hne p)]; exact (h.here k').here p
      · obtain ⟨h1, h2⟩ := (h.here k').links p x hx
        exact ⟨h1, hl _ _ _ (hne p) h2⟩
  · rw [← h.there j hj]
    funext p
    rw [hv, upd_ne (fun c => hj k c.1.symm)]

/-! ## Copying files -/

theorem mlike_fileTo (hr : Function.Injective r) (hs : Function.Injective site) {k k' : κ} (hk : k ≠ k') {p q : List Str} (hn : Nm p) (hn' : Nm q) :
    MLike E r site s0 Eq (lFileTo k k' p q) (copyContent sysOps (siteAt E (site k) p) (siteAt E (site k') q)) := by
  intro T s hT
  have hkk : site k' ≠ site k := fun c => hk (hs c).symm
  have h := (hT.here k).rel hT.ok
  unfold lFileTo
  cases e : (T k).lead 32 p with
  | none => exact .out _ _
  | some f =>
    obtain ⟨hf, hc, -⟩ := lead_way h 32 hn e
    have hw : uOpenR sysOps (siteAt E (site k) p) s = sysOps.openR (siteC r (site k)) (siteAt E (site k) f) s :=
      (follow h hn e).2.2.2.2.trans (site_wc h.ok hf _ _)
    dsimp only
    cases hg : (T k).get f with
    | none =>
      have : copyContent sysOps (siteAt E (site k) p) (siteAt E (site k') q) s = (.error (.os .ENOENT), s) :=
        bind_error (hw.trans (site_openR_none h.ok hf hc (h.gone hg)))
      rw [this]
      exact .err hT
    | some o =>
      cases o with
      | dir => exact .out _ _
      | link x => exact .out _ _
      | file d =>
        dsimp only
        obtain ⟨s1, hd, e1, ok1, v1, rd1⟩ := site_openR h.ok hf (h.file hg)
        have p1 := spares_openR (E := E) (k := site k) p s
        rw [hw.trans e1] at p1
        have l1 := (keep_openR h.ok hr hf (h.file hg) e1).links p1
        have h1 : LHoldAll E r site s0 s1 T := hT.same ok1 v1 fun j p x ho hl => by
          refine l1 j p x ?_ hl
          rintro ⟨rfl, rfl⟩
          rw [h.file hg] at ho
          simp at ho
        have e0 : lAt k' (lWrite q d) T = ((lWrite q d (T k')).1, lSetAt T k' (lWrite q d (T k')).2) := rfl
        rw [e0]
        rcases openW_cases ((h1.here k').rel h1.ok) hr hn' with hw' | ⟨er, hw', ho⟩ | ⟨g, gl, hg0, hw', ho, hlead, hgv⟩
        · rw [hw' d]; exact .out _ _
        · have : copyContent sysOps (siteAt E (site k) p) (siteAt E (site k') q) s = (.error er, s1) := by
            unfold copyContent
            rw [bind_ok (hw.trans e1), bind_error ho]
          have et : lSetAt T k' (T k') = T := by
            funext j; unfold lSetAt; split
            · rename_i hj; rw [hj]
            · rfl
          rw [hw' d, this]
          dsimp only
          rw [et]
          exact .err h1
        · obtain ⟨s2, outf, e2, ok2, v2, w2, k2, rk⟩ := ho
          have hne : ¬ (site k = site k' ∧ f = g) := fun c => hkk c.1.symm
          have hne' : ¬ (site k' = site k ∧ g = f) := fun c => hkk c.1
          have rd2 := rk.1 _ _ _ _ _ hne rd1
          have p2 := spares_openW (E := E) (k := site k') q s1
          rw [e2] at p2
          have l2 := k2.links p2
          obtain ⟨s3, e3, ok3, v3⟩ := pumpLoop_eq hr hne' (d.length + 1) ok2 rd2 w2 (by rw [v2, upd_same]) (by omega)
          have l3 := pump_links (E := E) hr hne' (d.length + 1) ok2 rd2 w2
          rw [e3] at l3
          have c1 : copyContent sysOps (siteAt E (site k) p) (siteAt E (site k') q) s = (.ok (), s3) := by
            unfold copyContent
            rw [bind_ok (hw.trans e1), bind_ok e2]
            show (hSize hd >>= fun n => pumpLoop hd outf (n + 1)) s2 = _
            rw [bind_ok (hSize_eq rd2)]
            exact e3
          rw [hw' d, c1]
          refine .ok rfl (h1.put hs ok3 hg0 ?_ fun j p x hj hl => l3 j p x hj (l2 j p x hj hl))
          rw [v3, v2, upd_upd]; rfl

/-- one of two places is in memory and the other is not -/
def Differ (a b : Option ι) : Prop := (a = none ∧ b ≠ none) ∨ (a ≠ none ∧ b = none)

theorem Differ.scheme {a b : Option ι} (h : Differ a b) (p q : List Str) : (siteAt E a p).scheme ≠ (siteAt E b q).scheme := by
  rcases h with ⟨rfl, h⟩ | ⟨h, rfl⟩
  · cases b with
    | none => exact absurd rfl h
    | some i => show some cl!"file" ≠ some cl!"memory"; decide
  · cases a with
    | none => exact absurd rfl h
    | some i => show some cl!"memory" ≠ some cl!"file"; decide

/-- the places are in memory (`st`), or just one of them is -/
def Across (st : Bool) (a b : Option ι) : Prop := if st then (∃ i, a = some i) ∧ ∃ j, b = some j else Differ a b

theorem llike_stat (hr : Function.Injective r) {i j : ι} {F : Others ι} {p q : List Str} (hn : Nm p) (hn' : Nm q) :
    LLike E r (some i) F Eq (lStat p q) (sysOps.copystat (siteC r (some i)) (siteAt E (some i) p) (siteAt E (some j) q)) := by
  intro t s h
  unfold lStat
  cases e : t.lead 32 p with
  | none => exact .out _ _
  | some f =>
    cases e' : t.lead 32 q with
    | none => exact .out _ _
    | some g =>
      dsimp only
      have g1 := h.goes hn e
      have g2 := h.goes hn' e'
      cases hf : t.get f with
      | none => cases t.get g <;> exact .out _ _
      | some o =>
        cases o with
        | dir => cases t.get g <;> exact .out _ _
        | link x => cases t.get g <;> exact .out _ _
        | file d =>
          rw [hf] at g1
          obtain ⟨m, z, hvf⟩ := siteV_file.1 (h.file hf)
          have found : ∀ {o : LKind} {o' : Obj}, t.get g = some o → (∀ x, o ≠ .link x) → view s.mem (r i) g = some o' →
              LResR E r (some i) F Eq (.ok (), t) (sysOps.copystat (siteC r (some i)) (siteAt E (some i) p) (siteAt E (some j) q) s) := by
            intro o o' hg hl hvg
            rw [hg] at g2
            obtain ⟨w, h5, h6⟩ := Mem.copystat_at h.ok.inv ((h.ok.fs i).serves p) (stepsOf_mem hn.ok (E i)) (stepsOf_mem hn'.ok (E j)) g1 g2 hvf hvg
            obtain ⟨h7, h8⟩ := h.ok.set_mem hr h6
            have e5 : sysOps.copystat (siteC r (some i)) (siteAt E (some i) p) (siteAt E (some j) q) s = (.ok (), { s with mem := w }) := onMem_ok h5
            rw [e5]
            have hv : siteV r { s with mem := w } = siteV r s := by
              rw [h8]
              refine upd_self ?_
              show (view s.mem (r i) g).map kindO = _
              rw [hvg]
              cases o' <;> rfl
            refine .ok rfl ⟨h7, fun q => by rw [hv]; exact h.here q, fun p x hp => ?_, fun j hj => by rw [hv]; exact h.there j hj,
              fun i' e j hj => by rw [(keep_set h.ok hr h6).2 i' e j hj, h.rest i' e j hj], h.keys⟩
            obtain ⟨h1, h2⟩ := h.links p x hp
            refine ⟨h1, (keep_set h.ok hr h6).1 p x ?_ h2⟩
            rintro rfl
            rw [hp] at hg
            exact hl x (Option.some.inj hg).symm
          cases hg : t.get g with
          | none =>
            rw [hg] at g2
            have e5 : sysOps.copystat (siteC r (some i)) (siteAt E (some i) p) (siteAt E (some j) q) s = (.error (.os .ENOENT), s) := by
              refine onMem_ok (w := s.mem) (?_ : Mem.copystat (r i) (mem (E i) p) (mem (E j) q) s.mem = _)
              unfold Mem.copystat
              obtain ⟨x, hi, -, -⟩ := Mem.Goes.phys h.ok.inv (h.ok.fs i).isRoot g1
              rw [Mem.nodeForPath_goes h.ok.inv (h.ok.fs i).isRoot (stepsOf_mem hn.ok (E i)) g1,
                Mem.nodeForPath_goes h.ok.inv (h.ok.fs i).isRoot (stepsOf_mem hn'.ok (E j)) g2]
              simp [Mem.outResult, hi]
            rw [e5]
            exact .err h
          | some o =>
            cases o with
            | link x => exact .out _ _
            | file d' =>
              obtain ⟨m', z', hvg⟩ := siteV_file.1 (h.file hg)
              exact found hg (by simp) hvg
            | dir =>
              obtain ⟨o', hvg, -⟩ := NS.isDir_iff.1 (siteV_dir.1 (h.dir hg))
              exact found hg (by simp) hvg

theorem spares_copystat {i : ι} (u v : Uri) : SparesRest (some i) (sysOps.copystat (siteC r (some i)) u v) := spares_mem (memPart.copystat (r i) u v)

/-! ### Links that are not to be followed -/

theorem removefile_site {k k' : Option ι} {q : List Str} (hn : Nm q) (hne : q ≠ []) :
    sysOps.removefile (siteC r k) (siteAt E k' q) = sysOps.removefile (siteC r k) (siteAt E k q) := by
  obtain ⟨init, n, rfl⟩ : ∃ a n, q = a ++ [n] := ⟨_, _, (List.dropLast_append_getLast hne).symm⟩
  cases k with
  | none =>
    show onDisk (osUnlink (siteAt E k' (init ++ [n])).path) = onDisk (osUnlink (siteAt E none (init ++ [n])).path)
    rw [site_path hn, site_path hn]
  | some i =>
    show onMem (Mem.removefile (r i) (siteAt E k' (init ++ [n]))) = onMem (Mem.removefile (r i) (siteAt E (some i) (init ++ [n])))
    unfold Mem.removefile Mem.stripPath
    rw [site_path hn, site_path hn, site_last hn, site_last hn]

theorem symlink_site {k k' : Option ι} {q : List Str} (u : Uri) (hn : Nm q) :
    sysOps.symlink (siteC r k) u (siteAt E k' q) = sysOps.symlink (siteC r k) u (siteAt E k q) := by
  cases k with
  | none =>
    show onDisk (osSymlink u.path (siteAt E k' q).path) = onDisk (osSymlink u.path (siteAt E none q).path)
    rw [site_path hn, site_path hn]
  | some i =>
    show onMem (Mem.symlink (r i) u (siteAt E k' q)) = onMem (Mem.symlink (r i) u (siteAt E (some i) q))
    unfold Mem.symlink Mem.stripPath
    rw [site_path hn, site_path hn]

theorem llike_unlink (hr : Function.Injective r) {k k' : Option ι} {F : Others ι} {q : List Str} (hn : Nm q) :
    LLike E r k F (fun _ _ => True) (lUnlink q) (sysOps.removefile (siteC r k) (siteAt E k' q)) := by
  intro t s h
  have h2 := llike_removeFile (F := F) hr hn t s h
  unfold lRemoveFile at h2
  unfold lUnlink
  cases ef : t.lead 32 q with
  | none =>
    have : lAsk isF q t = (.error .outside, t) := by unfold lAsk; rw [ef]
    rw [bind_error this]
    exact .out _ _
  | some f =>
    have a1 : lAsk isF q t = (.ok (isF ((t.get f).map LKind.kind)), t) := by unfold lAsk; rw [ef]
    have fw := follow h hn ef
    obtain ⟨hq, hc, -⟩ := lead_way h 32 hn ef
    have e1 : uIsfile sysOps (siteAt E k q) s = (.ok (isF ((t.get f).map LKind.kind)), s) := by
      rw [fw.2.1, show uIsfile sysOps (siteAt E k f) s = _ from (site_wc h.ok hq _ _).trans (site_isfile h.ok hq hc), h.here]
    rw [bind_ok a1] at h2 ⊢
    rw [bind_ok e1] at h2
    cases hf : isF ((t.get f).map LKind.kind) with
    | false => exact .out _ _
    | true =>
      rw [hf, if_pos rfl, if_pos rfl] at h2
      rw [if_pos rfl]
      have hne : q ≠ [] := by
        rintro rfl
        obtain rfl : [] = f := Option.some.inj (show some [] = some f from ef)
        simp [LTree.get, isF, LKind.kind] at hf
      rw [removefile_site hn hne]
      exact h2

theorem spares_removefile {k : Option ι} (u : Uri) : SparesRest k (sysOps.removefile (siteC r k) u) := by
  cases k with
  | none => exact spares_loc (locPart.removefile () u)
  | some i => exact spares_mem (memPart.removefile (r i) u)

theorem spares_readlink {k : Option ι} (u : Uri) : SparesRest k (sysOps.readlink (siteC r k) u) := by
  cases k with
  | none => exact spares_loc (locPart.readlink () u)
  | some i => exact spares_mem (memPart.readlink (r i) u)

theorem spares_symlink {k : Option ι} (u v : Uri) : SparesRest k (sysOps.symlink (siteC r k) u v) := by
  cases k with
  | none => exact spares_loc (locPart.symlink () u v)
  | some i => exact spares_mem (memPart.symlink (r i) u v)

theorem spares_islinkC {k : Option ι} (u : Uri) : SparesRest k (sysOps.islink (siteC r k) u) := by
  cases k with
  | none => exact spares_loc (locPart.islink () u)
  | some i => exact spares_mem (memPart.islink (r i) u)

theorem mlike_linkTo (hr : Function.Injective r) (hs : Function.Injective site) {k k' : κ} {p q : List Str} (hn : Nm p) (hn' : Nm q) :
    MLike E r site s0 Eq (lLinkTo k k' p q) (copyLink sysOps (siteC r (site k)) (siteAt E (site k) p) (siteAt E (site k') q)) := by
  have e : copyLink sysOps (siteC r (site k)) (siteAt E (site k) p) (siteAt E (site k') q) = _ :=
    copyLink_eq sysOps (siteC r (site k)) (siteAt E (site k) p) (siteAt E (site k') q)
  rw [e]
  unfold lLinkTo
  refine mlike_bind (mlike_at hs (fun F => (llike_conn hn .islink).2 (lalike_islink hn).like) (spares_islinkC _)) ?_
  rintro b _ rfl
  refine mlike_ite (fun _ => mlike_raise _) fun _ => ?_
  rw [bind_assoc]
  refine mlike_bind (mlike_at hs (fun F => (lalike_isfile hn').like) (spares_isfile q)) ?_
  rintro b _ rfl
  refine mlike_bind (R := fun _ _ => True) (mlike_ite (fun _ => mlike_at hs (fun F => llike_unlink hr hn') (spares_removefile _)) fun _ =>
    mlike_pure trivial) fun _ _ _ => ?_
  refine mlike_bind (mlike_at hs (fun F => llike_target hn) (spares_readlink _)) ?_
  rintro x _ ⟨hx, rfl⟩
  rw [symlink_site _ hn']
  exact mlike_at hs (fun F => (llike_conn hx .symlink).2 (lalike_symlink hr hx hn').like) (spares_symlink _ _)

theorem mlike_oneTo (hr : Function.Injective r) (hs : Function.Injective site) {k k' : κ} (hk : k ≠ k') {st : Bool} (hd : Across st (site k) (site k'))
    (fl : Bool) {p q : List Str} (hn : Nm p) (hn' : Nm q) :
    MLike E r site s0 Eq (lOneTo k k' st fl p q) (copyOne sysOps (siteC r (site k)) (siteAt E (site k) p) (siteAt E (site k') q) fl) := by
  unfold lOneTo copyOne
  refine mlike_bind (mlike_at hs (fun F => (lalike_islink hn).like) (spares_islink p)) ?_
  rintro b _ rfl
  refine mlike_ite (fun _ => mlike_linkTo hr hs hn hn') fun _ => ?_
  refine mlike_bind (mlike_fileTo (E := E) (r := r) (s0 := s0) hr hs hk hn hn') fun _ _ _ => ?_
  cases st with
  | false =>
    rw [if_neg (by simp), if_neg (Differ.scheme hd p q)]
    exact mlike_pure rfl
  | true =>
    obtain ⟨⟨i, hi⟩, j, hj⟩ := hd
    rw [if_pos rfl, if_pos (by rw [hi, hj]; rfl)]
    refine mlike_at hs (fun F => ?_) ?_
    · rw [hi, hj]; exact llike_stat hr hn hn'
    · rw [hi, hj]; exact spares_copystat _ _

/-! ## Copying trees -/

variable {k k' : κ}

theorem mlike_dirsTo (hr : Function.Injective r) (hs : Function.Injective site) (depth : Nat) (fl : Bool) {p q ig : List Str} : ∀ (l dirs : List Str),
    (∀ n ∈ l, Nm (p ++ [n])) → (∀ n ∈ l, Nm (q ++ [n])) →
    MLike E r site s0 (fun _ b => b = dirs.diff (l.filter (· ∈ ig))) (lDirsTo k k' fl depth p q (l.filter (· ∉ ig)))
      (copyDirs sysOps depth (siteC r (site k)) ig fl (siteAt E (site k) p) (siteAt E (site k') q) l dirs)
  | [], dirs, _, _ => mlike_pure (by simp)
  | n :: l, dirs, h1, h2 => by
    have hp := h1 n (by simp)
    have hq := h2 n (by simp)
    rw [copyDirs_cons sysOps depth (siteC r (site k)) ig fl (siteAt E (site k) p) (siteAt E (site k') q) n l dirs]
    by_cases hi : n ∈ ig
    · rw [if_pos hi, show (n :: l).filter (· ∉ ig) = l.filter (· ∉ ig) from List.filter_cons_of_neg (by simpa using hi),
        show (n :: l).filter (· ∈ ig) = n :: l.filter (· ∈ ig) from List.filter_cons_of_pos (by simpa using hi),
        show dirs.diff (n :: l.filter (· ∈ ig)) = (dirs.erase n).diff (l.filter (· ∈ ig)) from List.diff_cons _ _ _]
      exact mlike_dirsTo hr hs depth fl l _ (fun x hx => h1 x (by simp [hx])) fun x hx => h2 x (by simp [hx])
    · rw [if_neg hi, show (n :: l).filter (· ∉ ig) = n :: l.filter (· ∉ ig) from List.filter_cons_of_pos (by simpa using hi),
        show (n :: l).filter (· ∈ ig) = l.filter (· ∈ ig) from List.filter_cons_of_neg (by simpa using hi), lDirsTo]
      refine mlike_lift (nm_div hq) ?_
      refine mlike_lift (nm_div hp) ?_
      refine mlike_bind (mlike_at hs (fun F => (lalike_islink hp).like) (spares_islink _)) ?_
      rintro b _ rfl
      refine mlike_bind (R := fun _ _ => True) (mlike_ite (fun _ => (mlike_linkTo hr hs hp hq).mono fun _ _ _ => trivial) fun _ => ?_) ?_
      · exact (mlike_at hs (fun F => (lalike_makedirs hr hq depth).like) (spares_makedirs depth _)).mono fun _ _ _ => trivial
      · rintro _ _ -
        exact mlike_dirsTo hr hs depth fl l _ (fun x hx => h1 x (by simp [hx])) fun x hx => h2 x (by simp [hx])

theorem mlike_filesTo (hr : Function.Injective r) (hs : Function.Injective site) (hk : k ≠ k') {st : Bool} (hd : Across st (site k) (site k')) (fl : Bool)
    {p q : List Str} : ∀ (l : List Str), (∀ n ∈ l, Nm (p ++ [n])) → (∀ n ∈ l, Nm (q ++ [n])) →
    MLike E r site s0 (fun _ _ => True) (lFilesTo k k' st fl p q l) (copyFiles sysOps (siteC r (site k)) fl (siteAt E (site k) p) (siteAt E (site k') q) l)
  | [], _, _ => mlike_pure trivial
  | n :: l, h1, h2 => by
    have hp := h1 n (by simp)
    have hq := h2 n (by simp)
    rw [copyFiles_cons sysOps (siteC r (site k)) fl (siteAt E (site k) p) (siteAt E (site k') q) n l, lFilesTo]
    refine mlike_lift (nm_div hp) ?_
    refine mlike_lift (nm_div hq) ?_
    refine mlike_bind (mlike_oneTo hr hs hk hd fl hp hq) fun _ _ _ => ?_
    exact mlike_filesTo hr hs hk hd fl l (fun x hx => h1 x (by simp [hx])) fun x hx => h2 x (by simp [hx])

theorem mlike_downTo (hs : Function.Injective site) {fl : Bool} {p q : List Str} {v : List Str → List Str → OM (κ → LTree) Unit}
    {w : Uri → Unit → OM Sys Unit} : ∀ (l : List Str), (∀ n ∈ l, Nm (p ++ [n])) →
    (∀ n ∈ l, MLike E r site s0 (fun _ _ => True) (v (p ++ [n]) (q ++ [n])) (w (siteAt E (site k) (p ++ [n])) ())) →
    MLike E r site s0 (fun _ _ => True) (lDownTo k fl v p q l) (walkDirs sysOps fl w (siteAt E (site k) p) l ())
  | [], _, _ => mlike_pure trivial
  | n :: l, h1, h2 => by
    have hp := h1 n (by simp)
    rw [walkDirs_cons, lDownTo]
    refine mlike_lift (nm_div hp) ?_
    refine mlike_bind (mlike_at hs (fun F => (lalike_islink hp).like) (spares_islink _)) ?_
    rintro b _ rfl
    refine mlike_bind (R := fun _ _ => True) (mlike_ite (fun _ => h2 n (by simp)) fun _ => mlike_pure trivial) fun _ _ _ => ?_
    exact mlike_downTo hs l (fun x hx => h1 x (by simp [hx])) fun x hx => h2 x (by simp [hx])

theorem mlike_body (hr : Function.Injective r) (hs : Function.Injective site) (hk : k ≠ k') {st : Bool} (hdf : Across st (site k) (site k')) (depth : Nat) (fl : Bool)
    {p t d ig : List Str} {dirs files : List Str} (hf : Fit (p ++ t)) (hp : p ≠ [])
    (hd : Fit d) (hne : d ≠ []) (h1 : ∀ n ∈ dirs, Fit (p ++ t ++ [n])) (h2 : ∀ n ∈ files, Fit (p ++ t ++ [n])) (hu : dirs.Nodup) :
    MLike E r site s0 (fun _ b => b = dirs.filter (· ∉ ig))
      (lDirsTo k k' fl depth (p ++ t) (d ++ t) (dirs.filter (· ∉ ig)) >>= fun _ => lFilesTo k k' st fl (p ++ t) (d ++ t) files)
      (copyBody sysOps depth (siteC r (site k)) ig fl ((siteAt E (site k) p).path.length + 1) (siteAt E (site k') d) (siteAt E (site k) (p ++ t)) dirs files) := by
  have ha : ∀ {n}, Fit (p ++ t ++ [n]) → Nm (d ++ t ++ [n]) := fun {n} h => by
    rw [List.append_assoc] at h ⊢; exact (hd.append hne h).nm
  have hdt := (hd.append hne hf).nm
  have go : MLike E r site s0 (fun _ b => b = dirs.filter (· ∉ ig))
      (lDirsTo k k' fl depth (p ++ t) (d ++ t) (dirs.filter (· ∉ ig)) >>= fun _ => lFilesTo k k' st fl (p ++ t) (d ++ t) files)
      (copyDirs sysOps depth (siteC r (site k)) ig fl (siteAt E (site k) (p ++ t)) (siteAt E (site k') (d ++ t)) dirs dirs >>= fun dirs' =>
        copyFiles sysOps (siteC r (site k)) fl (siteAt E (site k) (p ++ t)) (siteAt E (site k') (d ++ t)) files >>= fun _ => pure dirs') := by
    refine mlike_bind (mlike_dirsTo hr hs depth fl dirs dirs (fun n hn => (h1 n hn).nm) fun n hn => ha (h1 n hn)) ?_
    intro x b hb
    rw [diff_ignored hu] at hb
    have h3 := mlike_bind (R' := fun _ b => b = dirs.filter (· ∉ ig)) (f := fun x => pure x) (g := fun _ => pure b)
      (mlike_filesTo (E := E) (k := k) (s0 := s0) hr hs hk hdf fl files (fun n hn => (h2 n hn).nm) fun n hn => ha (h2 n hn)) fun _ _ _ => mlike_pure hb
    rwa [bind_pure] at h3
  have e : copyBody sysOps depth (siteC r (site k)) ig fl ((siteAt E (site k) p).path.length + 1) (siteAt E (site k') d) (siteAt E (site k) (p ++ t)) dirs files = _ :=
    copyBody_eq (O := sysOps) depth (siteC r (site k)) ig fl ((siteAt E (site k) p).path.length + 1) (siteAt E (site k') d) (siteAt E (site k) (p ++ t)) dirs files
  rw [e]
  rcases at_tojoin (E := E) (k := site k) hf hp with ⟨rfl, e⟩ | ⟨x, g1, g2, g3, e⟩
  · rw [e, if_neg (by simp), pure_bind]
    have ed : d ++ [] = d := List.append_nil d
    rw [ed] at go ⊢
    exact go
  · rw [e, if_pos g2]
    exact mlike_lift (site_div hdt g1 g3) go

theorem mlike_below (hr : Function.Injective r) (hs : Function.Injective site) (hk : k ≠ k') {st : Bool} (hdf : Across st (site k) (site k')) (depth : Nat) (fl : Bool)
    {p d ig : List Str} (hp : p ≠ []) (hd : Fit d) (hne : d ≠ []) : ∀ (m : Nat) (t : List Str), Fit (p ++ t) →
    MLike E r site s0 (fun _ _ => True) (lBelowTo k k' st fl ig depth m (p ++ t) (d ++ t))
      (walk sysOps (siteC r (site k)) true fl (fun (_ : Unit) top dirs files => do
        let dirs' ← copyBody sysOps depth (siteC r (site k)) ig fl ((siteAt E (site k) p).path.length + 1) (siteAt E (site k') d) top dirs files
        pure ((), dirs')) m (siteAt E (site k) (p ++ t)) ())
  | 0, _, _ => mlike_raise _
  | m + 1, t, hf => by
    rw [walk_top sysOps (siteC r (site k)) fl _ m (siteAt E (site k) (p ++ t)) (), lBelowTo]
    refine mlike_bind (mlike_at hs (fun F => (llike_conn hf.nm .listdir).2 (llike_listdir hf.nm)) (spares_listdir _)) ?_
    rintro l _ ⟨rfl, hso, hl⟩
    rw [sortStr_of_pairwise hso]
    split
    · rename_i hfit
      refine mlike_bind (mlike_at hs (fun F => llike_split l hl) (spares_classify _ l)) ?_
      rintro ⟨dirs, files⟩ _ ⟨rfl, h1, h2⟩
      dsimp only at h1 h2 ⊢
      have hb := mlike_body (E := E) (k := k) (k' := k') (s0 := s0) (ig := ig) hr hs hk hdf depth fl hf hp hd hne (dirs := dirs) (files := files)
        (fun n hn => hfit n (h1.subset hn)) (fun n hn => hfit n (h2.subset hn)) ((nodup_of_pairwise hso).sublist h1)
      rw [← bind_assoc]
      refine mlike_bind (R := fun _ b => b = ((), dirs.filter (· ∉ ig))) (mlike_mapR hb fun _ b hb => by rw [hb]) ?_
      rintro _ _ rfl
      refine mlike_downTo hs _ (fun n hn => hl n (h1.subset (List.mem_of_mem_filter hn))) fun n hn => ?_
      have := mlike_below hr hs hk hdf depth fl (ig := ig) hp hd hne m (t ++ [n]) (by rw [← List.append_assoc]; exact hfit n (h1.subset (List.mem_of_mem_filter hn)))
      rw [← List.append_assoc, ← List.append_assoc] at this
      exact this
    · exact mlike_out

/-! ## Copying and moving -/

theorem mlike_copyTo (hr : Function.Injective r) (hs : Function.Injective site) (hk : k ≠ k') {st : Bool} (hdf : Across st (site k) (site k')) {p q : List Str}
    (fl : Bool) (ig : List Str) (depth : Nat) (hn : Nm p) (hn' : Nm q) :
    MLike E r site s0 Eq (lCopyTo k k' st fl p q) (uCopy sysOps depth (siteAt E (site k) p) (siteAt E (site k') q) false ig fl) := by
  refine mlike_conn hn .copy ?_
  have e : copy sysOps depth (siteC r (site k)) (siteAt E (site k) p) (siteAt E (site k') q) false ig fl = _ :=
    copy_eq (O := sysOps) depth (siteC r (site k)) (siteAt E (site k) p) (siteAt E (site k') q) false ig fl
  rw [e]
  unfold lCopyTo
  refine mlike_bind (mlike_at hs (fun F => (lalike_exists hn).like) (spares_exists p)) ?_
  rintro b _ rfl
  refine mlike_ite (fun _ => mlike_raise _) fun _ => ?_
  rw [if_pos (show (!false) = true from rfl)]
  refine mlike_bind (mlike_at hs (fun F => (lalike_isfile hn).like) (spares_isfile p)) ?_
  rintro b _ rfl
  refine mlike_ite (fun _ => mlike_raise _) fun _ => ?_
  refine mlike_bind (mlike_at hs (fun F => (lalike_isdir hn').like) (spares_isdir q)) ?_
  rintro d _ rfl
  by_cases hc : p ≠ [] ∧ Nm (if d then q ++ [p.getLastD []] else q)
  · rw [if_pos hc]
    exact mlike_dest hc.1 hn hc.2 (mlike_oneTo hr hs hk hdf fl hn hc.2)
  · rw [if_neg hc]
    exact mlike_out

theorem mlike_treeTo (hr : Function.Injective r) (hs : Function.Injective site) (hk : k ≠ k') {st : Bool} (hdf : Across st (site k) (site k')) {p q : List Str}
    (fl : Bool) (ig : List Str) (depth : Nat) (hn : Nm p) (hn' : Nm q) :
    MLike E r site s0 Eq (lTreeTo k k' st fl ig depth p q) (uCopy sysOps depth (siteAt E (site k) p) (siteAt E (site k') q) true ig fl) := by
  refine mlike_conn hn .copy ?_
  have e : copy sysOps depth (siteC r (site k)) (siteAt E (site k) p) (siteAt E (site k') q) true ig fl = _ :=
    copy_eq (O := sysOps) depth (siteC r (site k)) (siteAt E (site k) p) (siteAt E (site k') q) true ig fl
  rw [e]
  unfold lTreeTo
  refine mlike_bind (mlike_at hs (fun F => (lalike_exists hn).like) (spares_exists p)) ?_
  rintro b _ rfl
  refine mlike_ite (fun _ => mlike_raise _) fun _ => ?_
  rw [if_neg (by simp)]
  refine mlike_bind (mlike_at hs (fun F => (lalike_isdir hn).like) (spares_isdir p)) ?_
  rintro b _ rfl
  refine mlike_ite (fun _ => mlike_raise _) fun _ => ?_
  refine mlike_bind (mlike_at hs (fun F => (lalike_isdir hn').like) (spares_isdir q)) ?_
  rintro d _ rfl
  by_cases hc : p ≠ [] ∧ Fit p ∧ (if d then q ++ [p.getLastD []] else q) ≠ [] ∧ Fit (if d then q ++ [p.getLastD []] else q)
  · rw [if_pos hc]
    obtain ⟨hp, hf, hne, hd⟩ := hc
    refine mlike_dest hp hn hd.nm ?_
    refine mlike_bind (mlike_at hs (fun F => (lalike_islink hn).like) (spares_islink p)) ?_
    rintro b _ rfl
    refine mlike_ite (fun _ => mlike_linkTo hr hs hn hd.nm) fun _ => ?_
    refine mlike_bind (mlike_at hs (fun F => (lalike_makedirs hr hd.nm depth).like) (spares_makedirs depth _)) fun _ _ _ => ?_
    have hw := mlike_below (E := E) (k := k) (k' := k') (s0 := s0) (ig := ig) hr hs hk hdf depth fl hp hd hne depth [] (by simpa using hf)
    simp only [List.append_nil] at hw
    exact (mlike_conn hf.nm .walk hw).mono fun _ _ _ => rfl
  · rw [if_neg hc]
    exact mlike_out

theorem mlike_moveTo (hr : Function.Injective r) (hs : Function.Injective site) (hk : k ≠ k') {st : Bool} (hdf : Across st (site k) (site k')) {p q : List Str}
    (depth : Nat) (hn : Nm p) (hn' : Nm q) :
    MLike E r site s0 Eq (lMoveTo k k' st depth p q) (uMove sysOps depth (siteAt E (site k) p) (siteAt E (site k') q)) := by
  refine mlike_conn hn .move ?_
  have e : sysOps.moveSelf (siteC r (site k)) (siteAt E (site k) p) (siteAt E (site k') q) = none := by
    revert hdf
    generalize site k = c
    generalize site k' = c'
    cases st with
    | true => rintro ⟨⟨i, rfl⟩, -⟩; rfl
    | false =>
    rintro (⟨rfl, h⟩ | ⟨h, rfl⟩)
    · cases c' with
      | none => exact absurd rfl h
      | some i => rfl
    · cases c with
      | none => exact absurd rfl h
      | some i => rfl
  rw [e]
  show MLike E r site s0 Eq _ (uIsfile sysOps (siteAt E (site k) p) >>= fun b => if b then
    uCopy sysOps depth (siteAt E (site k) p) (siteAt E (site k') q) >>= fun _ => uRemove sysOps depth (siteAt E (site k) p) else
    uCopy sysOps depth (siteAt E (site k) p) (siteAt E (site k') q) true >>= fun _ => uRemove sysOps depth (siteAt E (site k) p) true)
  unfold lMoveTo
  refine mlike_bind (mlike_at hs (fun F => (lalike_isfile hn).like) (spares_isfile p)) ?_
  rintro b _ rfl
  refine mlike_ite (fun _ => ?_) fun _ => ?_
  · exact mlike_bind (mlike_copyTo hr hs hk hdf true [] depth hn hn') fun _ _ _ =>
      mlike_at hs (fun F => (lalike_remove hr hn depth).like) (spares_remove depth p false)
  · exact mlike_bind (mlike_treeTo hr hs hk hdf true [] depth hn hn') fun _ _ _ =>
      mlike_at hs (fun F => (lalike_removeTree hr hn depth).like) (spares_remove depth p true)

/-- one call -/
theorem mlike_acts (hr : Function.Injective r) (hs : Function.Injective site) {across : κ → κ → Option Bool}
    (hx : ∀ k k' st, across k k' = some st → k ≠ k' ∧ Across st (site k) (site k')) (depth : Nat) (a : LActs κ) :
    MLike E r site s0 Eq (a.plain across depth) (a.run E site depth) := by
  cases a with
  | one k a => exact mlike_at hs (fun F => (lalike_act hr depth a).like) (spares_act depth a)
  | copy k p k' q rec ig fl =>
    simp only [LActs.plain, LActs.run]
    cases e : across k k' with
    | none => exact mlike_out
    | some st =>
      obtain ⟨hk, hd⟩ := hx _ _ _ e
      dsimp only
      split
      · rename_i h
        cases rec
        · exact mlike_bind (mlike_copyTo hr hs hk hd fl ig depth h.1 h.2) fun _ _ _ => mlike_pure rfl
        · exact mlike_bind (mlike_treeTo hr hs hk hd fl ig depth h.1 h.2) fun _ _ _ => mlike_pure rfl
      · exact mlike_out
  | move k p k' q =>
    simp only [LActs.plain, LActs.run]
    cases e : across k k' with
    | none => exact mlike_out
    | some st =>
      obtain ⟨hk, hd⟩ := hx _ _ _ e
      dsimp only
      split
      · rename_i h
        exact mlike_bind (mlike_moveTo hr hs hk hd depth h.1 h.2) fun _ _ _ => mlike_pure rfl
      · exact mlike_out

end
end Verif.Any
