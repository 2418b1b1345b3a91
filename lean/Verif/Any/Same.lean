import Verif.Any.SameBase
/-!
# A file system of the repository and the plain file system: the algorithms

`Rel E r k F t s`: in the state `s` the place `k` holds the tree `t`, and the other places hold what `F` says.  `Alike R a b`:
started in such states, `b` does what `a` does, with related answers, the same exceptions, and ends in such states,
unless `a` has no expectation.
-/
namespace Verif.Any
open Verif.Spec Verif.Gen
open Mem (World Meth)

/-! ## The plain tree -/

namespace Tree

theorem get_nil (t : Tree) : t.get [] = some .dir := rfl

theorem get_ne {t : Tree} {p : List Str} (h : p ≠ []) : t.get p = t.lookup p := by unfold get; rw [if_neg h]

theorem get_set {t : Tree} {p q : List Str} {o : Kind} (h : p ≠ []) : (t.set p o).get q = if q = p then some o else t.get q := by
  by_cases hq : q = []
  · subst hq
    rw [if_neg (fun e => h e.symm)]; rfl
  · rw [get_ne hq, get_ne hq]
    unfold set
    split
    · rename_i e; subst e; simp
    · rename_i e
      have : (q == p) = false := by simpa using e
      rw [List.lookup_cons, this]
      exact lookup_filter_ne _ e

theorem get_del {t : Tree} {p q : List Str} (h : p ≠ []) : (t.del p).get q = if q = p then none else t.get q := by
  by_cases hq : q = []
  · subst hq
    rw [if_neg (fun e => h e.symm)]; rfl
  · rw [get_ne hq, get_ne hq]
    unfold del
    split
    · rename_i e; subst e; exact lookup_filter_eq _ _
    · rename_i e; exact lookup_filter_ne _ e

theorem mem_names {t : Tree} {q : List Str} {n : Str} : n ∈ t.names q ↔ t.get (q ++ [n]) ≠ none := by
  unfold names
  rw [mem_sortStr, get_ne (by simp), ← lookup_isSome, List.mem_filterMap]
  constructor
  · rintro ⟨x, h1, h2⟩
    split at h2
    · rename_i h
      refine ⟨x, h1, ?_⟩
      have := List.dropLast_append_getLast? n h2
      rw [← this, h.2]
    · simp at h2
  · rintro ⟨x, h1, h2⟩
    exact ⟨x, h1, by rw [h2]; simp⟩

theorem names_sorted {t : Tree} (h : (t.map (·.1)).Nodup) (q : List Str) : (t.names q).Pairwise strLt := by
  let d : Disk := ⟨t.map fun e => (e.1, DObj.dir 0), [], 0, []⟩
  have h1 : (d.ents.map (·.1)).Nodup := by simpa [d, List.map_map, Function.comp_def] using h
  have h2 := pairwise_sortStr (diskNames_nodup h1 q)
  have h3 : d.names q = t.filterMap fun e => if e.1 ≠ [] ∧ e.1.dropLast = q then e.1.getLast? else none := by
    simp only [Disk.names, d, List.filterMap_map, Function.comp_def]
  rw [h3] at h2
  exact h2

theorem nodup_set {t : Tree} (h : (t.map (·.1)).Nodup) (p : List Str) (o : Kind) : ((t.set p o).map (·.1)).Nodup := by
  unfold set
  rw [List.map_cons, List.nodup_cons]
  refine ⟨?_, (List.filter_sublist.map _).nodup h⟩
  intro hm
  obtain ⟨x, h1, h2⟩ := List.mem_map.1 hm
  have := (List.mem_filter.1 h1).2
  simp [h2] at this

theorem nodup_del {t : Tree} (h : (t.map (·.1)).Nodup) (p : List Str) : ((t.del p).map (·.1)).Nodup :=
  (List.filter_sublist.map _).nodup h

end Tree

/-! ## The relations -/

/-- in the state `s` the place `k` holds the tree `t` (with names that fit, no links), the other places what `F` says -/
structure Rel {ι : Type} (E : ι → Dict) (r : ι → Nat) (k : Option ι) (F : Option ι → List Str → Option Kind) (t : Tree) (s : Sys) :
    Prop where
  ok : SysOk E r s
  here : ∀ p, siteV r s k p = t.get p
  there : ∀ j, j ≠ k → siteV r s j = F j
  keys : (t.map (·.1)).Nodup
  fit : ∀ p, t.get p ≠ none → Fit p
  noLink : ∀ p, t.get p ≠ some .other

/-- the outcomes are the same, unless there is no expectation -/
inductive Res {ι : Type} (E : ι → Dict) (r : ι → Nat) (k : Option ι) (F : Option ι → List Str → Option Kind) {α β : Type}
    (R : α → β → Prop) : Except PyErr α × Tree → Except PyErr β × Sys → Prop
  | out (t : Tree) (y) : Res E r k F R (.error .outside, t) y
  | ok {a b t s} : R a b → Rel E r k F t s → Res E r k F R (.ok a, t) (.ok b, s)
  | err {e t s} : Rel E r k F t s → Res E r k F R (.error e, t) (.error e, s)

/-- `b` does what `a` does -/
def Alike {ι : Type} (E : ι → Dict) (r : ι → Nat) (k : Option ι) (F : Option ι → List Str → Option Kind) {α β : Type}
    (R : α → β → Prop) (a : OM Tree α) (b : OM Sys β) : Prop :=
  ∀ t s, Rel E r k F t s → Res E r k F R (a t) (b s)

/-- the URI in the plain file system and the URI in the place -/
abbrev pAt (cs : List Str) : Uri := Gen.mem [] cs

/-- the connection of the plain file system -/
def pC : plainOps.Conn := ()

section
variable {ι : Type} {E : ι → Dict} {r : ι → Nat} {k : Option ι} {F : Option ι → List Str → Option Kind}

theorem alike_bind {α β α' β' : Type} {R : α → β → Prop} {R' : α' → β' → Prop} {a : OM Tree α} {b : OM Sys β} {f : α → OM Tree α'}
    {g : β → OM Sys β'} (h : Alike E r k F R a b) (hf : ∀ x y, R x y → Alike E r k F R' (f x) (g y)) :
    Alike E r k F R' (a >>= f) (b >>= g) := by
  intro t s hrel
  have := h t s hrel
  show Res E r k F R' (OM.bnd a f t) (OM.bnd b g s)
  unfold OM.bnd
  revert this
  generalize a t = x
  generalize b s = y
  intro this
  cases this with
  | out => exact .out _ _
  | ok h1 h2 => exact hf _ _ h1 _ _ h2
  | err h => exact .err h

theorem alike_pure {α β : Type} {R : α → β → Prop} {x : α} {y : β} (h : R x y) : Alike E r k F R (pure x) (pure y) :=
  fun _ _ hr => .ok h hr

theorem alike_raise {α β : Type} {R : α → β → Prop} (e : PyErr) : Alike E r k F R (OM.raise e) (OM.raise e) :=
  fun _ _ hr => .err hr

theorem alike_lift {α β : Type} {R : α → β → Prop} {x : Except PyErr α} {y : Except PyErr β} {a : α} {b : β} (hx : x = .ok a)
    (hy : y = .ok b) (h : R a b) : Alike E r k F R (OM.lift x) (OM.lift y) := by
  intro t s hr
  rw [lift_apply, lift_apply, hx, hy]
  exact .ok h hr

theorem alike_out {α β : Type} {R : α → β → Prop} {b : OM Sys β} : Alike E r k F R (outside : OM Tree α) b :=
  fun t _ _ => .out t _

theorem alike_ite {α β : Type} {R : α → β → Prop} {c : Prop} [Decidable c] {a a' : OM Tree α} {b b' : OM Sys β}
    (h : c → Alike E r k F R a b) (h' : ¬ c → Alike E r k F R a' b') : Alike E r k F R (if c then a else a') (if c then b else b') := by
  split
  · rename_i hc; exact h hc
  · rename_i hc; exact h' hc

theorem alike_conn {α β : Type} {R : α → β → Prop} {cs : List Str} (hn : Nm cs) (m m' : Meth) {f : plainOps.Conn → OM Tree α} {g : sysOps.Conn → OM Sys β}
    (h : Alike E r k F R (f pC) (g (siteC r k))) :
    Alike E r k F R (withConn plainOps (pAt cs) m f) (withConn sysOps (siteAt E k cs) m' g) := by
  intro t s hr
  have : withConn sysOps (siteAt E k cs) m' g s = g (siteC r k) s := Props.site_wc hr.ok hn m' g
  rw [this]
  exact h t s hr

theorem pAt_comps {cs : List Str} (hn : Nm cs) : comps (pAt cs).path = cs := by
  rw [mem_path hn.ok, comps_pathOf hn]

namespace Rel
variable {t : Tree} {s : Sys} (h : Rel E r k F t s)
include h

theorem clear {cs : List Str} (hw : t.Way cs) : Clear (siteV r s k) cs := by
  refine ⟨fun p hp hne => ?_, by rw [h.here]; exact h.noLink _⟩
  rw [h.here]
  have := hw p (by simpa using hp) hne
  cases hg : t.get p with
  | none => exact .inr rfl
  | some o =>
    cases o with
    | dir => exact .inl rfl
    | file d => rw [hg] at this; simp [isF] at this
    | other => exact absurd hg (h.noLink p)

theorem set {s' : Sys} {p : List Str} {o : Kind} (hok : SysOk E r s') (hv : siteV r s' = upd (siteV r s) k p (some o)) (hne : p ≠ [])
    (hf : Fit p) (ho : o ≠ .other) : Rel E r k F (t.set p o) s' := by
  refine ⟨hok, fun q => ?_, fun j hj => ?_, Tree.nodup_set h.keys p o, fun q hq => ?_, fun q => ?_⟩
  · rw [hv, Tree.get_set hne]
    by_cases e : q = p
    · rw [if_pos e, e, upd_same]
    · rw [if_neg e, upd_ne (fun c => e c.2), h.here]
  · rw [← h.there j hj, hv]
    funext q
    rw [upd_ne (fun c => hj c.1)]
  · rw [Tree.get_set hne] at hq
    split at hq
    · rename_i e; rw [e]; exact hf
    · exact h.fit q hq
  · rw [Tree.get_set hne]
    split
    · simpa using ho
    · exact h.noLink q

theorem del {s' : Sys} {p : List Str} (hok : SysOk E r s') (hv : siteV r s' = upd (siteV r s) k p none) (hne : p ≠ []) :
    Rel E r k F (t.del p) s' := by
  refine ⟨hok, fun q => ?_, fun j hj => ?_, Tree.nodup_del h.keys p, fun q hq => ?_, fun q => ?_⟩
  · rw [hv, Tree.get_del hne]
    by_cases e : q = p
    · rw [if_pos e, e, upd_same]
    · rw [if_neg e, upd_ne (fun c => e c.2), h.here]
  · rw [← h.there j hj, hv]
    funext q
    rw [upd_ne (fun c => hj c.1)]
  · rw [Tree.get_del hne] at hq
    split at hq
    · exact absurd rfl hq
    · exact h.fit q hq
  · rw [Tree.get_del hne]
    split
    · simp
    · exact h.noLink q

theorem same {s' : Sys} (hok : SysOk E r s') (hv : siteV r s' = siteV r s) : Rel E r k F t s' :=
  ⟨hok, fun q => by rw [hv]; exact h.here q, fun j hj => by rw [hv]; exact h.there j hj, h.keys, h.fit, h.noLink⟩

theorem names (cs : List Str) : siteNames r s k cs = t.names cs :=
  pairwise_ext (site_names_sorted h.ok) (Tree.names_sorted h.keys cs) fun n => by rw [site_mem_names, Tree.mem_names, h.here]

end Rel

/-! ## The single calls -/

theorem alike_exists {cs : List Str} (hn : Nm cs) :
    Alike E r k F Eq (plainOps.exists_ pC (pAt cs)) (sysOps.exists_ (siteC r k) (siteAt E k cs)) := by
  intro t s h
  show Res _ _ _ _ _ (pAsk _ _ _) _
  unfold pAsk
  rw [pAt_comps hn]
  split
  · rename_i hw
    rw [site_exists h.ok hn (h.clear hw), h.here]
    exact .ok rfl h
  · exact .out _ _

theorem alike_isfile {cs : List Str} (hn : Nm cs) :
    Alike E r k F Eq (plainOps.isfile pC (pAt cs)) (sysOps.isfile (siteC r k) (siteAt E k cs)) := by
  intro t s h
  show Res _ _ _ _ _ (pAsk _ _ _) _
  unfold pAsk
  rw [pAt_comps hn]
  split
  · rename_i hw
    rw [site_isfile h.ok hn (h.clear hw), h.here]
    exact .ok rfl h
  · exact .out _ _

theorem alike_isdir {cs : List Str} (hn : Nm cs) :
    Alike E r k F Eq (plainOps.isdir pC (pAt cs)) (sysOps.isdir (siteC r k) (siteAt E k cs)) := by
  intro t s h
  show Res _ _ _ _ _ (pAsk _ _ _) _
  unfold pAsk
  rw [pAt_comps hn]
  split
  · rename_i hw
    rw [site_isdir h.ok hn (h.clear hw), h.here]
    exact .ok rfl h
  · exact .out _ _

/-- there are no links -/
theorem alike_islink {cs : List Str} (hn : Nm cs) :
    Alike E r k F (fun a b => a = false ∧ b = false) (plainOps.islink pC (pAt cs)) (sysOps.islink (siteC r k) (siteAt E k cs)) := by
  intro t s h
  show Res _ _ _ _ _ (pAsk (fun _ => false) (pAt cs) t) _
  unfold pAsk
  rw [pAt_comps hn]
  split
  · rename_i hw
    by_cases hv : siteV r s k cs = none
    · rw [site_islink_none h.ok hn (h.clear hw) hv]
      exact .ok ⟨rfl, rfl⟩ h
    · rw [site_islink h.ok hn (h.clear hw) hv]
      exact .ok ⟨rfl, rfl⟩ h
  · exact .out _ _

/-- the names in a directory can be written -/
theorem alike_listdir {cs : List Str} (hn : Nm cs) :
    Alike E r k F (fun a b => a = b ∧ ∀ n ∈ a, Fit (cs ++ [n])) (plainOps.listdir pC (pAt cs)) (sysOps.listdir (siteC r k) (siteAt E k cs)) := by
  intro t s h
  show Res _ _ _ _ _ (pListdir _ _) _
  unfold pListdir
  rw [pAt_comps hn]
  split
  · rename_i hw
    split
    · rename_i hg
      rw [site_listdir h.ok hn (by rw [h.here, hg]), h.names]
      exact .ok ⟨rfl, fun n hm => h.fit _ (Tree.mem_names.1 hm)⟩ h
    · rename_i hg
      rw [site_listdir_none h.ok hn (h.clear hw) (by rw [h.here, hg])]
      exact .err h
    · exact .out _ _
  · exact .out _ _

variable (hr : Function.Injective r)
include hr

theorem alike_mkdir {cs : List Str} (hf : Fit cs) :
    Alike E r k F (fun _ _ => True) (plainOps.mkdir pC (pAt cs)) (sysOps.mkdir (siteC r k) (siteAt E k cs)) := by
  intro t s h
  show Res _ _ _ _ _ (pMkdir _ _) _
  unfold pMkdir
  rw [pAt_comps hf.nm]
  split
  · exact .out _ _
  · rename_i hc
    rw [not_or, not_not] at hc
    obtain ⟨hne, hw⟩ := hc
    have hcl := h.clear hw
    split
    · rename_i hv
      rw [site_mkdir_taken h.ok hf.nm hne (by rw [h.here]; exact hv)]
      exact .err h
    · rename_i hv
      rw [not_not] at hv
      rcases List.eq_nil_or_concat cs with rfl | ⟨q, n, rfl⟩
      · exact absurd rfl hne
      · rw [List.concat_eq_append] at *
        rw [List.dropLast_concat]
        split
        · rename_i hd
          obtain ⟨s', h1, h2, h3⟩ := site_mkdir h.ok hr hf.nm (by rw [h.here, hd]) (by rw [h.here, hv])
          rw [h1]
          exact .ok trivial (h.set h2 h3 hne hf (by simp))
        · rename_i hd
          have hq : siteV r s k q = none := by
            rcases hcl.above q (List.prefix_append _ _) (by simp) with h1 | h1
            · rw [h.here] at h1; exact absurd h1 hd
            · exact h1
          rw [site_mkdir_parent h.ok hf.nm hcl hq]
          exact .err h

theorem alike_removefile {cs : List Str} (hn : Nm cs) :
    Alike E r k F (fun _ _ => True) (plainOps.removefile pC (pAt cs)) (sysOps.removefile (siteC r k) (siteAt E k cs)) := by
  intro t s h
  show Res _ _ _ _ _ (pRemovefile _ _) _
  unfold pRemovefile
  rw [pAt_comps hn]
  split
  · rename_i hv
    cases hg : t.get cs with
    | none => rw [hg] at hv; simp [isF] at hv
    | some o =>
      cases o with
      | dir => rw [hg] at hv; simp [isF] at hv
      | other => rw [hg] at hv; simp [isF] at hv
      | file d =>
        obtain ⟨s', h1, h2, h3⟩ := site_removefile h.ok hr hn (d := d) (by rw [h.here, hg])
        rw [h1]
        refine .ok trivial (h.del h2 h3 ?_)
        rintro rfl; simp [Tree.get_nil] at hg
  · exact .out _ _

theorem alike_removedir {cs : List Str} (hn : Nm cs) :
    Alike E r k F (fun _ _ => True) (plainOps.removedir pC (pAt cs)) (sysOps.removedir (siteC r k) (siteAt E k cs)) := by
  intro t s h
  show Res _ _ _ _ _ (pRemovedir _ _) _
  unfold pRemovedir
  rw [pAt_comps hn]
  split
  · rename_i hc
    split
    · rename_i he
      obtain ⟨s', h1, h2, h3⟩ := site_removedir h.ok hr hn hc.1 (by rw [h.here, hc.2]) (by
        intro n
        rw [h.here]
        by_contra hx
        have := Tree.mem_names.2 hx
        rw [he] at this; simp at this)
      rw [h1]
      exact .ok trivial (h.del h2 h3 hc.1)
    · rename_i he
      obtain ⟨n, hm⟩ := List.exists_mem_of_ne_nil _ he
      rw [site_removedir_full h.ok hn hc.1 (by rw [h.here, hc.2]) (n := n) (by rw [h.here]; exact Tree.mem_names.1 hm)]
      exact .err h
  · exact .out _ _

omit hr in
/-- where a file can be opened for writing, or what the error is -/
theorem alike_openW_cases {t : Tree} {s : Sys} (h : Rel E r k F t s) {cs : List Str} (hf : Fit cs) :
    (∃ t', pOpenW (pAt cs) t = (.error .outside, t')) ∨
    (∃ e, pOpenW (pAt cs) t = (.error e, t) ∧ sysOps.openW (siteC r k) (siteAt E k cs) s = (.error e, s)) ∨
    ∃ q n, cs = q ++ [n] ∧ siteV r s k q = some .dir ∧ (siteV r s k cs = none ∨ isF (siteV r s k cs) = true) ∧
      pOpenW (pAt cs) t = (.ok cs, t.set cs (.file [])) := by
  unfold pOpenW
  rw [pAt_comps hf.nm]
  split
  · exact .inl ⟨_, rfl⟩
  · rename_i hc
    rw [not_or, not_not] at hc
    obtain ⟨hne, hw⟩ := hc
    have hcl := h.clear hw
    split
    · rename_i hv
      exact .inr (.inl ⟨_, rfl, site_openW_dir h.ok hf.nm hne (by rw [h.here]; exact hv)⟩)
    · rename_i hv
      rcases List.eq_nil_or_concat cs with rfl | ⟨q, n, rfl⟩
      · exact absurd rfl hne
      · rw [List.concat_eq_append] at *
        rw [List.dropLast_concat]
        split
        · rename_i hd
          refine .inr (.inr ⟨q, n, rfl, by rw [h.here, hd], ?_, rfl⟩)
          rw [h.here]
          cases hg : t.get (q ++ [n]) with
          | none => exact .inl rfl
          | some o =>
            cases o with
            | dir => exact absurd hg hv
            | other => exact absurd hg (h.noLink _)
            | file d => exact .inr rfl
        · rename_i hd
          have hq : siteV r s k q = none := by
            rcases hcl.above q (List.prefix_append _ _) (by simp) with h1 | h1
            · rw [h.here] at h1; exact absurd h1 hd
            · exact h1
          exact .inr (.inl ⟨_, rfl, site_openW_parent h.ok hf.nm hcl hq⟩)

omit hr in
/-- the same for reading -/
theorem alike_openR_cases {t : Tree} {s : Sys} (h : Rel E r k F t s) {cs : List Str} (hn : Nm cs) :
    (∃ t', pOpenR (pAt cs) t = (.error .outside, t')) ∨
    (∃ e, pOpenR (pAt cs) t = (.error e, t) ∧ sysOps.openR (siteC r k) (siteAt E k cs) s = (.error e, s)) ∨
    ∃ d, t.get cs = some (.file d) ∧ pOpenR (pAt cs) t = (.ok cs, t) := by
  unfold pOpenR
  rw [pAt_comps hn]
  split
  · rename_i hw
    split
    · rename_i d hg
      exact .inr (.inr ⟨d, hg, rfl⟩)
    · rename_i hg
      exact .inr (.inl ⟨_, rfl, site_openR_none h.ok hn (h.clear hw) (by rw [h.here, hg])⟩)
    · exact .inl ⟨_, rfl⟩
  · exact .inl ⟨_, rfl⟩

/-- a write of several pieces -/
theorem sWrites_eq (l : List Bytes) : ∀ {s : Sys} {q : List Str} {hd : Hd} {data : Bytes}, SysOk E r s → WrAt r s k q hd data →
    siteV r s k q = some (.file data) →
    ∃ s', sWrites hd l s = (.ok (), s') ∧ SysOk E r s' ∧ siteV r s' = upd (siteV r s) k q (some (.file (data ++ l.flatten))) := by
  induction l with
  | nil =>
    intro s q hd data h hw hv
    refine ⟨s, rfl, h, ?_⟩
    rw [List.flatten_nil, List.append_nil, upd_self hv]
  | cons b l ih =>
    intro s q hd data h hw hv
    obtain ⟨s1, e1, ok1, v1, w1, -⟩ := write_step h hr hw b
    obtain ⟨s2, e2, ok2, v2⟩ := ih ok1 w1 (by rw [v1, upd_same])
    refine ⟨s2, ?_, ok2, ?_⟩
    · unfold sWrites
      rw [bind_ok e1]
      exact e2
    · rw [v2, v1, upd_upd, List.flatten_cons, List.append_assoc]

omit hr in
theorem set_set {t : Tree} {p : List Str} {a b : Kind} : (t.set p a).set p b = t.set p b := by
  unfold Tree.set
  rw [List.filter_cons_of_neg (by simp), List.filter_filter]
  simp

/-- writing a whole file -/
theorem alike_write {cs : List Str} (hf : Fit cs) (l : List Bytes) :
    Alike E r k F (fun _ _ => True) (pWrite (pAt cs) l) (sWrite (siteAt E k cs) l) := by
  intro t s h
  have hw : uOpenW sysOps (siteAt E k cs) s = sysOps.openW (siteC r k) (siteAt E k cs) s := Props.site_wc h.ok hf.nm _ _
  unfold pWrite sWrite
  rcases alike_openW_cases h hf with ⟨t', e⟩ | ⟨e, e1, e2⟩ | ⟨q, n, rfl, hq, hv, e⟩
  · rw [bind_error (m := uOpenW plainOps (pAt cs)) e]; exact .out _ _
  · rw [bind_error (m := uOpenW plainOps (pAt cs)) e1, bind_error (hw.trans e2)]; exact .err h
  · obtain ⟨s1, hd, e1, ok1, v1, w1, -⟩ := site_openW h.ok hr hf.nm hq hv
    obtain ⟨s2, e2, ok2, v2⟩ := sWrites_eq hr l ok1 w1 (by rw [v1, upd_same])
    rw [bind_ok (m := uOpenW plainOps (pAt (q ++ [n]))) e, bind_ok (hw.trans e1), e2]
    show Res _ _ _ _ _ (.ok (), (t.set (q ++ [n]) (.file [])).set (q ++ [n]) (.file l.flatten)) _
    rw [set_set]
    refine .ok trivial (h.set ok2 ?_ (by simp) hf (by simp))
    rw [v2, v1, upd_upd]; rfl

/-- reading a whole file -/
theorem alike_read {cs : List Str} (hn : Nm cs) : Alike E r k F Eq (pRead (pAt cs)) (sRead (siteAt E k cs)) := by
  intro t s h
  have hw : uOpenR sysOps (siteAt E k cs) s = sysOps.openR (siteC r k) (siteAt E k cs) s := Props.site_wc h.ok hn _ _
  unfold pRead sRead
  rcases alike_openR_cases h hn with ⟨t', e⟩ | ⟨e, e1, e2⟩ | ⟨d, hg, e⟩
  · rw [bind_error (m := uOpenR plainOps (pAt cs)) e]; exact .out _ _
  · rw [bind_error (m := uOpenR plainOps (pAt cs)) e1, bind_error (hw.trans e2)]; exact .err h
  · obtain ⟨s1, hd, e1, ok1, v1, rd1⟩ := site_openR h.ok hn (d := d) (by rw [h.here, hg])
    obtain ⟨s2, e2, ok2, v2, -, -⟩ := read_step ok1 hr rd1 d.length
    rw [bind_ok (m := uOpenR plainOps (pAt cs)) e, bind_ok (hw.trans e1), bind_ok (hSize_eq rd1), bind_ok e2]
    unfold pData
    rw [hg]
    have : (List.drop 0 d).take d.length = d := by rw [List.drop_zero, List.take_length]
    simp only [this]
    exact .ok rfl (h.same ok2 (by rw [v2, v1]))

/-- the bytes that are hashed -/
theorem alike_md5 {cs : List Str} (hn : Nm cs) :
    Alike E r k F (fun a b => a.flatten = b.flatten) (uMd5 plainOps (pAt cs)) (uMd5 sysOps (siteAt E k cs)) := by
  intro t s h
  have hw : uOpenR sysOps (siteAt E k cs) s = sysOps.openR (siteC r k) (siteAt E k cs) s := Props.site_wc h.ok hn _ _
  have e0 : uMd5 plainOps (pAt cs) = (uOpenR plainOps (pAt cs) >>= fun h => plainOps.blocks h) := rfl
  have hm : uMd5 sysOps (siteAt E k cs) s = _ := Props.site_wc h.ok hn _ _
  rcases alike_openR_cases h hn with ⟨t', e⟩ | ⟨e, e1, e2⟩ | ⟨d, hg, e⟩
  · rw [e0, bind_error (m := uOpenR plainOps (pAt cs)) e]; exact .out _ _
  · rw [hm, bind_error (hw.trans e2)]
    rw [e0, bind_error (m := uOpenR plainOps (pAt cs)) e1]; exact .err h
  · obtain ⟨h1, s', h2, h3, h4⟩ := Props.C80_md5 hr h.ok hn (d := d) (by rw [h.here, hg])
    have : uMd5 plainOps (pAt cs) t = (.ok [d], t) := by
      rw [e0, bind_ok (m := uOpenR plainOps (pAt cs)) e]
      show (pData cs >>= _) t = _
      have : pData cs t = (.ok d, t) := by unfold pData; rw [hg]
      rw [bind_ok this]
      rfl
    rw [this, h2]
    exact .ok (by rw [h1]; simp) (h.same h3 h4)

/-- copying the bytes of a file -/
theorem alike_content {cs ds : List Str} (hn : Nm cs) (hf : Fit ds) :
    Alike E r k F (fun _ _ => True) (copyContent plainOps (pAt cs) (pAt ds)) (copyContent sysOps (siteAt E k cs) (siteAt E k ds)) := by
  intro t s h
  have hw : uOpenR sysOps (siteAt E k cs) s = sysOps.openR (siteC r k) (siteAt E k cs) s := Props.site_wc h.ok hn _ _
  unfold copyContent
  rcases alike_openR_cases h hn with ⟨t', e⟩ | ⟨e, e1, e2⟩ | ⟨d, hg, e⟩
  · rw [bind_error (m := uOpenR plainOps (pAt cs)) e]; exact .out _ _
  · rw [bind_error (m := uOpenR plainOps (pAt cs)) e1, bind_error (hw.trans e2)]; exact .err h
  · obtain ⟨s1, inf, e1, ok1, v1, rd1⟩ := site_openR h.ok hn (d := d) (by rw [h.here, hg])
    have h1 : Rel E r k F t s1 := h.same ok1 v1
    have hw1 : uOpenW sysOps (siteAt E k ds) s1 = sysOps.openW (siteC r k) (siteAt E k ds) s1 := Props.site_wc ok1 hf.nm _ _
    rw [bind_ok (m := uOpenR plainOps (pAt cs)) e, bind_ok (hw.trans e1)]
    rcases alike_openW_cases h1 hf with ⟨t', e3⟩ | ⟨e, e3, e4⟩ | ⟨q, n, rfl, hq, hv, e3⟩
    · rw [bind_error (m := uOpenW plainOps (pAt ds)) e3]; exact .out _ _
    · rw [bind_error (m := uOpenW plainOps (pAt ds)) e3, bind_error (hw1.trans e4)]; exact .err h1
    · rw [bind_ok (m := uOpenW plainOps (pAt (q ++ [n]))) e3]
      show Res _ _ _ _ _ (pPump _ _ _) _
      by_cases hcs : cs = q ++ [n]
      · subst hcs
        unfold pPump
        rw [Tree.get_set (by simp), if_pos rfl]
        simp only [if_true]
        exact .out _ _
      · obtain ⟨s3, e5, ok3, v3⟩ := site_content h.ok hr hn hf.nm (k := k) (k' := k) (d := d) (by rw [h.here, hg])
          (by rw [v1] at hq; exact hq) (by rw [v1] at hv; exact hv) (fun c => hcs c.2)
        have e6 := (bind_ok (f := fun inf => (do
          let outf ← uOpenW sysOps (siteAt E k (q ++ [n])); sysOps.pump inf outf : OM Sys Unit)) (hw.trans e1)).symm.trans e5
        rw [e6]
        unfold pPump
        rw [Tree.get_set (by simp), if_neg hcs, hg]
        simp only [if_neg hcs]
        rw [set_set]
        exact .ok trivial (h.set ok3 v3 (by simp) hf (by simp))

theorem alike_copystat {cs ds : List Str} (hn : Nm cs) (hn' : Nm ds) :
    Alike E r k F (fun _ _ => True) (plainOps.copystat pC (pAt cs) (pAt ds)) (sysOps.copystat (siteC r k) (siteAt E k cs) (siteAt E k ds)) := by
  intro t s h
  show Res _ _ _ _ _ (pCopystat _ _ _) _
  unfold pCopystat
  rw [pAt_comps hn, pAt_comps hn']
  have isf : ∀ {p : List Str}, isF (t.get p) = true → ∃ d, siteV r s k p = some (.file d) := by
    intro p hp
    rw [h.here]
    cases hg : t.get p with
    | none => rw [hg] at hp; simp [isF] at hp
    | some o => cases o with
      | dir => rw [hg] at hp; simp [isF] at hp
      | other => rw [hg] at hp; simp [isF] at hp
      | file d => exact ⟨d, rfl⟩
  split
  · rename_i hc
    obtain ⟨d, h1⟩ := isf hc.1
    obtain ⟨d', h2⟩ := isf hc.2
    obtain ⟨s', e, ok, v⟩ := site_copystat h.ok hr hn hn' h1 h2
    rw [e]
    exact .ok trivial (h.same ok v)
  · split
    · rename_i hc
      rw [site_copystat_none h.ok hn hn' (h.clear hc.1) (h.clear hc.2.1) (by rw [h.here, h.here]; exact hc.2.2)]
      exact .err h
    · exact .out _ _

end
end Verif.Any
