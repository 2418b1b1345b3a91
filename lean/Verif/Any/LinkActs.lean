import Verif.Any.LinkSame
import Verif.Any.PartMem
import Verif.Any.LocMove
/-!
# A file system of the repository and the plain file system with links: the calls
-/
namespace Verif.Any
open Verif.Spec Verif.Gen Verif.Props
open Mem (World Meth)

/-! ## Paths -/

theorem entry_some {t : LTree} {p q : List Str} {n : Str} (e : t.entry p = some (q, n)) :
    ∃ init, p = init ++ [n] ∧ t.lead 32 init = some q ∧ Nm (q ++ [n]) := by
  unfold LTree.entry at e
  rcases List.eq_nil_or_concat p with rfl | ⟨init, m, rfl⟩
  · simp at e
  · rw [List.concat_eq_append] at *
    simp only [List.getLast?_append, List.getLast?_singleton, Option.some_or, List.dropLast_concat] at e
    cases hl : t.lead 32 init with
    | none => rw [hl] at e; simp at e
    | some q' =>
      rw [hl] at e
      simp only [Option.ite_none_right_eq_some, Option.some.injEq, Prod.mk.injEq] at e
      obtain ⟨h1, rfl, rfl⟩ := e
      exact ⟨init, rfl, hl, h1⟩

theorem bare_some {t : LTree} {p q : List Str} {n : Str} (e : t.bare p = some (q, n)) :
    ∃ init, p = init ++ [n] ∧ t.lead 32 init = some q ∧ Nm (q ++ [n]) ∧ (n ∉ init ∨ q = init) := by
  unfold LTree.bare at e
  cases he : t.entry p with
  | none => rw [he] at e; simp at e
  | some x =>
    obtain ⟨q', n'⟩ := x
    rw [he] at e
    simp only [Option.ite_none_right_eq_some, Option.some.injEq, Prod.mk.injEq] at e
    obtain ⟨h1, rfl, rfl⟩ := e
    obtain ⟨init, rfl, h2, h3⟩ := entry_some he
    rw [List.dropLast_concat] at h1
    exact ⟨init, rfl, h2, h3, h1⟩

/-- links on the way to a directory are links on the way to what is in it -/
theorem leads_snoc {d : Disk} (hd : DiskOk d) {j : Nat} {init q : List Str} {n : Str} (h : Leads d true j init q) :
    Nm (init ++ [n]) → Nm (q ++ [n]) → Leads d false j (init ++ [n]) (q ++ [n]) := by
  induction h with
  | here q => intro _ _; exact .here _
  | @link c t x q j hc hn hn' hx h ih =>
    intro h1 h2
    have h3 : Nm (t ++ x ++ [n]) := by
      by_cases he : t ++ x = []
      · have : q = [] := by
          generalize hy : t ++ x = y at h
          rw [he] at hy
          cases h with
          | here => exact hy.symm
          | @link c' t' x' _ _ hc' =>
            have : c' = [] ∧ x' = [] := by simpa using hy.symm
            rw [this.1] at hc'
            obtain ⟨m, hm⟩ := hd.root
            rw [hm] at hc'; simp at hc'
        subst this
        rw [he]; exact h2
      · exact Nm.snoc hn' h1 he
    have h4 := ih h3 h2
    rw [List.append_assoc] at h1 h3 h4 ⊢
    exact .link hc h1 h3 (.inl (by simp)) h4

section
variable {ι : Type} {E : ι → Dict} {r : ι → Nat} {k : Option ι} {F : Others ι} {t : LTree} {s : Sys}

theorem LRel.clear_in (h : LRel E r k F t s) {q : List Str} (hq : Clear (siteV r s k) q) (hg : t.get q = some .dir ∨ t.get q = none) {n : Str}
    (hv : siteV r s k (q ++ [n]) ≠ some .other) : Clear (siteV r s k) (q ++ [n]) := by
  refine ⟨fun p hp hne => ?_, hv⟩
  have : p <+: q := (List.prefix_concat_iff.1 hp).resolve_left hne
  by_cases e : p = q
  · rw [e]
    rcases hg with hg | hg
    · exact .inl (h.dir hg)
    · exact .inr (h.gone hg)
  · exact hq.above p this e

theorem Clear.approach {q : List Str} (hq : Clear (siteV r s none) q) (n : Str) : Approach s.disk (q ++ [n]) := fun p hp hne =>
  hq.noLink p ((List.prefix_concat_iff.1 hp).resolve_left hne)

/-! ## Links stay -/

/-- a call in the memory file system `k` leaves the others as they are -/
def Rest {ι : Type} (r : ι → Nat) (k : Option ι) (s s' : Sys) : Prop := ∀ i, k = some i → ∀ j, j ≠ i → view s'.mem (r j) = view s.mem (r j)

theorem rest_mem {i : ι} {w : World} {ns : NS} (h : SysOk E r s) (hr : Function.Injective r) (hb : Mem.Becomes s.mem w (r i) ns) :
    Rest r (some i) s { s with mem := w } := by
  intro i' e j hj
  obtain rfl : i = i' := by simpa using e
  exact hb.other (r j) (h.fs j).isRoot fun c => hj (hr c)

theorem rest_loc {s' : Sys} : Rest r none s s' := fun _ e => by simp at e

/-- the links at other names stay, and the other memory file systems -/
def Keep {ι : Type} (E : ι → Dict) (r : ι → Nat) (k : Option ι) (q : List Str) (s s' : Sys) : Prop :=
  (∀ p x, p ≠ q → LinkTo E r s k p x → LinkTo E r s' k p x) ∧ Rest r k s s'

theorem keep_mem {i : ι} {w : World} {ns : NS} {q : List Str} (h : SysOk E r s) (hr : Function.Injective r) (hb : Mem.Becomes s.mem w (r i) ns)
    (ho : ∀ p, p ≠ q → ns p = view s.mem (r i) p) : Keep E r (some i) q s { s with mem := w } := by
  refine ⟨fun p x hp ⟨m, z, hl⟩ => ?_, rest_mem h hr hb⟩
  exact ⟨m, z, by show view w (r i) p = _; rw [hb.view, ho p hp, hl]⟩

theorem keep_set {i : ι} {w : World} {q : List Str} {o : Obj} (h : SysOk E r s) (hr : Function.Injective r)
    (hb : Mem.Becomes s.mem w (r i) ((view s.mem (r i)).set q o)) :
    Keep E r (some i) q s { s with mem := w } := keep_mem h hr hb fun _ hp => Mem.NS.set_ne _ _ hp

theorem keep_loc {s' : Sys} {q : List Str} (h : LinksStay s s') : Keep E r none q s s' := ⟨fun p _ _ hl => h p _ hl, rest_loc⟩

theorem Keep.trans {s1 s2 : Sys} {q : List Str} (h : Keep E r k q s s1) (h' : Keep E r k q s1 s2) : Keep E r k q s s2 :=
  ⟨fun p x hp hl => h'.1 p x hp (h.1 p x hp hl), fun i e j hj => (h'.2 i e j hj).trans (h.2 i e j hj)⟩

namespace LRel
variable (h : LRel E r k F t s)
include h

theorem set {s' : Sys} {p : List Str} {o : LKind} (hok : SysOk E r s') (hv : siteV r s' = upd (siteV r s) k p (some o.kind)) (hne : p ≠ [])
    (hk : Keep E r k p s s') (ho : ∀ x, o = .link x → Nm x ∧ LinkTo E r s' k p x) : LRel E r k F (t.set p o) s' := by
  refine ⟨hok, fun q => ?_, fun q x hq => ?_, fun j hj => ?_, fun i e j hj => by rw [hk.2 i e j hj, h.rest i e j hj], LTree.keys_set h.keys p o⟩
  · rw [hv, LTree.get_set hne]
    by_cases e : q = p
    · rw [if_pos e, e, upd_same]; rfl
    · rw [if_neg e, upd_ne (fun c => e c.2), h.here]
  · rw [LTree.get_set hne] at hq
    by_cases e : q = p
    · rw [if_pos e] at hq
      rw [e]
      exact ho x (Option.some.inj hq)
    · rw [if_neg e] at hq
      obtain ⟨h1, h2⟩ := h.links q x hq
      exact ⟨h1, hk.1 q x e h2⟩
  · rw [← h.there j hj, hv]
    funext q
    rw [upd_ne (fun c => hj c.1)]

theorem del {s' : Sys} {p : List Str} (hok : SysOk E r s') (hv : siteV r s' = upd (siteV r s) k p none) (hne : p ≠ [])
    (hk : Keep E r k p s s') : LRel E r k F (t.del p) s' := by
  refine ⟨hok, fun q => ?_, fun q x hq => ?_, fun j hj => ?_, fun i e j hj => by rw [hk.2 i e j hj, h.rest i e j hj], LTree.keys_del h.keys p⟩
  · rw [hv, LTree.get_del hne]
    by_cases e : q = p
    · rw [if_pos e, e, upd_same]; rfl
    · rw [if_neg e, upd_ne (fun c => e c.2), h.here]
  · rw [LTree.get_del hne] at hq
    by_cases e : q = p
    · rw [if_pos e] at hq; simp at hq
    · rw [if_neg e] at hq
      obtain ⟨h1, h2⟩ := h.links q x hq
      exact ⟨h1, hk.1 q x e h2⟩
  · rw [← h.there j hj, hv]
    funext q
    rw [upd_ne (fun c => hj c.1)]

theorem same {s' : Sys} (hok : SysOk E r s') (hv : siteV r s' = siteV r s) {q : List Str} (hk : Keep E r k q s s') (hq : t.get q = none ∨ ∃ d, t.get q = some (.file d)) :
    LRel E r k F t s' := by
  refine ⟨hok, fun q => by rw [hv]; exact h.here q, fun p x hp => ?_, fun j hj => by rw [hv]; exact h.there j hj,
    fun i e j hj => by rw [hk.2 i e j hj, h.rest i e j hj], h.keys⟩
  obtain ⟨h1, h2⟩ := h.links p x hp
  refine ⟨h1, hk.1 p x ?_ h2⟩
  rintro rfl
  rw [hp] at hq
  simp at hq

theorem names (cs : List Str) : siteNames r s k cs = t.names cs :=
  pairwise_ext (site_names_sorted h.ok) (LTree.names_sorted h.keys cs) fun n => by
    rw [site_mem_names, LTree.mem_names, h.here]
    cases t.get (cs ++ [n]) <;> simp

end LRel

/-! ## Calls that follow links -/

theorem way_goes {i : ι} {j : Nat} {cur rest q : List Str} {b : Bool} (h : Way r s j cur rest q b (some i)) :
    Goes (view s.mem (r i)) j cur rest (if b then .found q else .missing) := h

theorem LRel.goes {i : ι} (h : LRel E r (some i) F t s) {p q : List Str} (hn : Nm p) (e : t.lead 32 p = some q) :
    Goes (view s.mem (r i)) maxDepth [] p (if (t.get q).isSome then .found q else .missing) :=
  way_goes (lead_way h 32 hn e).2.2

theorem LRel.goes_here {i : ι} (h : LRel E r (some i) F t s) {q : List Str} (hc : Clear (siteV r s (some i)) q) :
    Goes (view s.mem (r i)) maxDepth [] q (if (t.get q).isSome then .found q else .missing) := by
  obtain ⟨h1, h2⟩ := site_goes h.ok hc
  have := h.here q
  cases hg : t.get q with
  | none => exact h2 (siteV_none.1 (h.gone hg))
  | some o => exact h1 (fun c => by rw [hg] at this; rw [siteV_none.2 c] at this; simp at this)

theorem mem_listdir {w : World} (hw : Mem.Inv w) {ρ : Nat} (hr : Mem.IsRoot w ρ) {u v : Uri} {p q : List Str} {out : Out}
    (hu : stepsOf u = some p) (hv : stepsOf v = some q) (hp : [] ∉ p) (hq : [] ∉ q) (h : Goes (view w ρ) maxDepth [] p out)
    (h' : Goes (view w ρ) maxDepth [] q out) : Mem.listdir w ρ u = Mem.listdir w ρ v := by
  by_cases hd : ∃ x, out = .found x ∧ (view w ρ).isDir x
  · obtain ⟨x, rfl, hx⟩ := hd
    obtain ⟨i, d, hi, hid⟩ := Mem.isDir_view hx
    rw [Mem.listdir_found hw hr hu (by rw [Mem.filter_clean hp]; exact h) hi hid,
      Mem.listdir_found hw hr hv (by rw [Mem.filter_clean hq]; exact h') hi hid]
  · have hd : ∀ x, out = .found x → ¬ (view w ρ).isDir x := fun x hx hc => hd ⟨x, hx, hc⟩
    rw [Mem.listdir_fail hw hr hu (by rw [Mem.filter_clean hp]; exact h) hd,
      Mem.listdir_fail hw hr hv (by rw [Mem.filter_clean hq]; exact h') hd]

theorem mem_openRead {w : World} (hw : Mem.Inv w) {ρ : Nat} (hr : Mem.IsRoot w ρ) {u v : Uri} {p q : List Str} {out : Out}
    (hu : stepsOf u = some p) (hv : stepsOf v = some q) (h : Goes (view w ρ) maxDepth [] p out)
    (h' : Goes (view w ρ) maxDepth [] q out) (b : Bool) : Mem.openRead ρ u b w = Mem.openRead ρ v b w := by
  by_cases hd : ∃ x, out = .found x ∧ (view w ρ).isFile x
  · obtain ⟨x, rfl, hx⟩ := hd
    obtain ⟨i, d, hi, hid⟩ := Mem.isFile_view hx
    rw [(Mem.openRead_found hw hr hu h hi hid).1, (Mem.openRead_found hw hr hv h' hi hid).1]
  · have hd : ∀ x, out = .found x → ¬ (view w ρ).isFile x := fun x hx hc => hd ⟨x, hx, hc⟩
    rw [(Mem.openRead_fail hw hr hu h hd).1, (Mem.openRead_fail hw hr hv h' hd).1]

/-- what is asked, listed or read at a path is what is asked, listed or read where it leads -/
theorem follow (h : LRel E r k F t s) {p q : List Str} (hn : Nm p) (e : t.lead 32 p = some q) :
    uExists sysOps (siteAt E k p) s = uExists sysOps (siteAt E k q) s ∧
    uIsfile sysOps (siteAt E k p) s = uIsfile sysOps (siteAt E k q) s ∧
    uIsdir sysOps (siteAt E k p) s = uIsdir sysOps (siteAt E k q) s ∧
    uListdir sysOps (siteAt E k p) s = uListdir sysOps (siteAt E k q) s ∧
    uOpenR sysOps (siteAt E k p) s = uOpenR sysOps (siteAt E k q) s := by
  obtain ⟨hq, hc, hw⟩ := lead_way h 32 hn e
  cases k with
  | none =>
    obtain ⟨j, hj, hl⟩ := hw
    obtain ⟨f1, f2, f3, f4, f5, -⟩ := C95_follow (E := E) h.ok hl (by omega) hn hq hc.noLink
    exact ⟨f1, f2, f3, f4, f5⟩
  | some i =>
    have g1 := h.goes hn e
    have g2 := h.goes_here hc
    have s1 := stepsOf_mem hn.ok (E i)
    have s2 := stepsOf_mem hq.ok (E i)
    have hi := h.ok.inv
    have hr := (h.ok.fs i).isRoot
    have sAt : ∀ x, siteAt E (some i) x = mem (E i) x := fun _ => rfl
    refine ⟨?_, ?_, ?_, ?_, ?_⟩
    all_goals refine (site_wc h.ok (k := some i) hn _ _).trans (Eq.trans ?_ (site_wc h.ok (k := some i) hq _ _).symm)
    · show onMem _ s = onMem _ s
      rw [onMem_query, onMem_query, sAt, sAt, Mem.exists_goes hi hr s1 g1, Mem.exists_goes hi hr s2 g2]
    · show onMem _ s = onMem _ s
      rw [onMem_query, onMem_query, sAt, sAt, Mem.isfile_goes hi hr s1 g1, Mem.isfile_goes hi hr s2 g2]
    · show onMem _ s = onMem _ s
      rw [onMem_query, onMem_query, sAt, sAt, Mem.isdir_goes hi hr s1 g1, Mem.isdir_goes hi hr s2 g2]
    · show onMem _ s = onMem _ s
      rw [onMem_query, onMem_query, sAt, sAt, mem_listdir hi hr s1 s2 hn.ok.nil_not_mem hq.ok.nil_not_mem g1 g2]
    · have : onMem (Mem.open_ (r i) (mem (E i) p) (some cl!"rb")) s = onMem (Mem.open_ (r i) (mem (E i) q) (some cl!"rb")) s := by
        unfold onMem
        rw [show Mem.open_ (r i) (mem (E i) p) (some cl!"rb") s.mem = Mem.open_ (r i) (mem (E i) q) (some cl!"rb") s.mem from
          mem_openRead hi hr s1 s2 g1 g2 true]
      show OM.bnd _ _ _ = OM.bnd _ _ _
      unfold OM.bnd
      rw [show onMem (Mem.open_ (r i) (siteAt E (some i) p) (some cl!"rb")) s = _ from this]
      rfl

/-! ## The same outcomes -/

/-- the outcomes are the same, unless there is no expectation -/
inductive LRes {ι : Type} (E : ι → Dict) (r : ι → Nat) (k : Option ι) (F : Others ι) {α : Type} :
    Except PyErr α × LTree → Except PyErr α × Sys → Prop
  | out (t : LTree) (y) : LRes E r k F (.error .outside, t) y
  | ok {a t s} : LRel E r k F t s → LRes E r k F (.ok a, t) (.ok a, s)
  | err {e t s} : LRel E r k F t s → LRes E r k F (.error e, t) (.error e, s)

/-- `b` does what `a` does -/
def LAlike {ι : Type} (E : ι → Dict) (r : ι → Nat) (k : Option ι) (F : Others ι) {α : Type}
    (a : OM LTree α) (b : OM Sys α) : Prop :=
  ∀ t s, LRel E r k F t s → LRes E r k F (a t) (b s)

theorem lalike_map {α β : Type} {a : OM LTree α} {b : OM Sys α} (f : α → β) (h : LAlike E r k F a b) :
    LAlike E r k F (a >>= fun x => pure (f x)) (b >>= fun x => pure (f x)) := by
  intro t s hrel
  have := h t s hrel
  show LRes E r k F (OM.bnd a _ t) (OM.bnd b _ s)
  unfold OM.bnd
  revert this
  generalize a t = x
  generalize b s = y
  intro this
  cases this with
  | out => exact .out _ _
  | ok h => exact .ok h
  | err h => exact .err h

theorem lalike_exists {p : List Str} (hn : Nm p) : LAlike E r k F (lAsk Option.isSome p) (uExists sysOps (siteAt E k p)) := by
  intro t s h
  unfold lAsk
  cases e : t.lead 32 p with
  | none => exact .out _ _
  | some q =>
    obtain ⟨hq, hc, -⟩ := lead_way h 32 hn e
    rw [(follow h hn e).1, show uExists sysOps (siteAt E k q) s = _ from (site_wc h.ok hq _ _).trans (site_exists h.ok hq hc), h.here]
    exact .ok h

theorem lalike_isfile {p : List Str} (hn : Nm p) : LAlike E r k F (lAsk isF p) (uIsfile sysOps (siteAt E k p)) := by
  intro t s h
  unfold lAsk
  cases e : t.lead 32 p with
  | none => exact .out _ _
  | some q =>
    obtain ⟨hq, hc, -⟩ := lead_way h 32 hn e
    rw [(follow h hn e).2.1, show uIsfile sysOps (siteAt E k q) s = _ from (site_wc h.ok hq _ _).trans (site_isfile h.ok hq hc), h.here]
    exact .ok h

theorem lalike_isdir {p : List Str} (hn : Nm p) : LAlike E r k F (lAsk isD p) (uIsdir sysOps (siteAt E k p)) := by
  intro t s h
  unfold lAsk
  cases e : t.lead 32 p with
  | none => exact .out _ _
  | some q =>
    obtain ⟨hq, hc, -⟩ := lead_way h 32 hn e
    rw [(follow h hn e).2.2.1, show uIsdir sysOps (siteAt E k q) s = _ from (site_wc h.ok hq _ _).trans (site_isdir h.ok hq hc), h.here]
    exact .ok h

theorem lalike_listdir {p : List Str} (hn : Nm p) : LAlike E r k F (lListdir p) (uListdir sysOps (siteAt E k p)) := by
  intro t s h
  unfold lListdir
  cases e : t.lead 32 p with
  | none => exact .out _ _
  | some q =>
    obtain ⟨hq, hc, -⟩ := lead_way h 32 hn e
    have hw : uListdir sysOps (siteAt E k q) s = _ := site_wc h.ok hq _ _
    rw [(follow h hn e).2.2.2.1, hw]
    dsimp only
    split
    · rename_i hg
      rw [site_listdir h.ok hq (h.dir hg), h.names]
      exact .ok h
    · rename_i hg
      rw [site_listdir_none h.ok hq hc (h.gone hg)]
      exact .err h
    · exact .out _ _

/-! ## Reading -/

theorem keep_openR (h : SysOk E r s) (hr : Function.Injective r) {cs : List Str} {d : Bytes} (hn : Nm cs)
    (hv : siteV r s k cs = some (.file d)) {a : Except PyErr Hd} {s' : Sys}
    (e : sysOps.openR (siteC r k) (siteAt E k cs) s = (a, s')) : Keep E r k cs s s' := by
  cases k with
  | none =>
    have := links_openR (siteC r (none : Option ι)) (siteAt E none cs) s
    rw [e] at this
    exact keep_loc this
  | some i =>
    obtain ⟨m, t, hf⟩ := siteV_file.1 hv
    obtain ⟨j, f, hj, hjf⟩ := Mem.isFile_view ⟨_, _, _, hf⟩
    have hg : Goes (view s.mem (r i)) maxDepth [] cs (.found cs) := Mem.Plain.goes (plain_of_view hf) hf rfl
    have e1 := (Mem.openRead_found h.inv (h.fs i).isRoot (b := true) (stepsOf_mem hn.ok (E i)) hg hj hjf).1
    rw [Mem.put_eq_setNode] at e1
    have e2 : Mem.open_ (r i) (mem (E i) cs) (some cl!"rb") s.mem = _ := e1
    have e' : sysOps.openR (siteC r (some i)) (siteAt E (some i) cs) s = _ := bind_ok (onMem_ok e2)
    rw [e'] at e
    obtain ⟨-, rfl⟩ := Prod.mk.inj e
    exact keep_set h hr (Mem.becomes_put h.inv (h.fs i).isRoot (k := s.mem.tick) (f' := { f with pos := 0 }) hj hjf)

theorem keep_read (h : SysOk E r s) (hr : Function.Injective r) {q : List Str} {hd : Hd} {data : Bytes} {pos : Nat}
    (hrd : RdAt r s k q hd data pos) {n : Nat} {a : Except PyErr Mem.PyData} {s' : Sys} (e : hRead n hd s = (a, s')) :
    Keep E r k q s s' := by
  cases k with
  | none =>
    have := links_hRead n hd s
    rw [e] at this
    exact keep_loc this
  | some i =>
    cases hd with
    | loc _ => exact hrd.elim
    | mem hh =>
      obtain ⟨h1, h2, hp, f, hf, rfl, rfl⟩ := hrd
      have e1 := Mem.read_eq (n := n) h1 hf
      have e' : hRead n (.mem hh) s = _ := onMem_ok e1
      rw [e'] at e
      obtain ⟨-, rfl⟩ := Prod.mk.inj e
      exact keep_set h hr (Mem.becomes_put h.inv (h.fs i).isRoot hp hf)

theorem keep_write (h : SysOk E r s) (hr : Function.Injective r) {q : List Str} {hd : Hd} {data : Bytes}
    (hwr : WrAt r s k q hd data) {b : Bytes} {a : Except PyErr Unit} {s' : Sys} (e : hWrite hd (.bytes b) s = (a, s')) :
    Keep E r k q s s' := by
  cases k with
  | none =>
    have := links_hWrite hd (.bytes b) s
    rw [e] at this
    exact keep_loc this
  | some i =>
    cases hd with
    | loc _ => exact hwr.elim
    | mem hh =>
      obtain ⟨hp, f, hf, rfl, hpos⟩ := hwr
      have e1 := Mem.write_eq (h := hh) (d := .bytes b) rfl hf
      have e' : hWrite (.mem hh) (.bytes b) s = _ := onMem_ok e1
      rw [e'] at e
      obtain ⟨-, rfl⟩ := Prod.mk.inj e
      exact keep_set h hr (Mem.becomes_put h.inv (h.fs i).isRoot hp hf)

theorem lalike_read (hr : Function.Injective r) {p : List Str} (hn : Nm p) : LAlike E r k F (lRead p) (sRead (siteAt E k p)) := by
  intro t s h
  unfold lRead
  cases e : t.lead 32 p with
  | none => exact .out _ _
  | some q =>
    obtain ⟨hq, hc, -⟩ := lead_way h 32 hn e
    have hw : uOpenR sysOps (siteAt E k p) s = sysOps.openR (siteC r k) (siteAt E k q) s :=
      (follow h hn e).2.2.2.2.trans (site_wc h.ok hq _ _)
    unfold sRead
    dsimp only
    split
    · rename_i d hg
      obtain ⟨s1, hd, e1, ok1, v1, rd1⟩ := site_openR h.ok hq (h.file hg)
      obtain ⟨s2, e2, ok2, v2, -, -⟩ := read_step ok1 hr rd1 d.length
      have k1 : Keep E r k q s s1 := keep_openR h.ok hr hq (h.file hg) e1
      have k2 : Keep E r k q s1 s2 := keep_read ok1 hr rd1 e2
      rw [bind_ok (hw.trans e1), bind_ok (hSize_eq rd1), bind_ok e2]
      have : (List.drop 0 d).take d.length = d := by rw [List.drop_zero, List.take_length]
      simp only [this]
      exact .ok (h.same ok2 (by rw [v2, v1]) (k1.trans k2) (.inr ⟨d, hg⟩))
    · rename_i hg
      rw [bind_error (hw.trans (site_openR_none h.ok hq hc (h.gone hg)))]
      exact .err h
    · exact .out _ _

/-! ## Writing -/

theorem keep_writes (hr : Function.Injective r) (l : List Bytes) : ∀ {s : Sys} {q : List Str} {hd : Hd} {data : Bytes}, SysOk E r s →
    WrAt r s k q hd data → Keep E r k q s (sWrites hd l s).2 := by
  induction l with
  | nil => intro s q hd data _ _; exact ⟨fun p x _ hl => hl, fun _ _ _ _ => rfl⟩
  | cons b l ih =>
    intro s q hd data h hw
    obtain ⟨s1, e1, ok1, v1, w1, -⟩ := write_step h hr hw b
    have k1 : Keep E r k q s s1 := keep_write h hr hw e1
    unfold sWrites
    rw [bind_ok e1]
    exact k1.trans (ih ok1 w1)

/-- files open for reading, other than this one, can be read on; this one is empty -/
def RdKeep {ι : Type} (r : ι → Nat) (k : Option ι) (q : List Str) (s s' : Sys) : Prop :=
  (∀ k' q' hd' g pos, ¬ (k' = k ∧ q' = q) → RdAt r s k' q' hd' g pos → RdAt r s' k' q' hd' g pos) ∧
    ∀ hd' g, RdAt r s k q hd' g 0 → RdAt r s' k q hd' [] 0

theorem rd_same (h : SysOk E r s) {q : List Str} (hn : Nm q) {hd hd' : Hd} {s' : Sys} {g : Bytes}
    (e : sysOps.openW (siteC r (none : Option ι)) (siteAt E none q) s = (.ok hd, s')) (hrd : RdAt r s none q hd' g 0) : RdAt r s' none q hd' [] 0 := by
  cases hd' with
  | mem _ => exact hrd.elim
  | loc fd' =>
    obtain ⟨h3, p', h4⟩ := hrd
    have e' : osOpenW (loc q).path s.disk =
        (.ok s.disk.fds.length, { s.disk.set q (.file p' []) with fds := s.disk.fds ++ [(q, 0)] }) := by
      unfold osOpenW Disk.newFd
      simp only [find_here h.disk hn h4 (.inr rfl), h4]
      rfl
    have e2 : sysOps.openW (siteC r (none : Option ι)) (siteAt E none q) s = _ := bind_ok (onDisk_ok e')
    have hs := (Prod.mk.inj (e.symm.trans e2)).2
    subst hs
    refine ⟨?_, p', ?_⟩
    · have : fd' < s.disk.fds.length := (List.getElem?_eq_some_iff.1 h3).1
      show (s.disk.fds ++ _)[fd']? = _
      rw [List.getElem?_append_left this]
      exact h3
    · show (s.disk.set _ _).tree q = _
      rw [tree_set, if_pos rfl]

theorem rd_new {i : ι} (h : SysOk E r s) (hr : Function.Injective r) {init q : List Str} {n : Str} (hn : Nm (init ++ [n]))
    (g : Goes (view s.mem (r i)) maxDepth [] init (.found q)) (hd : (view s.mem (r i)).isDir q) (hv : view s.mem (r i) (q ++ [n]) = none)
    {a : Except PyErr Mem.Handle} {w : World} (e : Mem.openWrite (r i) (mem (E i) (init ++ [n])) true s.mem = (a, w)) :
    RdKeep r (some i) (q ++ [n]) s { s with mem := w } := by
  have hw := h.inv
  have hroot := (h.fs i).isRoot
  obtain ⟨p, h1, -, h3⟩ := Mem.stepsOf_snoc (stepsOf_mem hn.ok (E i))
  obtain ⟨nd, d, a', b', c, e'⟩ := Mem.openWrite_new hw hroot (b := true) h1 h3 g hd hv
  rw [e] at e'
  obtain ⟨-, e'⟩ := Prod.mk.inj e'
  refine ⟨?_, fun hd' gd hrd => ?_⟩
  rotate_left
  · have := hrd.siteV
    rw [siteV_none.2 hv] at this
    simp at this
  intro k' q' hd' gd pos hne hrd
  cases k' with
  | none => cases hd' <;> exact hrd
  | some j =>
    cases hd' with
    | loc _ => exact hrd.elim
    | mem h' =>
      obtain ⟨h7, h8, h9, f, h10, h11⟩ := hrd
      have hlt := Mem.phys_lt hw (h.fs j).isRoot h9
      have hin : h'.id ≠ nd := by intro e; rw [e, b'] at h10; simp at h10
      refine ⟨h7, h8, ?_, f, ?_, h11⟩
      · show phys w _ _ = _
        rw [e', Mem.phys_addChild hw hroot a' b' c (n := s.mem.freshFile p) trivial (r j) (h.fs j).isRoot, if_neg]
        · exact h9
        · rintro ⟨e1, e2⟩; exact hne ⟨by rw [hr e1], e2⟩
      · show w.node _ = _
        rw [e']
        simp only [World.addChild]
        rw [if_neg hin, if_neg (by omega)]
        exact h10

theorem rd_found {i : ι} (h : SysOk E r s) (hr : Function.Injective r) {init q q' : List Str} {n : Str} (hn : Nm (init ++ [n]))
    (g : Goes (view s.mem (r i)) maxDepth [] init (.found q)) {o : Obj} (ho : view s.mem (r i) (q ++ [n]) = some o)
    (g' : Goes (view s.mem (r i)) maxDepth [] (init ++ [n]) (.found q')) (hf : (view s.mem (r i)).isFile q')
    {a : Except PyErr Mem.Handle} {w : World} (e : Mem.openWrite (r i) (mem (E i) (init ++ [n])) true s.mem = (a, w)) :
    RdKeep r (some i) q' s { s with mem := w } := by
  have hw := h.inv
  have hroot := (h.fs i).isRoot
  obtain ⟨p, h1, -, h3⟩ := Mem.stepsOf_snoc (stepsOf_mem hn.ok (E i))
  obtain ⟨o', a', e'⟩ := Mem.openWrite_found hw hroot (b := true) h1 h3 g ho g'
  obtain ⟨o2, fo, a2, hfo⟩ := Mem.isFile_view hf
  have : o2 = o' := by rw [a'] at a2; simpa using a2.symm
  subst this
  rw [hfo] at e'
  have e'' := e.symm.trans e'
  obtain ⟨-, e''⟩ := Prod.mk.inj e''
  change w = s.mem.put o2 _ (s.mem.tick + 1) at e''
  refine ⟨?_, fun hd' gd hrd => ?_⟩
  rotate_left
  · cases hd' with
    | loc _ => exact hrd.elim
    | mem h' =>
      obtain ⟨h7, h8, h9, f, h10, h11⟩ := hrd
      have hid : h'.id = o2 := by rw [a'] at h9; exact (Option.some.inj h9).symm
      refine ⟨h7, h8, ?_, ?_⟩
      · show phys w _ _ = _
        rw [e'', Mem.phys_put hfo]; exact h9
      · show ∃ f, w.node h'.id = _ ∧ _
        rw [e'', hid]
        simp only [World.put, World.setNode, if_true]
        exact ⟨_, rfl, rfl, rfl⟩
  intro k' q1 hd' gd pos hne hrd
  cases k' with
  | none => cases hd' <;> exact hrd
  | some j =>
    cases hd' with
    | loc _ => exact hrd.elim
    | mem h' =>
      obtain ⟨h7, h8, h9, f, h10, h11⟩ := hrd
      refine ⟨h7, h8, ?_, f, ?_, h11⟩
      · show phys w _ _ = _
        rw [e'', Mem.phys_put hfo]; exact h9
      · show w.node _ = _
        rw [e'', Mem.put_node_ne _ _ _ (ids_ne h hr h9 a' hne)]; exact h10

/-- what opening for writing has done -/
def OpenedW {ι : Type} (E : ι → Dict) (r : ι → Nat) (k : Option ι) (q : List Str) (s : Sys) (y : Except PyErr Hd × Sys) : Prop :=
  ∃ s' hd, y = (.ok hd, s') ∧ SysOk E r s' ∧ siteV r s' = upd (siteV r s) k q (some (.file [])) ∧ WrAt r s' k q hd [] ∧ Keep E r k q s s' ∧
    RdKeep r k q s s'

theorem openedW_loc {s : Sys} (h : SysOk E r s) (hr : Function.Injective r) {p q : List Str} {j : Nat} (hl : Leads s.disk true j p q) (hj : j ≤ 40)
    (hn : Nm p) (hq : Nm q) (hc : Clear (siteV r s none) q) (hne : q ≠ []) (hd : siteV r s none q.dropLast = some .dir)
    (hv : siteV r s none q = none ∨ isF (siteV r s none q) = true) : OpenedW E r none q s (uOpenW sysOps (siteAt E none p) s) := by
  rcases List.eq_nil_or_concat q with rfl | ⟨ds, n, rfl⟩
  · exact absurd rfl hne
  · rw [List.concat_eq_append] at *
    rw [List.dropLast_concat] at hd
    obtain ⟨s', hd, e, h1, h2, h3, h4⟩ := site_openW h hr hq hd hv
    obtain ⟨-, -, -, -, -, f6⟩ := C95_follow (E := E) h hl hj hn hq hc.noLink
    have hw : uOpenW sysOps (siteAt E none (ds ++ [n])) s = (.ok hd, s') := (site_wc h (k := none) hq _ _).trans e
    have := links_openW (siteC r (none : Option ι)) (siteAt E none (ds ++ [n])) s
    rw [e] at this
    exact ⟨s', hd, f6.trans hw, h1, h2, h3, keep_loc this, fun _ _ _ _ _ hx hy => h4 hx hy, fun _ _ hy => rd_same h hq e hy⟩

theorem openedW_mem {i : ι} (h : SysOk E r s) (hr : Function.Injective r) {p q : List Str} (hn : Nm p) {w : World} {j : Nat} {f : Mem.FileObj}
    (e : Mem.openWrite (r i) (mem (E i) p) true s.mem = (.ok ⟨j, false, true⟩, w)) (ho : Mem.Opened s.mem w (r i) j q f)
    (hk : RdKeep r (some i) q s { s with mem := w }) : OpenedW E r (some i) q s (uOpenW sysOps (siteAt E (some i) p) s) := by
  obtain ⟨h5, h6⟩ := h.set_mem hr ho.becomes
  have e2 : Mem.open_ (r i) (mem (E i) p) (some cl!"wb") s.mem = _ := e
  refine ⟨_, .mem ⟨j, false, true⟩, (site_wc h (k := some i) hn _ _).trans (bind_ok (onMem_ok e2)), h5, h6, ?_, keep_set h hr ho.becomes, hk⟩
  exact ⟨ho.phys, f, ho.node, ho.data, by rw [ho.pos]; rfl⟩

/-- opening for writing what is not there, or a file -/
theorem openW_entry (h : LRel E r k F t s) (hr : Function.Injective r) {init q : List Str} {n : Str} (hn : Nm (init ++ [n]))
    (e : t.lead 32 init = some q) (hq : Nm (q ++ [n])) (hd : t.get q = some .dir)
    (hv : t.get (q ++ [n]) = none ∨ ∃ d, t.get (q ++ [n]) = some (.file d)) :
    OpenedW E r k (q ++ [n]) s (uOpenW sysOps (siteAt E k (init ++ [n])) s) := by
  obtain ⟨hq', hc, hw⟩ := lead_way h 32 hn.of_prefix e
  have hcl : Clear (siteV r s k) (q ++ [n]) := h.clear_in hc (.inl hd) (by
    rcases hv with hv | ⟨d, hv⟩
    · rw [h.gone hv]; simp
    · rw [h.file hv]; simp)
  cases k with
  | none =>
    obtain ⟨j, hj, hl⟩ := hw
    refine openedW_loc h.ok hr (Props.Leads.follow (leads_snoc h.ok.disk hl hn hq)) (by omega) hn hq hcl (by simp) (by rw [List.dropLast_concat]; exact h.dir hd) ?_
    rcases hv with hv | ⟨d, hv⟩
    · exact .inl (h.gone hv)
    · exact .inr (by rw [h.file hv]; rfl)
  | some i =>
    have g := h.goes hn.of_prefix e
    rw [hd] at g
    have g : Goes (view s.mem (r i)) maxDepth [] init (.found q) := g
    have hs := stepsOf_mem hn.ok (E i)
    rcases hv with hv | ⟨d, hv⟩
    · obtain ⟨w, f, h1, h2⟩ := Mem.openWrite_new' h.ok.inv ((h.ok.fs i).serves _) true hs g (siteV_dir.1 (h.dir hd)) (siteV_none.1 (h.gone hv))
      exact openedW_mem h.ok hr hn h1 h2 (rd_new h.ok hr hn g (siteV_dir.1 (h.dir hd)) (siteV_none.1 (h.gone hv)) h1)
    · obtain ⟨m, z, hf⟩ := siteV_file.1 (h.file hv)
      obtain ⟨w, j, f, h1, h2, -⟩ := Mem.openWrite_found' h.ok.inv ((h.ok.fs i).serves _) true hs g hf
        (g.snoc (siteV_dir.1 (h.dir hd)) hf rfl) ⟨_, _, _, hf⟩
      exact openedW_mem h.ok hr hn h1 h2 (rd_found h.ok hr hn g hf (g.snoc (siteV_dir.1 (h.dir hd)) hf rfl) ⟨_, _, _, hf⟩ h1)

/-- opening a directory for writing -/
theorem openW_isdir (h : LRel E r k F t s) {init q q' : List Str} {n : Str} (hn : Nm (init ++ [n]))
    (e : t.lead 32 init = some q) (hd : t.get q = some .dir) {o : LKind} (ho : t.get (q ++ [n]) = some o)
    (hq' : Nm q') (hc' : Clear (siteV r s k) q') (hw' : Way r s 32 [] (init ++ [n]) q' true k) (hd' : t.get q' = some .dir) :
    uOpenW sysOps (siteAt E k (init ++ [n])) s = (.error (.os .EISDIR), s) := by
  cases k with
  | none =>
    obtain ⟨j, hj, hl⟩ := hw'
    obtain ⟨-, -, -, -, -, f6⟩ := C95_follow (E := E) h.ok hl (by omega) hn hq' hc'.noLink
    refine f6.trans ((site_wc h.ok (k := none) hq' _ _).trans ?_)
    obtain ⟨p, hp⟩ := siteV_ldir.1 (h.dir hd')
    have : onDisk (osOpenW (loc q').path) s = (.error (.os .EISDIR), s) := by
      apply onDisk_ok (d := s.disk)
      unfold osOpenW
      rw [find_here h.ok.disk hq' hp (.inr rfl)]
      simp only [hp]
    exact bind_error this
  | some i =>
    have g := h.goes hn.of_prefix e
    rw [hd] at g
    have g' : Goes (view s.mem (r i)) maxDepth [] (init ++ [n]) (.found q') := way_goes hw'
    have hx := h.here (q ++ [n])
    rw [ho] at hx
    obtain ⟨o', ho'⟩ : ∃ o', view s.mem (r i) (q ++ [n]) = some o' := by
      cases hv : view s.mem (r i) (q ++ [n]) with
      | none => rw [siteV_none.2 hv] at hx; simp at hx
      | some o' => exact ⟨o', rfl⟩
    obtain ⟨p, h1, -, h3⟩ := Mem.stepsOf_snoc (stepsOf_mem hn.ok (E i))
    obtain ⟨j, hj, he⟩ := Mem.openWrite_found h.ok.inv (h.ok.fs i).isRoot (b := true) h1 h3 g ho' g'
    obtain ⟨d, hdj⟩ := Mem.dir_of_isDir (siteV_dir.1 (h.dir hd')) hj
    rw [hdj] at he
    have : Mem.open_ (r i) (mem (E i) (init ++ [n])) (some cl!"wb") s.mem = (.error (.os .EISDIR), s.mem) := he
    exact (site_wc h.ok (k := some i) hn _ _).trans (bind_error (onMem_ok this))

/-- opening for writing by a link to a file -/
theorem openW_link (h : LRel E r k F t s) (hr : Function.Injective r) {init q q' x : List Str} {n : Str} {d : Bytes} (hn : Nm (init ++ [n]))
    (e : t.lead 32 init = some q) (hd : t.get q = some .dir) (ho : t.get (q ++ [n]) = some (.link x))
    (e' : t.lead 32 (init ++ [n]) = some q') (hf : t.get q' = some (.file d)) :
    OpenedW E r k q' s (uOpenW sysOps (siteAt E k (init ++ [n])) s) := by
  obtain ⟨hq', hc', hw'⟩ := lead_way h 32 hn e'
  have hne : q' ≠ [] := by rintro rfl; simp [LTree.get] at hf
  cases k with
  | none =>
    obtain ⟨j, hj, hl⟩ := hw'
    refine openedW_loc h.ok hr hl (by omega) hn hq' hc' hne ?_ (.inr (by rw [h.file hf]; rfl))
    refine site_dirs h.ok (q := q') (by rw [h.file hf]; simp) (List.dropLast_prefix _) fun c => ?_
    have := congrArg List.length c
    rw [List.length_dropLast] at this
    have := List.length_pos_of_ne_nil hne
    omega
  | some i =>
    have g := h.goes hn.of_prefix e
    rw [hd] at g
    have g' := h.goes hn e'
    rw [hf] at g'
    obtain ⟨-, m, z, hl⟩ := h.links _ _ ho
    obtain ⟨m', z', hf'⟩ := siteV_file.1 (h.file hf)
    obtain ⟨w, j, f, h1, h2, -⟩ := Mem.openWrite_found' h.ok.inv ((h.ok.fs i).serves _) true (stepsOf_mem hn.ok (E i)) g hl g' ⟨_, _, _, hf'⟩
    exact openedW_mem h.ok hr hn h1 h2 (rd_found h.ok hr hn g hl g' ⟨_, _, _, hf'⟩ h1)

/-- opening for writing in a directory that is not there -/
theorem openW_nodir (h : LRel E r k F t s) {init q : List Str} {n : Str} (hn : Nm (init ++ [n]))
    (e : t.lead 32 init = some q) (hq : Nm (q ++ [n])) (hd : t.get q = none) :
    uOpenW sysOps (siteAt E k (init ++ [n])) s = (.error (.os .ENOENT), s) := by
  obtain ⟨hq', hc, hw⟩ := lead_way h 32 hn.of_prefix e
  have hv : siteV r s k (q ++ [n]) = none := by
    by_contra hx
    have := site_tree h.ok hx
    rw [h.gone hd] at this; simp at this
  have hcl : Clear (siteV r s k) (q ++ [n]) := h.clear_in hc (.inr hd) (by rw [hv]; simp)
  cases k with
  | none =>
    obtain ⟨j, hj, hl⟩ := hw
    obtain ⟨-, -, -, -, -, f6⟩ := C95_follow (E := E) h.ok (Props.Leads.follow (leads_snoc h.ok.disk hl hn hq)) (by omega) hn hq hcl.noLink
    exact f6.trans ((site_wc h.ok (k := none) hq _ _).trans (site_openW_parent h.ok (k := none) hq hcl (h.gone hd)))
  | some i =>
    have g := h.goes hn.of_prefix e
    rw [hd] at g
    obtain ⟨p, h1, -, h3⟩ := Mem.stepsOf_snoc (stepsOf_mem hn.ok (E i))
    have : Mem.open_ (r i) (mem (E i) (init ++ [n])) (some cl!"wb") s.mem = (.error (.os .ENOENT), s.mem) :=
      Mem.openWrite_fail h.ok.inv (h.ok.fs i).isRoot (b := true) h1 h3 g (by simp)
    exact (site_wc h.ok (k := some i) hn _ _).trans (bind_error (onMem_ok this))

theorem written (h : LRel E r k F t s) (hr : Function.Injective r) {q : List Str} {u : Uri} (hne : q ≠ [])
    (ho : OpenedW E r k q s (uOpenW sysOps u s)) (l : List Bytes) :
    ∃ s', sWrite u l s = (.ok (), s') ∧ LRel E r k F (t.set q (.file l.flatten)) s' := by
  obtain ⟨s1, hd, e1, ok1, v1, w1, k1, -⟩ := ho
  obtain ⟨s2, e2, ok2, v2⟩ := sWrites_eq hr l ok1 w1 (by rw [v1, upd_same])
  have k2 := keep_writes (k := k) hr l ok1 w1
  rw [e2] at k2
  refine ⟨s2, ?_, h.set ok2 ?_ hne (k1.trans k2) (by simp)⟩
  · unfold sWrite
    rw [bind_ok e1, e2]
  · rw [v2, v1, upd_upd]; rfl

theorem lalike_write (hr : Function.Injective r) {p : List Str} (hn : Nm p) (l : List Bytes) :
    LAlike E r k F (lWrite p l.flatten) (sWrite (siteAt E k p) l) := by
  intro t s h
  unfold lWrite
  cases he : t.entry p with
  | none => exact .out _ _
  | some x =>
    obtain ⟨q, n⟩ := x
    obtain ⟨init, rfl, e, hq⟩ := entry_some he
    dsimp only
    have err : ∀ {er}, uOpenW sysOps (siteAt E k (init ++ [n])) s = (.error er, s) → sWrite (siteAt E k (init ++ [n])) l s = (.error er, s) :=
      fun hh => by unfold sWrite; exact bind_error hh
    cases hd : t.get q with
    | none =>
      rw [err (openW_nodir h hn e hq hd)]
      exact .err h
    | some o =>
      cases o with
      | file d => exact .out _ _
      | link x => exact .out _ _
      | dir =>
        dsimp only
        cases hv : t.get (q ++ [n]) with
        | none =>
          obtain ⟨s', e1, h1⟩ := written h hr (by simp) (openW_entry h hr hn e hq hd (.inl hv)) l
          rw [e1]
          exact .ok h1
        | some o =>
          cases o with
          | file d =>
            obtain ⟨s', e1, h1⟩ := written h hr (by simp) (openW_entry h hr hn e hq hd (.inr ⟨d, hv⟩)) l
            rw [e1]
            exact .ok h1
          | dir =>
            obtain ⟨hq', hc, hw⟩ := lead_way h 32 hn.of_prefix e
            have : uOpenW sysOps (siteAt E k (init ++ [n])) s = (.error (.os .EISDIR), s) := by
              refine openW_isdir h hn e hd hv hq (h.clear_in hc (.inl hd) (by rw [h.dir hv]; simp)) ?_ hv
              cases k with
              | none =>
                obtain ⟨j, hj, hl⟩ := hw
                exact ⟨j, hj, Props.Leads.follow (leads_snoc h.ok.disk hl hn hq)⟩
              | some i =>
                have g := h.goes hn.of_prefix e
                rw [hd] at g
                obtain ⟨o, ho, ho'⟩ := NS.isDir_iff.1 (siteV_dir.1 (h.dir hv))
                exact Goes.snoc (show Goes (view s.mem (r i)) 32 [] init (.found q) from g) (siteV_dir.1 (h.dir hd)) ho
                  (by cases o <;> simp_all [Obj.isDir, Obj.isLink])
            rw [err this]
            exact .err h
          | link x =>
            dsimp only
            cases e' : t.lead 32 (init ++ [n]) with
            | none => exact .out _ _
            | some q' =>
              dsimp only
              cases hv' : t.get q' with
              | none => exact .out _ _
              | some o =>
                cases o with
                | link x => exact .out _ _
                | dir =>
                  obtain ⟨hq', hc', hw'⟩ := lead_way h 32 hn e'
                  rw [hv'] at hw'
                  rw [err (openW_isdir h hn e hd hv hq' hc' hw' hv')]
                  exact .err h
                | file d =>
                  obtain ⟨s', e1, h1⟩ := written h hr (by rintro rfl; simp [LTree.get] at hv') (openW_link h hr hn e hd hv e' hv') l
                  rw [e1]
                  exact .ok h1

/-! ## Making -/

theorem links_mkdir (c : Conn) (u : Uri) : Keeps LinksStay (sysOps.mkdir c u) := by
  cases c with
  | mem r => exact quiet_links.mem _
  | loc =>
    refine Keeps.ite (quiet_links.pure _) fun s => ?_
    unfold onDisk osMkdir
    cases hf : s.disk.find false u.path with
    | here q => exact LinksStay.refl s
    | free c n => exact links_set (d := s.disk.set (c ++ [n]) _) rfl (.inl (by rw [find_isFree hf]; rfl))
    | fail e => exact LinksStay.refl s

/-- where a new name comes to stand: the parts of the proof that mkdir and symlink share -/
theorem lalike_make {p : List Str} {o : LKind} (hn : Nm p) {m : OM Sys Unit}
    (new : ∀ t s init q n, LRel E r k F t s → p = init ++ [n] → t.lead 32 init = some q → Nm (q ++ [n]) → t.get q = some .dir →
      t.get (q ++ [n]) = none → ∃ s', m s = (.ok (), s') ∧ LRel E r k F (t.set (q ++ [n]) o) s')
    (taken : ∀ t s init q n, LRel E r k F t s → p = init ++ [n] → t.lead 32 init = some q → Nm (q ++ [n]) → t.get q = some .dir →
      t.get (q ++ [n]) ≠ none → m s = (.error (.os .EEXIST), s))
    (nodir : ∀ t s init q n, LRel E r k F t s → p = init ++ [n] → t.lead 32 init = some q → Nm (q ++ [n]) → t.get q = none →
      Clear (siteV r s k) (q ++ [n]) → siteV r s k (q ++ [n]) = none → m s = (.error (.os .ENOENT), s)) :
    LAlike E r k F (fun t => t.make p o) m := by
  intro t s h
  show LRes E r k F (t.make p o) (m s)
  cases he : t.entry p with
  | none =>
    have : t.make p o = (.error .outside, t) := by unfold LTree.make; rw [he]
    rw [this]
    exact .out _ _
  | some x =>
    obtain ⟨q, n⟩ := x
    obtain ⟨init, rfl, e, hq⟩ := entry_some he
    cases hd : t.get q with
    | none =>
      have hv : siteV r s k (q ++ [n]) = none := by
        by_contra hx
        have := site_tree h.ok hx
        rw [h.gone hd] at this; simp at this
      have hc := (lead_way h 32 hn.of_prefix e).2.1
      have hm : t.make (init ++ [n]) o = (.error (.os .ENOENT), t) := by
        unfold LTree.make; rw [he]; dsimp only; rw [hd]
      rw [hm, nodir t s init q n h rfl e hq hd (h.clear_in hc (.inr hd) (by rw [hv]; simp)) hv]
      exact .err h
    | some o' =>
      cases o' with
      | file d =>
        have hm : t.make (init ++ [n]) o = (.error .outside, t) := by unfold LTree.make; rw [he]; dsimp only; rw [hd]
        rw [hm]
        exact .out _ _
      | link x =>
        have hm : t.make (init ++ [n]) o = (.error .outside, t) := by unfold LTree.make; rw [he]; dsimp only; rw [hd]
        rw [hm]
        exact .out _ _
      | dir =>
        by_cases hv : t.get (q ++ [n]) = none
        · obtain ⟨s', e1, h1⟩ := new t s init q n h rfl e hq hd hv
          have hm : t.make (init ++ [n]) o = (.ok (), t.set (q ++ [n]) o) := by
            unfold LTree.make; rw [he]; dsimp only; rw [hd]; dsimp only; rw [if_pos hv]
          rw [e1, hm]
          exact .ok h1
        · have hm : t.make (init ++ [n]) o = (.error (.os .EEXIST), t) := by
            unfold LTree.make; rw [he]; dsimp only; rw [hd]; dsimp only; rw [if_neg hv]
          rw [hm, taken t s init q n h rfl e hq hd hv]
          exact .err h

theorem LRel.held (h : LRel E r k F t s) {p : List Str} (e : t.get p ≠ none) : siteV r s k p ≠ none := by
  rw [h.here]
  cases hg : t.get p with
  | none => exact absurd hg e
  | some o => simp

theorem lalike_mkdir (hr : Function.Injective r) {p : List Str} (hn : Nm p) :
    LAlike E r k F (fun t => t.make p .dir) (uMkdir sysOps (siteAt E k p)) := by
  refine lalike_make hn ?_ ?_ ?_
  · rintro t s init q n h rfl e hq hd hv
    obtain ⟨hq', hc, hw⟩ := lead_way h 32 hn.of_prefix e
    cases k with
    | none =>
      obtain ⟨j, hj, hl⟩ := hw
      obtain ⟨-, -, f3, -, -⟩ := C95_below (E := E) h.ok (leads_snoc h.ok.disk hl hn hq) (by omega) hn hq (hc.approach n)
      obtain ⟨s', e1, h1, h2⟩ := site_mkdir h.ok hr (k := none) hq (h.dir hd) (h.gone hv)
      have st := links_mkdir (siteC r (none : Option ι)) (siteAt E none (q ++ [n])) s
      rw [e1] at st
      exact ⟨s', f3.trans ((site_wc h.ok (k := none) hq _ _).trans e1), h.set h1 h2 (by simp) (keep_loc st) (by simp)⟩
    | some i =>
      have g := h.goes hn.of_prefix e
      rw [hd] at g
      obtain ⟨nd, d, h1, h2, h3, h4⟩ := Mem.mkdir_new h.ok.inv (h.ok.fs i).isRoot (stepsOf_mem hn.ok (E i)) g (siteV_dir.1 (h.dir hd))
        (siteV_none.1 (h.gone hv))
      have hb := Mem.becomes_addChild h.ok.inv (h.ok.fs i).isRoot h1 h2 h3 (n := s.mem.freshDir) rfl
      obtain ⟨h5, h6⟩ := h.ok.set_mem hr hb
      exact ⟨_, (site_wc h.ok (k := some i) hn _ _).trans (onMem_ok h4), h.set h5 h6 (by simp) (keep_set h.ok hr hb) (by simp)⟩
  · rintro t s init q n h rfl e hq hd hv
    obtain ⟨hq', hc, hw⟩ := lead_way h 32 hn.of_prefix e
    cases k with
    | none =>
      obtain ⟨j, hj, hl⟩ := hw
      obtain ⟨-, -, f3, -, -⟩ := C95_below (E := E) h.ok (leads_snoc h.ok.disk hl hn hq) (by omega) hn hq (hc.approach n)
      exact f3.trans ((site_wc h.ok (k := none) hq _ _).trans (site_mkdir_taken h.ok hq (by simp) (h.held hv)))
    | some i =>
      have g := h.goes hn.of_prefix e
      rw [hd] at g
      obtain ⟨o, ho⟩ := Option.ne_none_iff_exists'.1 fun c => h.held hv (siteV_none.2 c)
      exact (site_wc h.ok (k := some i) hn _ _).trans
        (onMem_ok (Mem.create_taken h.ok.inv (h.ok.fs i).isRoot (t := mem (E i) []) (stepsOf_mem hn.ok (E i)) g ho).1)
  · rintro t s init q n h rfl e hq hd hcl hv
    obtain ⟨hq', hc, hw⟩ := lead_way h 32 hn.of_prefix e
    cases k with
    | none =>
      obtain ⟨j, hj, hl⟩ := hw
      obtain ⟨-, -, f3, -, -⟩ := C95_below (E := E) h.ok (leads_snoc h.ok.disk hl hn hq) (by omega) hn hq (hc.approach n)
      exact f3.trans ((site_wc h.ok (k := none) hq _ _).trans (site_mkdir_parent h.ok hq hcl (h.gone hd)))
    | some i =>
      have g := h.goes hn.of_prefix e
      rw [hd] at g
      exact (site_wc h.ok (k := some i) hn _ _).trans
        (onMem_ok (Mem.create_fail h.ok.inv (h.ok.fs i).isRoot (t := mem (E i) []) (stepsOf_mem hn.ok (E i)) g (by simp)).1)

theorem lalike_symlink (hr : Function.Injective r) {x p : List Str} (hx : Nm x) (hn : Nm p) :
    LAlike E r k F (fun t => t.make p (.link x)) (uSymlink sysOps (siteAt E k x) (siteAt E k p)) := by
  refine lalike_make hn ?_ ?_ ?_
  · rintro t s init q n h rfl e hq hd hv
    obtain ⟨hq', hc, hw⟩ := lead_way h 32 hn.of_prefix e
    cases k with
    | none =>
      obtain ⟨j, hj, hl⟩ := hw
      obtain ⟨-, -, -, f4, -⟩ := C95_below (E := E) h.ok (leads_snoc h.ok.disk hl hn hq) (by omega) hn hq (hc.approach n)
      obtain ⟨m, hm⟩ := siteV_ldir.1 (h.dir hd)
      obtain ⟨s', e1, h1, h2, h3, h4⟩ := C95_symlink h.ok hx hq hm (siteV_lnone.1 (h.gone hv))
      refine ⟨s', (f4 x hx).trans e1, h.set h1 ?_ (by simp) ?_ ?_⟩
      · funext j p
        by_cases hj : j = none ∧ p = q ++ [n]
        · obtain ⟨rfl, rfl⟩ := hj
          rw [upd_same]; simp only [siteV, h3]; rfl
        · rw [upd_ne hj]
          cases j with
          | none => simp only [siteV]; rw [h4 p fun c => hj ⟨rfl, c⟩]
          | some i => simp only [siteV, h2]
      · refine ⟨fun p y hp hl => ?_, rest_loc⟩
        show s'.disk.tree p = _
        rw [h4 p hp]; exact hl
      · rintro y hy
        obtain rfl : x = y := by simpa using hy
        exact ⟨hx, h3⟩
    | some i =>
      have g := h.goes hn.of_prefix e
      rw [hd] at g
      obtain ⟨nd, d, h1, h2, h3, h4⟩ := Mem.symlink_new h.ok.inv (h.ok.fs i).isRoot (t := mem (E i) x) (stepsOf_mem hn.ok (E i)) g
        (siteV_dir.1 (h.dir hd)) (siteV_none.1 (h.gone hv))
      have hb := Mem.becomes_addChild h.ok.inv (h.ok.fs i).isRoot h1 h2 h3 (n := s.mem.freshLink (mem (E i) x)) trivial
      obtain ⟨h5, h6⟩ := h.ok.set_mem hr hb
      refine ⟨_, (site_wc h.ok (k := some i) hx _ _).trans (onMem_ok h4), h.set h5 h6 (by simp) (keep_set h.ok hr hb) ?_⟩
      rintro y hy
      obtain rfl : x = y := by simpa using hy
      refine ⟨hx, 0, s.mem.clock s.mem.tick, ?_⟩
      show view _ (r i) _ = _
      rw [hb.view, Mem.NS.set_get]; rfl
  · rintro t s init q n h rfl e hq hd hv
    obtain ⟨hq', hc, hw⟩ := lead_way h 32 hn.of_prefix e
    cases k with
    | none =>
      obtain ⟨j, hj, hl⟩ := hw
      obtain ⟨-, -, -, f4, -⟩ := C95_below (E := E) h.ok (leads_snoc h.ok.disk hl hn hq) (by omega) hn hq (hc.approach n)
      exact (f4 x hx).trans (C95_symlink_taken h.ok hx hq fun c => h.held hv (siteV_lnone.2 c))
    | some i =>
      have g := h.goes hn.of_prefix e
      rw [hd] at g
      obtain ⟨o, ho⟩ := Option.ne_none_iff_exists'.1 fun c => h.held hv (siteV_none.2 c)
      exact (site_wc h.ok (k := some i) hx _ _).trans
        (onMem_ok (Mem.create_taken h.ok.inv (h.ok.fs i).isRoot (t := mem (E i) x) (stepsOf_mem hn.ok (E i)) g ho).2)
  · rintro t s init q n h rfl e hq hd hcl hv
    obtain ⟨hq', hc, hw⟩ := lead_way h 32 hn.of_prefix e
    cases k with
    | none =>
      obtain ⟨j, hj, hl⟩ := hw
      obtain ⟨-, -, -, f4, -⟩ := C95_below (E := E) h.ok (leads_snoc h.ok.disk hl hn hq) (by omega) hn hq (hc.approach n)
      refine (f4 x hx).trans ((site_wc h.ok (k := none) hx _ _).trans ?_)
      obtain ⟨er, h1, h2⟩ := find_lost h.ok hq hcl.straight hv (by rw [List.dropLast_concat, h.gone hd]; simp) false
      obtain rfl := hcl.lost hv h2
      refine onDisk_ok (d := s.disk) (?_ : osSymlink (loc x).path (loc (q ++ [n])).path s.disk = _)
      unfold osSymlink
      rw [if_neg (loc_path_ne hx), h1]
    | some i =>
      have g := h.goes hn.of_prefix e
      rw [hd] at g
      exact (site_wc h.ok (k := some i) hx _ _).trans
        (onMem_ok (Mem.create_fail h.ok.inv (h.ok.fs i).isRoot (t := mem (E i) x) (stepsOf_mem hn.ok (E i)) g (by simp)).2)

/-! ## Calls that do not follow a link at the end -/

/-- where a call that does not follow a link at the end looks -/
theorem bare_cases (t : LTree) (p : List Str) :
    t.bare p = none ∨ (∃ q n, t.bare p = some (q, n) ∧ t.get q ≠ some .dir) ∨
      ∃ init q n, p = init ++ [n] ∧ t.bare p = some (q, n) ∧ t.lead 32 init = some q ∧ Nm (q ++ [n]) ∧ (n ∉ init ∨ q = init) ∧ t.get q = some .dir := by
  cases hb : t.bare p with
  | none => exact .inl rfl
  | some x =>
    obtain ⟨q, n⟩ := x
    by_cases hd : t.get q = some .dir
    · obtain ⟨init, rfl, h1, h2, h3⟩ := bare_some hb
      exact .inr (.inr ⟨init, q, n, rfl, rfl, h1, h2, h3, hd⟩)
    · exact .inr (.inl ⟨q, n, rfl, hd⟩)

theorem LRel.found {i : ι} (h : LRel E r (some i) F t s) {init q : List Str} {n : Str} (hn : Nm init) (e : t.lead 32 init = some q)
    (hd : t.get q = some .dir) (hor : n ∉ init ∨ q = init) :
    Goes (view s.mem (r i)) maxDepth [] init (.found q) ∧ (view s.mem (r i)).isDir q ∧
      (n ∉ init ∨ Plain (view s.mem (r i)) (init ++ [n])) := by
  have g := h.goes hn e
  rw [hd] at g
  have hv := siteV_dir.1 (h.dir hd)
  refine ⟨g, hv, hor.imp_right ?_⟩
  rintro rfl
  exact plain_snoc hv n

theorem LRel.linkAt {i : ι} (h : LRel E r (some i) F t s) {p : List Str} :
    (view s.mem (r i) p).any Obj.isLink = (t.get p).any LKind.isLink := by
  cases hg : t.get p with
  | none => rw [siteV_none.1 (h.gone hg)]; rfl
  | some o =>
    cases o with
    | dir => obtain ⟨m, z, e⟩ := siteV_dir.1 (h.dir hg); rw [e]; rfl
    | file d => obtain ⟨m, z, e⟩ := siteV_file.1 (h.file hg); rw [e]; rfl
    | link x => obtain ⟨-, m, z, e⟩ := h.links p x hg; rw [e]; rfl

theorem LRel.below {t : LTree} {s : Sys} (h : LRel E r none F t s) {init q : List Str} {n : Str} (hn : Nm (init ++ [n])) (e : t.lead 32 init = some q)
    (hq : Nm (q ++ [n])) :
    uIslink sysOps (siteAt E none (init ++ [n])) s = uIslink sysOps (siteAt E none (q ++ [n])) s ∧
    uReadlink sysOps (siteAt E none (init ++ [n])) s = uReadlink sysOps (siteAt E none (q ++ [n])) s ∧
    ∀ depth, uRemove sysOps depth (siteAt E none (init ++ [n])) false s = uRemove sysOps depth (siteAt E none (q ++ [n])) false s := by
  obtain ⟨hq', hc, j, hj, hl⟩ := lead_way h 32 hn.of_prefix e
  obtain ⟨f1, f2, -, -, f5⟩ := C95_below (E := E) h.ok (leads_snoc h.ok.disk hl hn hq) (by omega) hn hq (hc.approach n)
  exact ⟨f1, f2, f5⟩

theorem LRel.islink (h : LRel E r k F t s) {init q : List Str} {n : Str} (hn : Nm (init ++ [n])) (e : t.lead 32 init = some q)
    (hq : Nm (q ++ [n])) (hor : n ∉ init ∨ q = init) (hd : t.get q = some .dir) :
    uIslink sysOps (siteAt E k (init ++ [n])) s = (.ok ((t.get (q ++ [n])).any LKind.isLink), s) := by
  cases k with
  | none =>
    rw [(h.below hn e hq).1]
    cases hg : t.get (q ++ [n]) with
    | none =>
      obtain ⟨m, hm⟩ := siteV_ldir.1 (h.dir hd)
      refine (site_wc h.ok (k := none) hq _ _).trans ?_
      show osAsk false isLinkD (loc (q ++ [n])) s = _
      unfold osAsk Disk.stat
      rw [find_free h.ok.disk hq hm (siteV_lnone.1 (h.gone hg))]
      rfl
    | some o =>
      cases o with
      | dir => obtain ⟨m, hm⟩ := siteV_ldir.1 (h.dir hg); rw [C95_islink h.ok hq hm]; rfl
      | file d => obtain ⟨m, hm⟩ := siteV_lfile.1 (h.file hg); rw [C95_islink h.ok hq hm]; rfl
      | link x => rw [C95_islink h.ok hq (h.links _ x hg).2]; rfl
  | some i =>
    obtain ⟨g1, g2, g3⟩ := h.found hn.of_prefix e hd hor
    refine (site_wc h.ok (k := some i) hn _ _).trans ?_
    show onMem _ _ = _
    rw [onMem_query, show siteAt E (some i) (init ++ [n]) = mem (E i) (init ++ [n]) from rfl]
    rw [Mem.islink_nofollow h.ok.inv (h.ok.fs i).isRoot (stepsOf_mem hn.ok (E i)) g1 g2 g3, h.linkAt]

theorem lalike_islink {p : List Str} (hn : Nm p) : LAlike E r k F (lIslink p) (uIslink sysOps (siteAt E k p)) := by
  intro t s h
  by_cases hp : p = []
  · have e0 : lIslink p t = (.ok false, t) := by unfold lIslink; rw [if_pos hp]
    subst hp
    have e1 : uIslink sysOps (siteAt E k []) s = (.ok false, s) :=
      (site_wc h.ok (k := k) hn _ _).trans (site_islink h.ok hn ⟨fun p hp hne => absurd (List.prefix_nil.1 hp) hne, by rw [site_root h.ok]; simp⟩ (by rw [site_root h.ok]; simp))
    rw [e0, e1]
    exact .ok h
  · rcases bare_cases t p with hb | ⟨q, n, hb, hd⟩ | ⟨init, q, n, rfl, hb, e, hq, hor, hd⟩
    · have e0 : lIslink p t = (.error .outside, t) := by unfold lIslink; rw [if_neg hp, hb]
      rw [e0]; exact .out _ _
    · have e0 : lIslink p t = (.error .outside, t) := by unfold lIslink; rw [if_neg hp, hb]; dsimp only; rw [if_neg hd]
      rw [e0]; exact .out _ _
    · have e0 : lIslink (init ++ [n]) t = (.ok ((t.get (q ++ [n])).any LKind.isLink), t) := by
        unfold lIslink; rw [if_neg hp, hb]; dsimp only; rw [if_pos hd]
      have e1 := h.islink (k := k) hn e hq hor hd
      rw [e0, e1]
      exact .ok h

theorem LRel.readlink (h : LRel E r k F t s) {init q : List Str} {n : Str} (hn : Nm (init ++ [n])) (e : t.lead 32 init = some q)
    (hq : Nm (q ++ [n])) (hor : n ∉ init ∨ q = init) (hd : t.get q = some .dir) :
    uReadlink sysOps (siteAt E k (init ++ [n])) s = match t.get (q ++ [n]) with
      | some (.link x) => (.ok (siteAt E k x), s)
      | some _ => (.error (.os .EINVAL), s)
      | none => (.error (.os .ENOENT), s) := by
  cases k with
  | none =>
    rw [(h.below hn e hq).2.1]
    cases hg : t.get (q ++ [n]) with
    | none =>
      obtain ⟨m, hm⟩ := siteV_ldir.1 (h.dir hd)
      refine (site_wc h.ok (k := none) hq _ _).trans ?_
      refine bind_error (onDisk_ok (d := s.disk) (?_ : osReadlink (loc (q ++ [n])).path s.disk = _))
      unfold osReadlink
      rw [find_free h.ok.disk hq hm (siteV_lnone.1 (h.gone hg))]
    | some o =>
      cases o with
      | dir => obtain ⟨m, hm⟩ := siteV_ldir.1 (h.dir hg); exact C95_readlink_other h.ok hq hm rfl
      | file d => obtain ⟨m, hm⟩ := siteV_lfile.1 (h.file hg); exact C95_readlink_other h.ok hq hm rfl
      | link x => exact C95_readlink h.ok hq (h.links _ x hg).1 (h.links _ x hg).2
  | some i =>
    obtain ⟨g1, g2, g3⟩ := h.found hn.of_prefix e hd hor
    refine (site_wc h.ok (k := some i) hn _ _).trans ?_
    show onMem _ _ = _
    rw [onMem_query, show siteAt E (some i) (init ++ [n]) = mem (E i) (init ++ [n]) from rfl]
    rw [Mem.readlink_nofollow h.ok.inv (h.ok.fs i).isRoot (stepsOf_mem hn.ok (E i)) g1 g2 g3]
    cases hg : t.get (q ++ [n]) with
    | none => rw [siteV_none.1 (h.gone hg)]
    | some o =>
      cases o with
      | dir => obtain ⟨m, z, e⟩ := siteV_dir.1 (h.dir hg); rw [e]
      | file d => obtain ⟨m, z, e⟩ := siteV_file.1 (h.file hg); rw [e]
      | link x => obtain ⟨-, m, z, e⟩ := h.links _ x hg; rw [e]; rfl

theorem lalike_readlink {p : List Str} (hn : Nm p) :
    LAlike E r k F (do pure (.paths [← lReadlink p])) (do pure (Ans.paths [(← uReadlink sysOps (siteAt E k p)).path])) := by
  intro t s h
  have out : lReadlink p t = (.error .outside, t) →
      LRes E r k F ((do pure (Ans.paths [← lReadlink p]) : OM LTree Ans) t) ((do pure (Ans.paths [(← uReadlink sysOps (siteAt E k p)).path]) : OM Sys Ans) s) :=
    fun e => by rw [bind_error e]; exact .out _ _
  rcases bare_cases t p with hb | ⟨q, n, hb, hd⟩ | ⟨init, q, n, rfl, hb, e, hq, hor, hd⟩
  · exact out (by unfold lReadlink; rw [hb])
  · exact out (by unfold lReadlink; rw [hb]; dsimp only; rw [if_neg hd])
  · have e0 : lReadlink (init ++ [n]) t = match t.get (q ++ [n]) with
        | some (.link x) => (.ok (pathOf x), t)
        | some _ => (.error (.os .EINVAL), t)
        | none => (.error (.os .ENOENT), t) := by
      unfold lReadlink; rw [hb]; dsimp only; rw [if_pos hd]; rfl
    have e1 := h.readlink (k := k) hn e hq hor hd
    cases hg : t.get (q ++ [n]) with
    | none =>
      rw [hg] at e0 e1
      rw [bind_error e0, bind_error e1]
      exact .err h
    | some o =>
      rw [hg] at e0 e1
      cases o with
      | dir => rw [bind_error e0, bind_error e1]; exact .err h
      | file d => rw [bind_error e0, bind_error e1]; exact .err h
      | link x =>
        rw [bind_ok e0, bind_ok e1]
        have hp : (siteAt E k x).path = pathOf x := by
          cases k with
          | none => exact loc_path (h.links _ x hg).1
          | some i => exact mem_path (h.links _ x hg).1.ok (E i)
        rw [hp]
        exact .ok h

/-! ## Removing -/

theorem mem_stays (D : Dict) (cs : List Str) : MemStays (mem D cs) := by
  have hp : ∃ y, pathOf cs = '/' :: y := by
    unfold pathOf
    split
    · exact ⟨[], rfl⟩
    · cases cs with
      | nil => simp_all
      | cons c l => exact ⟨_, rfl⟩
  obtain ⟨y, hy⟩ := hp
  have ha := mem_at D cs
  exact ⟨⟨y, by show memBase.str ++ pathOf cs = _; rw [hy]; rfl⟩, ha.scheme, ha.listNetloc memBase_ok, ⟨y, ha.path.trans hy⟩⟩

/-- removing in a memory file system is a matter of that file system -/
theorem sys_uRemove (D : Dict) (cs : List Str) (depth : Nat) {rec : Bool} {s : Sys} {a : Except PyErr Unit} {w : World}
    (e : Gen.uRemove depth (mem D cs) rec s.mem = (a, w)) :
    uRemove sysOps depth (mem D cs) rec s = (a, { s with mem := w }) := by
  rw [memPart.uRemove depth (mem_stays D cs) rec]
  show ((uRemove memOps depth (mem D cs) rec s.mem).1, ({ s with mem := (uRemove memOps depth (mem D cs) rec s.mem).2 } : Sys)) = _
  rw [memOps_uRemove depth (mem D cs) rec s.mem, e]

theorem fewer_keep {s' : Sys} {q : List Str} (hf : Fewer s s') (hv : siteV r s' = upd (siteV r s) none q none) : Keep E r none q s s' := by
  refine ⟨fun p x hp hl => ?_, rest_loc⟩
  show s'.disk.tree p = _
  rw [fewer_same (r := r) hf (by rw [hv, upd_ne (fun c => hp c.2)])]
  exact hl

theorem site_remove_file (h : SysOk E r s) (hr : Function.Injective r) {k : Option ι} {q : List Str} {d : Bytes} (hn : Nm q)
    (hc : Clear (siteV r s k) q) (hv : siteV r s k q = some (.file d)) (depth : Nat) (rec : Bool := false) :
    ∃ s', uRemove sysOps depth (siteAt E k q) rec s = (.ok (), s') ∧ SysOk E r s' ∧ siteV r s' = upd (siteV r s) k q none := by
  obtain ⟨s', e1, h1, h2⟩ := site_removefile h hr hn hv
  refine ⟨s', (site_wc h hn _ _).trans ((bind_ok (site_islink h hn hc (by rw [hv]; simp))).trans ?_), h1, h2⟩
  rw [if_neg Bool.false_ne_true]
  refine (bind_ok (site_exists h hn hc)).trans ?_
  rw [hv]
  refine (bind_ok (site_isdir h hn hc)).trans ?_
  rw [hv]
  refine (bind_ok (site_isfile h hn hc)).trans ?_
  rw [hv]
  exact e1

theorem site_remove_dir (h : SysOk E r s) {k : Option ι} {q : List Str} (hn : Nm q)
    (hc : Clear (siteV r s k) q) (hv : siteV r s k q = some .dir) (depth : Nat) :
    uRemove sysOps depth (siteAt E k q) false s = sysOps.removedir (siteC r k) (siteAt E k q) s := by
  refine (site_wc h hn _ _).trans ((bind_ok (site_islink h hn hc (by rw [hv]; simp))).trans ?_)
  rw [if_neg Bool.false_ne_true]
  refine (bind_ok (site_exists h hn hc)).trans ?_
  rw [hv]
  refine (bind_ok (site_isdir h hn hc)).trans ?_
  rw [hv]
  rfl

theorem site_remove_none (h : SysOk E r s) {k : Option ι} {q : List Str} (hn : Nm q)
    (hc : Clear (siteV r s k) q) (hv : siteV r s k q = none) (depth : Nat) (rec : Bool := false) :
    uRemove sysOps depth (siteAt E k q) rec s = (.error .fileDoesNotExist, s) := by
  refine (site_wc h hn _ _).trans ((bind_ok (site_islink_none h hn hc hv)).trans ?_)
  rw [if_neg Bool.false_ne_true]
  refine (bind_ok (site_exists h hn hc)).trans ?_
  rw [hv]
  rfl

theorem lalike_remove (hr : Function.Injective r) {p : List Str} (hn : Nm p) (depth : Nat) :
    LAlike E r k F (lRemove p) (uRemove sysOps depth (siteAt E k p) false) := by
  intro t s h
  rcases bare_cases t p with hb | ⟨q, n, hb, hd⟩ | ⟨init, q, n, rfl, hb, e, hq, hor, hd⟩
  · have e0 : lRemove p t = (.error .outside, t) := by unfold lRemove; rw [hb]
    rw [e0]; exact .out _ _
  · have e0 : lRemove p t = (.error .outside, t) := by unfold lRemove; rw [hb]; dsimp only; rw [if_neg hd]
    rw [e0]; exact .out _ _
  · have e0 : lRemove (init ++ [n]) t = match t.get (q ++ [n]) with
        | none => (.error .fileDoesNotExist, t)
        | some .dir => if t.names (q ++ [n]) = [] then (.ok (), t.del (q ++ [n])) else (.error (.os .ENOTEMPTY), t)
        | some _ => (.ok (), t.del (q ++ [n])) := by
      unfold lRemove; rw [hb]; dsimp only; rw [if_pos hd]; rfl
    have hcq := (lead_way h 32 hn.of_prefix e).2.1
    -- what is done when the object goes
    have goes : (t.get (q ++ [n]) = some .dir → t.names (q ++ [n]) = []) → t.get (q ++ [n]) ≠ none →
        ∃ s', uRemove sysOps depth (siteAt E k (init ++ [n])) false s = (.ok (), s') ∧ LRel E r k F (t.del (q ++ [n])) s' := by
      intro hemp hsome
      cases k with
      | none =>
        rw [(h.below hn e hq).2.2 depth]
        have fin : ∀ s', uRemove sysOps depth (siteAt E none (q ++ [n])) false s = (.ok (), s') → SysOk E r s' →
            siteV r s' = upd (siteV r s) none (q ++ [n]) none →
            ∃ s', uRemove sysOps depth (siteAt E none (q ++ [n])) false s = (.ok (), s') ∧ LRel E r none F (t.del (q ++ [n])) s' := by
          intro s' e1 h1 h2
          have hf := fewer_uRemove depth (siteAt E none (q ++ [n])) false s
          rw [e1] at hf
          exact ⟨s', e1, h.del h1 h2 (by simp) (fewer_keep hf h2)⟩
        cases hg : t.get (q ++ [n]) with
        | none => exact absurd hg hsome
        | some o =>
          cases o with
          | dir =>
            have hv := h.dir hg
            have he : ∀ m, siteV r s none (q ++ [n] ++ [m]) = none := fun m => by
              refine h.gone ?_
              by_contra c
              have := LTree.mem_names.2 c
              rw [hemp hg] at this
              simp at this
            obtain ⟨s', e1, h1, h2⟩ := site_removedir (E := E) h.ok hr (k := none) hq (by simp) hv he
            exact fin s' ((site_remove_dir h.ok hq (h.clear_in hcq (.inl hd) (by rw [hv]; simp)) hv depth).trans e1) h1 h2
          | file d =>
            have hv := h.file hg
            obtain ⟨s', e1, h1, h2⟩ := site_remove_file (E := E) h.ok hr (k := none) hq (h.clear_in hcq (.inl hd) (by rw [hv]; simp)) hv depth
            exact fin s' e1 h1 h2
          | link x =>
            obtain ⟨s', e1, h1, h2, h3, -⟩ := C96_link (E := E) h.ok hr hq (h.other hg) depth false
            refine fin s' e1 h1 ?_
            funext j p
            by_cases hj : j = none ∧ p = q ++ [n]
            · obtain ⟨rfl, rfl⟩ := hj
              rw [upd_same, h2]
            · rw [upd_ne hj, h3 j p hj]
      | some i =>
        obtain ⟨g1, g2, g3⟩ := h.found hn.of_prefix e hd hor
        have fin : ∀ w', Gen.uRemove depth (mem (E i) (init ++ [n])) false s.mem = (.ok (), w') →
            Mem.Becomes s.mem w' (r i) ((view s.mem (r i)).erase (q ++ [n])) →
            ∃ s', uRemove sysOps depth (siteAt E (some i) (init ++ [n])) false s = (.ok (), s') ∧ LRel E r (some i) F (t.del (q ++ [n])) s' := by
          intro w' e1 hb
          refine ⟨_, sys_uRemove (E i) (init ++ [n]) depth e1, h.del (h.ok.mem hb) (h.ok.siteV_mem hr hb ?_ fun p hp => ?_) (by simp) (keep_mem h.ok hr hb fun p hp => ?_)⟩
          · simp [NS.erase]
          · simp [NS.erase, hp]
          · simp [NS.erase, hp]
        have leaf : ∀ o : Obj, view s.mem (r i) (q ++ [n]) = some o → o.isDir = false →
            ∃ s', uRemove sysOps depth (siteAt E (some i) (init ++ [n])) false s = (.ok (), s') ∧ LRel E r (some i) F (t.del (q ++ [n])) s' := by
          intro o ho hod
          obtain ⟨w', e1, hb⟩ := Mem.uRemove_leaf h.ok.inv ((h.ok.fs i).serves _) depth false (stepsOf_mem hn.ok (E i)) hn.ok.nil_not_mem
            (mem_last (hn.ok.clean n (by simp)) (E i)) g1 g3 ho hod
          exact fin w' e1 hb
        cases hg : t.get (q ++ [n]) with
        | none => exact absurd hg hsome
        | some o =>
          cases o with
          | dir =>
            have hv := siteV_dir.1 (h.dir hg)
            have he : ∀ m, view s.mem (r i) (q ++ [n] ++ [m]) = none := fun m => by
              refine siteV_none.1 (h.gone ?_)
              by_contra c
              have := LTree.mem_names.2 c
              rw [hemp hg] at this
              simp at this
            obtain ⟨w', e1, hb⟩ := (Mem.removedir_at h.ok.inv (h.ok.fs i).isRoot (stepsOf_mem hn.ok (E i)) (Mem.filter_clean hn.ok.nil_not_mem)
              (mem_last (hn.ok.clean n (by simp)) (E i)) g1 hv).1 he
            exact fin w' ((Mem.uRemove_dir h.ok.inv ((h.ok.fs i).serves _) depth false (stepsOf_mem hn.ok (E i)) g1 g3 hv).trans e1) hb
          | file d => obtain ⟨m, z, ho⟩ := siteV_file.1 (h.file hg); exact leaf _ ho rfl
          | link x => obtain ⟨-, m, z, ho⟩ := h.links _ x hg; exact leaf _ ho rfl
    cases hg : t.get (q ++ [n]) with
    | none =>
      have e1 : uRemove sysOps depth (siteAt E k (init ++ [n])) false s = (.error .fileDoesNotExist, s) := by
        cases k with
        | none =>
          rw [(h.below hn e hq).2.2 depth]
          exact site_remove_none h.ok hq (h.clear_in hcq (.inl hd) (by rw [h.gone hg]; simp)) (h.gone hg) depth
        | some i =>
          obtain ⟨g1, g2, g3⟩ := h.found hn.of_prefix e hd hor
          exact sys_uRemove (E i) (init ++ [n]) depth
            (Mem.uRemove_missing h.ok.inv ((h.ok.fs i).serves _) depth false (stepsOf_mem hn.ok (E i)) g1 g2 g3 (siteV_none.1 (h.gone hg)))
      rw [e0, hg, e1]
      exact .err h
    | some o =>
      rw [e0, hg]
      cases o with
      | file d =>
        obtain ⟨s', e1, h1⟩ := goes (by rw [hg]; simp) (by rw [hg]; simp)
        rw [e1]; exact .ok h1
      | link x =>
        obtain ⟨s', e1, h1⟩ := goes (by rw [hg]; simp) (by rw [hg]; simp)
        rw [e1]; exact .ok h1
      | dir =>
        dsimp only
        by_cases hemp : t.names (q ++ [n]) = []
        · obtain ⟨s', e1, h1⟩ := goes (fun _ => hemp) (by rw [hg]; simp)
          rw [e1, if_pos hemp]; exact .ok h1
        · rw [if_neg hemp]
          obtain ⟨m, hm⟩ := List.exists_mem_of_ne_nil _ hemp
          have hv := h.held (LTree.mem_names.1 hm)
          have e1 : uRemove sysOps depth (siteAt E k (init ++ [n])) false s = (.error (.os .ENOTEMPTY), s) := by
            cases k with
            | none =>
              rw [(h.below hn e hq).2.2 depth, site_remove_dir h.ok hq (h.clear_in hcq (.inl hd) (by rw [h.dir hg]; simp)) (h.dir hg) depth]
              exact site_removedir_full h.ok hq (by simp) (h.dir hg) hv
            | some i =>
              obtain ⟨g1, g2, g3⟩ := h.found hn.of_prefix e hd hor
              have hvd := siteV_dir.1 (h.dir hg)
              exact sys_uRemove (E i) (init ++ [n]) depth
                ((Mem.uRemove_dir h.ok.inv ((h.ok.fs i).serves _) depth false (stepsOf_mem hn.ok (E i)) g1 g3 hvd).trans
                  ((Mem.removedir_at h.ok.inv (h.ok.fs i).isRoot (stepsOf_mem hn.ok (E i)) (Mem.filter_clean hn.ok.nil_not_mem)
                    (mem_last (hn.ok.clean n (by simp)) (E i)) g1 hvd).2 ⟨m, fun c => hv (siteV_none.2 c)⟩))
          rw [e1]
          exact .err h

end
end Verif.Any
