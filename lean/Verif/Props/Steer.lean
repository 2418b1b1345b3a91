import Verif.Props.Across
import Verif.Any.Steer
/-!
# C120: loops over a walk that change things while they walk

`for root, dirs, files in u.walk(topdown, followlinks): body`, on memory and local file systems.  The body may do anything that
its condition below does not forbid: it may leave out, or reorder, the names in `dirs`, write and remove files, make and remove
directories, raise, or leave the loop.
-/
namespace Verif.Props
open Verif.Spec Verif.Any
open Verif.Gen (Order order_down order_beside)
open scoped List

/-- the body of a loop: it has variables `t`, and is given the row; it leaves its variables, and the list `dirs` -/
abbrev Body (τ : Type) := τ → Uri → List Str → List Str → OM Sys (τ × List Str)

section
variable {ι τ : Type}

/-- the tree at `q` of place `k` can be walked: no links, names that can be written in URIs, less than `H` levels of directories -/
structure Fits (E : ι → Dict) (r : ι → Nat) (k : Option ι) (q : List Str) (H : Nat) (s : Sys) : Prop where
  ok : SysOk E r s
  sub : Sub (siteV r s k) q
  deep : ∀ x, siteV r s k (q ++ x) = some .dir → x.length < H

/-- the body runs on the row of `p` -/
def runsAt (E : ι → Dict) (r : ι → Nat) (k : Option ι) (body : Body τ) (t : τ) (s : Sys) (p : List Str) : Except PyErr (τ × List Str) × Sys :=
  body t (siteRow E r s k p).1 (siteRow E r s k p).2.1 (siteRow E r s k p).2.2 s

/-- what a body must not do in a loop from the top down.  At the row of `p` it leaves a tree that can be walked, in `dirs` names of
directories in `p`, each once, and all directories of the tree that are not below `p`. -/
def Mild (E : ι → Dict) (r : ι → Nat) (k : Option ι) (q : List Str) (H : Nat) (body : Body τ) : Prop :=
  ∀ t s p t1 ds s1, Fits E r k q H s → q <+: p → siteV r s k p = some .dir → runsAt E r k body t s p = (.ok (t1, ds), s1) →
    Fits E r k q H s1 ∧ ds.Nodup ∧ (∀ n ∈ ds, siteV r s1 k (p ++ [n]) = some .dir) ∧
      ∀ x, q <+: x → ¬ p <+: x → siteV r s k x = some .dir → siteV r s1 k x = some .dir

/-- a body that leaves `dirs` as it is, and the directories of the tree -/
def SteadyBody (E : ι → Dict) (r : ι → Nat) (k : Option ι) (q : List Str) (H : Nat) (body : Body τ) : Prop :=
  ∀ t s p t1 ds s1, Fits E r k q H s → q <+: p → siteV r s k p = some .dir → runsAt E r k body t s p = (.ok (t1, ds), s1) →
    Fits E r k q H s1 ∧ ds = (siteRow E r s k p).2.1 ∧ ∀ x, q <+: x → (siteV r s1 k x = some .dir ↔ siteV r s k x = some .dir)

/-- what a body must not do in a loop from the bottom up that begins in the state `s0`.  At the row of `p`, which is that of `s0`, it
changes nothing that is not below `p`. -/
def Within (E : ι → Dict) (r : ι → Nat) (k : Option ι) (q : List Str) (s0 : Sys) (body : Body τ) : Prop :=
  ∀ t s p t1 ds s1, SysOk E r s → q <+: p → siteV r s0 k p = some .dir → siteV r s k p = some .dir →
    body t (siteRow E r s0 k p).1 (siteRow E r s0 k p).2.1 (siteRow E r s0 k p).2.2 s = (.ok (t1, ds), s1) →
    SysOk E r s1 ∧ ∀ x, ¬ p <+: x → siteV r s1 k x = siteV r s k x

theorem went_inv {σ : Type} {body : τ → Uri → List Str → List Str → OM σ (τ × List Str)}
    {row : σ → List Str → Uri × List Str × List Str} {Pre : σ → List Str → Prop} {J : σ → Prop} {Q : List Str × List Str → Prop}
    (hstep : ∀ t s p t1 ds s1, Pre s p → J s → body t (row s p).1 (row s p).2.1 (row s p).2.2 s = (.ok (t1, ds), s1) → J s1 ∧ Q (p, ds))
    {vs : List (List Str × List Str)} {t : τ} {s : σ} {o : Except PyErr τ} {s1 : σ} (h : Went body row Pre vs t s o s1) (hs : J s)
    (ho : o.isOk = true) : (∀ v ∈ vs, Q v) ∧ J s1 := by
  induction h with
  | done => exact ⟨by simp, hs⟩
  | next h0 h1 _ ih =>
    obtain ⟨a, b⟩ := hstep _ _ _ _ _ _ h0 hs h1
    obtain ⟨c, d⟩ := ih a ho
    exact ⟨fun v hv => (List.mem_cons.1 hv).elim (fun e => e ▸ b) (c v), d⟩
  | raises _ _ => cases ho

variable {E : ι → Dict} {r : ι → Nat} (hr : Function.Injective r) {s : Sys} {k : Option ι} {q : List Str} {H : Nat} {body : Body τ}
include hr

/-- From the top down: the body runs for one row after the other, each with the names that are there at that moment.  The first row is
that of `q`.  The other rows are those of the names that the body leaves in `dirs`: all of them, unless it raises, and then those
before the one in which it raised.  Directories come before what is in them, and beside each other in the order of `dirs`. -/
theorem C120_down (hb : Mild E r k q H body) (hf : Fits E r k q H s) (hd : siteV r s k q = some .dir) {depth : Nat} (hh : H ≤ depth)
    (fl : Bool) (t : τ) : ∃ vs o s', uVisit sysOps depth (siteAt E k q) true fl body t s = (o, s') ∧
      Went body (fun s p => siteRow E r s k p) (fun s p => Fits E r k q H s ∧ q <+: p ∧ siteV r s k p = some .dir) vs t s o s' ∧
      Down q vs o.isOk := by
  let L := sysLaws E r hr
  have into : ∀ {s}, Fits E r k q H s → L.Fit k q H s := fun h => ⟨h.ok, h.sub, h.deep⟩
  have of : ∀ {s}, L.Fit k q H s → Fits E r k q H s := fun h => ⟨h.inv, h.sub, h.deep⟩
  have ht : L.Tame k q H body := fun t s p t1 ds s1 h1 h2 h3 h4 => by
    obtain ⟨a, b⟩ := hb t s p t1 ds s1 (of h1) h2 h3 h4
    exact ⟨into a, b⟩
  obtain ⟨vs, o, s', a1, a2, a3, -⟩ := L.steer ht fl depth q t s (into hf) (List.prefix_refl _) hd (by omega)
  refine ⟨vs, o, s', ?_, ?_, a3⟩
  · have e : Any.withConn sysOps (siteAt E k q) .walk (fun c => walk sysOps c true fl body depth (siteAt E k q) t) s = _ :=
      L.withConn hf.ok (hf.sub.nm0 (by rw [hd]; simp)) _ _
    unfold uVisit
    rw [e]; exact a1
  · exact Went.mono (fun s p h => ⟨of h.1, h.2⟩) a2

omit hr in
theorem Down.nodup {vs : List (List Str × List Str)} {ok : Bool} (h : Down q vs ok) (hn : ∀ v ∈ vs, v.2.Nodup) :
    (vs.map (·.1)).Nodup := by
  refine h.order.imp ?_
  rintro a b (⟨-, h⟩ | ⟨v, hv, n, m, h1, h2, h3⟩) e
  · exact h e
  · subst e
    have := Verif.Gen.prefix_snoc_inj h2 h3
    subst this
    exact (List.pairwise_cons.1 ((hn v hv).sublist h1)).1 n (by simp) rfl

/-- so no directory has two rows -/
theorem C120_once (hb : Mild E r k q H body) (hf : Fits E r k q H s) (hd : siteV r s k q = some .dir) {depth : Nat} (hh : H ≤ depth)
    (fl : Bool) (t : τ) : ∃ vs o s', uVisit sysOps depth (siteAt E k q) true fl body t s = (o, s') ∧
      Went body (fun s p => siteRow E r s k p) (fun s p => Fits E r k q H s ∧ q <+: p ∧ siteV r s k p = some .dir) vs t s o s' ∧
      (vs.map (·.1)).Nodup := by
  obtain ⟨vs, o, s', a1, a2, a3⟩ := C120_down hr hb hf hd hh fl t
  refine ⟨vs, o, s', a1, a2, Down.nodup a3 ?_⟩
  have : ∀ {vs t s o s'}, Went body (fun s p => siteRow E r s k p) (fun s p => Fits E r k q H s ∧ q <+: p ∧ siteV r s k p = some .dir)
      vs t s o s' → ∀ v ∈ vs, v.2.Nodup := by
    intro vs t s o s' h
    induction h with
    | done => simp
    | next h0 h1 _ ih =>
      intro v hv
      rcases List.mem_cons.1 hv with rfl | hv
      · exact (hb _ _ _ _ _ _ h0.1 h0.2.1 h0.2.2 h1).2.1
      · exact ih v hv
    | raises _ _ => simp
  exact this a2

/-- A body that leaves `dirs` and the directories as they are, whatever it does with files: it runs for all directories, in the order
of a walk in which nothing happens. -/
theorem C120_steady (hb : SteadyBody E r k q H body) (hf : Fits E r k q H s) (hd : siteV r s k q = some .dir) {depth : Nat} (hh : H ≤ depth)
    (fl : Bool) (t : τ) : ∃ vs o s', uVisit sysOps depth (siteAt E k q) true fl body t s = (o, s') ∧
      Went body (fun s p => siteRow E r s k p) (fun s p => Fits E r k q H s ∧ q <+: p ∧ siteV r s k p = some .dir) vs t s o s' ∧
      (o.isOk = true → (∀ p, p ∈ vs.map (·.1) ↔ q <+: p ∧ siteV r s k p = some .dir) ∧ (vs.map (·.1)).Pairwise (Order true)) := by
  have hdirs : ∀ {s p n}, n ∈ (siteRow E r s k p).2.1 ↔ siteV r s k (p ++ [n]) = some .dir := by
    intro s p n
    show n ∈ List.filter _ _ ↔ _
    rw [List.mem_filter, site_mem_names, isD_iff]
    exact ⟨fun h => h.2, fun h => ⟨by rw [h]; simp, h⟩⟩
  have hsort : ∀ {s p}, SysOk E r s → ((siteRow E r s k p).2.1).Pairwise strLt := fun h => (site_names_sorted h).filter _
  have hm : Mild E r k q H body := by
    intro t s p t1 ds s1 h1 h2 h3 h4
    obtain ⟨a, b, c⟩ := hb t s p t1 ds s1 h1 h2 h3 h4
    refine ⟨a, ?_, fun n hn => ?_, fun x hx _ h => (c x hx).2 h⟩
    · rw [b]; exact (hsort h1.ok).imp fun h e => h.2 e
    · rw [b] at hn
      exact (c _ (h2.trans (List.prefix_append _ _))).2 (hdirs.1 hn)
  obtain ⟨vs, o, s', a1, a2, a3⟩ := C120_down hr hm hf hd hh fl t
  refine ⟨vs, o, s', a1, a2, fun ho => ?_⟩
  have hQ := (went_inv (J := fun s1 => ∀ x, q <+: x → (siteV r s1 k x = some .dir ↔ siteV r s k x = some .dir))
    (Q := fun v => q <+: v.1 ∧ v.2.Pairwise strLt ∧ ∀ n, n ∈ v.2 ↔ siteV r s k (v.1 ++ [n]) = some .dir) (by
      intro t s2 p t1 ds s1 h0 hJ h1
      obtain ⟨-, b, c⟩ := hb t s2 p t1 ds s1 h0.1 h0.2.1 h0.2.2 h1
      refine ⟨fun x hx => (c x hx).trans (hJ x hx), h0.2.1, by rw [b]; exact hsort h0.1.ok, fun n => ?_⟩
      rw [b]
      exact hdirs.trans (hJ _ (h0.2.1.trans (List.prefix_append _ _)))) a2 (fun x _ => Iff.rfl) ho).1
  refine ⟨fun p => ⟨fun hp => ?_, ?_⟩, ?_⟩
  · obtain ⟨v, hv, rfl⟩ := List.mem_map.1 hp
    refine ⟨(hQ v hv).1, ?_⟩
    rcases a3.from_ v hv with e | ⟨w, hw, n, hn, e⟩
    · rw [e]; exact hd
    · rw [e]; exact ((hQ w hw).2.2 n).1 hn
  · rintro ⟨⟨x, rfl⟩, hx⟩
    induction x using List.reverseRecOn with
    | nil => simpa using a3.top
    | append_singleton x n ih =>
      rw [← List.append_assoc] at hx ⊢
      have hup : siteV r s k (q ++ x) = some .dir := (sysLaws E r hr).dir_prefix hf.ok (b := [n]) hx
      obtain ⟨v, hv, e⟩ := List.mem_map.1 (ih hup)
      rcases a3.all v hv n (((hQ v hv).2.2 n).2 (by rw [e]; exact hx)) with h | ⟨h, -⟩
      · rw [← e]; exact h
      · rw [ho] at h; cases h
  · refine a3.order.imp ?_
    rintro a b (⟨⟨x, rfl⟩, hne⟩ | ⟨v, hv, n, m, h1, h2, h3⟩)
    · cases x with
      | nil => simp at hne
      | cons n x => exact order_down (n := n) ⟨x, by simp⟩
    · have := (hQ v hv).2.1.sublist h1
      exact order_beside (List.rel_of_pairwise_cons this (by simp)) h2 h3

/-- From the bottom up: whatever the body does below the place of its row (it may remove it), the rows are those of the tree when the
loop began, in the same order, up to the one in which the body raises.  What it leaves in `dirs` has no effect. -/
theorem C120_up (h : SysOk E r s) (hsub : Sub (siteV r s k) q) (hd : siteV r s k q = some .dir) {depth : Nat}
    (hh : ∀ x, siteV r s k (q ++ x) = some .dir → x.length < depth) (hb : Within E r k q s body) (fl : Bool) (t : τ) :
    ∃ ps vs o s', uVisit sysOps depth (siteAt E k q) false fl body t s = (o, s') ∧
      Went body (fun _ p => siteRow E r s k p)
        (fun s1 p => SysOk E r s1 ∧ q <+: p ∧ siteV r s k p = some .dir ∧ siteV r s1 k p = some .dir) vs t s o s' ∧
      vs.map (·.1) <+: ps ∧ (o.isOk = true → vs.map (·.1) = ps) ∧
      (∀ p, p ∈ ps ↔ q <+: p ∧ siteV r s k p = some .dir) ∧ ps.Pairwise (Order false) := by
  let L := sysLaws E r hr
  obtain ⟨ps, vs, o, s', a1, a2, a3, a4, a5, a6, -⟩ := L.steer_up (k := k) h hsub (τ := τ) (body := body) hb fl depth q t s h
    (List.prefix_refl _) hd (fun _ _ => rfl) hh
  refine ⟨ps, vs, o, s', ?_, a2, a3, a4, a5, a6⟩
  have e : Any.withConn sysOps (siteAt E k q) .walk (fun c => walk sysOps c false fl body depth (siteAt E k q) t) s = _ :=
    L.withConn h (hsub.nm0 (by rw [hd]; simp)) _ _
  unfold uVisit
  rw [e]; exact a1

end
end Verif.Props
