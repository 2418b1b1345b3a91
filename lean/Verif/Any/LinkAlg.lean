import Verif.Any.LinkActs
import Verif.Any.SameAlg
/-!
# A file system of the repository and the plain file system with links: the algorithms

`makedirs`, `walk` and `glob` of fs.py (Verif/Any/Ops.lean), by paths that may lead over links, are those of
Verif/Any/LinkPlain.lean.
-/
namespace Verif.Any
open Verif.Spec Verif.Gen Verif.Props
open Mem (World Meth)

/-- the outcomes correspond, unless there is no expectation -/
inductive LResR {ι : Type} (E : ι → Dict) (r : ι → Nat) (k : Option ι) (F : Others ι) {α β : Type}
    (R : α → β → Prop) : Except PyErr α × LTree → Except PyErr β × Sys → Prop
  | out (t : LTree) (y) : LResR E r k F R (.error .outside, t) y
  | ok {a b t s} : R a b → LRel E r k F t s → LResR E r k F R (.ok a, t) (.ok b, s)
  | err {e t s} : LRel E r k F t s → LResR E r k F R (.error e, t) (.error e, s)

/-- `b` does what `a` does, with results that correspond -/
def LLike {ι : Type} (E : ι → Dict) (r : ι → Nat) (k : Option ι) (F : Others ι) {α β : Type}
    (R : α → β → Prop) (a : OM LTree α) (b : OM Sys β) : Prop :=
  ∀ t s, LRel E r k F t s → LResR E r k F R (a t) (b s)

section
variable {ι : Type} {E : ι → Dict} {r : ι → Nat} {k : Option ι} {F : Others ι}

theorem LAlike.like {α : Type} {a : OM LTree α} {b : OM Sys α} (h : LAlike E r k F a b) : LLike E r k F Eq a b := by
  intro t s hr
  have := h t s hr
  revert this
  generalize a t = x
  generalize b s = y
  intro this
  cases this with
  | out => exact .out _ _
  | ok h => exact .ok rfl h
  | err h => exact .err h

theorem LLike.alike {α : Type} {a : OM LTree α} {b : OM Sys α} (h : LLike E r k F Eq a b) : LAlike E r k F a b := by
  intro t s hr
  have := h t s hr
  revert this
  generalize a t = x
  generalize b s = y
  intro this
  cases this with
  | out => exact .out _ _
  | ok e h => subst e; exact .ok h
  | err h => exact .err h

theorem llike_bind {α β α' β' : Type} {R : α → β → Prop} {R' : α' → β' → Prop} {a : OM LTree α} {b : OM Sys β} {f : α → OM LTree α'}
    {g : β → OM Sys β'} (h : LLike E r k F R a b) (hf : ∀ x y, R x y → LLike E r k F R' (f x) (g y)) :
    LLike E r k F R' (a >>= f) (b >>= g) := by
  intro t s hrel
  have := h t s hrel
  show LResR E r k F R' (OM.bnd a f t) (OM.bnd b g s)
  unfold OM.bnd
  revert this
  generalize a t = x
  generalize b s = y
  intro this
  cases this with
  | out => exact .out _ _
  | ok h1 h2 => exact hf _ _ h1 _ _ h2
  | err h => exact .err h

theorem llike_pure {α β : Type} {R : α → β → Prop} {x : α} {y : β} (h : R x y) : LLike E r k F R (pure x) (pure y) :=
  fun _ _ hr => .ok h hr

theorem llike_raise {α β : Type} {R : α → β → Prop} (e : PyErr) : LLike E r k F R (OM.raise e : OM LTree α) (OM.raise e : OM Sys β) :=
  fun _ _ hr => .err hr

/-- a step only the code takes, that has one outcome -/
theorem llike_lift {α β γ : Type} {R : α → γ → Prop} {a : OM LTree α} {x : Except PyErr β} {b : β} {g : β → OM Sys γ} (hx : x = .ok b)
    (h : LLike E r k F R a (g b)) : LLike E r k F R a (OM.lift x >>= g) := by
  intro t s hr
  have e : (OM.lift x >>= g : OM Sys γ) s = g b s := bind_ok (by rw [lift_apply, hx])
  rw [e]
  exact h t s hr

theorem llike_ite {α β : Type} {R : α → β → Prop} {c : Prop} [Decidable c] {a a' : OM LTree α} {b b' : OM Sys β}
    (h : c → LLike E r k F R a b) (h' : ¬ c → LLike E r k F R a' b') : LLike E r k F R (if c then a else a') (if c then b else b') := by
  split
  · rename_i hc; exact h hc
  · rename_i hc; exact h' hc

/-- behind the decorator -/
theorem llike_conn {α β : Type} {R : α → β → Prop} {cs : List Str} (hn : Nm cs) (m : Meth) {a : OM LTree α} {g : sysOps.Conn → OM Sys β} :
    LLike E r k F R a (g (siteC r k)) ↔ LLike E r k F R a (withConn sysOps (siteAt E k cs) m g) := by
  constructor <;> intro h t s hr
  · have : withConn sysOps (siteAt E k cs) m g s = g (siteC r k) s := site_wc hr.ok hn m g
    rw [this]
    exact h t s hr
  · have : withConn sysOps (siteAt E k cs) m g s = g (siteC r k) s := site_wc hr.ok hn m g
    rw [← this]
    exact h t s hr

theorem nm_div {cs : List Str} {n : Str} (hf : Nm (cs ++ [n])) : (siteAt E k cs).div n = .ok (siteAt E k (cs ++ [n])) :=
  site_div hf (by simp) (by simp [slash])

/-! ## Names -/

theorem llike_listdir {p : List Str} (hn : Nm p) : LLike E r k F (fun a b => a = b ∧ b.Pairwise strLt ∧ ∀ n ∈ a, Nm (p ++ [n])) (lNames p) (uListdir sysOps (siteAt E k p)) := by
  intro t s h
  have h1 := lalike_listdir hn t s h
  have h2 : ∀ l t', lListdir p t = (.ok l, t') → l.Pairwise strLt := by
    intro l t' e
    unfold lListdir at e
    cases hq : t.lead 32 p with
    | none => rw [hq] at e; simp at e
    | some q =>
      rw [hq] at e
      dsimp only at e
      split at e
      · obtain ⟨rfl, -⟩ : t.names q = l ∧ t = t' := by simpa using e
        exact LTree.names_sorted h.keys q
      · simp at e
      · simp at e
  show LResR E r k F _ (OM.bnd (lListdir p) (fun l => if ∀ n ∈ l, Nm (p ++ [n]) then pure l else OM.raise .outside) t) _
  unfold OM.bnd
  revert h1 h2
  generalize lListdir p t = x
  generalize uListdir sysOps (siteAt E k p) s = y
  intro h1 h2
  cases h1 with
  | out => exact .out _ _
  | err h => exact .err h
  | ok h =>
    dsimp only
    split
    · rename_i hl; exact .ok ⟨rfl, h2 _ _ rfl, hl⟩ h
    · exact .out _ _

/-! ## Making directories -/

theorem llike_makedirs (hr : Function.Injective r) : ∀ (depth : Nat) (p : List Str), Nm p →
    LLike E r k F (fun _ _ => True) (lMakedirs depth p) (makedirs sysOps depth (siteAt E k p))
  | 0, _, _ => llike_raise _
  | depth + 1, p, hn => by
    rw [makedirs_eq, lMakedirs]
    rcases List.eq_nil_or_concat p with rfl | ⟨q, n, rfl⟩
    · intro t s h
      have e1 : lAsk isD [] t = (.ok true, t) := rfl
      have e2 : uIsdir sysOps (siteAt E k []) s = (.ok true, s) := by
        have := lalike_isdir (E := E) (r := r) (k := k) (F := F) hn t s h
        rw [e1] at this
        generalize hy : uIsdir sysOps (siteAt E k []) s = y at this
        cases this with
        | ok h' =>
          have : Clear (siteV r s k) [] := ⟨fun p hp hne => absurd (List.prefix_nil.1 hp) hne, by rw [site_root h.ok]; simp⟩
          rw [← hy]
          refine (Props.site_wc h.ok .nil _ _).trans ?_
          rw [site_isdir h.ok .nil this, site_root h.ok]; rfl
      rw [bind_ok e1, bind_ok e2]
      exact .ok trivial h
    · rw [List.concat_eq_append] at *
      rw [List.dropLast_concat]
      refine llike_bind (lalike_isdir hn).like ?_
      rintro b _ rfl
      refine llike_ite (fun _ => llike_pure trivial) (fun _ => ?_)
      refine llike_lift (site_split hn) ?_
      dsimp only
      have hmk : LLike E r k F (fun _ _ => True) (fun t => t.make (q ++ [n]) .dir)
          (if n ≠ [] then uMkdir sysOps (siteAt E k (q ++ [n])) else pure ()) := by
        rw [if_pos (hn.ok.clean n (by simp)).ne]
        intro t s h
        have := (lalike_mkdir (E := E) (k := k) (F := F) hr hn).like t s h
        show LResR E r k F _ (t.make (q ++ [n]) .dir) _
        revert this
        generalize t.make (q ++ [n]) .dir = x
        generalize uMkdir sysOps (siteAt E k (q ++ [n])) s = y
        intro this
        cases this with
        | out => exact .out _ _
        | ok _ h => exact .ok trivial h
        | err h => exact .err h
      refine llike_bind (lalike_isdir hn.of_prefix).like ?_
      rintro b _ rfl
      cases b
      · exact llike_bind (llike_makedirs hr depth q hn.of_prefix) fun _ _ _ => hmk
      · exact hmk

/-! ## Walking -/

theorem classify_cons {σ : Type} (O : Ops σ) (c : O.Conn) (top : Uri) (n : Str) (l : List Str) : Any.classify O c top (n :: l) = (do
    let p ← OM.lift (top.div n)
    let d ← O.isdir c p
    let (dirs, nondirs) ← Any.classify O c top l
    pure (if d then (n :: dirs, nondirs) else (dirs, n :: nondirs))) := rfl

/-- the rows of `walk` -/
theorem walk_rows {σ : Type} (O : Ops σ) (c : O.Conn) (td fl : Bool) (depth : Nat) (top : Uri) (t : List (Uri × List Str × List Str)) :
    Any.walk O c td fl (fun t top dirs files => pure (t ++ [(top, dirs, files)], dirs)) (depth + 1) top t = (do
      let names ← O.listdir c top
      let (dirs, nondirs) ← Any.classify O c top (sortStr names)
      if td then
        Any.walkDirs O fl (Any.walk O c td fl (fun t top dirs files => pure (t ++ [(top, dirs, files)], dirs)) depth) top dirs
          (t ++ [(top, dirs, nondirs)])
      else do
        let t ← Any.walkDirs O fl (Any.walk O c td fl (fun t top dirs files => pure (t ++ [(top, dirs, files)], dirs)) depth) top dirs t
        pure (t ++ [(top, dirs, nondirs)])) := rfl

theorem walkDirs_cons {σ τ : Type} (O : Ops σ) (fl : Bool) (visit : Uri → τ → OM σ τ) (top : Uri) (n : Str) (l : List Str) (t : τ) :
    Any.walkDirs O fl visit top (n :: l) t = (do
      let path ← OM.lift (top.div n)
      let k ← uIslink O path
      (if !k || fl then visit path t else pure t) >>= fun t => Any.walkDirs O fl visit top l t) := by
  rw [Any.walkDirs]
  congr 1; funext p
  congr 1; funext k
  split <;> rfl

theorem lBelow_cons {α : Type} (fl : Bool) (visit : List Str → OM LTree (List α)) (p : List Str) (n : Str) (l : List Str) :
    lBelow fl visit p (n :: l) = (do
      let link ← lIslink (p ++ [n])
      (if !link || fl then visit (p ++ [n]) else pure []) >>= fun a => lBelow fl visit p l >>= fun b => pure (a ++ b)) := by
  rw [lBelow]
  congr 1; funext k
  split <;> rfl

theorem llike_split {p : List Str} : ∀ (l : List Str), (∀ n ∈ l, Nm (p ++ [n])) →
    LLike E r k F (fun a b => a = b ∧ a.1.Sublist l ∧ a.2.Sublist l) (lSplit p l) (classify sysOps (siteC r k) (siteAt E k p) l)
  | [], _ => llike_pure (by simp)
  | n :: l, h => by
    rw [classify_cons sysOps (siteC r k) (siteAt E k p) n l, lSplit]
    refine llike_lift (nm_div (h n (by simp))) ?_
    refine llike_bind ((llike_conn (h n (by simp)) .isdir).2 (lalike_isdir (h n (by simp))).like) ?_
    rintro b _ rfl
    refine llike_bind (llike_split l fun m hm => h m (by simp [hm])) ?_
    rintro ⟨d, f⟩ _ ⟨rfl, h1, h2⟩
    refine llike_pure ⟨rfl, ?_⟩
    cases b
    · exact ⟨h1.cons _, h2.cons_cons _⟩
    · exact ⟨h1.cons_cons _, h2.cons _⟩

/-- what is kept of a row -/
def row (x : Uri × List Str × List Str) : Str × List Str × List Str := (x.1.path, x.2)

theorem llike_walkDirs {fl : Bool} {p : List Str} {v : List Str → OM LTree (List (Str × List Str × List Str))}
    {v' : Uri → List (Uri × List Str × List Str) → OM Sys (List (Uri × List Str × List Str))}
    (hv : ∀ n, Nm (p ++ [n]) → ∀ acc, LLike E r k F (fun a b => b.map row = acc.map row ++ a) (v (p ++ [n])) (v' (siteAt E k (p ++ [n])) acc)) :
    ∀ (l : List Str), (∀ n ∈ l, Nm (p ++ [n])) → ∀ acc,
      LLike E r k F (fun a b => b.map row = acc.map row ++ a) (lBelow fl v p l) (walkDirs sysOps fl v' (siteAt E k p) l acc)
  | [], _, acc => llike_pure (by simp)
  | n :: l, h, acc => by
    rw [walkDirs_cons, lBelow_cons]
    refine llike_lift (nm_div (h n (by simp))) ?_
    refine llike_bind (lalike_islink (h n (by simp))).like ?_
    rintro b _ rfl
    refine llike_bind (R := fun (a : List (Str × List Str × List Str)) (b : List (Uri × List Str × List Str)) => b.map row = acc.map row ++ a) ?_ ?_
    · exact llike_ite (fun _ => hv n (h n (by simp)) acc) (fun _ => llike_pure (by simp))
    · intro a acc' h1
      have h2 := llike_walkDirs (fl := fl) hv l (fun m hm => h m (by simp [hm])) acc'
      have h3 := llike_bind (R' := fun a b => b.map row = acc.map row ++ a) (f := fun x => pure (a ++ x)) (g := fun y => pure y) h2
        fun x y hxy => llike_pure (by rw [hxy, h1, List.append_assoc])
      simpa using h3

theorem llike_walk {td fl : Bool} : ∀ (depth : Nat) (p : List Str), Nm p → ∀ acc,
    LLike E r k F (fun a b => b.map row = acc.map row ++ a) (lWalk td fl depth p)
      (walk sysOps (siteC r k) td fl (fun t top dirs files => pure (t ++ [(top, dirs, files)], dirs)) depth (siteAt E k p) acc)
  | 0, _, _, _ => llike_raise _
  | depth + 1, p, hn, acc => by
    rw [walk_rows sysOps (siteC r k) td fl depth (siteAt E k p) acc, lWalk]
    refine llike_bind ((llike_conn hn .listdir).2 (llike_listdir hn)) ?_
    rintro l _ ⟨rfl, hs, hl⟩
    rw [sortStr_of_pairwise hs]
    refine llike_bind (llike_split l hl) ?_
    rintro ⟨dirs, files⟩ _ ⟨rfl, hd, -⟩
    replace hd : ∀ n ∈ dirs, Nm (p ++ [n]) := fun n hn => hl n (hd.subset hn)
    dsimp only
    have hv : ∀ n, Nm (p ++ [n]) → ∀ acc, LLike E r k F (fun a b => b.map row = acc.map row ++ a) (lWalk td fl depth (p ++ [n]))
        (walk sysOps (siteC r k) td fl (fun t top dirs files => pure (t ++ [(top, dirs, files)], dirs)) depth (siteAt E k (p ++ [n])) acc) :=
      fun n hn acc => llike_walk depth _ hn acc
    have hrow : row (siteAt E k p, dirs, files) = (pathOf p, dirs, files) := by unfold row; rw [site_path hn]
    cases td
    · rw [if_neg (by simp)]
      refine llike_bind (llike_walkDirs hv dirs hd acc) ?_
      intro a b hab
      refine llike_pure ?_
      rw [if_neg (by simp), List.map_append, hab, List.map_cons, hrow, List.append_assoc]; rfl
    · rw [if_pos rfl]
      have h1 := llike_walkDirs (fl := fl) hv dirs hd (acc ++ [(siteAt E k p, dirs, files)])
      have h3 := llike_bind (R' := fun a b => b.map row = acc.map row ++ a) (f := fun x => pure ((pathOf p, dirs, files) :: x)) (g := fun y => pure y) h1
        fun x y hxy => llike_pure (by rw [hxy, List.map_append, List.map_cons, hrow, List.append_assoc]; rfl)
      simpa using h3

theorem llike_uWalk {p : List Str} (hn : Nm p) (depth : Nat) (td fl : Bool) :
    LAlike E r k F (lWalk td fl depth p) (uWalk sysOps depth (siteAt E k p) td fl >>= fun l => pure (l.map row)) := by
  have h := (llike_conn (E := E) (r := r) (k := k) (F := F) (m := .walk) hn
    (g := fun c => walk sysOps c td fl (fun t top dirs files => pure (t ++ [(top, dirs, files)], dirs)) depth (siteAt E k p) [])).1 (llike_walk depth p hn [])
  have := llike_bind (R' := Eq) (f := fun x => pure x) (g := fun l => pure (l.map row)) h fun x y hxy => llike_pure (by rw [hxy]; rfl)
  rw [bind_pure] at this
  exact this.alike

/-! ## Matching names -/

theorem llike_mapM_div {p : List Str} : ∀ (l : List Str), (∀ n ∈ l, Nm (p ++ [n])) →
    LLike E r k F (fun a b => b.map Uri.path = a) (pure (l.map fun n => pathOf (p ++ [n])) : OM LTree (List Str))
      (l.mapM fun f => OM.lift ((siteAt E k p).div f))
  | [], _ => llike_pure rfl
  | n :: l, h => by
    rw [List.mapM_cons]
    refine llike_lift (nm_div (h n (by simp))) ?_
    have := llike_bind (R' := fun a b => b.map Uri.path = a) (f := fun x => pure (pathOf (p ++ [n]) :: x))
      (g := fun y => pure (siteAt E k (p ++ [n]) :: y)) (llike_mapM_div l fun m hm => h m (by simp [hm]))
      fun x y hxy => llike_pure (by rw [List.map_cons, hxy, site_path (h n (by simp))])
    exact this

theorem llike_uGlob {p : List Str} (hn : Nm p) (m : Str → Bool) :
    LAlike E r k F (lGlob p m) (uGlob sysOps (siteAt E k p) m >>= fun l => pure (l.map Uri.path)) := by
  have h : LLike E r k F (fun a b => b.map Uri.path = a) (lGlob p m) (uGlob sysOps (siteAt E k p) m) := by
    refine (llike_conn hn .glob).1 ?_
    refine llike_bind (llike_listdir hn) ?_
    rintro l _ ⟨rfl, -, hl⟩
    exact llike_mapM_div _ fun n hn => hl n (List.mem_filter.1 hn).1
  have := llike_bind (R' := Eq) (f := fun x => pure x) (g := fun l => pure (l.map Uri.path)) h fun x y hxy => llike_pure hxy.symm
  rw [bind_pure] at this
  exact this.alike

theorem lalike_makedirs (hr : Function.Injective r) {p : List Str} (hn : Nm p) (depth : Nat) :
    LAlike E r k F (lMakedirs depth p) (uMakedirs sysOps depth (siteAt E k p)) := by
  have h := (llike_conn (E := E) (r := r) (k := k) (F := F) (m := .makedirs) hn (g := fun _ => makedirs sysOps depth (siteAt E k p))).1 (llike_makedirs hr depth p hn)
  intro t s hs
  have := h t s hs
  change LResR _ _ _ _ _ _ (uMakedirs sysOps depth (siteAt E k p) s) at this
  revert this
  generalize lMakedirs depth p t = x
  generalize uMakedirs sysOps depth (siteAt E k p) s = y
  intro this
  cases this with
  | out => exact .out _ _
  | ok _ h => exact .ok h
  | err h => exact .err h

end
end Verif.Any
