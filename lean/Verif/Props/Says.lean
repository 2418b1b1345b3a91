import Verif.Any.SaysLemmas
import Verif.Props.Many
/-!
# C116 What every call of a program does

C112 and C115 compare with plain file systems over which the algorithms of fs.py run.  Here every call is compared with
a direct description of what it answers and leaves (Verif/Any/Says.lean), which has none of these algorithms in it.
-/
namespace Verif.Props
open Verif.Spec Verif.Gen Verif.Any
open Mem (World)

section
variable {ι κ : Type} {E : ι → Dict} {r : ι → Nat} {k : Option ι} {site : κ → Option ι} {F : Option ι → List Str → Option Any.Kind} {s : Sys}
  {t : Tree} {T : κ → Tree} {p q : List Str}

theorem pAsk_way {f : Option Any.Kind → Bool} (hn : Nm p) (hw : t.Way p) : pAsk f (pAt p) t = (.ok (f (t.get p)), t) := by
  unfold pAsk; rw [pAt_comps hn, if_pos hw]

theorem pAsk_out {f : Option Any.Kind → Bool} (hn : Nm p) (hw : ¬ t.Way p) : pAsk f (pAt p) t = (.error .outside, t) := by
  unfold pAsk; rw [pAt_comps hn, if_neg hw]

/-- the calls that the plain file system answers without an algorithm -/
def Plainly : Act → Prop
  | .makedirs _ | .remove _ _ | .copy _ _ _ _ _ | .walk _ _ _ | .glob _ _ => False
  | _ => True

theorem says_plain (depth : Nat) {a : Act} (ha : Plainly a) : a.says depth t = a.plain depth t := by
  unfold Act.says Act.plain
  by_cases hf : a.Fit
  swap
  · rw [if_neg hf, if_neg hf]
  rw [if_pos hf, if_pos hf]
  have q1 : ∀ (f : Option Any.Kind → Bool) {p}, Nm p → ask p (fun o => .ok (.bool (f o))) t =
      (do pure (Ans.bool (← pAsk f (pAt p))) : OM Tree Ans) t := by
    intro f p hn
    unfold ask
    split
    · rename_i hw; rw [bind_ok (pAsk_way hn hw)]; rfl
    · rename_i hw; rw [bind_error (pAsk_out hn hw)]
  have u1 : ∀ {m : OM Tree Unit}, (do m; pure Ans.unit : OM Tree Ans) t = ((m t).1.map fun _ => Ans.unit, (m t).2) := by
    intro m
    show OM.bnd m _ t = _
    unfold OM.bnd
    cases hm : m t with
    | mk x t' => cases x <;> rfl
  cases a with
  | exists_ p => exact q1 _ hf.nm
  | isfile p => exact q1 _ hf.nm
  | isdir p => exact q1 _ hf.nm
  | islink p => exact q1 (fun _ => false) hf.nm
  | listdir p =>
    show _ = OM.bnd (pListdir (pAt p)) _ t
    unfold OM.bnd pListdir Act.tells ask
    dsimp only
    rw [pAt_comps (Fit.nm hf)]
    by_cases hw : t.Way p
    · rw [if_pos hw, if_pos hw]
      cases hg : t.get p with
      | none => rfl
      | some o => cases o <;> rfl
    · rw [if_neg hw, if_neg hw]
  | mkdir p => 
    refine Eq.trans ?_ (u1 (m := pMkdir (pAt p))).symm
    unfold Act.tells pMkdir
    rw [pAt_comps (Fit.nm hf)]
    dsimp only
    repeat' split
    all_goals rfl
  | write p l =>
    refine Eq.trans ?_ (u1 (m := pWrite (pAt p) l)).symm
    rw [show pWrite (pAt p) l t = OM.bnd (pOpenW (pAt p)) (fun a => pPut a l.flatten) t from rfl]
    unfold Act.tells OM.bnd pOpenW
    rw [pAt_comps (Fit.nm hf)]
    dsimp only
    by_cases c1 : p = [] ∨ ¬ t.Way p
    · rw [if_pos c1, if_pos c1]; rfl
    rw [if_neg c1, if_neg c1]
    by_cases c2 : t.get p = some .dir
    · rw [if_pos c2, if_pos c2]; rfl
    rw [if_neg c2, if_neg c2]
    by_cases c3 : t.get p.dropLast = some .dir
    · rw [if_pos c3, if_pos c3]
      dsimp only [pPut]
      rw [set_set]
      rfl
    · rw [if_neg c3, if_neg c3]; rfl
  | read p =>
    show _ = OM.bnd (OM.bnd (pOpenR (pAt p)) pData) _ t
    unfold OM.bnd pOpenR Act.tells ask
    dsimp only
    rw [pAt_comps (Fit.nm hf)]
    by_cases hw : t.Way p
    · rw [if_pos hw, if_pos hw]
      cases hg : t.get p with
      | none => rfl
      | some o =>
        cases o with
        | file d =>
          dsimp only
          rw [show pData p t = (.ok d, t) by unfold pData; rw [hg]]
          rfl
        | dir => rfl
        | other => rfl
    · rw [if_neg hw, if_neg hw]
  | md5 p =>
    show _ = OM.bnd (OM.bnd (pOpenR (pAt p)) (fun a => OM.bnd (pData a) fun d => pure [d])) _ t
    unfold OM.bnd pOpenR Act.tells ask
    dsimp only
    rw [pAt_comps (Fit.nm hf)]
    by_cases hw : t.Way p
    · rw [if_pos hw, if_pos hw]
      cases hg : t.get p with
      | none => rfl
      | some o =>
        cases o with
        | file d =>
          dsimp only
          rw [show pData p t = (.ok d, t) by unfold pData; rw [hg]]
          show _ = (Except.ok (Ans.bytes [d].flatten), t)
          simp
        | dir => rfl
        | other => rfl
    · rw [if_neg hw, if_neg hw]
  | copystat p q => 
    refine Eq.trans ?_ (u1 (m := pCopystat (pAt p) (pAt q))).symm
    unfold Act.tells pCopystat
    rw [pAt_comps (Fit.nm hf.1), pAt_comps (Fit.nm hf.2)]
    dsimp only
    repeat' split
    all_goals rfl
  | move p q => 
    refine Eq.trans ?_ (u1 (m := pMove depth (pAt p) (pAt q))).symm
    unfold Act.tells pMove
    rw [pAt_comps hf.2.1.nm, pAt_comps hf.2.2.1.nm]
    dsimp only
    split <;> rfl
  | makedirs | remove | copy | walk | glob => exact absurd ha id

theorem res_of_plain (hr : Function.Injective r) {depth : Nat} {a : Act} (e : a.says depth t = a.plain depth t) (h : Rel E r k F t s) :
    Res E r k F Eq (a.says depth t) (a.run E k depth s) := by
  rw [e]; exact alike_act hr depth a t s h

/-- another tree at the place -/
theorem Rel.becomes (h : Rel E r k F t s) {t' : Tree} {s' : Sys} (hok : SysOk E r s') (h1 : Holds r s' k t')
    (h2 : ∀ j p, j ≠ k → siteV r s' j p = siteV r s j p) : Rel E r k F t' s' :=
  ⟨hok, h1.here, fun j hj => by rw [← h.there j hj]; exact funext fun p => h2 j p hj, h1.keys, fun _ => h1.fits, h1.noOther⟩

theorem shallow_facts (h : Rel E r k F t s) {depth : Nat} (hs : t.Shallow depth p) :
    ∀ x, siteV r s k (p ++ x) = some .dir → x.length < depth := by
  intro x hx
  rw [h.here] at hx
  by_cases h0 : p ++ x = []
  · rw [(List.append_eq_nil_iff.1 h0).2]; exact hs.1
  rw [Tree.get_ne h0] at hx
  obtain ⟨y, hy, hyx⟩ := (lookup_isSome t _).2 (by rw [hx]; simp : t.lookup (p ++ x) ≠ none)
  have := hs.2 y hy (by rw [hyx]; exact List.prefix_append _ _)
  rw [hyx] at this
  simp only [List.length_append] at this
  omega

theorem Rel.sub (h : Rel E r k F t s) (p : List Str) : Sub (siteV r s k) p :=
  ⟨fun x hx => (h.fit _ (by rw [← h.here]; exact hx)).nm, fun x => by rw [h.here]; exact h.noLink _⟩

theorem Tree.Way.init {n : Str} (h : t.Way (p ++ [n])) : t.Way p := by
  intro a ha hne
  have hp := (List.mem_inits _ _).1 ha
  refine h a ((List.mem_inits _ _).2 (hp.trans (List.prefix_append _ _))) ?_
  rintro rfl
  have := hp.length_le
  rw [List.length_append, List.length_singleton] at this
  omega

/-- makedirs where a file is in the way -/
theorem plain_makedirs_file {depth : Nat} (hf : Fit p) (hd : 0 < depth) (hw : t.Way p) (hg : isF (t.get p) = true)
    (hp : t.get p.dropLast = some .dir) : uMakedirs plainOps depth (pAt p) t = (.error (.os .EEXIST), t) := by
  obtain ⟨depth, rfl⟩ : ∃ d, depth = d + 1 := ⟨depth - 1, by omega⟩
  rcases List.eq_nil_or_concat p with rfl | ⟨a, n, rfl⟩
  · cases hg
  rw [List.concat_eq_append] at *
  rw [List.dropLast_concat] at hp
  show Any.makedirs plainOps (depth + 1) (pAt (a ++ [n])) t = _
  unfold Any.makedirs
  have hD : Any.isD (t.get (a ++ [n])) = false := by
    cases hx : t.get (a ++ [n]) with
    | none => rfl
    | some o => cases o <;> first | rfl | (rw [hx] at hg; cases hg)
  have h1 : uIsdir plainOps (pAt (a ++ [n])) t = (.ok false, t) := (pAsk_way hf.nm hw).trans (by rw [hD])
  have hfa : Fit a := hf.of_prefix
  have h2 : uIsdir plainOps (pAt a) t = (.ok true, t) := (pAsk_way hfa.nm (Tree.Way.init hw)).trans (by rw [hp]; rfl)
  have h3 : uMkdir plainOps (pAt (a ++ [n])) t = (.error (.os .EEXIST), t) := by
    show pMkdir _ t = _
    unfold pMkdir
    rw [pAt_comps hf.nm, if_neg (by simp [hw]), if_pos (by intro c; rw [c] at hg; cases hg)]
  have hc := hf.nm.ok.clean
  have hn : n ≠ [] := (hc n (by simp)).ne
  rw [bind_ok h1, if_neg (by simp), bind_lift (mem_split (fun c h => hc c (by simp [h])) (hc n (by simp)) [])]
  dsimp only
  rw [bind_ok h2, if_neg (by simp)]
  show (if n ≠ [] then uMkdir plainOps (pAt (a ++ [n])) else pure ()) t = _
  rw [if_pos hn, h3]

/-- removing what is not there -/
theorem plain_remove_missing {depth : Nat} {b : Bool} (hn : Nm p) (hw : t.Way p) (hg : t.get p = none) :
    uRemove plainOps depth (pAt p) b t = (.error .fileDoesNotExist, t) := by
  refine (bind_ok (pAsk_way (f := fun _ => false) hn hw)).trans ?_
  refine (bind_ok (pAsk_way (f := Option.isSome) hn hw)).trans ?_
  rw [hg]
  rfl

/-- removing a directory that may not be empty -/
theorem plain_removedir {depth : Nat} (hn : Nm p) (hw : t.Way p) (hg : t.get p = some .dir) :
    uRemove plainOps depth (pAt p) false t = pRemovedir (pAt p) t := by
  refine (bind_ok (pAsk_way (f := fun _ => false) hn hw)).trans ?_
  refine (bind_ok (pAsk_way (f := Option.isSome) hn hw)).trans ?_
  rw [hg]
  refine (bind_ok (pAsk_way (f := Any.isD) hn hw)).trans ?_
  rw [hg]
  rfl

/-- one call in one place -/
theorem alike_says (hr : Function.Injective r) (depth : Nat) (a : Act) : Alike E r k F Eq (a.says depth) (a.run E k depth) := by
  intro t s h
  by_cases ha : Plainly a
  · exact res_of_plain hr (says_plain depth ha) h
  have hH := holds_of_rel h
  by_cases hf : a.Fit
  swap
  · unfold Act.says; rw [if_neg hf]; exact .out _ _
  have e0 : a.says depth = a.tells depth := if_pos hf
  have e1 : a.plain depth = Act.over plainOps pAt pRead pWrite pMove depth a := if_pos hf
  cases a with
  | makedirs p =>
    replace hf : Fit p := hf
    by_cases c : p.length < depth ∧ ∀ a ∈ p.inits, t.get a = some .dir ∨ t.get a = none
    · rw [e0, show Act.tells depth (.makedirs p) t = (.ok .unit, t.lay [] (Tree.way p)) from if_pos c]
      obtain ⟨s', g1, g2, g3, g4⟩ := C74_makedirs hr h.ok hf.nm (k := k) (cs := p)
        (fun a ha => by rw [h.here]; exact c.2 a ((List.mem_inits _ _).2 ha)) c.1
      rw [show Act.run E k depth (.makedirs p) s = (.ok .unit, s') from bind_ok g1]
      refine .ok rfl (Rel.becomes h g2 (holds_of (fun x => ?_) (Tree.nodup_lay _ _ h.keys) (fun x => ?_) fun x => ?_)
        fun j x hj => g4 j x fun d => hj d.1) <;> rw [Tree.lay_way_get] <;> by_cases d : x <+: p
      · rw [if_pos d, g3 x d]
      · rw [if_neg d, g4 k x fun y => d y.2, h.here]
      · intro _; obtain ⟨y, rfl⟩ := d; exact hf.of_prefix
      · rw [if_neg d]; exact hH.fits
      · rw [if_pos d]; simp
      · rw [if_neg d]; exact hH.noOther _
    · by_cases c' : 0 < depth ∧ t.Way p ∧ isF (t.get p) = true ∧ t.get p.dropLast = some .dir
      · refine res_of_plain hr ?_ h
        rw [e0, e1]
        exact ((if_neg c).trans (if_pos c')).trans (bind_error (plain_makedirs_file hf c'.1 c'.2.1 c'.2.2.1 c'.2.2.2)).symm
      · rw [e0, show Act.tells depth (.makedirs p) t = (.error .outside, t) from (if_neg c).trans (if_neg c')]
        exact .out _ _
  | remove p b =>
    replace hf : Fit p := hf
    rw [e0]
    unfold Act.tells
    dsimp only
    split
    · exact .out _ _
    rename_i c
    rw [not_or, not_not] at c
    obtain ⟨hw, hp0⟩ := c
    split
    · rename_i hg
      have := alike_act hr depth (.remove p b) t s h
      rw [e1, show Act.over plainOps pAt pRead pWrite pMove depth (.remove p b) t = (.error .fileDoesNotExist, t) from
        bind_error (plain_remove_missing hf.nm hw hg)] at this
      exact this
    · rename_i d hg
      obtain ⟨s', g1, g2, g3, g4⟩ := C76_file hr h.ok hf.nm (k := k) (by rw [h.here]; exact hg) depth b
      rw [show Act.run E k depth (.remove p b) s = (.ok .unit, s') from bind_ok g1]
      exact .ok rfl (Rel.becomes h g2 (del_holds hH hp0 g3 fun x hx => g4 k x fun y => hx y.2) fun j x hj => g4 j x fun y => hj y.1)
    · rename_i hg
      split
      · rename_i hb
        subst hb
        split
        · rename_i hs
          obtain ⟨s', g1, g2, g3, g4⟩ := C76_tree hr h.ok (Rel.sub h p) hp0 (by rw [h.here]; exact hg) (shallow_facts h hs)
          rw [show Act.run E k depth (.remove p true) s = (.ok .unit, s') from bind_ok g1]
          exact .ok rfl (Rel.becomes h g2 (cut_holds hH hp0 (fun x => g3 _ (List.prefix_append _ _)) fun x hx => g4 k x fun y => hx y.2)
            fun j x hj => g4 j x fun y => hj y.1)
        · exact .out _ _
      · rename_i hb
        rw [Bool.not_eq_true] at hb
        subst hb
        have := alike_act hr depth (.remove p false) t s h
        rw [e1] at this
        have e2 : Act.over plainOps pAt pRead pWrite pMove depth (.remove p false) t =
            OM.bnd (pRemovedir (pAt p)) (fun _ => pure Ans.unit) t := by
          show OM.bnd (uRemove plainOps depth (pAt p) false) (fun _ => pure Ans.unit) t = _
          unfold OM.bnd
          rw [plain_removedir hf.nm hw hg]
        have e3 : pRemovedir (pAt p) t = if t.names p = [] then (.ok (), t.del p) else (.error (.os .ENOTEMPTY), t) := by
          unfold pRemovedir; rw [pAt_comps hf.nm, if_pos ⟨hp0, hg⟩]
        rw [e2] at this
        unfold OM.bnd at this
        rw [e3] at this
        by_cases c : t.names p = []
        · rw [if_pos c] at this ⊢; exact this
        · rw [if_neg c] at this ⊢; exact this
    · exact .out _ _
  | copy p q b ig fl =>
    obtain ⟨hp0, hp, hq, hqn⟩ := hf
    rw [e0]
    unfold Act.tells
    dsimp only
    rcases List.eq_nil_or_concat p with rfl | ⟨a, n, rfl⟩
    · exact absurd rfl hp0
    rw [List.concat_eq_append] at *
    rw [List.getLastD_concat] at hqn
    have run : ∀ {x s'}, uCopy sysOps depth (siteAt E k (a ++ [n])) (siteAt E k q) b ig fl s = (x, s') →
        Act.run E k depth (.copy (a ++ [n]) q b ig fl) s = (x.map fun _ => .unit, s') := by
      intro x s' hx
      show OM.bnd _ _ s = _
      unfold OM.bnd
      rw [hx]
      cases x <;> rfl
    split
    · exact .out _ _
    rename_i hw
    rw [not_not] at hw
    have hc := h.clear hw
    split
    · rename_i hg
      rw [run (C87_copy_missing h.ok hp.nm hc (by rw [h.here]; exact hg) _ _ _ _ _)]
      exact .err h
    · rename_i d hg
      rw [← h.here] at hg
      split
      · rename_i hb
        subst hb
        rw [run (C87_copy_file h.ok hp.nm hc hg _ _ _ _)]
        exact .err h
      · rename_i hb
        rw [Bool.not_eq_true] at hb
        subst hb
        split
        · rename_i hR
          obtain ⟨e, m, h1, h2, h3, h4, h5⟩ := room_facts hH hq hqn hR.1
          rw [h1] at hR ⊢
          obtain ⟨s', g1, g2, g3, g4⟩ := C77_file hr h.ok (.inr (.inr rfl)) hp.nm hg hq.nm h2.nm h3 h4 h5 (fun c => hR.2 c.2) depth ig fl
          rw [run g1]
          exact .ok rfl (Rel.becomes h g2 (set_holds hH h2 (by simp) g3 fun x hx => g4 _ x fun c => hx c.2) fun j p hj => g4 j p fun c => hj c.1)
        · exact .out _ _
    · rename_i hg
      split
      · rename_i hb
        rw [Bool.not_eq_true'] at hb
        subst hb
        rw [run (C87_copy_dir h.ok hp.nm hc (by rw [h.here]; exact hg) _ _ _ _)]
        exact .err h
      · rename_i hb
        have hb : b = true := by simpa using hb
        subst hb
        split
        · rename_i hO
          obtain ⟨e, h1, h2, h3, h4, h5, h6, h7, h8, h9⟩ := over_facts hH hH hq hqn hg hO.1
          rw [h1] at hO ⊢
          obtain ⟨s', g1, g2, g3, g4, g5, g6⟩ := C88_copy hr h.ok (.inr (.inr rfl)) h2 hq.nm h3.nm h4 h5 h6 h7
            (fun c => c.2.elim hO.2.1 hO.2.2) h8 h9 fl
          rw [run g1]
          exact .ok rfl (Rel.becomes h g2 (over_holds hH hH h3 h4 g3 g4 g5 fun p hp' => g6 _ p fun c => hp' c.2) fun j p hj => g6 j p fun c => hj c.1)
        · exact .out _ _
    · exact .out _ _
  | walk p td fl =>
    replace hf : Fit p := hf
    rw [e0]
    unfold Act.tells ask
    dsimp only
    split
    swap
    · exact .out _ _
    rename_i hw
    split
    · rename_i hg
      split
      · rename_i hs
        obtain ⟨ps, g1, g2, g3⟩ := C75_walk hr h.ok (Rel.sub h p) (by rw [h.here]; exact hg) td fl (shallow_facts h hs)
        rw [show Act.run E k depth (.walk p td fl) s = _ from bind_ok g1]
        refine .ok ?_ h
        rw [← Tree.dirs_walk h.keys (fun x => by rw [g2, h.here]) g3, List.map_map]
        congr 1
        refine List.map_congr_left fun x hx => ?_
        have hx' := (g2 x).1 hx
        unfold Tree.row siteRow
        simp only [Function.comp_apply]
        rw [site_path (h.fit x (by rw [← h.here, hx'.2]; simp)).nm, h.names, show siteV r s k = t.get from funext h.here]
      · exact .out _ _
    · rename_i hg
      split
      · rename_i hd
        obtain ⟨d, rfl⟩ : ∃ d, depth = d + 1 := ⟨depth - 1, by omega⟩
        have := alike_act hr (d + 1) (.walk p td fl) t s h
        have e2 : uWalk plainOps (d + 1) (pAt p) td fl t = (.error (.os .ENOENT), t) := by
          show Any.walk plainOps pC td fl _ (d + 1) (pAt p) [] t = _
          unfold Any.walk
          refine bind_error (?_ : pListdir (pAt p) t = _)
          unfold pListdir
          rw [pAt_comps hf.nm, if_pos hw, hg]
        rw [e1, show Act.over plainOps pAt pRead pWrite pMove (d + 1) (.walk p td fl) t = (.error (.os .ENOENT), t) from bind_error e2] at this
        exact this
      · exact .out _ _
    · exact .out _ _
  | glob p m =>
    replace hf : Fit p := hf
    rw [e0]
    unfold Act.tells ask
    dsimp only
    split
    swap
    · exact .out _ _
    rename_i hw
    split
    · rename_i hg
      have hc : ∀ n, siteV r s k (p ++ [n]) ≠ none → Nm (p ++ [n]) := fun n hn => (h.fit _ (by rw [← h.here]; exact hn)).nm
      have g1 := C81_glob hr h.ok hf.nm (k := k) (by rw [h.here]; exact hg) hc m
      rw [show Act.run E k depth (.glob p m) s = _ from bind_ok g1]
      refine .ok ?_ h
      rw [h.names, List.map_map]
      congr 1
      refine List.map_congr_left fun n hn => ?_
      simp only [Function.comp_apply]
      rw [site_path (hc n (by rw [h.here]; exact Tree.mem_names.1 (List.mem_filter.1 hn).1))]
    · rename_i hg
      have := alike_act hr depth (.glob p m) t s h
      have e2 : uGlob plainOps (pAt p) m t = (.error (.os .ENOENT), t) := by
        show OM.bnd (pListdir (pAt p)) _ t = _
        refine bind_error (?_ : pListdir (pAt p) t = _)
        unfold pListdir
        rw [pAt_comps hf.nm, if_pos hw, hg]
      rw [e1, show Act.over plainOps pAt pRead pWrite pMove depth (.glob p m) t = (.error (.os .ENOENT), t) from bind_error e2] at this
      exact this
    · exact .out _ _
  | exists_ | isfile | isdir | islink | listdir | mkdir | write | read | md5 | copystat | move => exact absurd trivial ha

variable [DecidableEq κ]

/-- one call in one of several places -/
theorem outs_says (hr : Function.Injective r) (hs : Function.Injective site) {may : κ → κ → Bool}
    (hmay : ∀ k k', may k k' = true → May (site k) (site k')) (depth : Nat) (a : Acts κ) (h : Rels E r site F T s) :
    Outs E r site F (a.says may depth T) (a.run E site depth s) := by
  cases a with
  | one k a =>
    have h1 := alike_says hr depth a (T k) s ((h.here k).rel h.ok)
    unfold Acts.says Acts.run oneAt
    dsimp only
    revert h1
    generalize a.says depth (T k) = x
    generalize a.run E (site k) depth s = y
    intro h1
    have key : ∀ {t s'}, Rel E r (site k) (siteV r s) t s' → Rels E r site F (setAt T k t) s' := fun hrel =>
      h.at_ hs hrel.ok (holds_of_rel hrel) fun j p hj => by rw [hrel.there j hj]
    cases h1 with
    | out => exact .out _ _
    | ok hab hrel => cases hab; exact .same (key hrel)
    | err hrel => exact .same (key hrel)
  | copy k p k' q b ig fl => exact outs_act hr hs hmay depth (.copy k p k' q b ig fl) h
  | move k p k' q => exact outs_act hr hs hmay depth (.move k p k' q) h

theorem says_rel (hr : Function.Injective r) (hs : Function.Injective site) {may : κ → κ → Bool}
    (hmay : ∀ k k', may k k' = true → May (site k) (site k')) (depth : Nat) (pr : Prg (Acts κ)) : ∀ (n : Nat) {T : κ → Tree} {s : Sys},
    Rels E r site F T s → (∀ x ∈ (pr.exec (Acts.says may depth) n T).1, x ≠ .error .outside) →
    (pr.exec (Acts.run E site depth) n s).1 = (pr.exec (Acts.says may depth) n T).1 ∧
      Rels E r site F (pr.exec (Acts.says may depth) n T).2 (pr.exec (Acts.run E site depth) n s).2
  | 0, _, _, h, _ => ⟨rfl, h⟩
  | n + 1, T, s, h, hq => by
    cases hp : pr (pr.exec (Acts.says may depth) n T).1 with
    | none =>
      rw [exec_none hp] at hq ⊢
      obtain ⟨h1, h2⟩ := says_rel hr hs hmay depth pr n h hq
      rw [exec_none (by rw [h1, hp])]
      exact ⟨h1, h2⟩
    | some a =>
      rw [exec_some hp] at hq ⊢
      obtain ⟨h1, h2⟩ := says_rel hr hs hmay depth pr n h fun x hx => hq x (by simp [hx])
      rw [exec_some (by rw [h1, hp])]
      have h3 := outs_says hr hs hmay depth a h2
      have h4 := hq _ (List.mem_append_right _ (List.mem_singleton.2 rfl))
      dsimp only
      revert h3 h4
      generalize a.says may depth (pr.exec (Acts.says may depth) n T).2 = x
      generalize a.run E site depth (pr.exec (Acts.run E site depth) n s).2 = y
      intro h3 h4
      cases h3 with
      | out => exact absurd rfl h4
      | same hrel => exact ⟨by rw [h1], hrel⟩

/-- a call in a memory file system or on local files does what the description says, and nothing else: the answer or the
    exception, the tree after it, and what is in other places stays -/
theorem C116_call (hr : Function.Injective r) (hok : SysOk E r s) (h : Holds r s k t) (depth : Nat) (a : Act)
    (hq : (a.says depth t).1 ≠ .error .outside) :
    (a.run E k depth s).1 = (a.says depth t).1 ∧ Holds r (a.run E k depth s).2 k (a.says depth t).2 ∧ SysOk E r (a.run E k depth s).2 ∧
    ∀ j, j ≠ k → siteV r (a.run E k depth s).2 j = siteV r s j := by
  have h1 := alike_says hr depth a t s (h.rel hok)
  revert h1 hq
  generalize a.says depth t = x
  generalize a.run E k depth s = y
  intro hq h1
  cases h1 with
  | out => exact absurd rfl hq
  | ok hab hrel => cases hab; exact ⟨rfl, holds_of_rel hrel, hrel.ok, hrel.there⟩
  | err hrel => exact ⟨rfl, holds_of_rel hrel, hrel.ok, hrel.there⟩

/-- every program that works in several memory file systems and on local files gets the answers and leaves the trees that
    the description says, call by call -/
theorem C116_program (hr : Function.Injective r) (hs : Function.Injective site) {may : κ → κ → Bool}
    (hmay : ∀ k k', may k k' = true → May (site k) (site k')) (hok : SysOk E r s) (h : ∀ k, Holds r s (site k) (T k)) (depth : Nat)
    (pr : Prg (Acts κ)) (n : Nat) (hq : ∀ x ∈ (pr.exec (Acts.says may depth) n T).1, x ≠ .error .outside) :
    (pr.exec (Acts.run E site depth) n s).1 = (pr.exec (Acts.says may depth) n T).1 ∧
    (∀ k, Holds r (pr.exec (Acts.run E site depth) n s).2 (site k) ((pr.exec (Acts.says may depth) n T).2 k)) ∧
    SysOk E r (pr.exec (Acts.run E site depth) n s).2 ∧
    ∀ j, (∀ k, site k ≠ j) → siteV r (pr.exec (Acts.run E site depth) n s).2 j = siteV r s j := by
  obtain ⟨h1, h2⟩ := says_rel hr hs hmay depth pr n ⟨hok, h, fun _ _ => rfl⟩ hq
  exact ⟨h1, h2.here, h2.ok, h2.there⟩

end

/-! ## Concrete cases -/

/-- directories are made, files are written, a tree is copied over another one, what is there is listed, walked both ways, and
    removed; and the refusals -/
def saysPrg : Prg (Acts Bool) := listPrgs [.one true (.makedirs [cl!"a", cl!"d", cl!"e"]), .one true (.write [cl!"a", cl!"d", cl!"g"] [[7], [8]]),
  .one true (.walk [] true true), .one true (.walk [] false true), .one true (.copy [cl!"a"] [cl!"b"] true [cl!"e"] true),
  .one true (.glob [cl!"b"] (fun n => n = cl!"d")), .one true (.read [cl!"b", cl!"d", cl!"g"]), .one true (.exists_ [cl!"b", cl!"d", cl!"e"]),
  .one true (.makedirs [cl!"b", cl!"f"]), .one true (.remove [cl!"b"] false), .one true (.remove [cl!"b"] true), .one true (.listdir []),
  .one true (.remove [cl!"b"] true), .one true (.walk [cl!"b"] true true), .one true (.move [cl!"a", cl!"d"] [cl!"b"]),
  .copy true [cl!"b"] false [cl!"a"] true [] true, .one false (.walk [] true true), .one true (.copy [cl!"b", cl!"g"] [cl!"a"] true [] true)]

theorem says_answers : (saysPrg.exec (Acts.says (fun _ _ => true) 50) 20 (fun _ => twinTree)).1 =
    [.ok .unit, .ok .unit,
     .ok (.rows [(cl!"/", [cl!"a"], []), (cl!"/a", [cl!"d"], [cl!"f"]), (cl!"/a/d", [cl!"e"], [cl!"g"]), (cl!"/a/d/e", [], [])]),
     .ok (.rows [(cl!"/a/d/e", [], []), (cl!"/a/d", [cl!"e"], [cl!"g"]), (cl!"/a", [cl!"d"], [cl!"f"]), (cl!"/", [cl!"a"], [])]),
     .ok .unit, .ok (.paths [cl!"/b/d"]), .ok (.bytes [7, 8]), .ok (.bool false), .error (.os .EEXIST), .error (.os .ENOTEMPTY), .ok .unit,
     .ok (.names [cl!"a"]), .error .fileDoesNotExist, .error (.os .ENOENT), .ok .unit, .ok .unit,
     .ok (.rows [(cl!"/", [cl!"a"], []), (cl!"/a", [cl!"b"], [cl!"f"]), (cl!"/a/b", [cl!"e"], [cl!"g"]), (cl!"/a/b/e", [], [])]),
     .error .assertionError] := by
  decide +kernel

/-- whichever of the two places is the local one -/
example (sw : Bool) : (saysPrg.exec (Acts.run (fun _ : Unit => []) (twinSite sw) 50) 20 twinSys).1 =
    [.ok .unit, .ok .unit,
     .ok (.rows [(cl!"/", [cl!"a"], []), (cl!"/a", [cl!"d"], [cl!"f"]), (cl!"/a/d", [cl!"e"], [cl!"g"]), (cl!"/a/d/e", [], [])]),
     .ok (.rows [(cl!"/a/d/e", [], []), (cl!"/a/d", [cl!"e"], [cl!"g"]), (cl!"/a", [cl!"d"], [cl!"f"]), (cl!"/", [cl!"a"], [])]),
     .ok .unit, .ok (.paths [cl!"/b/d"]), .ok (.bytes [7, 8]), .ok (.bool false), .error (.os .EEXIST), .error (.os .ENOTEMPTY), .ok .unit,
     .ok (.names [cl!"a"]), .error .fileDoesNotExist, .error (.os .ENOENT), .ok .unit, .ok .unit,
     .ok (.rows [(cl!"/", [cl!"a"], []), (cl!"/a", [cl!"b"], [cl!"f"]), (cl!"/a/b", [cl!"e"], [cl!"g"]), (cl!"/a/b/e", [], [])]),
     .error .assertionError] :=
  (C116_program unit_inj (twinSite_inj sw) (may := fun _ _ => true) (by revert sw; unfold May; decide) twin_ok (fun k => twin_holds _) 50 saysPrg 20
    (by rw [says_answers]; decide)).1.trans says_answers

/-- one call: the file is gone, the directory stays -/
example (k : Option Unit) : Holds (fun _ : Unit => 0) ((Act.remove [cl!"a", cl!"f"] false).run (fun _ : Unit => []) k 50 twinSys).2 k [([cl!"a"], .dir)] :=
  (C116_call unit_inj twin_ok (twin_holds k) 50 (.remove [cl!"a", cl!"f"] false) (by decide +kernel)).2.1

end Verif.Props
