import Verif.Any.Flow
import Verif.Spec.Through
import Verif.Any.Sys
import Verif.Gen.CopyTree
/-!
# Walking and copying memory trees seen through their links

The tree that is read is the one that paths lead to, links being followed; while it is copied to a new name nothing is
taken away, so a path that leads to an object goes on leading there.
-/
namespace Verif.Any
open Verif.Spec Verif.Gen Verif.Mem

/-- the place of the directory or file the path leads to -/
def placeOf (ns : NS) (p : List Str) : Option (List Str) :=
  match follow ns maxDepth [] p with
  | some (.found q) => some q
  | _ => none

theorem placeOf_iff {ns : NS} {p q : List Str} : placeOf ns p = some q ↔ Goes ns maxDepth [] p (.found q) := by
  unfold placeOf
  rw [goes_iff]
  cases h : follow ns maxDepth [] p with
  | none => simp
  | some o => cases o <;> simp

theorem reached_found {ns : NS} {p q : List Str} (h : Goes ns maxDepth [] p (.found q)) : reached ns p = ns q := by
  unfold reached; rw [goes_iff.1 h]

theorem reached_some {ns : NS} {p : List Str} {o : Obj} (h : reached ns p = some o) :
    ∃ q, Goes ns maxDepth [] p (.found q) ∧ ns q = some o := by
  unfold reached at h
  cases hf : follow ns maxDepth [] p with
  | none => rw [hf] at h; simp at h
  | some out =>
    rw [hf] at h
    cases out with
    | found q => exact ⟨q, goes_iff.2 hf, h⟩
    | _ => simp at h

theorem leads_reached {ns : NS} {p : List Str} : LeadsToDir ns p ↔ ∃ m t, reached ns p = some (.dir m t) := by
  constructor
  · rintro ⟨q, h1, m, t, h2⟩; exact ⟨m, t, by rw [reached_found h1, h2]⟩
  · rintro ⟨m, t, h⟩
    obtain ⟨q, h1, h2⟩ := reached_some h
    exact ⟨q, h1, m, t, h2⟩

/-- what there is, without attributes -/
def entO : Obj → Ent
  | .dir _ _ => .dir
  | .file d _ _ => .file d
  | .link _ _ _ => .link []

open Classical in
/-- The tree below `src` as it is seen through the links; a name that leads nowhere counts as an empty file. -/
noncomputable def seenM (ns : NS) (src x : List Str) : Option Ent :=
  if Ok (src ++ x) then
    match reached ns (src ++ x) with
    | some o => some (entO o)
    | none => if ∃ a n, x = a ++ [n] ∧ Shown ns (src ++ a) n then some (.file []) else none
  else none

section
variable {w0 : World} {E : Dict} {r : Nat} {src : List Str}

theorem seenM_ok {ns : NS} {x : List Str} (h : seenM ns src x ≠ none) : Ok (src ++ x) := by
  unfold seenM at h
  split at h
  · assumption
  · simp at h

theorem seenM_dir {ns : NS} {x : List Str} : seenM ns src x = some .dir ↔ Ok (src ++ x) ∧ LeadsToDir ns (src ++ x) := by
  unfold seenM
  rw [leads_reached]
  by_cases h : Ok (src ++ x)
  · rw [if_pos h]
    cases hv : reached ns (src ++ x) with
    | none =>
      simp only
      split <;> simp
    | some o => cases o <;> simp [entO, h]
  · rw [if_neg h]; simp [h]

section
variable (hw : Mem.Inv w0) (hf : Fs w0 E r)
include hw hf

theorem found_there {p q : List Str} (h : Goes (view w0 r) maxDepth [] p (.found q)) : ∃ o, view w0 r q = some o ∧ o.isLink = false :=
  Goes.notLink (isDir_root hw hf.isRoot) h q rfl (NS.isDir.notLink (isDir_root hw hf.isRoot))

omit hw hf in
theorem shown_dir {p : List Str} {n : Str} (h : Shown (view w0 r) p n) :
    ∃ q, Goes (view w0 r) maxDepth [] p (.found q) ∧ (view w0 r).isDir q ∧ view w0 r (q ++ [n]) ≠ none := by
  obtain ⟨q, h1, h2⟩ := h
  obtain ⟨o, ho⟩ := Option.ne_none_iff_exists'.1 h2
  exact ⟨q, h1, view_parent ho, h2⟩

omit hw hf in
theorem shown_snoc {p : List Str} {n : Str} {q : List Str} (h : Goes (view w0 r) maxDepth [] (p ++ [n]) (.found q)) :
    Shown (view w0 r) p n := by
  obtain ⟨q', h1, h2, h3⟩ := h.of_append
  refine ⟨q', h1, ?_⟩
  cases h2 with
  | step _ h _ _ => rw [h]; simp
  | link _ h _ _ _ => rw [h]; simp
  | linkFail _ _ _ _ h => simp at h

omit hw hf in
theorem seenM_file {x : List Str} {d : Bytes} (h : seenM (view w0 r) src x = some (.file d)) :
    (∃ q m t, Goes (view w0 r) maxDepth [] (src ++ x) (.found q) ∧ view w0 r q = some (.file d m t)) ∨
      reached (view w0 r) (src ++ x) = none ∧ d = [] ∧ ∃ a n, x = a ++ [n] ∧ Shown (view w0 r) (src ++ a) n := by
  have hok := seenM_ok (by rw [h]; simp)
  unfold seenM at h
  rw [if_pos hok] at h
  cases hv : reached (view w0 r) (src ++ x) with
  | some o =>
    rw [hv] at h
    obtain ⟨q, h1, h2⟩ := reached_some hv
    cases o with
    | dir m t => simp [entO] at h
    | file b m t => simp only [entO, Option.some.injEq, Ent.file.injEq] at h; subst h; exact .inl ⟨q, m, t, h1, h2⟩
    | link t m s => simp [entO] at h
  | none =>
    rw [hv] at h
    simp only at h
    split at h
    · rename_i hc
      simp only [Option.some.injEq, Ent.file.injEq] at h
      exact .inr ⟨rfl, h.symm, hc⟩
    · simp at h

theorem seenM_nolink {x : List Str} {t : Str} : seenM (view w0 r) src x ≠ some (.link t) := by
  intro h
  have hok := seenM_ok (by rw [h]; simp)
  unfold seenM at h
  rw [if_pos hok] at h
  cases hv : reached (view w0 r) (src ++ x) with
  | some o =>
    rw [hv] at h
    obtain ⟨q, h1, h2⟩ := reached_some hv
    obtain ⟨o', h3, h4⟩ := found_there hw hf h1
    rw [h2] at h3; cases h3
    cases o <;> simp [entO, Obj.isLink] at h h4
  | none =>
    rw [hv] at h
    simp only at h
    split at h <;> simp at h

omit hw hf in
/-- a name is in a directory if it is in the tree -/
theorem shown_iff (P : Passable (view w0 r) src) {x : List Str} {n : Str} :
    seenM (view w0 r) src (x ++ [n]) ≠ none ↔ Ok (src ++ x) ∧ Shown (view w0 r) (src ++ x) n := by
  constructor
  · intro h
    have hok := seenM_ok h
    refine ⟨by rw [← List.append_assoc] at hok; exact hok.of_prefix, ?_⟩
    unfold seenM at h
    rw [if_pos hok] at h
    cases hv : reached (view w0 r) (src ++ (x ++ [n])) with
    | some o =>
      obtain ⟨q, h1, h2⟩ := reached_some hv
      rw [← List.append_assoc] at h1
      exact shown_snoc h1
    | none =>
      rw [hv] at h
      simp only at h
      split at h
      · rename_i hc
        obtain ⟨a, m, h1, h2⟩ := hc
        obtain ⟨rfl, h3⟩ := List.append_inj' h1 rfl
        rw [← (List.cons.inj h3).1] at h2
        exact h2
      · simp at h
  · rintro ⟨h1, h2⟩
    unfold seenM
    rw [if_pos (P.ok x n h1 h2)]
    cases hv : reached (view w0 r) (src ++ (x ++ [n])) with
    | some o => simp
    | none => simp only; rw [if_pos ⟨x, n, rfl, h2⟩]; simp

open Classical in
/-- the names in the directory a path leads to -/
noncomputable def namesM (w0 : World) (r : Nat) (src x : List Str) : List Str :=
  if Ok (src ++ x) then
    match placeOf (view w0 r) (src ++ x) with
    | some q => names w0 r q
    | none => []
  else []

omit hw hf in
theorem mem_namesM {x : List Str} {n : Str} : n ∈ namesM w0 r src x ↔ Ok (src ++ x) ∧ Shown (view w0 r) (src ++ x) n := by
  unfold namesM Shown
  by_cases h : Ok (src ++ x)
  · rw [if_pos h]
    cases hp : placeOf (view w0 r) (src ++ x) with
    | none =>
      simp only [List.not_mem_nil, false_iff, not_and, not_exists]
      intro _ q hq
      rw [placeOf_iff.2 hq] at hp; simp at hp
    | some q =>
      have hq := placeOf_iff.1 hp
      simp only [h, true_and]
      rw [mem_names]
      constructor
      · exact fun h => ⟨q, hq, h⟩
      · rintro ⟨q', h1, h2⟩
        have := hq.det h1
        simp only [Out.found.injEq] at this
        rw [this]; exact h2
  · simp [h]

/-- The tree can be read in the states that satisfy `J`. -/
noncomputable def memSource (J : World → Prop) (hJ : ∀ {w}, J w → Mem.Inv w ∧ Fs w E r ∧ (view w0 r).Keeps (view w r))
    (hkids : ∀ {w}, J w → ∀ x q m, Ok (src ++ x) → Goes (view w0 r) maxDepth [] (src ++ x) (.found q) → (view w0 r).isDir q →
      view w r (q ++ [m]) ≠ none → view w0 r (q ++ [m]) ≠ none)
    (hfile : ∀ {w}, J w → ∀ x d, seenM (view w0 r) src x = some (.file d) → dirAns (view w r) (src ++ x) = .ok false)
    (P : Passable (view w0 r) src) : Source memOps true where
  c := r
  J := J
  T := seenM (view w0 r) src
  src x := mem E (src ++ x)
  ld _ := false
  names := namesM w0 r src
  parent {x n} h := by
    obtain ⟨h1, h2⟩ := (shown_iff P).1 h
    obtain ⟨q, h3, h4, -⟩ := shown_dir h2
    exact seenM_dir.2 ⟨h1, q, h3, h4⟩
  sorted {x} := by
    unfold namesM
    split
    · split
      · exact names_sorted hw
      · exact .nil
    · exact .nil
  mem_names {x n} := by rw [mem_namesM, shown_iff P]
  listdir {w x} h hd := by
    obtain ⟨i, f, k⟩ := hJ h
    obtain ⟨hok, q, h1, h2⟩ := seenM_dir.1 hd
    have g1 := h1.keeps k
    obtain ⟨j, d, hj, hjd⟩ := isDir_view (k.isDir h2)
    refine ⟨names w r q, ?_, ?_⟩
    · show (Mem.M.query fun w => Mem.listdir w r (mem E (src ++ x))) w = _
      rw [query_apply, listdir_found i f.isRoot (stepsOf_mem hok E) (by rw [filter_clean hok.nil_not_mem]; exact g1) hj hjd, names_eq hj hjd]
    · rw [sortStr_of_pairwise (names_sorted i)]
      have : namesM w0 r src x = names w0 r q := by
        unfold namesM; rw [if_pos hok, placeOf_iff.2 h1]
      rw [this]
      refine pairwise_ext (names_sorted i) (names_sorted hw) fun m => ?_
      rw [mem_names, mem_names]
      refine ⟨hkids h x q m hok h1 h2, fun hm => ?_⟩
      obtain ⟨o, ho⟩ := Option.ne_none_iff_exists'.1 hm
      obtain ⟨o', ho', -⟩ := k _ _ ho
      rw [ho']; simp
  div {x n} h := by
    have hok := seenM_ok h
    rw [← List.append_assoc] at hok
    have := mem_div (cs := src ++ x) (n := n) hok.of_prefix.clean (hok.clean n (by simp)) E
    rw [List.append_assoc] at this
    exact this
  isdir {w x n o} h ho := by
    obtain ⟨i, f, k⟩ := hJ h
    have hok := seenM_ok (x := x ++ [n]) (by rw [ho]; simp)
    show (Mem.M.query fun w => Mem.isdir w r (mem E (src ++ (x ++ [n])))) w = _
    rw [query_apply, isdir_ans i f.isRoot (stepsOf_mem hok E)]
    cases o with
    | dir =>
      obtain ⟨-, q, h1, h2⟩ := seenM_dir.1 ho
      rw [dirAns_dir (h1.keeps k) (k.isDir h2)]
    | file d => rw [hfile h _ _ ho]
    | link t => exact absurd ho (seenM_nolink hw hf)
  islink {w x n o} h ho := by
    obtain ⟨i, f, k⟩ := hJ h
    have hok := seenM_ok (x := x ++ [n]) (by rw [ho]; simp)
    obtain ⟨h1, h2⟩ := (shown_iff P (x := x) (n := n)).1 (by rw [ho]; simp)
    obtain ⟨q, h3, h4, -⟩ := shown_dir h2
    have := uIslink_nofollow i (f.serves (src ++ (x ++ [n]))) (init := src ++ x) (n := n) (by rw [stepsOf_mem hok E, List.append_assoc])
      (h3.keeps k) (k.isDir h4) ((P.once x n h1 h2).imp_right fun hp a m b hab => k.isDir (hp a m b hab))
    refine ⟨_, (agree_islink _ _).trans this, ?_⟩
    cases o with
    | dir => simp
    | file d => simp
    | link t => exact absurd ho (seenM_nolink hw hf)
end

/-! ## Writing it to a new name -/

/-- While the tree is written to `e`, of which `d` is the first part that is new: nothing else changes, and the files below `e` are
    those the paths below `src` lead to. -/
structure HeldM (w0 : World) (r : Nat) (src d e : List Str) (w : World) : Prop where
  becomes : Becomes w0 w r (view w r)
  outside : Outside d (view w0 r) (view w r)
  way : ∀ p, d <+: p → ¬ e <+: p → p <+: e ∧ (view w r).isDir p ∨ ¬ p <+: e ∧ view w r p = none
  files : ∀ x b m t, view w r (e ++ x) = some (.file b m t) → reached (view w0 r) (src ++ x) = some (.file b m t)

namespace HeldM
variable {d e : List Str} {w : World}

theorem old (h : HeldM w0 r src d e w) (hnew : ∀ x, view w0 r (d ++ x) = none) {p : List Str} {o : Obj} (hp : view w0 r p = some o) :
    view w r p = some o := by
  rw [h.outside, hp]
  rintro ⟨x, rfl⟩
  rw [hnew] at hp; simp at hp

theorem keeps (h : HeldM w0 r src d e w) (hnew : ∀ x, view w0 r (d ++ x) = none) : (view w0 r).Keeps (view w r) :=
  fun _ o hp => ⟨o, h.old hnew hp, rfl⟩

theorem step (h : HeldM w0 r src d e w) (hde : d <+: e) {w' : World} {x : List Str} {o : Obj}
    (hb : Becomes w w' r ((view w r).set (e ++ x) o)) (ho : ∀ b m t, o = .file b m t → reached (view w0 r) (src ++ x) = some o) :
    HeldM w0 r src d e w' where
  becomes := (h.becomes.trans hb).congr hb.view.symm
  outside p hp := by
    rw [hb.view, NS.set_ne, h.outside p hp]
    rintro rfl
    exact hp (hde.trans (List.prefix_append _ _))
  way p h1 h2 := by
    unfold NS.isDir
    rw [hb.view, NS.set_ne]
    · exact h.way p h1 h2
    · rintro rfl; exact h2 (List.prefix_append _ _)
  files y b m t hy := by
    rw [hb.view] at hy
    by_cases hx : y = x
    · subst hx
      rw [NS.set_get] at hy
      rw [ho b m t (Option.some.inj hy), hy]
    · rw [NS.set_ne _ _ (by simpa using hx)] at hy
      exact h.files y b m t hy

end HeldM

section
variable {d e : List Str} (hw : Mem.Inv w0) (hf : Fs w0 E r) (hd0 : d ≠ []) (hde : d <+: e) (hnew : ∀ x, view w0 r (d ++ x) = none)
  (W : Whole (view w0 r) src d)

include hnew W in
theorem _root_.Verif.Spec.Whole.apart {x q : List Str} (hok : Ok (src ++ x)) (hg : Goes (view w0 r) maxDepth [] (src ++ x) (.found q)) (hd : (view w0 r).isDir q)
    (m : Str) : ¬ d <+: q ++ [m] := by
  intro hp
  rcases prefix_snoc_iff.1 hp with ⟨y, rfl⟩ | h
  · obtain ⟨a, b, h⟩ := hd
    rw [hnew] at h; simp at h
  · refine W.out x q hok hg hd ?_
    rw [h, List.dropLast_concat]

/-- the tree, while it is copied -/
noncomputable def heldSource : Source memOps true :=
  memSource (E := E) (src := src) hw hf (HeldM w0 r src d e) (fun h => ⟨h.becomes.inv, hf.becomes h.becomes, h.keeps hnew⟩)
    (fun {w} h x q m hok hg hd hm => by rw [h.outside _ (W.apart hnew hok hg hd m)] at hm; exact hm)
    (fun {w} h x b hx => by
      rcases seenM_file hx with ⟨q, m, t, h1, h2⟩ | ⟨h1, -, a, n, rfl, h2⟩
      · refine dirAns_notDir (h1.keeps (h.keeps hnew)) ?_
        rintro ⟨m', t', h3⟩
        rw [h.old hnew h2] at h3; simp at h3
      · have hok := seenM_ok (by rw [hx]; simp)
        rw [← List.append_assoc] at hok
        exact absurd h1 (W.whole a n hok.of_prefix h2)) W.toPassable

theorem map_entO_dir {o : Option Obj} : o.map entO = some .dir ↔ ∃ m t, o = some (.dir m t) := by
  cases o with
  | none => simp
  | some o => cases o <;> simp [entO]

theorem entO_set {ns ns' : NS} {x y : List Str} {o : Obj} (h : ns' = ns.set (e ++ x) o) :
    (ns' (e ++ y)).map entO = put (fun z => (ns (e ++ z)).map entO) x (entO o) y := by
  subst h
  by_cases hy : y = x
  · subst hy; rw [put_same, NS.set_get]; rfl
  · rw [put_ne hy, NS.set_ne _ _ (by simpa using hy)]

/-- and written -/
noncomputable def heldSink (he : Ok e) (hs0 : src ≠ []) {depth : Nat} (hdep : 0 < depth) :
    Sink (heldSource (E := E) (e := e) hw hf hnew W) depth where
  D w x := (view w r (e ++ x)).map entO
  dst x := mem E (e ++ x)
  div {x n} hx := by
    have hok : Ok (src ++ (x ++ [n])) := seenM_ok hx
    have he0 : e ≠ [] := by rintro rfl; exact hd0 (List.prefix_nil.1 hde)
    have hok' : Ok (e ++ x ++ [n]) := by
      rw [List.append_assoc]; exact he.append he0 (fun c hc => hok.clean c (List.mem_append_right _ hc))
    have := mem_div (cs := e ++ x) (n := n) hok'.of_prefix.clean (hok'.clean n (by simp)) E
    rw [List.append_assoc] at this
    exact this
  base {w x} hx := by
    have hx' : seenM (view w0 r) src x = some .dir := hx
    obtain ⟨hok, hld⟩ := seenM_dir.1 hx'
    have ht : ∀ n ∈ x, Trimmed n := by
      intro n hn
      obtain ⟨a, b, rfl⟩ := List.append_of_mem hn
      obtain ⟨q, h1, h2⟩ := hld
      have e1 : src ++ (a ++ n :: b) = src ++ (a ++ [n]) ++ b := by simp
      rw [e1] at h1 hok
      refine W.trim a n hok.of_prefix ?_
      obtain ⟨q', g1, g2, g3⟩ := h1.of_append
      by_cases hb : b = []
      · subst hb
        cases g2
        exact ⟨_, g1, h2⟩
      · exact ⟨q', g1, g3 hb⟩
    have h1 := dbase_eq (s := src) (t := x) (d := e) (E := E) (w := w) hok hs0 he ht
    have c1 : (heldSource (E := E) (e := e) hw hf hnew W).src [] = mem E src := by
      show mem E (src ++ []) = _; rw [List.append_nil]
    rw [c1, List.append_nil]
    exact (agree_ite (agree_lift _) (agree_pure _) w).trans h1
  mkdir {w x n} h ht hd hv := by
    have ht' : seenM (view w0 r) src (x ++ [n]) = some .dir := ht
    have hok : Ok (src ++ (x ++ [n])) := seenM_ok (by rw [ht']; simp)
    have he0 : e ≠ [] := by rintro rfl; exact hd0 (List.prefix_nil.1 hde)
    have hok' : Ok (e ++ x ++ [n]) := by
      rw [List.append_assoc]; exact he.append he0 (fun c hc => hok.clean c (List.mem_append_right _ hc))
    have hdx : (view w r).isDir (e ++ x) := map_entO_dir.1 hd
    have hn : view w r (e ++ x ++ [n]) = none := by rw [List.append_assoc]; exact Option.map_eq_none_iff.1 hv
    have h' : HeldM w0 r src d e w := h
    have hf' := hf.becomes h'.becomes
    obtain ⟨w', t', h1, h2⟩ := makedirs_new [] depth h'.becomes.inv hf' hok' (isDir_goes hdx) hdx hn hdep
    have h3 : Becomes w w' r ((view w r).set (e ++ (x ++ [n])) (.dir 0 (t' (e ++ x ++ [n])))) := by
      refine h2.congr ?_
      rw [← List.append_assoc]
      funext p
      unfold NS.mkdirs NS.set
      by_cases hp : p = e ++ x ++ [n]
      · subst hp; simp
      · rw [if_neg hp, if_neg]
        rintro ⟨h3, h4, h5⟩
        rcases prefix_snoc_iff.1 h5 with h5 | h5
        · exact h4 (h5.eq_of_length_le h3.length_le)
        · exact hp h5
    refine ⟨w', ?_, h'.step hde h3 (by simp), funext fun y => entO_set h3.view⟩
    refine (memOps_uMakedirs depth _ w).trans ?_
    unfold Gen.uMakedirs
    rw [← List.append_assoc, withConn_serves (hf'.serves _) (stepsOf_mem hok' E)]
    exact h1
  file {w x n b} h ht hd hv := by
    have ht' : seenM (view w0 r) src (x ++ [n]) = some (.file b) := ht
    have hok : Ok (src ++ (x ++ [n])) := seenM_ok (by rw [ht']; simp)
    have he0 : e ≠ [] := by rintro rfl; exact hd0 (List.prefix_nil.1 hde)
    have hok' : Ok (e ++ x ++ [n]) := by
      rw [List.append_assoc]; exact he.append he0 (fun c hc => hok.clean c (List.mem_append_right _ hc))
    have hdx : (view w r).isDir (e ++ x) := map_entO_dir.1 hd
    have hn : view w r (e ++ x ++ [n]) = none := by rw [List.append_assoc]; exact Option.map_eq_none_iff.1 hv
    have h' : HeldM w0 r src d e w := h
    have hf' := hf.becomes h'.becomes
    rcases seenM_file ht' with ⟨q, m, t, g1, g2⟩ | ⟨g1, -, a, n', g2, g3⟩
    · have g4 := h'.old hnew g2
      obtain ⟨w', h1, h2⟩ := copyFile_eq h'.becomes.inv (hf'.serves _) (hf'.serves _) (stepsOf_mem hok E) (g1.keeps (h'.keeps hnew)) g4
        (stepsOf_mem hok' E) (.new (isDir_goes hdx) hdx hn) (by rintro rfl; rw [g4] at hn; simp at hn)
      rw [List.append_assoc] at h1 h2
      refine ⟨w', ?_, h'.step hde h2 (fun b' m' t' _ => by rw [reached_found g1, g2]), funext fun y => entO_set h2.view⟩
      exact (agree_bind (memOps_copyContent _ _) (fun _ => agree_ite (agree_refl _) (agree_pure _)) w).trans h1
    · have hok2 := hok
      rw [← List.append_assoc] at hok2
      obtain ⟨rfl, g4⟩ := List.append_inj' g2 rfl
      rw [← (List.cons.inj g4).1] at g3
      exact absurd g1 (W.whole x n hok2.of_prefix g3)
  link {w x n t} h ht _ _ := absurd ht (seenM_nolink hw hf)
end

/-- whatever is reached can be written in a URI -/
theorem _root_.Verif.Spec.Passable.written {src : List Str} (P : Passable (view w0 r) src) (hok : Ok src) :
    ∀ x : List Str, reached (view w0 r) (src ++ x) ≠ none → Ok (src ++ x) := by
  intro x
  induction x using List.reverseRecOn with
  | nil => intro _; rwa [List.append_nil]
  | append_singleton x n ih =>
    intro h
    obtain ⟨o, ho⟩ := Option.ne_none_iff_exists'.1 h
    obtain ⟨q, h1, -⟩ := reached_some ho
    rw [← List.append_assoc] at h1
    have h2 := shown_snoc h1
    obtain ⟨q', h3, h4, -⟩ := shown_dir h2
    obtain ⟨m, t, h5⟩ := h4
    exact P.ok x n (ih (by rw [reached_found h3, h5]; simp)) h2

/-- The recursive copy through links, once it is known where the copy goes: the missing directories are made and the tree is put there. -/
theorem copyThrough (hw : Mem.Inv w0) (hf : Fs w0 E r) {init pre rest ig : List Str} {n0 n : Str} (hok : Ok (init ++ [n0]))
    (W : Whole (view w0 r) (init ++ [n0]) (pre ++ [n])) (hroot : LeadsToDir (view w0 r) (init ++ [n0]))
    (honce : n0 ∉ init ∨ Plain (view w0 r) (init ++ [n0])) (hpre : (view w0 r).isDir pre) (hn : view w0 r (pre ++ [n]) = none)
    (he : Ok (pre ++ [n] ++ rest)) {depth : Nat} (hlen : rest.length < depth)
    (hh : ∀ x, LeadsToDir (view w0 r) (init ++ [n0] ++ x) → x.length < depth) :
    ∃ w', (do
        if (← Mem.uIslink (mem E (init ++ [n0]))) && !true then Gen.copyLink r (mem E (init ++ [n0])) (mem E (pre ++ [n] ++ rest))
        else
          Gen.uMakedirs depth (mem E (pre ++ [n] ++ rest))
          Gen.copyWalk depth r ig true (mem E (init ++ [n0])) (mem E (pre ++ [n] ++ rest)) : Mem.M Unit) w0 = (.ok (), w') ∧
      Becomes w0 w' r (view w' r) ∧ Outside (pre ++ [n]) (view w0 r) (view w' r) ∧
      (∀ p, pre ++ [n] <+: p → p <+: pre ++ [n] ++ rest → (view w' r).isDir p) ∧
      (∀ p, pre ++ [n] <+: p → ¬ p <+: pre ++ [n] ++ rest → ¬ pre ++ [n] ++ rest <+: p → view w' r p = none) ∧
      (∀ x, x ≠ [] → Pruned (view w0 r) ig (init ++ [n0]) x → view w' r (pre ++ [n] ++ rest ++ x) = none) ∧
      (∀ x, ¬ Pruned (view w0 r) ig (init ++ [n0]) x →
        OptCopy (reached (view w0 r) (init ++ [n0] ++ x)) (view w' r (pre ++ [n] ++ rest ++ x))) := by
  have hnew : ∀ x, view w0 r (pre ++ [n] ++ x) = none := by
    intro x
    cases hv : view w0 r (pre ++ [n] ++ x) with
    | none => rfl
    | some o => obtain ⟨o', ho'⟩ := view_prefix hv; rw [hn] at ho'; simp at ho'
  have e0 : pre ++ [n] ++ rest = pre ++ n :: rest := by simp
  obtain ⟨w1, t, h1, h2⟩ := makedirs_new rest depth hw hf (by rw [← e0]; exact he) (isDir_goes hpre) hpre hn hlen
  rw [← e0] at h1
  have hiff : ∀ p, (pre <+: p ∧ p ≠ pre ∧ p <+: pre ++ n :: rest) ↔ (pre ++ [n] <+: p ∧ p <+: pre ++ [n] ++ rest) := by
    intro p
    constructor
    · rintro ⟨⟨x, rfl⟩, k2, k3⟩
      cases x with
      | nil => simp at k2
      | cons y x =>
        rw [List.prefix_append_right_inj, List.cons_prefix_cons] at k3
        obtain ⟨rfl, k3⟩ := k3
        refine ⟨⟨x, by simp⟩, ?_⟩
        rw [show pre ++ y :: x = pre ++ [y] ++ x by simp, List.prefix_append_right_inj]
        exact k3
    · rintro ⟨⟨x, rfl⟩, k2⟩
      refine ⟨⟨n :: x, by simp⟩, by simp, ?_⟩
      rw [← e0]; exact k2
  have v1 : ∀ p, view w1 r p = if pre ++ [n] <+: p ∧ p <+: pre ++ [n] ++ rest then some (.dir 0 (t p)) else view w0 r p := by
    intro p
    rw [h2.view]
    unfold NS.mkdirs
    simp only [hiff]
  have long : ∀ x : List Str, x ≠ [] → ¬ pre ++ [n] ++ rest ++ x <+: pre ++ [n] ++ rest := by
    intro x hx h
    have := h.length_le
    have h' := List.length_pos_iff.2 hx
    simp only [List.length_append] at this
    omega
  have H1 : HeldM w0 r (init ++ [n0]) (pre ++ [n]) (pre ++ [n] ++ rest) w1 := by
    refine ⟨h2.congr h2.view.symm, fun p hp => by rw [v1, if_neg (fun h => hp h.1)], fun p k1 k2 => ?_, fun x b m t' hx => ?_⟩
    · by_cases k3 : p <+: pre ++ [n] ++ rest
      · exact .inl ⟨k3, 0, t p, by rw [v1, if_pos ⟨k1, k3⟩]⟩
      · obtain ⟨y, rfl⟩ := k1
        exact .inr ⟨k3, by rw [v1, if_neg (fun h => k3 h.2), hnew]⟩
    rw [v1] at hx
    split at hx
    · simp at hx
    · rw [List.append_assoc, hnew] at hx; simp at hx
  have hdep : 0 < depth := by omega
  let K := heldSink (E := E) (e := pre ++ [n] ++ rest) hw hf (by simp) (List.prefix_append _ _) hnew W he (by simp) hdep
  have hrootT : seenM (view w0 r) (init ++ [n0]) [] = some .dir := seenM_dir.2 (by rw [List.append_nil]; exact ⟨hok, hroot⟩)
  obtain ⟨w2, b1, b2, b3⟩ := K.walk (ig := ig) depth [] H1 hrootT (Source.cut_nil _) (by
      show (view w1 r (pre ++ [n] ++ rest ++ [])).map entO = some .dir
      rw [List.append_nil, v1, if_pos ⟨List.prefix_append _ _, List.prefix_refl _⟩]; rfl) (by
      intro y hy
      show (view w1 r (pre ++ [n] ++ rest ++ ([] ++ y))).map entO = none
      rw [List.nil_append, v1, if_neg (fun h => long y hy h.2), List.append_assoc, hnew]; rfl)
      (fun y hy => by
        rw [List.nil_append] at hy
        have := seenM_dir.1 hy
        exact hh y this.2)
  have H2 : HeldM w0 r (init ++ [n0]) (pre ++ [n]) (pre ++ [n] ++ rest) w2 := b2
  have D2 : ∀ x, x ≠ [] → (view w2 r (pre ++ [n] ++ rest ++ x)).map entO =
      (heldSource (E := E) (e := pre ++ [n] ++ rest) hw hf hnew W).kept ig x := by
    intro x hx
    have := b3 x
    rw [if_pos ⟨List.nil_prefix, hx⟩] at this
    exact this
  have hcut : ∀ x, (heldSource (E := E) (e := pre ++ [n] ++ rest) hw hf hnew W).Cut ig x ↔ Pruned (view w0 r) ig (init ++ [n0]) x := by
    intro x
    have has : ∀ y, (heldSource (E := E) (e := pre ++ [n] ++ rest) hw hf hnew W).asDir y = true ↔
        LeadsToDir (view w0 r) (init ++ [n0] ++ y) := by
      intro y
      constructor
      · intro h
        have hy : seenM (view w0 r) (init ++ [n0]) y = some .dir := by
          change (match seenM (view w0 r) (init ++ [n0]) y with
            | some .dir => true
            | some (.link _) => _
            | _ => false) = true at h
          cases hc : seenM (view w0 r) (init ++ [n0]) y with
          | none => rw [hc] at h; simp at h
          | some o =>
            cases o with
            | dir => rfl
            | file b => rw [hc] at h; simp at h
            | link t => exact absurd hc (seenM_nolink hw hf)
        exact (seenM_dir.1 hy).2
      · intro h
        refine Source.asDir_dir _ (seenM_dir.2 ⟨W.toPassable.written hok y ?_, h⟩)
        obtain ⟨m, t, h⟩ := leads_reached.1 h
        rw [h]; simp
    constructor
    · rintro ⟨a, m, ⟨b, rfl⟩, h2, h3⟩
      exact ⟨a, m, b, by simp, h2, by rw [List.append_assoc]; exact (has _).1 h3⟩
    · rintro ⟨a, m, b, rfl, h2, h3⟩
      exact ⟨a, m, ⟨b, by simp⟩, h2, (has _).2 (by rw [← List.append_assoc]; exact h3)⟩
  have way : ∀ p, pre ++ [n] <+: p → p <+: pre ++ [n] ++ rest → (view w2 r).isDir p := by
    intro p k1 k2
    by_cases k3 : pre ++ [n] ++ rest <+: p
    · have := k2.eq_of_length_le k3.length_le
      subst this
      have h3 := b3 []
      rw [if_neg (fun h => h.2 rfl)] at h3
      have h4 : (view w2 r (pre ++ [n] ++ rest ++ [])).map entO = (view w1 r (pre ++ [n] ++ rest ++ [])).map entO := h3
      rw [List.append_nil, v1, if_pos ⟨k1, k2⟩] at h4
      exact map_entO_dir.1 h4
    · rcases H2.way p k1 k3 with h | h
      · exact h.2
      · exact absurd k2 h.1
  refine ⟨w2, ?_, H2.becomes, H2.outside, way, ?_, ?_, ?_⟩
  · have e1 : ∃ b, Mem.uIslink (mem E (init ++ [n0])) w0 = (.ok b, w0) := by
      obtain ⟨q, g1, -⟩ := hroot
      obtain ⟨q', h3, h4, -⟩ := shown_dir (shown_snoc g1)
      exact ⟨_, uIslink_nofollow hw (hf.serves _) (stepsOf_mem hok E) h3 h4 honce⟩
    obtain ⟨b, e1⟩ := e1
    rw [Mem.bind_ok e1]
    simp only [Bool.not_true, Bool.and_false, Bool.false_eq_true, if_false]
    have e2 : Gen.uMakedirs depth (mem E (pre ++ [n] ++ rest)) w0 = (.ok (), w1) := by
      unfold Gen.uMakedirs
      rw [withConn_serves (hf.serves _) (stepsOf_mem he E)]
      exact h1
    rw [Mem.bind_ok e2]
    have hf1 := hf.becomes H1.becomes
    unfold Gen.copyWalk
    rw [withConn_serves (hf1.serves _) (stepsOf_mem hok E)]
    refine (memOps_walk r true true (fun _ _ _ _ => agree_bind (memOps_copyBody _ _ _ _ _ _ _ _ _) fun _ => agree_pure _) depth _ () w1).symm.trans ?_
    have c1 : mem E (init ++ [n0] ++ []) = mem E (init ++ [n0]) := by rw [List.append_nil]
    have c2 : mem E (pre ++ [n] ++ rest ++ []) = mem E (pre ++ [n] ++ rest) := by rw [List.append_nil]
    have b1' : Any.walk memOps r true true (fun (_ : Unit) top dirs files => do
        let dirs' ← copyBody memOps depth r ig true ((mem E (init ++ [n0] ++ [])).path.length + 1) (mem E (pre ++ [n] ++ rest ++ [])) top dirs files
        pure ((), dirs')) depth (mem E (init ++ [n0] ++ [])) () w1 = (.ok (), w2) := b1
    rw [c1, c2] at b1'
    exact b1'
  · intro p k1 k2 k3
    rcases H2.way p k1 k3 with h | h
    · exact absurd h.1 k2
    · exact h.2
  · intro x hx hp
    have := D2 x hx
    unfold Source.kept at this
    rw [if_pos ((hcut x).2 hp)] at this
    exact Option.map_eq_none_iff.1 this
  · intro x hp
    by_cases hx : x = []
    · subst hx
      obtain ⟨m, t, e1⟩ := leads_reached.1 hroot
      obtain ⟨m', t', e2⟩ := way _ (List.prefix_append _ _) (List.prefix_refl _)
      simp only [List.append_nil, e1, e2]
      trivial
    · have h3 := D2 x hx
      unfold Source.kept at h3
      rw [if_neg (fun h => hp ((hcut x).1 h))] at h3
      have h4 : (view w2 r (pre ++ [n] ++ rest ++ x)).map entO = seenM (view w0 r) (init ++ [n0]) x := h3
      cases hr : reached (view w0 r) (init ++ [n0] ++ x) with
      | none =>
        have : seenM (view w0 r) (init ++ [n0]) x = none := by
          unfold seenM
          split
          · rename_i hk
            rw [hr]
            simp only
            rw [if_neg]
            rintro ⟨a, m, rfl, h5⟩
            rw [← List.append_assoc] at hk
            exact W.whole a m hk.of_prefix h5 hr
          · rfl
        rw [this] at h4
        rw [Option.map_eq_none_iff.1 h4]
        trivial
      | some o =>
        have hk := W.toPassable.written hok x (by rw [hr]; simp)
        have : seenM (view w0 r) (init ++ [n0]) x = some (entO o) := by
          unfold seenM
          rw [if_pos hk, hr]
        rw [this] at h4
        obtain ⟨o', h5, h6⟩ := Option.map_eq_some_iff.1 h4
        rw [h5]
        obtain ⟨q, h7, h8⟩ := reached_some hr
        obtain ⟨o2, h9, h10⟩ := found_there hw hf h7
        rw [h8] at h9; cases h9
        cases o with
        | dir m t => cases o' <;> simp [entO] at h6; trivial
        | link t m s => simp [Obj.isLink] at h10
        | file b m t =>
          cases o' with
          | dir _ _ => simp [entO] at h6
          | link _ _ _ => simp [entO] at h6
          | file b' m' t' =>
            have := H2.files x b' m' t' h5
            rw [hr] at this
            cases this
            exact ⟨rfl, rfl, rfl⟩
end
end Verif.Any
