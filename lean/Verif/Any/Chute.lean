import Verif.Any.Flow
/-!
# Copying a tree to a place that makes no directories

The recursive copy (fs.py:930-971) where `makedirs` does nothing in a directory that is there, and raises otherwise, and where
files are added to a list.
-/
namespace Verif.Any
open Mem (Meth)
open Verif.Spec Verif.Gen

variable {σ : Type}

/-- The place that is written to: `L s fs` says that the files `fs` have been written so far, `has` are the directories that
    are there, `err` is raised where a directory should be made. -/
structure Chute {O : Ops σ} {fl : Bool} (S : Source O fl) (depth : Nat) where
  L : σ → List (List Str × Bytes) → Prop
  has : List Str → Prop
  err : PyErr
  dst : List Str → Uri
  keep : ∀ {s fs}, L s fs → S.J s
  noLink : ∀ {x t}, S.T x ≠ some (.link t)
  div : ∀ {x n}, S.T (x ++ [n]) ≠ none → (dst x).div n = .ok (dst (x ++ [n]))
  base : ∀ {s x}, S.T x = some .dir →
    (if stripW ((S.src x).path.drop ((S.src []).path.length + 1)) ≠ [] then
        OM.lift ((dst []).div (stripW ((S.src x).path.drop ((S.src []).path.length + 1)))) else pure (dst []) : OM σ Uri) s = (.ok (dst x), s)
  there : ∀ {s fs x n}, L s fs → S.T (x ++ [n]) = some .dir → has x → has (x ++ [n]) → uMakedirs O depth (dst (x ++ [n])) s = (.ok (), s)
  refuse : ∀ {s fs x n}, L s fs → S.T (x ++ [n]) = some .dir → has x → ¬ has (x ++ [n]) → uMakedirs O depth (dst (x ++ [n])) s = (.error err, s)
  file : ∀ {s fs x n d}, L s fs → S.T (x ++ [n]) = some (.file d) → has x →
    ∃ s', (do copyContent O (S.src (x ++ [n])) (dst (x ++ [n]))
              if (S.src (x ++ [n])).scheme = (dst (x ++ [n])).scheme then O.copystat S.c (S.src (x ++ [n])) (dst (x ++ [n])) : OM σ Unit) s
        = (.ok (), s') ∧ L s' (fs ++ [(x ++ [n], d)])

namespace Chute
variable {O : Ops σ} {fl : Bool} {S : Source O fl} {depth0 : Nat} (K : Chute S depth0)

/-- fs.py:962-971 -/
theorem copyFiles {x : List Str} (hx : K.has x) : ∀ (l : List Str) {s : σ} {fs : List (List Str × Bytes)}, K.L s fs → l.Nodup →
    (∀ n ∈ l, S.T (x ++ [n]) ≠ none ∧ S.asDir (x ++ [n]) = false) →
    ∃ s' gs, Any.copyFiles O S.c fl (S.src x) (K.dst x) l s = (.ok (), s') ∧ K.L s' (fs ++ gs) ∧ (gs.map (·.1)).Nodup ∧
      ∀ p d, (p, d) ∈ gs ↔ ∃ n ∈ l, p = x ++ [n] ∧ S.T p = some (.file d) := by
  intro l
  induction l with
  | nil => intro s fs hs _ _; exact ⟨s, [], rfl, by rw [List.append_nil]; exact hs, by simp, by simp⟩
  | cons n l ih =>
    intro s fs hs hnd hl
    obtain ⟨h2, h3⟩ := hl n (by simp)
    have hnn := (List.nodup_cons.1 hnd).1
    obtain ⟨o, ho⟩ := Option.ne_none_iff_exists'.1 h2
    obtain ⟨d, rfl⟩ : ∃ d, o = .file d := by
      cases o with
      | dir => rw [S.asDir_dir ho] at h3; simp at h3
      | file d => exact ⟨d, rfl⟩
      | link t => exact absurd ho K.noLink
    obtain ⟨b, i1, i2⟩ := S.islink (K.keep hs) ho
    obtain ⟨s1, k1, k2⟩ := K.file hs ho hx
    have k1' : copyOne O S.c (S.src (x ++ [n])) (K.dst (x ++ [n])) fl s = (.ok (), s1) := by
      unfold copyOne
      rw [bind_ok i1, i2, if_neg Bool.false_ne_true]
      exact k1
    obtain ⟨s2, gs, j1, j2, j3, j4⟩ := ih k2 (List.nodup_cons.1 hnd).2 (fun m hm => hl m (by simp [hm]))
    refine ⟨s2, (x ++ [n], d) :: gs, ?_, by simpa using j2, ?_, fun p e => ?_⟩
    · unfold Any.copyFiles
      rw [bind_lift (S.div h2), bind_lift (K.div h2), bind_ok k1']
      exact j1
    · rw [List.map_cons, List.nodup_cons]
      refine ⟨fun hc => ?_, j3⟩
      obtain ⟨⟨p, e⟩, hg, hp⟩ := List.mem_map.1 hc
      obtain ⟨m, hm, h, -⟩ := (j4 p e).1 hg
      have hp : p = x ++ [n] := hp
      rw [hp] at h
      simp only [List.append_cancel_left_eq, List.cons.injEq, and_true] at h
      exact hnn (h ▸ hm)
    · rw [List.mem_cons, j4]
      constructor
      · rintro (h | ⟨m, hm, h⟩)
        · cases h; exact ⟨n, by simp, rfl, ho⟩
        · exact ⟨m, by simp [hm], h⟩
      · rintro ⟨m, hm, h, h'⟩
        rcases List.mem_cons.1 hm with rfl | hm
        · left
          rw [h, ho] at h'
          cases h'
          rw [h]
        · exact .inr ⟨m, hm, h, h'⟩

/-- fs.py:951-960: all directories are there, or one is not -/
theorem copyDirs {ig x : List Str} (hx : K.has x) : ∀ (l D : List Str) {s : σ} {fs : List (List Str × Bytes)}, K.L s fs → D.Nodup →
    (∀ n ∈ l, S.T (x ++ [n]) = some .dir) →
    (Any.copyDirs O depth0 S.c ig fl (S.src x) (K.dst x) l D s = (.ok (D.filter fun n => ¬ (n ∈ l ∧ n ∈ ig)), s) ∧ ∀ n ∈ l, n ∉ ig → K.has (x ++ [n])) ∨
    (Any.copyDirs O depth0 S.c ig fl (S.src x) (K.dst x) l D s = (.error K.err, s) ∧ ∃ n ∈ l, n ∉ ig ∧ ¬ K.has (x ++ [n])) := by
  intro l
  induction l with
  | nil => intro D s fs _ _ _; exact .inl ⟨by simp [Any.copyDirs], by simp⟩
  | cons n l ih =>
    intro D s fs hs hD hl
    have h1 := hl n (by simp)
    have hl' : ∀ m ∈ l, S.T (x ++ [m]) = some .dir := fun m hm => hl m (by simp [hm])
    by_cases hig : n ∈ ig
    · have e0 : Any.copyDirs O depth0 S.c ig fl (S.src x) (K.dst x) (n :: l) D s =
          Any.copyDirs O depth0 S.c ig fl (S.src x) (K.dst x) l (D.erase n) s := by
        conv_lhs => unfold Any.copyDirs
        rw [if_pos hig]
      rcases ih (D.erase n) hs (hD.erase n) hl' with ⟨k1, k2⟩ | ⟨k1, m, hm, k2⟩
      · refine .inl ⟨?_, fun m hm hmi => ?_⟩
        · rw [e0, k1, hD.erase_eq_filter, List.filter_filter]
          congr 2
          apply List.filter_congr
          intro x _
          by_cases hx : x = n
          · subst hx; simp [hig]
          · simp [hx]
        · rcases List.mem_cons.1 hm with rfl | hm
          · exact absurd hig hmi
          · exact k2 m hm hmi
      · exact .inr ⟨by rw [e0, k1], m, by simp [hm], k2⟩
    · obtain ⟨b, i1, i2⟩ := S.islink (K.keep hs) h1
      have e0 : ∀ {z s'}, uMakedirs O depth0 (K.dst (x ++ [n])) s = (z, s') → Any.copyDirs O depth0 S.c ig fl (S.src x) (K.dst x) (n :: l) D s =
          (match z with | .ok _ => Any.copyDirs O depth0 S.c ig fl (S.src x) (K.dst x) l D s' | .error e => (.error e, s')) := by
        intro z s' hz
        conv_lhs => unfold Any.copyDirs
        rw [if_neg hig, bind_lift (K.div (by rw [h1]; simp)), bind_lift (S.div (by rw [h1]; simp)), bind_ok i1, i2, if_neg Bool.false_ne_true]
        cases z with
        | ok z => exact bind_ok hz
        | error z => exact bind_error hz
      by_cases hh : K.has (x ++ [n])
      · have e1 := e0 (K.there hs h1 hx hh)
        dsimp only at e1
        rcases ih D hs hD hl' with ⟨k1, k2⟩ | ⟨k1, m, hm, k2⟩
        · refine .inl ⟨?_, fun m hm hmi => ?_⟩
          · rw [e1, k1]
            congr 2
            apply List.filter_congr
            intro x _
            by_cases hx : x = n
            · subst hx; simp [hig]
            · simp [hx]
          · rcases List.mem_cons.1 hm with rfl | hm
            · exact hh
            · exact k2 m hm hmi
        · exact .inr ⟨by rw [e1, k1], m, by simp [hm], k2⟩
      · exact .inr ⟨e0 (K.refuse hs h1 hx hh), n, by simp, hig, hh⟩

/-- the consumer of the walk in `copy` -/
def copier (ig : List Str) (_ : Unit) (top : Uri) (dirs files : List Str) : OM σ (Unit × List Str) := do
  let dirs' ← copyBody O depth0 S.c ig fl ((S.src []).path.length + 1) (K.dst []) top dirs files
  pure ((), dirs')

/-- what the recursive copy has done below `x`: the files `gs` were written; either all that are not ignored, all
    directories being there, or one is not, and there it stopped -/
structure Poured (ig x : List Str) (z : Except PyErr Unit) (gs : List (List Str × Bytes)) : Prop where
  nodup : (gs.map (·.1)).Nodup
  sub : ∀ p d, (p, d) ∈ gs → x <+: p ∧ p ≠ x ∧ S.kept ig p = some (.file d)
  res : z = .ok () ∧ (∀ p d, x <+: p → S.kept ig p = some (.file d) → (p, d) ∈ gs) ∧ (∀ p, x <+: p → S.kept ig p = some .dir → K.has p) ∨
    z = .error K.err ∧ ∃ p, x <+: p ∧ S.kept ig p = some .dir ∧ ¬ K.has p

include K in
theorem asDir_iff {x : List Str} : S.asDir x = true ↔ S.T x = some .dir := by
  unfold Source.asDir
  rcases h : S.T x with _ | _ | _ | _
  · simp
  · simp
  · simp
  · exact absurd h K.noLink

theorem kept_up {ig p q : List Str} {o : Ent} (h : S.kept ig p = some o) (hp : q <+: p) (hne : q ≠ p) : S.kept ig q = some .dir := by
  obtain ⟨y, rfl⟩ := hp
  unfold Source.kept at h ⊢
  split at h
  · cases h
  · rename_i hc
    rw [if_neg fun hq => hc (hq.mono ⟨y, rfl⟩)]
    by_contra hd
    rw [S.below hd (by rintro rfl; simp at hne)] at h
    cases h

/-- the recursive copy -/
theorem walk {ig : List Str} (depth : Nat) :
    ∀ (x : List Str) {s : σ} {fs : List (List Str × Bytes)}, K.L s fs → S.kept ig x = some .dir → K.has x →
    (∀ y, S.T (x ++ y) = some .dir → y.length < depth) →
    ∃ s' z gs, Any.walk O S.c true fl (K.copier ig) depth (S.src x) () s = (z, s') ∧ K.L s' (fs ++ gs) ∧ K.Poured ig x z gs := by
  induction depth with
  | zero =>
    intro x s fs _ hd _ hh
    have : S.T x = some .dir := by
      unfold Source.kept at hd
      split at hd
      · cases hd
      · exact hd
    exact absurd (hh [] (by simpa using this)) (by simp)
  | succ depth ih =>
    intro x s fs hs hkd hhas hh
    have hcut : ¬ S.Cut ig x := by
      intro hc; unfold Source.kept at hkd; rw [if_pos hc] at hkd; cases hkd
    have hd : S.T x = some .dir := by unfold Source.kept at hkd; rwa [if_neg hcut] at hkd
    have nD : (S.dirs x).Nodup := S.nodup.filter _
    have nF : (S.files x).Nodup := S.nodup.filter _
    have hdirs : ∀ n ∈ S.dirs x, S.T (x ++ [n]) = some .dir := fun n hn => K.asDir_iff.1 (S.mem_dirs.1 hn).2
    have hbody : ∀ {z s'}, (do
        let dirs' ← Any.copyDirs O depth0 S.c ig fl (S.src x) (K.dst x) (S.dirs x) (S.dirs x)
        Any.copyFiles O S.c fl (S.src x) (K.dst x) (S.files x)
        pure dirs' : OM σ (List Str)) s = (z, s') → K.copier ig () (S.src x) (S.dirs x) (S.files x) s = (z.map fun l => ((), l), s') := by
      intro z s' hz
      have hk := bind_ok (f := fun db => do
            let dirs' ← Any.copyDirs O depth0 S.c ig fl (S.src x) db (S.dirs x) (S.dirs x)
            Any.copyFiles O S.c fl (S.src x) db (S.files x)
            pure dirs') (K.base (s := s) hd)
      rw [hz] at hk
      have hk' : copyBody O depth0 S.c ig fl ((S.src []).path.length + 1) (K.dst []) (S.src x) (S.dirs x) (S.files x) s = (z, s') := by
        rw [← hk]
        unfold copyBody
        dsimp only
        split <;> rfl
      unfold copier
      cases z with
      | ok z => rw [bind_ok hk']; rfl
      | error z => rw [bind_error hk']; rfl
    rw [S.walk_eq (K.keep hs) hd, if_pos rfl]
    rcases K.copyDirs (ig := ig) hhas (S.dirs x) (S.dirs x) hs nD hdirs with ⟨a1, a2⟩ | ⟨a1, n, hn, hni, hnh⟩
    swap
    · refine ⟨s, .error K.err, [], bind_error (hbody (bind_error a1)), by rw [List.append_nil]; exact hs, by simp, by simp, .inr ⟨rfl, x ++ [n], ⟨[n], rfl⟩, ?_, hnh⟩⟩
      unfold Source.kept
      rw [if_neg fun h => hni ((S.cut_snoc hcut).1 h).1]
      exact hdirs n hn
    obtain ⟨s2, gs, b1, b2, b3, b4⟩ := K.copyFiles hhas (S.files x) hs nF (fun n hn => S.mem_files.1 hn)
    have hfilt : (S.dirs x).filter (fun n => decide (¬ (n ∈ S.dirs x ∧ n ∈ ig))) = (S.dirs x).filter fun n => decide (n ∉ ig) := by
      apply List.filter_congr
      intro n hn
      simp [hn]
    rw [hfilt] at a1
    refine (bind_ok (hbody ((bind_ok a1).trans (bind_ok b1)))).symm ▸ ?_
    -- the directories, one after the other
    have loop : ∀ (l : List Str) {s1 : σ} {gs1 : List (List Str × Bytes)}, K.L s1 (fs ++ gs1) → l.Nodup → (∀ n ∈ l, n ∈ S.dirs x ∧ n ∉ ig) →
        ∃ s' z hs, walkDirs O fl (Any.walk O S.c true fl (K.copier ig) depth) (S.src x) l () s1 = (z, s') ∧ K.L s' (fs ++ gs1 ++ hs) ∧
          (hs.map (·.1)).Nodup ∧ (∀ p d, (p, d) ∈ hs → (∃ n ∈ l, x ++ [n] <+: p ∧ p ≠ x ++ [n]) ∧ S.kept ig p = some (.file d)) ∧
          (z = .ok () ∧ (∀ p d n, n ∈ l → x ++ [n] <+: p → S.kept ig p = some (.file d) → (p, d) ∈ hs) ∧
              (∀ p n, n ∈ l → x ++ [n] <+: p → S.kept ig p = some .dir → K.has p) ∨
            z = .error K.err ∧ ∃ p, x <+: p ∧ S.kept ig p = some .dir ∧ ¬ K.has p) := by
      intro l
      induction l with
      | nil => intro s1 gs1 h1 _ _; exact ⟨s1, .ok (), [], rfl, by rw [List.append_nil]; exact h1, by simp, by simp, .inl ⟨rfl, by simp, by simp⟩⟩
      | cons n l ihl =>
        intro s1 gs1 h1 hnd hl
        obtain ⟨g1, g2⟩ := hl n (by simp)
        have hnn := (List.nodup_cons.1 hnd).1
        have hdn := hdirs n g1
        have hk : S.kept ig (x ++ [n]) = some .dir := by
          unfold Source.kept
          rw [if_neg fun h => g2 ((S.cut_snoc hcut).1 h).1]
          exact hdn
        obtain ⟨b, i1, i2⟩ := S.islink (K.keep h1) hdn
        obtain ⟨s2, z, hs1, c1, c2, c3⟩ := ih (x ++ [n]) h1 hk (a2 n g1 g2) (fun y hy => by
          have := hh (n :: y) (by simpa using hy)
          simp at this; omega)
        have hgo : (!b || fl) = true := by cases b <;> cases fl <;> simp_all
        have hstep : ∀ {z' s'}, (match z with | .ok _ => walkDirs O fl (Any.walk O S.c true fl (K.copier ig) depth) (S.src x) l () s2 | .error e => (.error e, s2)) = (z', s') →
            walkDirs O fl (Any.walk O S.c true fl (K.copier ig) depth) (S.src x) (n :: l) () s1 = (z', s') := by
          intro z' s' hz
          rw [← hz]
          conv_lhs => unfold walkDirs
          rw [bind_lift (S.div (by rw [hdn]; simp)), bind_ok i1]
          simp only [hgo, if_true]
          cases z with
          | ok z => exact bind_ok c1
          | error z => exact bind_error c1
        rcases c3.res with ⟨rfl, r1, r2⟩ | ⟨rfl, p, r1, r2⟩
        swap
        · refine ⟨s2, .error K.err, hs1, hstep rfl, c2, c3.nodup, fun p d hp => ?_, .inr ⟨rfl, p, (List.prefix_append _ _).trans r1, r2⟩⟩
          obtain ⟨q1, q2, q3⟩ := c3.sub p d hp
          exact ⟨⟨n, by simp, q1, q2⟩, q3⟩
        · obtain ⟨s3, z3, hs2, d1, d2, d3, d4, d5⟩ := ihl (gs1 := gs1 ++ hs1) (by rw [← List.append_assoc]; exact c2) (List.nodup_cons.1 hnd).2 (fun m hm => hl m (by simp [hm]))
          refine ⟨s3, z3, hs1 ++ hs2, hstep d1, by rw [← List.append_assoc]; rw [← List.append_assoc] at d2; exact d2, ?_, fun p d hp => ?_, ?_⟩
          · rw [List.map_append, List.nodup_append]
            refine ⟨c3.nodup, d3, ?_⟩
            rintro a ha b hb rfl
            obtain ⟨⟨p, d⟩, ha', rfl⟩ := List.mem_map.1 ha
            obtain ⟨⟨p', d'⟩, hb', hpp⟩ := List.mem_map.1 hb
            have hpp : p' = p := hpp
            subst hpp
            obtain ⟨⟨y, q1⟩, -, -⟩ := c3.sub _ _ ha'
            obtain ⟨⟨m, hm, ⟨y', q2⟩, -⟩, -⟩ := d4 _ _ hb'
            rw [← q1] at q2
            simp only [List.append_assoc, List.append_cancel_left_eq, List.singleton_append, List.cons.injEq] at q2
            exact hnn (q2.1 ▸ hm)
          · rcases List.mem_append.1 hp with hp | hp
            · obtain ⟨q1, q2, q3⟩ := c3.sub p d hp
              exact ⟨⟨n, by simp, q1, q2⟩, q3⟩
            · obtain ⟨⟨m, hm, q1⟩, q2⟩ := d4 p d hp
              exact ⟨⟨m, by simp [hm], q1⟩, q2⟩
          · rcases d5 with ⟨rfl, e1, e2⟩ | e
            · refine .inl ⟨rfl, fun p d m hm hp hkp => ?_, fun p m hm hp hkp => ?_⟩
              · rcases List.mem_cons.1 hm with rfl | hm
                · exact List.mem_append_left _ (r1 p d hp hkp)
                · exact List.mem_append_right _ (e1 p d m hm hp hkp)
              · rcases List.mem_cons.1 hm with rfl | hm
                · exact r2 p hp hkp
                · exact e2 p m hm hp hkp
            · exact .inr e
    obtain ⟨s3, z, hs', c1, c2, c3, c4, c5⟩ := loop ((S.dirs x).filter fun n => decide (n ∉ ig)) b2 (nD.filter _) (fun n hn => by
      obtain ⟨h1, h2⟩ := List.mem_filter.1 hn
      exact ⟨h1, by simpa using h2⟩)
    refine ⟨s3, z, gs ++ hs', c1, by rw [← List.append_assoc]; exact c2, ?_, fun p d hp => ?_, ?_⟩
    · rw [List.map_append, List.nodup_append]
      refine ⟨b3, c3, ?_⟩
      rintro a ha b hb rfl
      obtain ⟨⟨p, d⟩, ha', rfl⟩ := List.mem_map.1 ha
      obtain ⟨⟨p', d'⟩, hb', hpp⟩ := List.mem_map.1 hb
      have hpp : p' = p := hpp
      subst hpp
      obtain ⟨n, -, rfl, -⟩ := (b4 _ _).1 ha'
      obtain ⟨⟨m, -, q1, q2⟩, -⟩ := c4 _ _ hb'
      exact q2 (q1.eq_of_length (by simp)).symm
    · rcases List.mem_append.1 hp with hp | hp
      · obtain ⟨n, -, rfl, h⟩ := (b4 p d).1 hp
        refine ⟨⟨[n], rfl⟩, by simp, ?_⟩
        unfold Source.kept
        rw [if_neg, h]
        intro hc
        have := ((S.cut_snoc hcut).1 hc).2
        rw [K.asDir_iff, h] at this
        cases this
      · obtain ⟨⟨n, -, q1, q2⟩, q3⟩ := c4 p d hp
        refine ⟨(List.prefix_append _ _).trans q1, ?_, q3⟩
        rintro rfl
        have := q1.length_le
        rw [List.length_append, List.length_singleton] at this
        omega
    · rcases c5 with ⟨rfl, e1, e2⟩ | e
      · have hin : ∀ {p o}, x <+: p → p ≠ x → S.kept ig p = some o → ∃ n, x ++ [n] <+: p ∧ S.kept ig (x ++ [n]) ≠ none ∧
            (p ≠ x ++ [n] → n ∈ (S.dirs x).filter fun n => decide (n ∉ ig)) ∧ (o = .dir → n ∈ (S.dirs x).filter fun n => decide (n ∉ ig)) := by
          rintro p o ⟨y, rfl⟩ hne hk
          cases y with
          | nil => simp at hne
          | cons n y =>
            have hpre : x ++ [n] <+: x ++ n :: y := ⟨y, by simp⟩
            have hmem : S.kept ig (x ++ [n]) = some .dir → n ∈ (S.dirs x).filter fun n => decide (n ∉ ig) := by
              intro h
              unfold Source.kept at h
              split at h
              · cases h
              · rename_i hc
                refine List.mem_filter.2 ⟨S.mem_dirs.2 ⟨by rw [h]; simp, K.asDir_iff.2 h⟩, ?_⟩
                simp only [decide_eq_true_eq]
                exact fun hni => hc ((S.cut_snoc hcut).2 ⟨hni, K.asDir_iff.2 h⟩)
            by_cases he : x ++ [n] = x ++ n :: y
            · rw [← he] at hk hpre ⊢
              exact ⟨n, hpre, by rw [hk]; simp, fun h => absurd rfl h, fun h => hmem (by rw [hk, h])⟩
            · have := kept_up hk hpre he
              exact ⟨n, hpre, by rw [this]; simp, fun _ => hmem this, fun _ => hmem this⟩
        refine .inl ⟨rfl, fun p d hp hk => ?_, fun p hp hk => ?_⟩
        · have hne : p ≠ x := by rintro rfl; rw [hkd] at hk; cases hk
          obtain ⟨n, h1, h2, h3, -⟩ := hin hp hne hk
          by_cases he : p = x ++ [n]
          · refine List.mem_append_left _ ((b4 p d).2 ⟨n, ?_, he, ?_⟩)
            · have hT : S.T p = some (.file d) := by
                unfold Source.kept at hk; split at hk
                · cases hk
                · exact hk
              rw [he] at hT
              refine S.mem_files.2 ⟨by rw [hT]; simp, ?_⟩
              cases hb : S.asDir (x ++ [n])
              · rfl
              · rw [K.asDir_iff.1 hb] at hT; cases hT
            · unfold Source.kept at hk; split at hk
              · cases hk
              · exact hk
          · exact List.mem_append_right _ (e1 p d n (h3 he) h1 hk)
        · by_cases hne : p = x
          · rw [hne]; exact hhas
          · obtain ⟨n, h1, -, -, h4⟩ := hin hp hne hk
            exact e2 p n (h4 rfl) h1 hk
      · exact .inr e

end Chute
end Verif.Any
