import Verif.Any.ArcInto
/-!
# C130 Copying trees into archives

`copy(recursive=True)` and `move` (fs.py:903-995) of a directory of a memory file system or of local files, to a place in an
archive that is itself such a file.  Zip connections have no `mkdir` of their own (fs.py:1044-1045 raises), so everything depends on whether the
directories are in the archive already.
-/
namespace Verif.Props
open Verif.Spec Verif.Any Verif.Gen

section
variable {ι : Type} {C : Codec} {E : ι → Dict} {r : ι → Nat} {X : Str} {j : Option ι} {q : List Str} {es : List Zip.Entry} {y : Arc}
variable {k : Option ι} {init m : List Str} {n : Str} {depth : Nat}

/-- what the walk of the copy sees, in terms of the tree -/
theorem siteSource_kept (fl : Bool) (hr : Function.Injective r) {src ig : List Str} (h0 : SysOk E r y.sys) (H : Laws.Copyable (siteV r y.sys k) src)
    (hout : ¬ (k = j ∧ src <+: q)) (x : List Str) :
    (siteSource fl hr h0 C X j q es H hout).kept ig x = (kept (siteV r y.sys k) ig src x).map entK := by
  have hcut : (siteSource fl hr h0 C X j q es H hout).Cut ig x ↔ ∃ a n b, x = a ++ n :: b ∧ n ∈ ig ∧ siteV r y.sys k (src ++ a ++ [n]) = some .dir := by
    have hd : ∀ a, (siteSource fl hr h0 C X j q es H hout).asDir a = true ↔ siteV r y.sys k (src ++ a) = some .dir := by
      intro a
      have hT : (siteSource fl hr h0 C X j q es H hout).T a = (siteV r y.sys k (src ++ a)).map entK := rfl
      unfold Source.asDir
      rw [hT]
      have hl : ∀ a, (siteSource fl hr h0 C X j q es H hout).ld a = false := fun _ => rfl
      rcases siteV r y.sys k (src ++ a) with _ | _ | _ | _ <;> simp [entK, hl]
    constructor
    · rintro ⟨a, n, ⟨b, rfl⟩, h1, h2⟩
      exact ⟨a, n, b, by simp, h1, by rw [List.append_assoc]; exact (hd _).1 h2⟩
    · rintro ⟨a, n, b, rfl, h1, h2⟩
      exact ⟨a, n, ⟨b, by simp⟩, h1, (hd _).2 (by rw [← List.append_assoc]; exact h2)⟩
  unfold Source.kept Any.kept
  by_cases h : (siteSource fl hr h0 C X j q es H hout).Cut ig x
  · rw [if_pos h, if_pos (hcut.1 h)]; rfl
  · rw [if_neg h, if_neg fun hc => h (hcut.2 hc)]; rfl

/-- What the archive has after the files `fs` were added to the directory `e`: these files, and everything else as before. -/
structure Grown (es : List Zip.Entry) (e : List Str) (fs : List (List Str × Bytes)) : Prop where
  new : ∀ x d, (x, d) ∈ fs → zipTree (es ++ entriesOf (under e fs)) (e ++ x) = some (.file d)
  rest : ∀ p, (∀ x d, (x, d) ∈ fs → p ≠ e ++ x) → zipTree (es ++ entriesOf (under e fs)) p = zipTree es p

/-- so it is where the files were added in directories that were there -/
theorem C130_tree {e : List Str} (he0 : e ≠ []) : ∀ (fs : List (List Str × Bytes)) {es : List Zip.Entry}, (fs.map (·.1)).Nodup →
    (∀ f ∈ fs, Nm (e ++ f.1) ∧ ∃ a b, f.1 = a ++ [b] ∧ Below es (e ++ a)) →
    Grown es e fs := by
  intro fs
  induction fs with
  | nil => intro es _ _; exact ⟨fun _ _ h => by simp at h, fun p _ => by simp [under, entriesOf]⟩
  | cons f fs ih =>
    intro es hnd hfs
    obtain ⟨x, d⟩ := f
    obtain ⟨hn, a, b, hx, hb⟩ := hfs (x, d) (by simp)
    dsimp only at hn hx
    have hes : es ++ entriesOf (under e ((x, d) :: fs)) = es ++ [⟨slash (e ++ x), d⟩] ++ entriesOf (under e fs) := by simp [under, entriesOf]
    rw [List.map_cons, List.nodup_cons] at hnd
    obtain ⟨i1, i2⟩ := ih (es := es ++ [⟨slash (e ++ x), d⟩]) hnd.2 (fun g hg => by
      obtain ⟨h1, a', b', h2, h3⟩ := hfs g (by simp [hg])
      obtain ⟨z, hz, h4⟩ := h3
      exact ⟨h1, a', b', h2, z, List.mem_append_left _ hz, h4⟩)
    obtain ⟨t1, t2, t3⟩ := C102_tree (es := es) (d := d) hn (by simp [he0])
    have hother : ∀ p, p ≠ e ++ x → zipTree (es ++ [⟨slash (e ++ x), d⟩]) p = zipTree es p := by
      intro p hp
      by_cases hpre : p <+: e ++ x
      · rw [t2 p hpre hp]
        have hbp : Below es p := by
          rw [hx, ← List.append_assoc] at hpre hp
          rcases prefix_snoc_iff.1 hpre with ⟨z, hz⟩ | h
          · exact below_up (x := z) (by rw [hz]; exact hb)
          · exact absurd h hp
        have hnp : Nm p := by obtain ⟨z, hz⟩ := hpre; rw [← hz] at hn; exact hn.of_prefix
        unfold zipTree
        by_cases hp0 : p = []
        · rw [if_pos hp0]; rfl
        · rw [if_neg hp0, if_pos hnp, if_pos hbp]
          cases es.reverse.find? (fun x => x.name = slash p) <;> rfl
      · exact t3 p hpre
    refine ⟨fun x' d' h => ?_, fun p hp => ?_⟩
    · rw [hes]
      rcases List.mem_cons.1 h with h | h
      · cases h
        rw [i2 _ (fun x'' d'' h'' hc => hnd.1 ?_)]
        · exact t1
        · rw [List.append_cancel_left hc]
          exact List.mem_map.2 ⟨_, h'', rfl⟩
      · exact i1 x' d' h
    · rw [hes, i2 p fun x' d' h => hp x' d' (List.mem_cons_of_mem _ h)]
      exact hother p (hp x d (by simp))

/-- the copy, where the directory `m/n` is in the archive -/
theorem into_copy (hr : Function.Injective r) (hX : ConnOk X) (hU : URI X = .ok (siteAt E j q)) (hq : Nm q) (ho : AOpened C E r X j q es y)
    (H : Laws.Copyable (siteV r y.sys k) (init ++ [n])) (hout : ¬ (k = j ∧ init ++ [n] <+: q)) (hm : Nm (m ++ [n])) (hb : Below es (m ++ [n]))
    (hnul : ∀ x d, siteV r y.sys k (init ++ [n] ++ x) = some (.file d) → '\x00' ∉ slash (m ++ [n] ++ x))
    (hh : ∀ x, siteV r y.sys k (init ++ [n] ++ x) = some .dir → x.length < depth) (ig : List Str) (fl : Bool) :
    ∃ y' z fs, uCopy (arcOps C) depth (siteAt E k (init ++ [n])) (zat X m) true ig fl y = (z, y') ∧ AAdding C E r X j q es y y' (under (m ++ [n]) fs) ∧ Grown es (m ++ [n]) fs ∧
      (fs.map (·.1)).Nodup ∧ (∀ x d, (x, d) ∈ fs → kept (siteV r y.sys k) ig (init ++ [n]) x = some (.file d)) ∧
      (z = .ok () ∧ (∀ x d, kept (siteV r y.sys k) ig (init ++ [n]) x = some (.file d) → (x, d) ∈ fs) ∧
          (∀ x, kept (siteV r y.sys k) ig (init ++ [n]) x = some .dir → Below es (m ++ [n] ++ x)) ∨
        z = .error .notImplemented ∧ ∃ x, kept (siteV r y.sys k) ig (init ++ [n]) x = some .dir ∧ ¬ Below es (m ++ [n] ++ x)) := by
  let L := sysLaws E r hr
  have hd : 0 < depth := Nat.zero_lt_of_lt (hh [] (by rw [List.append_nil]; exact H.dir))
  have hn : Nm (init ++ [n]) := H.sub.nm0 (by rw [H.dir]; simp)
  have hdir : L.V y.sys k (init ++ [n]) = some .dir := H.dir
  have hcl := L.clear_dir (k := k) (s := y.sys) ho.ok hdir
  let S := siteSource fl hr ho.ok C X j q es H hout
  let K : Chute S depth := arcChute fl hr hX hU hq ho.ok H hout hm (by simp) hnul hd
  have hk : ∀ x, S.kept ig x = (kept (siteV r y.sys k) ig (init ++ [n]) x).map entK := siteSource_kept fl hr ho.ok H hout
  have h1 : K.L y [] := by
    obtain ⟨d, hf, hu⟩ := ho.file
    refine ⟨⟨⟨d, (upd_self hf).symm⟩, LinksStay.refl _, fun _ _ => rfl, ?_⟩, fun p _ => ?_⟩
    · simpa [under, entriesOf] using ho
    · simp [under, entriesOf]
  obtain ⟨y', z, fs, b1, b2, b3⟩ := K.walk (ig := ig) depth [] h1 (by rw [hk, kept_nil, H.dir]; rfl) (by
      show Below es (m ++ [n] ++ []); rw [List.append_nil]; exact hb) (fun x hx => hh x (entK_dir hx))
  rw [List.nil_append] at b2
  have e1 : uExists (arcOps C) (siteAt E k (init ++ [n])) y = (.ok true, y) := by
    rw [(arcPart C).uExists (stays_site E k _)]
    have := L.uExists (k := k) (s := y.sys) ho.ok hn hcl
    rw [hdir] at this
    exact arcSys_ask this
  have e2 : uIsdir (arcOps C) (siteAt E k (init ++ [n])) y = (.ok true, y) := by
    rw [(arcPart C).uIsdir (stays_site E k _)]
    have := L.uIsdir (k := k) (s := y.sys) ho.ok hn hcl
    rw [hdir] at this
    exact arcSys_ask this
  have e3 : uIslink (arcOps C) (siteAt E k (init ++ [n])) y = (.ok false, y) := by
    rw [(arcPart C).uIslink (stays_site E k _)]
    exact arcSys_ask (L.uIslink (k := k) (s := y.sys) ho.ok hn hcl (by rw [hdir]; simp))
  have e4 : uIsdir (arcOps C) (zat X m) y = (.ok true, y) := by
    rw [zmem_isdir hU (Props.site_scheme _ _ _) hm.of_prefix, ho.seen]
    have : hasDir es m := by
      by_cases h0 : m = []
      · exact .inl h0
      · exact (Any.hasDir_below h0).2 (below_up hb)
    simp [heard, this]
  have hsub : ∀ x d, (x, d) ∈ fs → kept (siteV r y.sys k) ig (init ++ [n]) x = some (.file d) := by
    intro x d hx
    obtain ⟨-, -, h⟩ := b3.sub x d hx
    rw [hk] at h
    exact entK_file h
  have hgr : Grown es (m ++ [n]) fs := by
    refine C130_tree (by simp) fs b3.nodup ?_
    rintro ⟨x, d⟩ hx
    have h := hsub x d hx
    have hx0 : x ≠ [] := by
      rintro rfl
      rw [kept_nil, H.dir] at h
      cases h
    have hns : Nm (init ++ [n] ++ x) := H.sub.nm x (by
      intro hc
      unfold Any.kept at h
      split at h
      · cases h
      · rw [hc] at h; cases h)
    have hnm := hm.append (by simp) hns
    obtain ⟨a, b, rfl⟩ : ∃ a b, x = a ++ [b] := by
      rcases List.eq_nil_or_concat x with h | ⟨a, b, h⟩
      · exact absurd h hx0
      · exact ⟨a, b, by rw [h, List.concat_eq_append]⟩
    refine ⟨hnm, a, b, rfl, ?_⟩
    rw [← List.append_assoc] at hnm
    refine (b2.2 _ hnm.of_prefix).1 ⟨⟨slash (m ++ [n] ++ (a ++ [b])), d⟩, ?_, b, ?_⟩
    · refine List.mem_append_right _ (List.mem_map.2 ⟨(m ++ [n] ++ (a ++ [b]), d), List.mem_map.2 ⟨_, hx, rfl⟩, rfl⟩)
    · simp [slash]
  refine ⟨y', z, fs, ?_, b2.1, hgr, b3.nodup, hsub, ?_⟩
  · refine (asite_withConn ho.ok hn _ _).trans ?_
    unfold Any.copy
    refine (bind_ok e1).trans ?_
    rw [Bool.not_true, if_neg Bool.false_ne_true]
    refine (bind_ok e2).trans ?_
    rw [Bool.not_true, if_neg Bool.false_ne_true]
    refine (bind_ok e4).trans ?_
    rw [if_pos rfl, site_last hn]
    refine (bind_lift (zat_div hX hm)).trans ?_
    refine (bind_ok e3).trans ?_
    rw [Bool.false_and, if_neg Bool.false_ne_true]
    refine (bind_ok (arc_makedirs0 hU ho hm (by simp) hb hd)).trans ?_
    refine (asite_withConn ho.ok hn _ _).trans ?_
    have b1' := b1
    unfold Chute.copier at b1'
    have c1 : S.src [] = siteAt E k (init ++ [n]) := by show siteAt E k (init ++ [n] ++ []) = _; rw [List.append_nil]
    have c2 : K.dst [] = zat X (m ++ [n]) := by show zat X (m ++ [n] ++ []) = _; rw [List.append_nil]
    rw [c1, c2] at b1'
    exact b1'
  · rcases b3.res with ⟨rfl, h1, h2⟩ | ⟨rfl, x, -, h1, h2⟩
    · exact .inl ⟨rfl, fun x d hx => h1 x d List.nil_prefix (by rw [hk, hx]; rfl), fun x hx => h2 x List.nil_prefix (by rw [hk, hx]; rfl)⟩
    · rw [hk] at h1
      exact .inr ⟨rfl, x, entK_dir h1, h2⟩

/-- Copying a directory into an archive that has it and all its subdirectories which are not left out: every file that is not
    left out is added once, with its bytes; nothing else changes. -/
theorem C130_copy (hr : Function.Injective r) (hX : ConnOk X) (hU : URI X = .ok (siteAt E j q)) (hq : Nm q) (ho : AOpened C E r X j q es y)
    (H : Laws.Copyable (siteV r y.sys k) (init ++ [n])) (hout : ¬ (k = j ∧ init ++ [n] <+: q)) (hm : Nm (m ++ [n]))
    (hnul : ∀ x d, siteV r y.sys k (init ++ [n] ++ x) = some (.file d) → '\x00' ∉ slash (m ++ [n] ++ x))
    (hh : ∀ x, siteV r y.sys k (init ++ [n] ++ x) = some .dir → x.length < depth) (ig : List Str) (fl : Bool)
    (hall : ∀ x, kept (siteV r y.sys k) ig (init ++ [n]) x = some .dir → Below es (m ++ [n] ++ x)) :
    ∃ y' fs, uCopy (arcOps C) depth (siteAt E k (init ++ [n])) (zat X m) true ig fl y = (.ok (), y') ∧ (fs.map (·.1)).Nodup ∧
      (∀ x d, (x, d) ∈ fs ↔ kept (siteV r y.sys k) ig (init ++ [n]) x = some (.file d)) ∧
      Grown es (m ++ [n]) fs ∧ AAdding C E r X j q es y y' (under (m ++ [n]) fs) := by
  have hb : Below es (m ++ [n]) := by
    have := hall [] (by rw [kept_nil]; exact H.dir)
    rwa [List.append_nil] at this
  obtain ⟨y', z, fs, a1, a2, ag, a3, a4, ⟨rfl, a5, -⟩ | ⟨-, x, a5, a6⟩⟩ := into_copy (C := C) hr hX hU hq ho H hout hm hb hnul hh ig fl
  · exact ⟨y', fs, a1, a3, fun x d => ⟨a4 x d, a5 x d⟩, ag, a2⟩
  · exact absurd (hall x a5) a6

/-- Where a subdirectory that is not left out is not in the archive: NotImplementedError; some of the files have been added,
    nothing else changes. -/
theorem C130_stops (hr : Function.Injective r) (hX : ConnOk X) (hU : URI X = .ok (siteAt E j q)) (hq : Nm q) (ho : AOpened C E r X j q es y)
    (H : Laws.Copyable (siteV r y.sys k) (init ++ [n])) (hout : ¬ (k = j ∧ init ++ [n] <+: q)) (hm : Nm (m ++ [n])) (hb : Below es (m ++ [n]))
    (hnul : ∀ x d, siteV r y.sys k (init ++ [n] ++ x) = some (.file d) → '\x00' ∉ slash (m ++ [n] ++ x))
    (hh : ∀ x, siteV r y.sys k (init ++ [n] ++ x) = some .dir → x.length < depth) (ig : List Str) (fl : Bool) {x : List Str}
    (hx : kept (siteV r y.sys k) ig (init ++ [n]) x = some .dir) (hmiss : ¬ Below es (m ++ [n] ++ x)) :
    ∃ y' fs, uCopy (arcOps C) depth (siteAt E k (init ++ [n])) (zat X m) true ig fl y = (.error .notImplemented, y') ∧ (fs.map (·.1)).Nodup ∧
      (∀ x d, (x, d) ∈ fs → kept (siteV r y.sys k) ig (init ++ [n]) x = some (.file d)) ∧
      Grown es (m ++ [n]) fs ∧ AAdding C E r X j q es y y' (under (m ++ [n]) fs) := by
  obtain ⟨y', z, fs, a1, a2, ag, a3, a4, ⟨-, -, a5⟩ | ⟨rfl, -⟩⟩ := into_copy (C := C) hr hX hU hq ho H hout hm hb hnul hh ig fl
  · exact absurd (a5 x hx) hmiss
  · exact ⟨y', fs, a1, a3, a4, ag, a2⟩

/-- what the copy needs to know about its source first -/
theorem into_first (hr : Function.Injective r) (hok : SysOk E r y.sys) (hn : Nm (init ++ [n])) (hcl : Any.Clear (siteV r y.sys k) (init ++ [n])) (ig : List Str) (fl : Bool) :
    uCopy (arcOps C) depth (siteAt E k (init ++ [n])) (zat X m) true ig fl y = (do
      if !(siteV r y.sys k (init ++ [n])).isSome then OM.raise .fileDoesNotExist
      if !isD (siteV r y.sys k (init ++ [n])) then OM.raise .assertionError
      let droot ← if ← uIsdir (arcOps C) (zat X m) then OM.lift ((zat X m).div n) else pure (zat X m)
      if (← uIslink (arcOps C) (siteAt E k (init ++ [n]))) && !fl then copyLink (arcOps C) (.sys (siteC r k)) (siteAt E k (init ++ [n])) droot
      else
        uMakedirs (arcOps C) depth droot
        copyWalk (arcOps C) depth (.sys (siteC r k)) ig fl (siteAt E k (init ++ [n])) droot : OM Arc Unit) y := by
  let L := sysLaws E r hr
  have e1 : uExists (arcOps C) (siteAt E k (init ++ [n])) y = (.ok (siteV r y.sys k (init ++ [n])).isSome, y) := by
    rw [(arcPart C).uExists (stays_site E k _)]
    exact arcSys_ask (L.uExists (k := k) (s := y.sys) hok hn hcl)
  have e2 : uIsdir (arcOps C) (siteAt E k (init ++ [n])) y = (.ok (isD (siteV r y.sys k (init ++ [n]))), y) := by
    rw [(arcPart C).uIsdir (stays_site E k _)]
    exact arcSys_ask (L.uIsdir (k := k) (s := y.sys) hok hn hcl)
  refine (asite_withConn hok hn _ _).trans ?_
  unfold Any.copy
  refine (bind_ok e1).trans ?_
  cases hs : (siteV r y.sys k (init ++ [n])).isSome
  · rfl
  · rw [if_neg (by simp), if_neg (by simp)]
    refine (bind_ok e2).trans ?_
    cases isD (siteV r y.sys k (init ++ [n]))
    · rfl
    · rw [site_last hn]; rfl

theorem into_dir (hr : Function.Injective r) (hok : SysOk E r y.sys) (hn : Nm (init ++ [n])) (hv : siteV r y.sys k (init ++ [n]) = some .dir) (ig : List Str) (fl : Bool) :
    uCopy (arcOps C) depth (siteAt E k (init ++ [n])) (zat X m) true ig fl y = (do
      let droot ← if ← uIsdir (arcOps C) (zat X m) then OM.lift ((zat X m).div n) else pure (zat X m)
      if (← uIslink (arcOps C) (siteAt E k (init ++ [n]))) && !fl then copyLink (arcOps C) (.sys (siteC r k)) (siteAt E k (init ++ [n])) droot
      else
        uMakedirs (arcOps C) depth droot
        copyWalk (arcOps C) depth (.sys (siteC r k)) ig fl (siteAt E k (init ++ [n])) droot : OM Arc Unit) y := by
  rw [into_first hr hok hn ((sysLaws E r hr).clear_dir (k := k) (s := y.sys) hok hv), hv]
  rfl

/-- Nothing is copied, and nothing changes: where there is no such directory; where the archive was not used before; and where
    the archive is not empty and does not have the directory. -/
theorem C130_refused (hr : Function.Injective r) (hX : ConnOk X) (hU : URI X = .ok (siteAt E j q)) (hok : SysOk E r y.sys) (hn : Nm (init ++ [n])) (hm : Nm (m ++ [n]))
    (ig : List Str) (fl : Bool) :
    (Any.Clear (siteV r y.sys k) (init ++ [n]) → siteV r y.sys k (init ++ [n]) = none →
      uCopy (arcOps C) depth (siteAt E k (init ++ [n])) (zat X m) true ig fl y = (.error .fileDoesNotExist, y)) ∧
    (∀ d, siteV r y.sys k (init ++ [n]) = some (.file d) →
      uCopy (arcOps C) depth (siteAt E k (init ++ [n])) (zat X m) true ig fl y = (.error .assertionError, y)) ∧
    (siteV r y.sys k (init ++ [n]) = some .dir → y.handle (zkey X) = none → 0 < depth →
      uCopy (arcOps C) depth (siteAt E k (init ++ [n])) (zat X m) true ig fl y = (.error .attributeError, y)) ∧
    (∀ es, siteV r y.sys k (init ++ [n]) = some .dir → seenOf (y.handle (zkey X)) = some es → Below es [] → ¬ Below es (m ++ [n]) → m.length < depth →
      uCopy (arcOps C) depth (siteAt E k (init ++ [n])) (zat X m) true ig fl y = (.error .notImplemented, y)) := by
  let L := sysLaws E r hr
  have hz : (siteAt E j q).scheme ≠ some cl!"zip" := Props.site_scheme _ _ _
  have hdirc : siteV r y.sys k (init ++ [n]) = some .dir → uIslink (arcOps C) (siteAt E k (init ++ [n])) y = (.ok false, y) := by
    intro hv
    have hcl := L.clear_dir (k := k) (s := y.sys) hok hv
    rw [(arcPart C).uIslink (stays_site E k _)]
    exact arcSys_ask (L.uIslink (k := k) (s := y.sys) hok hn hcl (by rw [show L.V y.sys k (init ++ [n]) = _ from hv]; simp))
  refine ⟨fun hcl hv => ?_, fun d hv => ?_, fun hv hnone hd => ?_, fun es hv hs h0 hb hd => ?_⟩
  · rw [into_first hr hok hn hcl, hv]; rfl
  · rw [into_first hr hok hn (L.clear_of (k := k) (s := y.sys) hok (by rw [show L.V y.sys k (init ++ [n]) = _ from hv]; simp) (by rw [show L.V y.sys k (init ++ [n]) = _ from hv]; simp)), hv]
    rfl
  · have e3 := hdirc hv
    rw [into_dir hr hok hn hv]
    have hsn : seenOf (y.handle (zkey X)) = none := by rw [hnone]; rfl
    obtain ⟨depth, rfl⟩ := Nat.exists_eq_succ_of_ne_zero (Nat.pos_iff_ne_zero.1 hd)
    have e4 := zmem_isdir (C := C) (y := y) hU hz hm.of_prefix
    rw [hsn] at e4
    simp only [heard] at e4
    by_cases hm0 : m = []
    · rw [if_pos hm0] at e4
      have e5 := zmem_isdir (C := C) (y := y) hU hz hm
      rw [hsn] at e5
      simp only [heard] at e5
      rw [if_neg (by simp)] at e5
      refine (bind_ok e4).trans ?_
      rw [if_pos rfl]
      refine (bind_lift (zat_div hX hm)).trans ?_
      refine (bind_ok e3).trans ?_
      rw [Bool.false_and, if_neg Bool.false_ne_true]
      refine bind_error ((arc_withConn X _ _ _ y).trans ?_)
      unfold Any.makedirs
      rw [bind_error e5]
    · rw [if_neg hm0] at e4
      exact bind_error e4
  · have e3 := hdirc hv
    rw [into_dir hr hok hn hv]
    have e4 := zmem_isdir (C := C) (y := y) hU hz hm.of_prefix
    rw [hs] at e4
    simp only [heard] at e4
    refine (bind_ok e4).trans ?_
    by_cases hmd : hasDir es m
    · rw [decide_eq_true hmd, if_pos rfl]
      refine (bind_lift (zat_div hX hm)).trans ?_
      refine (bind_ok e3).trans ?_
      rw [Bool.false_and, if_neg Bool.false_ne_true]
      exact bind_error ((arc_withConn X _ _ _ y).trans (arc_makedirs hX hU hz hs h0 _ _ hm (by simp) (fun hc => hb ((Any.hasDir_below (by simp)).1 hc)) (by simp; omega)))
    · rw [decide_eq_false hmd, if_neg Bool.false_ne_true]
      refine (bind_ok e3).trans ?_
      rw [Bool.false_and, if_neg Bool.false_ne_true]
      exact bind_error ((arc_withConn X _ _ _ y).trans (arc_makedirs hX hU hz hs h0 _ _ hm.of_prefix (fun h => hmd (.inl h)) hmd (by omega)))

/-- Moving a directory into an archive that has it and all its subdirectories: the files are added, and the directory is
    removed with everything below it. -/
theorem C130_move (hr : Function.Injective r) (hX : ConnOk X) (hU : URI X = .ok (siteAt E j q)) (hq : Nm q) (ho : AOpened C E r X j q es y)
    (H : Laws.Copyable (siteV r y.sys k) (init ++ [n])) (hout : ¬ (k = j ∧ init ++ [n] <+: q)) (hm : Nm (m ++ [n]))
    (hnul : ∀ x d, siteV r y.sys k (init ++ [n] ++ x) = some (.file d) → '\x00' ∉ slash (m ++ [n] ++ x))
    (hh : ∀ x, siteV r y.sys k (init ++ [n] ++ x) = some .dir → x.length < depth)
    (hall : ∀ x, siteV r y.sys k (init ++ [n] ++ x) = some .dir → Below es (m ++ [n] ++ x)) :
    ∃ y' fs, uMove (arcOps C) depth (siteAt E k (init ++ [n])) (zat X m) y = (.ok (), y') ∧ (fs.map (·.1)).Nodup ∧
      (∀ x d, (x, d) ∈ fs ↔ siteV r y.sys k (init ++ [n] ++ x) = some (.file d)) ∧
      (∀ x, siteV r y'.sys k (init ++ [n] ++ x) = none) ∧ Grown es (m ++ [n]) fs ∧
      (∀ i p, ¬ (i = k ∧ init ++ [n] <+: p) → ¬ (i = j ∧ p = q) → siteV r y'.sys i p = siteV r y.sys i p) ∧ LinksStay y.sys y'.sys ∧
      (∀ c, c ≠ zkey X → y'.handle c = y.handle c) ∧ AOpened C E r X j q (es ++ entriesOf (under (m ++ [n]) fs)) y' := by
  let L := sysLaws E r hr
  have hn : Nm (init ++ [n]) := H.sub.nm0 (by rw [H.dir]; simp)
  obtain ⟨y1, fs, a1, a2, a3, ag, a4⟩ := C130_copy (C := C) hr hX hU hq ho H hout hm hnul hh [] true (fun x hx => hall x (by rwa [kept_noIgnore] at hx))
  have hsame : ∀ x, siteV r y1.sys k (init ++ [n] ++ x) = siteV r y.sys k (init ++ [n] ++ x) := fun x => a4.same hout
  have hd1 : L.V y1.sys k (init ++ [n]) = some .dir := by
    have := hsame []
    rw [List.append_nil, H.dir] at this
    exact this
  obtain ⟨s2, b1, b2, b3⟩ := L.uRemove_tree (k := k) (s := y1.sys) (q := init ++ [n]) (depth := depth) a4.opened.ok
    ⟨fun x hx => H.sub.nm x (by rw [← hsame]; exact hx), fun x hx => H.sub.noLink x (by rw [← hsame]; exact hx)⟩ (by simp) hd1
    (fun x hx => hh x (by rw [← hsame]; exact hx))
  change siteV r s2 = wipe (siteV r y1.sys) k (fun p => init ++ [n] <+: p) at b3
  obtain ⟨D, hD⟩ := a4.view
  have hw : ∀ i p, ¬ (i = k ∧ init ++ [n] <+: p) → siteV r s2 i p = siteV r y1.sys i p := by
    intro i p h; rw [b3]; unfold wipe; exact if_neg h
  have e2 : uIsfile (arcOps C) (siteAt E k (init ++ [n])) y = (.ok false, y) := by
    rw [(arcPart C).uIsfile (stays_site E k _)]
    have hdir : L.V y.sys k (init ++ [n]) = some .dir := H.dir
    have := L.uIsfile (k := k) (s := y.sys) ho.ok hn (L.clear_dir (k := k) (s := y.sys) ho.ok hdir)
    rw [hdir] at this
    exact arcSys_ask this
  have e3 : uRemove (arcOps C) depth (siteAt E k (init ++ [n])) true y1 = (.ok (), { y1 with sys := s2 }) := by
    rw [(arcPart C).uRemove depth (stays_site E k _)]
    exact arcSys_ok b1
  have hjq : ¬ (j = k ∧ init ++ [n] <+: q) := fun h => hout ⟨h.1.symm, h.2⟩
  refine ⟨{ y1 with sys := s2 }, fs, ?_, a2, fun x d => by rw [a3, kept_noIgnore], fun x => ?_, ag, fun i p h1 h2 => ?_, ?_, a4.rest, b2, ?_, a4.opened.clean, a4.opened.seen⟩
  · refine (asite_withConn ho.ok hn _ _).trans ?_
    have hm : Any.move (arcOps C) depth (siteAt E k (init ++ [n])) (zat X m) y = (.ok (), { y1 with sys := s2 }) := by
      unfold Any.move
      refine (bind_ok e2).trans ?_
      rw [if_neg Bool.false_ne_true]
      exact (bind_ok a1).trans e3
    cases k <;> exact hm
  · show siteV r s2 k _ = none
    rw [b3]; unfold wipe; exact if_pos ⟨rfl, List.prefix_append _ _⟩
  · show siteV r s2 i p = _
    rw [hw i p h1, hD, upd_ne h2]
  · refine a4.links.trans fun p t hp => ?_
    have hf := fewer_uRemove depth (siteAt E k (init ++ [n])) true y1.sys
    rw [show uRemove sysOps depth (siteAt E k (init ++ [n])) true y1.sys = _ from b1] at hf
    rcases hf p with h | h
    · exact h.trans hp
    · exfalso
      have h1 : siteV r y1.sys none p = some .other := by show (y1.sys.disk.tree p).map kindL = _; rw [hp]; rfl
      have h2 : siteV r s2 none p = none := by show (s2.disk.tree p).map kindL = _; rw [h]; rfl
      by_cases hc : none = k ∧ init ++ [n] <+: p
      · obtain ⟨rfl, x, rfl⟩ := hc
        rw [hsame] at h1
        exact H.sub.noLink x h1
      · rw [hw none p hc, h1] at h2; cases h2
  · obtain ⟨d, hf, hu⟩ := a4.opened.file
    exact ⟨d, by show siteV r s2 j q = _; rw [hw j q hjq]; exact hf, hu⟩

/-- Where a directory is missing in the archive, the move ends like the copy: nothing is removed. -/
theorem C130_move_stops (hr : Function.Injective r) (hX : ConnOk X) (hU : URI X = .ok (siteAt E j q)) (hq : Nm q) (ho : AOpened C E r X j q es y)
    (H : Laws.Copyable (siteV r y.sys k) (init ++ [n])) (hout : ¬ (k = j ∧ init ++ [n] <+: q)) (hm : Nm (m ++ [n])) (hb : Below es (m ++ [n]))
    (hnul : ∀ x d, siteV r y.sys k (init ++ [n] ++ x) = some (.file d) → '\x00' ∉ slash (m ++ [n] ++ x))
    (hh : ∀ x, siteV r y.sys k (init ++ [n] ++ x) = some .dir → x.length < depth) {x : List Str}
    (hx : siteV r y.sys k (init ++ [n] ++ x) = some .dir) (hmiss : ¬ Below es (m ++ [n] ++ x)) :
    ∃ y' fs, uMove (arcOps C) depth (siteAt E k (init ++ [n])) (zat X m) y = (.error .notImplemented, y') ∧ (fs.map (·.1)).Nodup ∧
      (∀ x d, (x, d) ∈ fs → siteV r y.sys k (init ++ [n] ++ x) = some (.file d)) ∧
      Grown es (m ++ [n]) fs ∧ AAdding C E r X j q es y y' (under (m ++ [n]) fs) := by
  let L := sysLaws E r hr
  have hn : Nm (init ++ [n]) := H.sub.nm0 (by rw [H.dir]; simp)
  obtain ⟨y1, fs, a1, a2, a3, ag, a4⟩ := C130_stops (C := C) hr hX hU hq ho H hout hm hb hnul hh [] true (x := x) (by rwa [kept_noIgnore]) hmiss
  have e2 : uIsfile (arcOps C) (siteAt E k (init ++ [n])) y = (.ok false, y) := by
    rw [(arcPart C).uIsfile (stays_site E k _)]
    have hdir : L.V y.sys k (init ++ [n]) = some .dir := H.dir
    have := L.uIsfile (k := k) (s := y.sys) ho.ok hn (L.clear_dir (k := k) (s := y.sys) ho.ok hdir)
    rw [hdir] at this
    exact arcSys_ask this
  refine ⟨y1, fs, ?_, a2, fun x d h => by have := a3 x d h; rwa [kept_noIgnore] at this, ag, a4⟩
  refine (asite_withConn ho.ok hn _ _).trans ?_
  have hm : Any.move (arcOps C) depth (siteAt E k (init ++ [n])) (zat X m) y = (.error .notImplemented, y1) := by
    unfold Any.move
    refine (bind_ok e2).trans ?_
    rw [if_neg Bool.false_ne_true]
    exact bind_error a1
  cases k <;> exact hm

end

/-! ## Examples -/

/-- an archive with the directories `d/a` and `d/a/s` -/
def intoFs : List (List Str × Bytes) := [([cl!"d", cl!"a", cl!"s", cl!"k"], [1])]

theorem into_packed (sw : Bool) : ∃ y, packAll toy (toyText sw (some true)) intoFs toyStart = (.ok (), y) ∧
    (∀ p, siteV (fun _ : Unit => 0) y.sys (twinSite sw false) p = twinTree.get p) ∧
    AOpened toy (fun _ : Unit => []) (fun _ => 0) (toyText sw (some true)) (twinSite sw true) [cl!"z"] (entriesOf intoFs) y := by
  obtain ⟨y, D, a1, a2, -, -, -, a6⟩ := C124_pack (C := toy) unit_inj (toyText_uri sw (some true)) (by decide +kernel) intoFs (by decide +kernel) (by decide)
    (y := toyStart) twin_ok (fun _ h => nomatch h) (toy_place sw)
  refine ⟨y, a1, fun p => ?_, a6⟩
  rw [a2, upd_ne fun h => absurd (twinSite_inj sw h.1) (by decide)]
  exact (twin_holds _).here p

/-- a directory with a file, and with a directory in a directory -/
def intoTree : Tree := [([cl!"a"], .dir), ([cl!"a", cl!"f"], .file [104, 105]), ([cl!"a", cl!"s"], .dir), ([cl!"a", cl!"s", cl!"t"], .dir)]

theorem tree_in {t : Tree} {p : List Str} (h : t.get p ≠ none) : p ∈ [] :: t.map (·.1) := by
  by_cases h0 : p = []
  · rw [h0]; simp
  · rw [Tree.get_ne h0] at h
    obtain ⟨e, he, e1⟩ := (lookup_isSome t p).2 h
    exact List.mem_cons_of_mem _ (List.mem_map.2 ⟨e, he, e1⟩)

theorem tree_copyable {T : List Str → Option Any.Kind} {t : Tree} (h : ∀ p, T p = t.get p) {q : List Str} (hq : q ≠ []) (hd : t.get q = some .dir)
    (h1 : ∀ p ∈ [] :: t.map (·.1), Nm p) (h2 : ∀ p ∈ [] :: t.map (·.1), t.get p ≠ some .other)
    (h3 : ∀ p ∈ [] :: t.map (·.1), ∀ n ∈ p, Trimmed n) : Laws.Copyable T q where
  sub := ⟨fun x hx => h1 _ (tree_in (by rw [← h]; exact hx)), fun x hx => h2 _ (tree_in (by rw [← h, hx]; simp)) (by rw [← h]; exact hx)⟩
  ne := hq
  dir := by rw [h]; exact hd
  trim x n hx := h3 _ (tree_in (by rw [← h, hx]; simp)) n (by simp)

example (sw fl : Bool) : ∃ y y' fs, packAll toy (toyText sw (some true)) intoFs toyStart = (.ok (), y) ∧
    uCopy (arcOps toy) 3 (siteAt (fun _ : Unit => []) (twinSite sw false) [cl!"a"]) (zat (toyText sw (some true)) [cl!"d"]) true [] fl y = (.ok (), y') ∧
    ([cl!"f"], [104, 105]) ∈ fs ∧
    AOpened toy (fun _ : Unit => []) (fun _ => 0) (toyText sw (some true)) (twinSite sw true) [cl!"z"] (entriesOf intoFs ++ entriesOf (under [cl!"d", cl!"a"] fs)) y' := by
  obtain ⟨y, a1, hv, ho⟩ := into_packed sw
  have hdirs : ∀ x, twinTree.get ([] ++ [cl!"a"] ++ x) = some .dir → x = [] := by
    intro x hx
    have : ∀ p ∈ [] :: twinTree.map (·.1), twinTree.get p = some .dir → p.length ≤ 1 := by decide +kernel
    have := this _ (tree_in (by rw [hx]; simp)) hx
    simp at this
    exact this
  obtain ⟨y', fs, b1, -, b3, -, b5⟩ := C130_copy (C := toy) (k := twinSite sw false) (init := []) (n := cl!"a") (m := [cl!"d"]) (depth := 3) unit_inj (toyText_conn sw _)
    (toyText_uri sw (some true)) (by decide +kernel) ho (tree_copyable hv (by simp) (by decide +kernel) (by decide +kernel) (by decide +kernel) (by decide +kernel))
    (fun h => absurd (twinSite_inj sw h.1) (by decide)) (by decide +kernel) (fun x d hx => by
      rw [hv] at hx
      have : ∀ p ∈ [] :: twinTree.map (·.1), '\x00' ∉ slash ([cl!"d"] ++ p) := by decide +kernel
      have := this _ (tree_in (by rw [hx]; simp))
      simpa using this) (fun x hx => by rw [hdirs x (by rw [← hv]; exact hx)]; simp) [] fl (fun x hx => by
      rw [kept_noIgnore] at hx
      rw [hdirs x (by rw [← hv]; exact hx)]
      decide +kernel)
  exact ⟨y, y', fs, a1, b1, (b3 _ _).2 (by rw [kept_noIgnore, hv]; decide +kernel), b5.opened⟩

/-- the same archive, beside the tree `intoTree` -/
theorem into_state (sw : Bool) : ∃ y, (∀ p, siteV (fun _ : Unit => 0) y.sys (twinSite sw false) p = intoTree.get p) ∧
    AOpened toy (fun _ : Unit => []) (fun _ => 0) (toyText sw (some true)) (twinSite sw true) [cl!"z"] (entriesOf intoFs) y := by
  obtain ⟨y, -, hv, ho⟩ := into_packed sw
  let L := sysLaws (fun _ : Unit => []) (fun _ => 0) unit_inj
  have hv' : ∀ p, L.V y.sys (twinSite sw false) p = twinTree.get p := hv
  obtain ⟨s1, -, b1, b2⟩ := L.mkdir (s := y.sys) (k := twinSite sw false) (cs := [cl!"a"]) (n := cl!"s") ho.ok (by decide +kernel) (by rw [hv']; decide +kernel) (by rw [hv']; decide +kernel)
  rw [show [cl!"a"] ++ [cl!"s"] = [cl!"a", cl!"s"] from rfl] at b2
  have c1 : ∀ p, p ≠ [cl!"a", cl!"s"] → L.V s1 (twinSite sw false) p = twinTree.get p := fun p hp => by rw [b2, upd_ne fun h => hp h.2]; exact hv' p
  have c2 : L.V s1 (twinSite sw false) [cl!"a", cl!"s"] = some .dir := by rw [b2]; exact upd_same ..
  obtain ⟨s2, -, d1, d2⟩ := L.mkdir (s := s1) (k := twinSite sw false) (cs := [cl!"a", cl!"s"]) (n := cl!"t") b1 (by decide +kernel) c2 (by rw [c1 _ (by decide +kernel)]; decide +kernel)
  rw [show [cl!"a", cl!"s"] ++ [cl!"t"] = [cl!"a", cl!"s", cl!"t"] from rfl] at d2
  have hj : ∀ p q : List Str, ¬ (twinSite sw true = twinSite sw false ∧ p = q) := fun p q h => absurd (twinSite_inj sw h.1) (by decide)
  refine ⟨{ y with sys := s2 }, fun p => ?_, d1, ?_, ho.clean, ho.seen⟩
  · change L.V s2 _ p = _
    by_cases h1 : p = [cl!"a", cl!"s", cl!"t"]
    · rw [h1, d2]; exact (upd_same ..).trans (by decide +kernel)
    · rw [d2, upd_ne fun h => h1 h.2]
      by_cases h2 : p = [cl!"a", cl!"s"]
      · rw [h2, c2]; decide +kernel
      · rw [c1 p h2]
        by_cases h0 : p = []
        · rw [h0]; rfl
        · rw [Tree.get_ne h0, Tree.get_ne h0]
          have e1 : (p == [cl!"a", cl!"s"]) = false := by simpa using h2
          have e2 : (p == [cl!"a", cl!"s", cl!"t"]) = false := by simpa using h1
          simp only [twinTree, intoTree, List.lookup, e1, e2]
  · obtain ⟨d, hd, hu⟩ := ho.file
    refine ⟨d, ?_, hu⟩
    change L.V s2 _ _ = _
    rw [d2, upd_ne (hj _ _), b2, upd_ne (hj _ _)]
    exact hd

theorem into_nul {T : List Str → Option Any.Kind} (h : ∀ p, T p = intoTree.get p) (x : List Str) (d : Bytes) (hx : T ([] ++ [cl!"a"] ++ x) = some (.file d)) :
    '\x00' ∉ slash ([cl!"d"] ++ [cl!"a"] ++ x) := by
  rw [h] at hx
  have : ∀ p ∈ [] :: intoTree.map (·.1), '\x00' ∉ slash ([cl!"d"] ++ p) := by decide +kernel
  have := this _ (tree_in (by rw [hx]; simp))
  simpa using this

theorem into_depth {T : List Str → Option Any.Kind} (h : ∀ p, T p = intoTree.get p) (x : List Str) (hx : T ([] ++ [cl!"a"] ++ x) = some .dir) : x.length < 3 := by
  rw [h] at hx
  have : ∀ p ∈ [] :: intoTree.map (·.1), p.length ≤ 3 := by decide +kernel
  have := this _ (tree_in (by rw [hx]; simp))
  simp at this
  omega

example (sw fl : Bool) : ∃ y y', uCopy (arcOps toy) 3 (siteAt (fun _ : Unit => []) (twinSite sw false) [cl!"a"]) (zat (toyText sw (some true)) [cl!"d"]) true [] fl y =
    (.error .notImplemented, y') := by
  obtain ⟨y, hv, ho⟩ := into_state sw
  obtain ⟨y', fs, b1, -⟩ := C130_stops (C := toy) (k := twinSite sw false) (init := []) (n := cl!"a") (m := [cl!"d"]) (depth := 3) unit_inj (toyText_conn sw _)
    (toyText_uri sw (some true)) (by decide +kernel) ho (tree_copyable hv (by simp) (by decide +kernel) (by decide +kernel) (by decide +kernel) (by decide +kernel))
    (fun h => absurd (twinSite_inj sw h.1) (by decide)) (by decide +kernel) (by decide +kernel) (into_nul hv) (into_depth hv) [] fl (x := [cl!"s", cl!"t"])
    (by rw [kept_noIgnore, hv]; decide +kernel) (by decide +kernel)
  exact ⟨y, y', b1⟩

/-- the directory that is missing is left out -/
example (sw fl : Bool) : ∃ y y', uCopy (arcOps toy) 3 (siteAt (fun _ : Unit => []) (twinSite sw false) [cl!"a"]) (zat (toyText sw (some true)) [cl!"d"]) true [cl!"t"] fl y =
    (.ok (), y') := by
  obtain ⟨y, hv, ho⟩ := into_state sw
  obtain ⟨y', fs, b1, -⟩ := C130_copy (C := toy) (k := twinSite sw false) (init := []) (n := cl!"a") (m := [cl!"d"]) (depth := 3) unit_inj (toyText_conn sw _)
    (toyText_uri sw (some true)) (by decide +kernel) ho (tree_copyable hv (by simp) (by decide +kernel) (by decide +kernel) (by decide +kernel) (by decide +kernel))
    (fun h => absurd (twinSite_inj sw h.1) (by decide)) (by decide +kernel) (into_nul hv) (into_depth hv) [cl!"t"] fl (fun x hx => by
      have hx' : intoTree.get ([cl!"a"] ++ x) = some .dir := by
        rw [← hv]
        unfold Any.kept at hx
        split at hx
        · cases hx
        · exact hx
      have h1 := tree_in (by rw [hx']; simp)
      have h2 : x = [] ∨ x = [cl!"f"] ∨ x = [cl!"s"] ∨ x = [cl!"s", cl!"t"] := by
        simpa [intoTree] using h1
      rcases h2 with rfl | rfl | rfl | rfl
      · decide +kernel
      · exact absurd hx' (by decide +kernel)
      · decide +kernel
      · exfalso
        unfold Any.kept at hx
        rw [if_pos ⟨[cl!"s"], cl!"t", [], rfl, by simp, by rw [hv]; decide +kernel⟩] at hx
        cases hx)
  exact ⟨y, y', b1⟩

example (sw : Bool) : ∃ y y', uMove (arcOps toy) 3 (siteAt (fun _ : Unit => []) (twinSite sw false) [cl!"a"]) (zat (toyText sw (some true)) [cl!"d"]) y = (.error .notImplemented, y') ∧
    siteV (fun _ : Unit => 0) y'.sys (twinSite sw false) [cl!"a", cl!"f"] = some (.file [104, 105]) := by
  obtain ⟨y, hv, ho⟩ := into_state sw
  obtain ⟨y', fs, b1, -, -, -, b5⟩ := C130_move_stops (C := toy) (k := twinSite sw false) (init := []) (n := cl!"a") (m := [cl!"d"]) (depth := 3) unit_inj (toyText_conn sw _)
    (toyText_uri sw (some true)) (by decide +kernel) ho (tree_copyable hv (by simp) (by decide +kernel) (by decide +kernel) (by decide +kernel) (by decide +kernel))
    (fun h => absurd (twinSite_inj sw h.1) (by decide)) (by decide +kernel) (by decide +kernel) (into_nul hv) (into_depth hv) (x := [cl!"s", cl!"t"])
    (by rw [hv]; decide +kernel) (by decide +kernel)
  refine ⟨y, y', b1, ?_⟩
  obtain ⟨D, hD⟩ := b5.view
  rw [hD, upd_ne fun h => absurd (twinSite_inj sw h.1) (by decide), hv]
  decide +kernel

example (sw : Bool) : ∃ y y', uMove (arcOps toy) 3 (siteAt (fun _ : Unit => []) (twinSite sw false) [cl!"a"]) (zat (toyText sw (some true)) [cl!"d"]) y = (.ok (), y') ∧
    siteV (fun _ : Unit => 0) y'.sys (twinSite sw false) [cl!"a"] = none := by
  obtain ⟨y, a1, hv, ho⟩ := into_packed sw
  have hdirs : ∀ x, twinTree.get ([] ++ [cl!"a"] ++ x) = some .dir → x = [] := by
    intro x hx
    have : ∀ p ∈ [] :: twinTree.map (·.1), twinTree.get p = some .dir → p.length ≤ 1 := by decide +kernel
    have := this _ (tree_in (by rw [hx]; simp)) hx
    simp at this
    exact this
  obtain ⟨y', fs, b1, -, -, b4, -⟩ := C130_move (C := toy) (k := twinSite sw false) (init := []) (n := cl!"a") (m := [cl!"d"]) (depth := 3) unit_inj (toyText_conn sw _)
    (toyText_uri sw (some true)) (by decide +kernel) ho (tree_copyable hv (by simp) (by decide +kernel) (by decide +kernel) (by decide +kernel) (by decide +kernel))
    (fun h => absurd (twinSite_inj sw h.1) (by decide)) (by decide +kernel) (fun x d hx => by
      rw [hv] at hx
      have : ∀ p ∈ [] :: twinTree.map (·.1), '\x00' ∉ slash ([cl!"d"] ++ p) := by decide +kernel
      have := this _ (tree_in (by rw [hx]; simp))
      simpa using this) (fun x hx => by rw [hdirs x (by rw [← hv]; exact hx)]; simp) (fun x hx => by
      rw [hdirs x (by rw [← hv]; exact hx)]
      decide +kernel)
  exact ⟨y, y', b1, by simpa using b4 []⟩

/-- the root of the archive has no directory `a` -/
example (sw fl : Bool) : ∃ y, uCopy (arcOps toy) 3 (siteAt (fun _ : Unit => []) (twinSite sw false) [cl!"a"]) (zat (toyText sw (some true)) []) true [] fl y =
    (.error .notImplemented, y) := by
  obtain ⟨y, hv, ho⟩ := into_state sw
  exact ⟨y, (C130_refused (C := toy) (k := twinSite sw false) (init := []) (n := cl!"a") (m := []) (depth := 3) unit_inj (toyText_conn sw _) (toyText_uri sw (some true)) ho.ok
    (by decide +kernel) (by decide +kernel) [] fl).2.2.2 _ (by rw [hv]; decide +kernel) ho.seen (by decide +kernel) (by decide +kernel) (by decide)⟩

/-- the archive was not used before -/
example (sw fl : Bool) : uCopy (arcOps toy) 3 (siteAt (fun _ : Unit => []) (twinSite sw false) [cl!"a"]) (zat (toyText sw (some true)) []) true [] fl toyStart =
    (.error .attributeError, toyStart) :=
  (C130_refused (C := toy) (k := twinSite sw false) (init := []) (n := cl!"a") (m := []) (depth := 3) unit_inj (toyText_conn sw _) (toyText_uri sw (some true)) twin_ok
    (by decide +kernel) (by decide +kernel) [] fl).2.2.1 (((twin_holds _).here _).trans (by decide +kernel)) rfl (by decide)

example : Grown (entriesOf intoFs) [cl!"d", cl!"a"] [([cl!"f"], [104, 105])] :=
  C130_tree (by simp) _ (by decide +kernel) (by
    intro f hf
    rw [List.mem_singleton] at hf
    subst hf
    exact ⟨by decide +kernel, [], cl!"f", rfl, by decide +kernel⟩)

/-- a directory is made, the archive is packed, the tree is copied into it, and a member is asked for -/
def intoRun (sw : Bool) : OM Arc (Except PyErr Unit × Bool × Bool) := fun y =>
  let O := arcOps toy
  let X := toyText sw (some true)
  let A := siteAt (fun _ : Unit => []) (twinSite sw false)
  let y := (packAll toy X intoFs y).2
  let y := (uMkdir O (A [cl!"a", cl!"s"]) y).2
  let y := (uMkdir O (A [cl!"a", cl!"s", cl!"t"]) y).2
  let x := uCopy O 5 (A [cl!"a"]) (zat X [cl!"d"]) true [] true y
  let b := uIsfile O (zat X [cl!"d", cl!"a", cl!"f"]) x.2
  let c := uIsdir O (zat X [cl!"d", cl!"a", cl!"s", cl!"t"]) b.2
  match b.1, c.1 with
  | .ok b1, .ok c1 => (.ok (x.1, b1, c1), c.2)
  | _, _ => (.error .outside, c.2)

/-- Refuted: "a tree is copied into an archive as a whole or not at all".  A file is in the archive afterwards, a directory is not. -/
theorem C130_whole_refuted (sw : Bool) : (intoRun sw toyStart).1 = .ok (.error .notImplemented, true, false) := by
  cases sw <;> decide +kernel

end Verif.Props
