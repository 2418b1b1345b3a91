import Verif.Mem.Less
import Verif.Any.FilesLemmas
import Verif.Any.LinkAcross
/-!
# Open files while directories are made and other names removed
-/
namespace Verif.Any
open Verif.Spec Verif.Gen
open Mem (World FileObj)

/-- names are taken away from the disk, and the positions of the open files stay -/
def Sheared (s s' : Sys) : Prop := Fewer s s' ∧ s'.disk.fds = s.disk.fds

theorem quiet_sheared : Quiet Sheared where
  refl s := ⟨Fewer.refl s, rfl⟩
  trans _ _ _ h h' := ⟨h.1.trans h'.1, h'.2.trans h.2⟩
  disk a b h := ⟨quiet_fewer.disk a b h, by rw [h]⟩

theorem sheared_del (s : Sys) (q : List Str) : Sheared s { s with disk := s.disk.del q } := ⟨fewer_del s q, rfl⟩

theorem sheared_removefile (c : Conn) (u : Uri) : Keeps Sheared (sysOps.removefile c u) := by
  cases c with
  | mem r => exact quiet_sheared.mem _
  | loc =>
    intro s
    show Sheared s (onDisk (osUnlink u.path) s).2
    unfold onDisk osUnlink
    cases s.disk.find false u.path with
    | here q => dsimp only; split
                · exact quiet_sheared.refl s
                · exact sheared_del s q
    | free c n => exact quiet_sheared.refl s
    | fail e => exact quiet_sheared.refl s

theorem sheared_removedir (c : Conn) (u : Uri) : Keeps Sheared (sysOps.removedir c u) := by
  cases c with
  | mem r => exact quiet_sheared.mem _
  | loc =>
    have : Keeps Sheared (onDisk (osRmdir u.path)) := by
      intro s
      unfold onDisk osRmdir
      cases s.disk.find false u.path with
      | here q =>
        dsimp only
        split
        · split
          · exact quiet_sheared.refl s
          · split
            · exact quiet_sheared.refl s
            · exact sheared_del s q
        · exact quiet_sheared.refl s
      | free c n => exact quiet_sheared.refl s
      | fail e => exact quiet_sheared.refl s
    exact quiet_sheared.bind (quiet_sheared.ask _ _ _) fun _ => Keeps.ite (quiet_sheared.bind (quiet_sheared.raise _) fun _ => this) this

section
variable {ι : Type} {E : ι → Dict} {r : ι → Nat} {s : Sys}

/-- files that are open stay so while they are there, whatever is removed -/
theorem remove_keeps (h : SysOk E r s) (k : Option ι) (cs : List Str) (depth : Nat) (rec : Bool) {k' : Option ι} {q : List Str} {hd : Hd} {g : Bytes} {pos : Nat}
    (hw : RdAt r s k' q hd g pos) (hv : siteV r (uRemove sysOps depth (siteAt E k cs) rec s).2 k' q ≠ none) :
    RdAt r (uRemove sysOps depth (siteAt E k cs) rec s).2 k' q hd g pos := by
  cases k with
  | some i =>
    have e := sys_uRemove (E i) cs depth (rec := rec) (s := s) (a := (Gen.uRemove depth (mem (E i) cs) rec s.mem).1) rfl
    have hl := (Gen.lessens_uRemove depth (mem (E i) cs) rec s.mem h.inv).2
    have e' : (uRemove sysOps depth (siteAt E (some i) cs) rec s).2 = { s with mem := (Gen.uRemove depth (mem (E i) cs) rec s.mem).2 } := congrArg Prod.snd e
    rw [e'] at hv ⊢
    cases k' with
    | none => cases hd <;> exact hw
    | some j =>
      cases hd with
      | loc _ => exact hw.elim
      | mem h' =>
        obtain ⟨h7, h8, h9, f, h10, h11⟩ := hw
        refine ⟨h7, h8, ?_, f, hl.file _ _ h10, h11⟩
        cases hp : phys (Gen.uRemove depth (mem (E i) cs) rec s.mem).2 (r j) q with
        | none => exact absurd (by simp [siteV, view, hp]) hv
        | some x => exact (hl.phys hp).symm.trans h9
  | none =>
    have hm : (uRemove sysOps depth (siteAt E none cs) rec s).2.mem = s.mem := by
      rw [show uRemove sysOps depth (siteAt E none cs) rec = _ from locPart.uRemove depth (loc_stays cs) rec]
      rfl
    have ht : Sheared s (uRemove sysOps depth (siteAt E none cs) rec s).2 := quiet_sheared.uRemove sheared_removefile sheared_removedir depth _ rec s
    generalize (uRemove sysOps depth (siteAt E none cs) rec s).2 = s' at *
    cases k' with
    | some j =>
      cases hd with
      | loc _ => exact hw.elim
      | mem h' =>
        obtain ⟨h7, h8, h9, f, h10, h11⟩ := hw
        exact ⟨h7, h8, by rw [hm]; exact h9, f, by rw [hm]; exact h10, h11⟩
    | none =>
      cases hd with
      | mem _ => exact hw.elim
      | loc fd =>
        obtain ⟨h3, p, h4⟩ := hw
        refine ⟨by rw [ht.2]; exact h3, p, ?_⟩
        rcases ht.1 q with e | e
        · rw [e]; exact h4
        · exact absurd (siteV_lnone.2 e) hv

/-- the missing directories of a path -/
theorem beside_makedirs (hr : Function.Injective r) {k : Option ι} (depth : Nat) : ∀ {s : Sys} {cs : List Str}, SysOk E r s → Nm cs →
    (∀ p, p <+: cs → siteV r s k p = some .dir ∨ siteV r s k p = none) → cs.length < depth → ∀ q,
    Beside r s (makedirs sysOps depth (siteAt E k cs) s).2 k q := by
  induction depth with
  | zero => intro s cs _ _ _ h; simp at h
  | succ depth ih =>
    intro s cs hs hn hp hl q
    have hc : Clear (siteV r s k) cs := ⟨fun p h _ => hp p h, by rcases hp cs (List.prefix_refl _) with h | h <;> simp [h]⟩
    have hi : uIsdir sysOps (siteAt E k cs) s = _ := (Props.site_wc hs hn _ _).trans (site_isdir hs hn hc)
    rw [makedirs_eq, bind_ok hi]
    rcases hp cs (List.prefix_refl _) with h | h
    · have hf : isD (siteV r s k cs) = true := by rw [h]; rfl
      rw [hf, if_pos rfl]
      exact Beside.refl
    · have hf : isD (siteV r s k cs) = false := by rw [h]; rfl
      rw [hf, if_neg Bool.false_ne_true]
      rcases List.eq_nil_or_concat cs with rfl | ⟨init, n, rfl⟩
      · rw [site_root hs] at h; simp at h
      rw [List.concat_eq_append] at *
      rw [bind_lift (site_split hn)]
      have hn' : Nm init := hn.of_prefix
      have hp' : ∀ p, p <+: init → siteV r s k p = some .dir ∨ siteV r s k p = none :=
        fun p h1 => hp p (h1.trans (List.prefix_append _ _))
      have hc' : Clear (siteV r s k) init :=
        ⟨fun p h _ => hp' p h, by rcases hp' init (List.prefix_refl _) with h | h <;> simp [h]⟩
      have hi' : uIsdir sysOps (siteAt E k init) s = _ := (Props.site_wc hs hn' _ _).trans (site_isdir hs hn' hc')
      dsimp only
      rw [bind_ok hi']
      have hne : n ≠ [] := (hn.ok.clean n (by simp)).ne
      have last : ∀ s1, SysOk E r s1 → siteV r s1 k init = some .dir → siteV r s1 k (init ++ [n]) = none →
          Beside r s1 (uMkdir sysOps (siteAt E k (init ++ [n])) s1).2 k q := by
        intro s1 h1 h2 h3
        have e : uMkdir sysOps (siteAt E k (init ++ [n])) s1 = _ := Props.site_wc h1 hn _ _
        rw [e]
        intro k' q' hd g pos _ hw
        refine beside_mkdir h1 hr hn h2 h3 k' q' hd g pos ?_ hw
        rintro ⟨rfl, rfl⟩
        rw [hw.siteV] at h3
        cases h3
      rcases hp' init (List.prefix_refl _) with h1 | h1
      · have hd : isD (siteV r s k init) = true := by rw [h1]; rfl
        rw [hd, Bool.not_true, if_neg Bool.false_ne_true, bind_ok (m := (pure () : OM Sys Unit)) rfl, if_pos hne]
        exact last s hs h1 h
      · have hd : isD (siteV r s k init) = false := by rw [h1]; rfl
        have b1 := ih hs hn' hp' (by simp at hl; omega) q
        obtain ⟨s1, e1, e2, e3⟩ := (sysLaws E r hr).makedirs (k := k) depth hs hn' hp' (by simp at hl; omega)
        replace e1 : makedirs sysOps depth (siteAt E k init) s = (.ok (), s1) := e1
        replace e3 : siteV r s1 = mkdirs (siteV r s) k init := e3
        rw [e1] at b1
        rw [hd, Bool.not_false, if_pos rfl, bind_ok e1, if_pos hne]
        refine b1.trans (last s1 e2 (by rw [e3]; simp [mkdirs]) ?_)
        rw [e3]; unfold mkdirs
        rw [if_neg (fun hpre => by have := hpre.2.length_le; simp only [List.length_append, List.length_singleton] at this; omega), h]

end
end Verif.Any
