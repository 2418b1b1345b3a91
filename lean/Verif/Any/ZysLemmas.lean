import Verif.Any.ZipUri
import Verif.Any.LocFlow
/-!
# Memory and local files next to archives

With archives in the state the operations on the other backends do what they do without.
-/
namespace Verif.Any
open Verif.Spec Verif.Gen

/-- the state with the other two backends in another state -/
def Zys.withSys (z : Zys) (s : Sys) : Zys := { z with sys := s }

theorem onSys_ok {α : Type} {m : OM Sys α} {z : Zys} {x : Except PyErr α} {s' : Sys} (h : m z.sys = (x, s')) :
    onSys m z = (x, z.withSys s') := by
  unfold onSys
  rw [h]
  rfl

theorem withSys_self (z : Zys) : z.withSys z.sys = z := rfl

/-- a call that changes nothing -/
theorem onSys_ask {α : Type} {m : OM Sys α} {z : Zys} {x : Except PyErr α} (h : m z.sys = (x, z.sys)) : onSys m z = (x, z) :=
  onSys_ok h

/-- a call of a zip connection that changes nothing -/
theorem onZip_ask {α : Type} {k : Reg.Key} {m : Zip.ZM α} {z : Zys} {x : Except PyErr α} (h : m (z.st k) = (x, z.st k)) :
    onZip k m z = (x, z) := by
  unfold onZip
  rw [h]
  congr 1
  unfold Zys.putSt Zys.st
  obtain ⟨s, f, hd⟩ := z
  congr 1
  · funext c; simp only; split
    · rename_i h; rw [h]
    · rfl
  · funext c; simp only; split
    · rename_i h; rw [h]
    · rfl

section
variable {ι : Type} {E : ι → Dict} {r : ι → Nat}

theorem zsite_conn {z : Zys} (h : SysOk E r z.sys) {k : Option ι} {cs : List Str} :
    zysOps.conn (siteAt E k cs) z = (.ok (.sys (siteC r k)), z) := by
  have h1 : sysConn (siteAt E k cs) z.sys = (.ok (siteC r k), z.sys) := site_conn h
  have h2 : ¬ (siteAt E k cs).allExtras.any (fun kv => kv.1 ∈ Mem.reservedNames) := by
    intro hc
    unfold sysConn at h1
    rw [if_pos hc] at h1
    exact absurd (congrArg Prod.fst h1) (by simp)
  have h3 : (siteAt E k cs).scheme ≠ some cl!"zip" := by
    cases k with
    | none => simp [siteAt]
    | some i => simp [siteAt, Gen.mem, Uri.scheme]
  have : zysConn (siteAt E k cs) z = (.ok (.sys (siteC r k)), z) := by
    unfold zysConn
    rw [if_neg h2, if_neg h3]
    exact bind_ok (onSys_ask h1)
  exact this

theorem zsite_withConn {z : Zys} (h : SysOk E r z.sys) {k : Option ι} {cs : List Str} (hn : Nm cs) {α : Type} (m : Mem.Meth)
    (body : zysOps.Conn → OM Zys α) : withConn zysOps (siteAt E k cs) m body z = body (.sys (siteC r k)) z := by
  unfold withConn
  refine (bind_ok (zsite_conn h)).trans ?_
  have h1 : sysOps.hook (siteC r k) (siteAt E k cs) m z.sys = (.ok (), z.sys) := site_hook h hn m
  have h2 : zysOps.hook (.sys (siteC r k)) (siteAt E k cs) m z = (.ok (), z) := onSys_ask h1
  exact bind_ok h2

theorem zsite_openR {z : Zys} {k : Option ι} {cs : List Str} {h : Hd} {s' : Sys}
    (e : sysOps.openR (siteC r k) (siteAt E k cs) z.sys = (.ok h, s')) :
    zysOps.openR (.sys (siteC r k)) (siteAt E k cs) z = (.ok (.sys h), z.withSys s') :=
  bind_ok (onSys_ok e)

theorem zsite_openW {z : Zys} {k : Option ι} {cs : List Str} {h : Hd} {s' : Sys}
    (e : sysOps.openW (siteC r k) (siteAt E k cs) z.sys = (.ok h, s')) :
    zysOps.openW (.sys (siteC r k)) (siteAt E k cs) z = (.ok (.sys h), z.withSys s') :=
  bind_ok (onSys_ok e)

theorem zsite_content {z : Zys} (h : SysOk E r z.sys) (hr : Function.Injective r) {k k' : Option ι} {cs ds : List Str} {n : Str} {d : Bytes}
    (hn : Nm cs) (hn' : Nm (ds ++ [n])) (hv : siteV r z.sys k cs = some (.file d)) (hd : siteV r z.sys k' ds = some .dir)
    (hv' : siteV r z.sys k' (ds ++ [n]) = none ∨ isF (siteV r z.sys k' (ds ++ [n])) = true) (hne : ¬ (k = k' ∧ cs = ds ++ [n])) :
    ∃ s', copyContent zysOps (siteAt E k cs) (siteAt E k' (ds ++ [n])) z = (.ok (), z.withSys s') ∧ SysOk E r s' ∧
      siteV r s' = upd (siteV r z.sys) k' (ds ++ [n]) (some (.file d)) := by
  obtain ⟨s1, inf, e1, ok1, v1, rd1⟩ := site_openR h hn hv
  obtain ⟨s2, outf, e2, ok2, v2, wr2, keep2⟩ := site_openW ok1 hr hn' (by rw [v1]; exact hd) (by rw [v1]; exact hv')
  have rd2 := keep2 hne rd1
  obtain ⟨s3, e3, ok3, v3⟩ := pumpLoop_eq hr (fun e => hne ⟨e.1.symm, e.2.symm⟩) (d.length + 1) ok2 rd2 wr2 (by rw [v2, upd_same]) (by omega)
  refine ⟨s3, ?_, ok3, ?_⟩
  · have c1 : uOpenR zysOps (siteAt E k cs) z = (.ok (.sys inf), z.withSys s1) :=
      (zsite_withConn h hn _ _).trans (zsite_openR e1)
    have c2 : uOpenW zysOps (siteAt E k' (ds ++ [n])) (z.withSys s1) = (.ok (.sys outf), z.withSys s2) :=
      (zsite_withConn (z := z.withSys s1) ok1 hn' _ _).trans (zsite_openW (z := z.withSys s1) e2)
    unfold copyContent
    rw [bind_ok c1, bind_ok c2]
    have e4 : pump inf outf s2 = (.ok (), s3) := by
      unfold pump
      rw [bind_ok (hSize_eq rd2)]
      exact e3
    exact onSys_ok (z := z.withSys s2) e4
  · rw [v3, v2, v1, upd_upd]; rfl

/-- memory and local files obey the laws as before, and the archives stay as they are -/
def zysLaws (E : ι → Dict) (r : ι → Nat) (hr : Function.Injective r) (F : (Str → Zip.Container) → (Reg.Key → Option Zip.ZHandle) → Prop) :
    Laws zysOps (Option ι) (fun z => SysOk E r z.sys ∧ F z.file z.handle) May where
  at_ := siteAt E
  C k := .sys (siteC r k)
  V z := siteV r z.sys
  names z := siteNames r z.sys
  conn h _ := zsite_conn h.1
  hook {z k cs m} h hn := by
    have h1 : sysOps.hook (siteC r k) (siteAt E k cs) m z.sys = (.ok (), z.sys) := site_hook h.1 hn m
    exact onSys_ask h1
  exists_ h hn hc := onSys_ask (site_exists h.1 hn hc)
  isfile h hn hc := onSys_ask (site_isfile h.1 hn hc)
  isdir h hn hc := onSys_ask (site_isdir h.1 hn hc)
  islink h hn hc hv := onSys_ask (site_islink h.1 hn hc hv)
  listdir h hn hd := onSys_ask (site_listdir h.1 hn hd)
  names_sorted h := site_names_sorted h.1
  mem_names _ := site_mem_names
  mkdir {z k cs n} h hn hd hv := by
    obtain ⟨s', h1, h2, h3⟩ := site_mkdir h.1 hr hn hd hv
    exact ⟨z.withSys s', onSys_ok h1, ⟨h2, h.2⟩, h3⟩
  removefile {z k cs d} h hn hv := by
    obtain ⟨s', h1, h2, h3⟩ := site_removefile h.1 hr hn hv
    exact ⟨z.withSys s', onSys_ok h1, ⟨h2, h.2⟩, h3⟩
  removedir {z k cs} h hn hne hv he := by
    obtain ⟨s', h1, h2, h3⟩ := site_removedir h.1 hr hn hne hv he
    exact ⟨z.withSys s', onSys_ok h1, ⟨h2, h.2⟩, h3⟩
  copy {z k k' cs ds n d} hm h hn hn' hv hd hv' hne := by
    obtain ⟨s1, e1, ok1, v1⟩ := zsite_content h.1 hr hn hn' hv hd hv' hne
    rw [bind_ok e1]
    by_cases hk : k = k'
    · subst hk
      obtain ⟨s2, e2, ok2, v2⟩ := site_copystat ok1 hr hn hn' (d := d) (d' := d)
        (by rw [v1, upd_ne (fun e => hne ⟨rfl, e.2⟩)]; exact hv) (by rw [v1, upd_same])
      refine ⟨z.withSys s2, ?_, ⟨ok2, h.2⟩, by show siteV r s2 = _; rw [v2, v1]⟩
      rw [if_pos]
      · exact onSys_ok (z := z.withSys s1) e2
      · cases k <;> rfl
    · refine ⟨z.withSys s1, ?_, ⟨ok1, h.2⟩, v1⟩
      rw [if_neg]
      · rfl
      · cases k with
        | none =>
          cases k' with
          | none => exact absurd rfl hk
          | some j => simp [siteAt, Gen.mem, loc, Uri.scheme]
        | some i =>
          cases k' with
          | none => simp [siteAt, Gen.mem, loc, Uri.scheme]
          | some j =>
            rcases hm with h | h | h
            · simp at h
            · simp at h
            · exact absurd h hk
  root h := site_root h.1
  tree h hv := site_tree h.1 hv
  div hn hne hp := site_div hn hne hp
  split hn := site_split hn
  last hn := site_last hn
  path hn := site_path hn

end

/-! ## Links -/

/-- whatever the outcome, the local links stay as they are -/
def KeepsL {α : Type} (m : OM Zys α) : Prop := ∀ z, LinksStay z.sys (m z).2.sys

namespace KeepsL

theorem bind {α β : Type} {m : OM Zys α} {f : α → OM Zys β} (hm : KeepsL m) (hf : ∀ a, KeepsL (f a)) : KeepsL (m >>= f) := by
  intro z
  show LinksStay z.sys (OM.bnd m f z).2.sys
  unfold OM.bnd
  have := hm z
  cases hv : m z with
  | mk x s' =>
    rw [hv] at this
    cases x with
    | error e => exact this
    | ok a => exact this.trans (hf a s')

theorem same {α : Type} {m : OM Zys α} (h : ∀ z, (m z).2.sys = z.sys) : KeepsL m := fun z => by rw [h z]; exact LinksStay.refl _

theorem sys {α : Type} {m : OM Sys α} (h : Keeps LinksStay m) : KeepsL (onSys m) := fun z => h z.sys
theorem zip {α : Type} (k : Reg.Key) (m : Zip.ZM α) : KeepsL (onZip k m) := same fun _ => rfl
theorem lift {α : Type} (x : Except PyErr α) : KeepsL (OM.lift x) := same fun _ => rfl
theorem pure {α : Type} (x : α) : KeepsL (Pure.pure x) := same fun _ => rfl
theorem raise {α : Type} (e : PyErr) : KeepsL (α := α) (OM.raise e) := same fun _ => rfl

theorem ite {α : Type} {c : Prop} [Decidable c] {m m' : OM Zys α} (h : KeepsL m) (h' : KeepsL m') : KeepsL (if c then m else m') := by
  split
  · exact h
  · exact h'

theorem conn (u : Uri) : KeepsL (zysConn u) := by
  unfold zysConn
  exact ite (raise _) (ite (pure _) (bind (sys (quiet_links.conn u)) fun _ => pure _))

theorem withConn {α : Type} {u : Uri} {m : Mem.Meth} {body : zysOps.Conn → OM Zys α} (h : ∀ c, KeepsL (body c)) :
    KeepsL (Any.withConn zysOps u m body) := by
  refine bind (conn u) fun c => bind ?_ fun _ => h c
  cases c with
  | sys c => exact sys (quiet_links.hook c u m)
  | zip k => exact pure _

theorem isdir (c : zysOps.Conn) (u : Uri) : KeepsL (zysOps.isdir c u) := by
  cases c with
  | sys c => exact sys (quiet_links.isdir c u)
  | zip k => exact zip _ _

theorem mkdir (c : zysOps.Conn) (u : Uri) : KeepsL (zysOps.mkdir c u) := by
  cases c with
  | sys c => exact sys (links_mkdir c u)
  | zip k => exact raise _

theorem makedirs0 : ∀ (depth : Nat) (u : Uri), KeepsL (Any.makedirs zysOps depth u)
  | 0, _ => raise _
  | depth + 1, u => by
    have hm : KeepsL (uMkdir zysOps u) := withConn fun c => mkdir c _
    refine bind (withConn fun c => isdir c _) fun b => ite (pure _) ?_
    refine bind (lift _) fun x => ?_
    refine bind (withConn fun c => isdir c _) fun b => ?_
    refine ite (bind (makedirs0 depth _) fun _ => ?_) ?_
    · exact ite hm (pure _)
    · exact ite hm (pure _)

theorem uMakedirs (depth : Nat) (u : Uri) : KeepsL (Any.uMakedirs zysOps depth u) := withConn fun _ => makedirs0 depth u

end KeepsL

/-! ## Blocks -/

theorem blocksOf_flatten {n : Nat} (hn : 0 < n) : ∀ (m : Nat) (data : Bytes), data.length ≤ m → (blocksOf n m data).flatten = data
  | 0, data, h => by
    have : data = [] := List.length_eq_zero_iff.1 (by omega)
    subst this; rfl
  | m + 1, data, h => by
    unfold blocksOf
    by_cases hd : data = []
    · subst hd; rfl
    · rw [if_neg hd, List.flatten_cons, blocksOf_flatten hn m _ (by
        have := List.length_pos_iff.2 hd
        rw [List.length_drop]; omega)]
      exact List.take_append_drop _ _

theorem blocksOf_length {n : Nat} (hn : 0 < n) : ∀ (m : Nat) (data : Bytes), ∀ b ∈ blocksOf n m data, b ≠ [] ∧ b.length ≤ n
  | 0, data, b, h => by simp [blocksOf] at h
  | m + 1, data, b, h => by
    unfold blocksOf at h
    split at h
    · simp at h
    · rename_i hd
      rcases List.mem_cons.1 h with rfl | h
      · refine ⟨fun hc => ?_, by rw [List.length_take]; omega⟩
        have := congrArg List.length hc
        have h2 := List.length_pos_iff.2 hd
        rw [List.length_take, List.length_nil] at this
        omega
      · exact blocksOf_length hn m _ b h

section
variable {ι : Type} {E : ι → Dict} {r : ι → Nat}

/-- the blocks of a member are written one after the other -/
theorem writeBlocks_eq (hr : Function.Injective r) {k : Option ι} {q : List Str} {outf : Hd} : ∀ (bs : List Bytes) {z : Zys} {g : Bytes},
    SysOk E r z.sys → WrAt r z.sys k q outf g → siteV r z.sys k q = some (.file g) →
    ∃ s', writeBlocks outf bs z = (.ok (), z.withSys s') ∧ SysOk E r s' ∧ LinksStay z.sys s' ∧
      siteV r s' = upd (siteV r z.sys) k q (some (.file (g ++ bs.flatten)))
  | [], z, g, h, _, hg => ⟨z.sys, rfl, h, LinksStay.refl _, by rw [List.flatten_nil, List.append_nil, upd_self hg]⟩
  | b :: bs, z, g, h, hw, hg => by
    obtain ⟨s1, e1, ok1, v1, wr1, -⟩ := write_step h hr hw b
    have l1 : LinksStay z.sys s1 := by
      have := links_hWrite outf (.bytes b) z.sys
      rwa [e1] at this
    obtain ⟨s2, e2, ok2, l2, v2⟩ := writeBlocks_eq hr bs (z := z.withSys s1) ok1 wr1 (by show siteV r s1 k q = _; rw [v1, upd_same])
    refine ⟨s2, ?_, ok2, l1.trans l2, ?_⟩
    · unfold writeBlocks
      rw [bind_ok (onSys_ok e1)]
      exact e2
    · rw [v2]
      show upd (siteV r s1) k q _ = _
      rw [v1, upd_upd, List.append_assoc, List.flatten_cons]

end
end Verif.Any
