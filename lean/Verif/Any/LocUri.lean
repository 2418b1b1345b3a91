import Verif.Any.Laws
import Verif.Any.Sys
/-!
# The URIs of local files

`loc cs` is the object `URI("file:///c1/c2/…")`, as `Gen.mem` for memory file systems.
-/
namespace Verif.Any
open Verif.Spec Verif.Gen

/-- the prefix `file://` -/
def fileBase : Base := ⟨cl!"file", .plain []⟩

theorem fileBase_ok : fileBase.Ok :=
  ⟨by decide, by decide, by simp only [fileBase, Netloc.Ok]; exact ⟨by decide, by decide, by decide, by decide, ⟨_, rfl⟩⟩,
   fun _ => rfl⟩

/-- `URI("file:///c1/c2/…")` -/
def loc (cs : List Str) : Uri :=
  { cls := .localfs, uri := fileBase.str ++ pathOf cs, sep := '/',
    parse := { uri := fileBase.str ++ pathOf cs, scheme := some cl!"file", authority := some [], path := pathOf cs,
               query := [], fragment := none, vpathConnector := [], username := some [], password := some [],
               hostname := some [], port := 0, netloc := netlocField (some []) 0 },
    extras := [], usernameAttr := none, passwordAttr := none }

theorem loc_at (cs : List Str) : At (loc cs) fileBase (pathOf cs) [] :=
  ⟨rfl, rfl, rfl, rfl, rfl, rfl, rfl⟩

/-- whatever is built at the place of `loc cs` in the same way is `loc cs` -/
theorem eq_loc {u : Uri} {cs : List Str} (h : At u fileBase (pathOf cs) []) (h1 : u.cls = .localfs)
    (h2 : u.uri = fileBase.str ++ pathOf cs) (h3 : u.sep = '/') (h4 : u.parse.fragment = none)
    (h5 : u.parse.uri = fileBase.str ++ pathOf cs) (h6 : u.extras = []) (h7 : u.usernameAttr = none)
    (h8 : u.passwordAttr = none) : u = loc cs :=
  h.ext (loc_at cs) h1 h2 h3 h4 h5 h6 h7 h8

theorem Nm.fileOk {cs : List Str} (h : Nm cs) : FileOk fileBase cs := by
  rintro - c r hc rfl
  exact h.noColon r hc

theorem fits_loc {cs : List Str} (h : Nm cs) : Fits fileBase (pathOf cs) none :=
  fits_pathOf h.ok.clean h.fileOk (by simp) (by simp [qs])

theorem mk_loc {cs : List Str} (h : Nm cs) : Uri.mk' .localfs (fileBase.str ++ pathOf cs) '/' [] = .ok (loc cs) := by
  obtain ⟨u, h1, h2, h3, h4, h5, ⟨E1, h6, h7⟩, h8, h9⟩ := mk_at fileBase_ok (fits_loc h) (q := none) rfl .localfs '/' []
  have e : u.parse.username = some [] ∧ u.parse.password = some [] := by
    have := h2.fields
    simp [fileBase, Netloc.auth, authorityFields] at this
    exact ⟨this.1.symm, this.2.1.symm⟩
  rw [e.1] at h6
  simp only [takeCred, Prod.mk.injEq] at h6
  rw [e.2] at h7
  simp only [takeCred, Prod.mk.injEq] at h7
  simp only [qs, List.append_nil] at h1 h3 h9
  rw [h1]
  congr 1
  exact eq_loc h2 h4 h3 h5 h8 h9 (by rw [h7.2, h6.2]) h6.1 h7.1

/-- the constructor of the library builds `loc cs` -/
theorem loc_eq {cs : List Str} (h : Nm cs) : URI (cl!"file://" ++ pathOf cs) '/' [] = .ok (loc cs) := by
  have e : cl!"file://" ++ pathOf cs = fileBase.str ++ pathOf cs := by simp [fileBase, Base.str, Netloc.str]
  have : sniffScheme (cl!"file://" ++ pathOf cs) = cl!"file" := by
    unfold sniffScheme
    simp [List.takeWhile, List.dropWhile, schemeChar, startsWith]
  unfold URI
  rw [this, e]
  exact mk_loc h

@[simp] theorem loc_allExtras (cs : List Str) : (loc cs).allExtras = [] := by
  simp [Uri.allExtras, loc, Uri.scheme, isHttp, Dict.update]

@[simp] theorem loc_scheme (cs : List Str) : (loc cs).scheme = some cl!"file" := rfl

theorem noCreds_loc (cs : List Str) : NoCreds (loc cs) := ⟨rfl, rfl, by simp [loc], by simp [loc]⟩

theorem loc_div_path {cs ns : List Str} (h : Nm (cs ++ ns)) (hn : ns ≠ []) {p : Str} (hp : slash ns = '/' :: p) :
    (loc cs).div p = .ok (loc (cs ++ ns)) := by
  have hj : (loc cs).joinPath [p] = .ok (pathOf (cs ++ ns)) := by
    rw [joinPath_one (P := pathOf cs) rfl rfl, rstrip_pathOf h.of_prefix.ok.clean, ← hp, ← slash_append, pathOf_ne (by simp [hn])]
  obtain ⟨v, h1, h2, h3, h4, h5, h6, h7, h8⟩ := join_at fileBase_ok (loc_at cs) hj (fits_loc h)
  obtain ⟨h9, h10, h11⟩ := h8 (noCreds_loc cs)
  rw [Uri.div, h1]
  congr 1
  have hq : qs (encQ []) = [] := rfl
  rw [hq, List.append_nil] at h3
  exact eq_loc h2 h4 h3 h5 h6 (by rw [h7, h3]) (by rw [h11, loc_allExtras]) h9 h10

theorem loc_split {cs : List Str} {n : Str} (h : Nm (cs ++ [n])) : (loc (cs ++ [n])).split = .ok (loc cs, n) := by
  obtain ⟨v, h1, h2, h3, h4, h5, ⟨E1, h6, h7⟩, h8, h9⟩ := split_at (v := loc (cs ++ [n])) (q := none) fileBase_ok
    h.of_prefix.ok.clean (h.ok.clean n (by simp)) h.fileOk (.inr rfl) (by simp [loc, qs]) (by simp [qs])
  have e : v.parse.username = some [] ∧ v.parse.password = some [] := by
    have := h2.fields
    simp [fileBase, Netloc.auth, authorityFields] at this
    exact ⟨this.1.symm, this.2.1.symm⟩
  rw [e.1] at h6
  simp only [takeCred, Prod.mk.injEq, loc_allExtras] at h6
  rw [e.2] at h7
  simp only [takeCred, Prod.mk.injEq] at h7
  rw [h1]
  congr 2
  exact eq_loc h2 h4 h3 h5 h8 (by rw [h9, h3]) (by rw [h7.2, h6.2]) h6.1 h7.1

theorem loc_path {cs : List Str} (h : Nm cs) : (loc cs).path = pathOf cs := by
  simp only [loc, Uri.path, cutDot_pathOf h.ok.head]
  simp

theorem loc_last {cs : List Str} {n : Str} (h : Nm (cs ++ [n])) : (loc (cs ++ [n])).last = n := by
  have hn := h.ok.clean n (by simp)
  exact last_snoc (A := fileBase.str ++ slash cs) (by simp [loc, pathOf_snoc]) (hn.chars.not_mem (by simp)) hn.ne

/-- the names in the path of a local file -/
theorem comps_loc {cs : List Str} (h : Nm cs) : comps (loc cs).path = cs := by
  rw [loc_path h]
  unfold comps
  cases cs with
  | nil => rfl
  | cons c cs =>
    have hs : ∀ x ∈ c :: cs, '/' ∉ x := fun x hx => (h.ok.clean x hx).chars.not_mem (by simp)
    rw [pathOf_ne (by simp), slash_cons, show ('/' :: (c ++ slash cs)) = [] ++ '/' :: (c ++ slash cs) from rfl,
      splitC_append_sep, splitC_slash hs]
    have : (splitC '/' []) = [[]] := rfl
    rw [this, List.singleton_append, List.filter_cons_of_neg (by simp), List.filter_eq_self]
    intro x hx
    have h1 := (h.ok.clean x hx).ne
    have h2 := (h.noDots x hx).1
    simp [h1, h2]

/-- where the path of a local file leads -/
theorem find_loc {cs : List Str} (h : Nm cs) (d : Disk) (fl : Bool) :
    d.find fl (loc cs).path = d.hop fl (d.land fl 39) [] cs := by
  have e : startsWith (loc cs).path cl!"/" = true := by
    rw [loc_path h]
    cases cs <;> simp [pathOf, startsWith, slash]
  have e0 : (loc cs).path ≠ [] := fun e0 => by rw [e0] at e; simp [startsWith] at e
  unfold Disk.find
  rw [if_neg e0, if_pos e, comps_loc h]
  rfl

end Verif.Any
