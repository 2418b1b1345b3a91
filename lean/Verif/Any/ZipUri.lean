import Verif.Any.Laws
import Verif.Any.Zys
/-!
# The URIs of members of archives

`zat X cs` is the object `URI("zip://((X))/c1/c2/…")`, as `Gen.mem` for memory file systems and `loc` for local files.
-/
namespace Verif.Any
open Verif.Spec Verif.Gen

/-- the prefix `zip://((X))` -/
def zipBase (X : Str) : Base := ⟨cl!"zip", .vpath X⟩

/-- texts that can be in the parentheses -/
def ConnOk (X : Str) : Prop := (Netloc.vpath X).Ok

instance (X : Str) : Decidable (ConnOk X) := inferInstanceAs (Decidable (_ ∧ _ ∧ _))

theorem ConnOk.base {X : Str} (h : ConnOk X) : (zipBase X).Ok := ⟨by simp [zipBase], by show NoneOf _ cl!"zip"; decide, h, by simp [zipBase]⟩

/-- `URI("zip://((X))/c1/c2/…")` -/
def zat (X : Str) (cs : List Str) : Uri :=
  { cls := .zip, uri := (zipBase X).str ++ pathOf cs, sep := '/',
    parse := { uri := (zipBase X).str ++ pathOf cs, scheme := some cl!"zip", authority := some [], path := pathOf cs,
               query := [], fragment := none, vpathConnector := X, username := some [], password := some [],
               hostname := some [], port := 0, netloc := netlocField (some []) 0 },
    extras := [], usernameAttr := none, passwordAttr := none }

variable {X : Str} {cs : List Str}

theorem zat_at (X : Str) (cs : List Str) : At (zat X cs) (zipBase X) (pathOf cs) [] :=
  ⟨rfl, rfl, rfl, rfl, rfl, rfl, rfl⟩

/-- whatever is built at the place of `zat X cs` in the same way is `zat X cs` -/
theorem eq_zat {u : Uri} (h : At u (zipBase X) (pathOf cs) []) (h1 : u.cls = .zip)
    (h2 : u.uri = (zipBase X).str ++ pathOf cs) (h3 : u.sep = '/') (h4 : u.parse.fragment = none)
    (h5 : u.parse.uri = (zipBase X).str ++ pathOf cs) (h6 : u.extras = []) (h7 : u.usernameAttr = none)
    (h8 : u.passwordAttr = none) : u = zat X cs :=
  h.ext (zat_at X cs) h1 h2 h3 h4 h5 h6 h7 h8

theorem zipFileOk (X : Str) (cs : List Str) : FileOk (zipBase X) cs := by intro h; simp [zipBase] at h

theorem fits_zat (h : Nm cs) : Fits (zipBase X) (pathOf cs) none :=
  fits_pathOf h.ok.clean (zipFileOk X cs) (by simp) (by simp [qs])

theorem mk_zat (hX : ConnOk X) (h : Nm cs) : Uri.mk' .zip ((zipBase X).str ++ pathOf cs) '/' [] = .ok (zat X cs) := by
  obtain ⟨u, h1, h2, h3, h4, h5, ⟨E1, h6, h7⟩, h8, h9⟩ := mk_at hX.base (fits_zat h) (q := none) rfl .zip '/' []
  have e : u.parse.username = some [] ∧ u.parse.password = some [] := by
    have := h2.fields
    simp [zipBase, Netloc.auth, authorityFields] at this
    exact ⟨this.1.symm, this.2.1.symm⟩
  rw [e.1] at h6
  simp only [takeCred, Prod.mk.injEq] at h6
  rw [e.2] at h7
  simp only [takeCred, Prod.mk.injEq] at h7
  simp only [qs, List.append_nil] at h1 h3 h9
  rw [h1]
  congr 1
  exact eq_zat h2 h4 h3 h5 h8 h9 (by rw [h7.2, h6.2]) h6.1 h7.1

/-- the constructor of the library builds `zat X cs` -/
theorem zat_eq (hX : ConnOk X) (h : Nm cs) : URI (cl!"zip://((" ++ X ++ cl!"))" ++ pathOf cs) '/' [] = .ok (zat X cs) := by
  have e : cl!"zip://((" ++ X ++ cl!"))" ++ pathOf cs = (zipBase X).str ++ pathOf cs := by simp [zipBase, Base.str, Netloc.str]
  have : sniffScheme (cl!"zip://((" ++ X ++ cl!"))" ++ pathOf cs) = cl!"zip" := by
    unfold sniffScheme
    simp [List.takeWhile, List.dropWhile, schemeChar, startsWith]
  unfold URI
  rw [this, e]
  exact mk_zat hX h

@[simp] theorem zat_allExtras (X : Str) (cs : List Str) : (zat X cs).allExtras = [] := by
  simp [Uri.allExtras, zat, Uri.scheme, isHttp, Dict.update]

@[simp] theorem zat_scheme (X : Str) (cs : List Str) : (zat X cs).scheme = some cl!"zip" := rfl

theorem noCreds_zat (X : Str) (cs : List Str) : NoCreds (zat X cs) := ⟨rfl, rfl, by simp [zat], by simp [zat]⟩

theorem zat_div_path (hX : ConnOk X) {ns : List Str} (h : Nm (cs ++ ns)) (hn : ns ≠ []) {p : Str} (hp : slash ns = '/' :: p) :
    (zat X cs).div p = .ok (zat X (cs ++ ns)) := by
  have hj : (zat X cs).joinPath [p] = .ok (pathOf (cs ++ ns)) := by
    rw [joinPath_one (P := pathOf cs) rfl rfl, rstrip_pathOf h.of_prefix.ok.clean, ← hp, ← slash_append, pathOf_ne (by simp [hn])]
  obtain ⟨v, h1, h2, h3, h4, h5, h6, h7, h8⟩ := join_at hX.base (zat_at X cs) hj (fits_zat h)
  obtain ⟨h9, h10, h11⟩ := h8 (noCreds_zat X cs)
  rw [Uri.div, h1]
  congr 1
  have hq : qs (encQ []) = [] := rfl
  rw [hq, List.append_nil] at h3
  exact eq_zat h2 h4 h3 h5 h6 (by rw [h7, h3]) (by rw [h11, zat_allExtras]) h9 h10

theorem zat_div (hX : ConnOk X) {n : Str} (h : Nm (cs ++ [n])) : (zat X cs).div n = .ok (zat X (cs ++ [n])) :=
  zat_div_path hX h (by simp) (by simp [slash])

theorem zat_path (h : Nm cs) : (zat X cs).path = pathOf cs := by
  simp only [zat, Uri.path, cutDot_pathOf h.ok.head]

theorem zat_last {n : Str} (h : Nm (cs ++ [n])) : (zat X (cs ++ [n])).last = n := by
  have hn := h.ok.clean n (by simp)
  exact last_snoc (A := (zipBase X).str ++ slash cs) (by simp [zat, pathOf_snoc]) (hn.chars.not_mem (by simp)) hn.ne

/-- all of an archive is seen through one connection -/
theorem zat_key (X : Str) (cs : List Str) : Reg.keyOf (zat X cs) = Reg.keyOf (zat X []) := by
  unfold Reg.keyOf
  rw [zat_allExtras, zat_allExtras]
  rfl

/-- the connection of an archive -/
def zkey (X : Str) : Reg.Key := Reg.keyOf (zat X [])

theorem zkey_conn (X : Str) : (zkey X).base.vpathConnector = X := rfl

theorem zkey_inj {X Y : Str} (h : zkey X = zkey Y) : X = Y := by
  have := congrArg (fun k : Reg.Key => k.base.vpathConnector) h
  exact this

theorem zys_conn (X : Str) (cs : List Str) (z : Zys) : zysOps.conn (zat X cs) z = (.ok (.zip (zkey X)), z) := by
  have : zysConn (zat X cs) z = (.ok (.zip (zkey X)), z) := by
    unfold zysConn
    rw [if_neg (by simp), if_pos (zat_scheme X cs), zat_key]
    rfl
  exact this

theorem zys_withConn (X : Str) (cs : List Str) {α : Type} (m : Mem.Meth) (body : zysOps.Conn → OM Zys α) (z : Zys) :
    withConn zysOps (zat X cs) m body z = body (.zip (zkey X)) z := by
  unfold withConn
  rw [bind_ok (zys_conn X cs z)]
  rfl

end Verif.Any
