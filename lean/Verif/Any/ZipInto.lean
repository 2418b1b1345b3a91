import Verif.Any.ZipFlow
/-!
# Writing into archives
-/
namespace Verif.Any
open Verif.Spec Verif.Gen

theorem zat_split {X : Str} {cs : List Str} {n : Str} (hX : ConnOk X) (h : Nm (cs ++ [n])) (hc : cs ≠ []) :
    (zat X (cs ++ [n])).split = .ok (zat X cs, n) := by
  obtain ⟨v, h1, h2, h3, h4, h5, ⟨E1, h6, h7⟩, h8, h9⟩ := split_at (v := zat X (cs ++ [n])) (q := none) hX.base
    h.of_prefix.ok.clean (h.ok.clean n (by simp)) (zipFileOk X _) (.inl hc) (by simp [zat, qs]) (by simp [qs])
  have e : v.parse.username = some [] ∧ v.parse.password = some [] := by
    have := h2.fields
    simp [zipBase, Netloc.auth, authorityFields] at this
    exact ⟨this.1.symm, this.2.1.symm⟩
  rw [e.1] at h6
  simp only [takeCred, Prod.mk.injEq, zat_allExtras] at h6
  rw [e.2] at h7
  simp only [takeCred, Prod.mk.injEq] at h7
  rw [h1]
  congr 2
  exact eq_zat h2 h4 h3 h5 h8 (by rw [h9, h3]) (by rw [h7.2, h6.2]) h6.1 h7.1

/-- `URI("zip://((X))")`, whose path is empty -/
def zbare (X : Str) : Uri :=
  { cls := .zip, uri := (zipBase X).str, sep := '/',
    parse := { uri := (zipBase X).str, scheme := some cl!"zip", authority := some [], path := [],
               query := [], fragment := none, vpathConnector := X, username := some [], password := some [],
               hostname := some [], port := 0, netloc := netlocField (some []) 0 },
    extras := [], usernameAttr := none, passwordAttr := none }

theorem zbare_at (X : Str) : At (zbare X) (zipBase X) [] [] := ⟨rfl, rfl, rfl, rfl, rfl, rfl, rfl⟩

theorem mk_zbare {X : Str} (hX : ConnOk X) : Uri.mk' .zip (zipBase X).str '/' [] = .ok (zbare X) := by
  have hf : Fits (zipBase X) [] none := ⟨by simp [NoneOf], by simp, by simp [hasSub], by simp, by simp [zipBase]⟩
  obtain ⟨u, h1, h2, h3, h4, h5, ⟨E1, h6, h7⟩, h8, h9⟩ := mk_at hX.base hf (q := none) rfl .zip '/' []
  have e : u.parse.username = some [] ∧ u.parse.password = some [] := by
    have := h2.fields
    simp [zipBase, Netloc.auth, authorityFields] at this
    exact ⟨this.1.symm, this.2.1.symm⟩
  rw [e.1] at h6
  simp only [takeCred, Prod.mk.injEq] at h6
  rw [e.2] at h7
  simp only [takeCred, Prod.mk.injEq] at h7
  simp only [qs, List.append_nil] at h1 h3 h9
  rw [h1]
  congr 1
  exact h2.ext (zbare_at X) h4 h3 h5 h8 h9 (by rw [h7.2, h6.2]; rfl) h6.1 h7.1

/-- above the names directly in an archive there is the archive without a path -/
theorem zat_split_top {X n : Str} (hX : ConnOk X) (h : Nm [n]) : (zat X [n]).split = .ok (zbare X, n) := by
  have hn := h.ok.clean n (by simp)
  have he : endsWith (zipBase X).str cl!"//" = false := by
    rw [Bool.eq_false_iff]
    intro hc
    obtain ⟨a, ha⟩ := endsWith_iff.1 hc
    have e1 : (zipBase X).str = cl!"zip://((" ++ X ++ cl!")" ++ [')'] := by simp [zipBase, Base.str, Netloc.str]
    rw [e1, show a ++ cl!"//" = (a ++ ['/']) ++ ['/'] by simp] at ha
    have := (List.append_inj' ha rfl).2
    simp at this
  have hs : Uri.splitStr (zat X [n]).uri = ((zipBase X).str, n) := by
    have := splitStr_snoc (A := (zipBase X).str) (n := n) (q := []) (hn.chars.not_mem (by simp)) (by simp) he (by simp [zipBase, Base.str])
      (hn.chars.not_mem (by simp)) (.inl rfl)
    simpa [zat, pathOf, slash] using this
  unfold Uri.split
  rw [hs, zat_allExtras]
  have : Uri.mk' (zat X [n]).cls (zipBase X).str (zat X [n]).sep [] = .ok (zbare X) := mk_zbare hX
  simp only [this]

theorem zbare_key (X : Str) : Reg.keyOf (zbare X) = zkey X := by
  unfold zkey Reg.keyOf
  rw [zat_allExtras]
  have : (zbare X).allExtras = [] := by simp [Uri.allExtras, zbare, Uri.scheme, isHttp, Dict.update]
  rw [this]
  rfl

/-- the archive without a path is a directory if it has something -/
theorem zbare_isdir {z : Zys} {X : Str} {es : List Zip.Entry} (ho : Opened z X es) :
    uIsdir zysOps (zbare X) z = (.ok (decide (Below es [])), z) := by
  have h1 : zysConn (zbare X) z = (.ok (.zip (zkey X)), z) := by
    unfold zysConn
    have : (zbare X).allExtras = [] := by simp [Uri.allExtras, zbare, Uri.scheme, isHttp, Dict.update]
    rw [this, if_neg (by simp), if_pos (show (zbare X).scheme = some cl!"zip" from rfl), zbare_key]
    rfl
  refine (bind_ok h1).trans ?_
  show onZip (zkey X) (Zip.isdir []) z = _
  obtain ⟨-, h, h2, rfl, -⟩ := ho
  refine (onZip_ask (Zip.ispart_of_handle h2 (by simp))).trans ?_
  congr 2
  rw [Bool.eq_iff_iff, decide_eq_true_eq]
  simp [Zip.comparePathStrings_isdir, Below, slash]

theorem st_putSt (z : Zys) (k : Reg.Key) (s : Zip.St) : (z.putSt k s).st k = s := by
  unfold Zys.putSt Zys.st
  simp

theorem putSt_putSt (z : Zys) (k : Reg.Key) (s s' : Zip.St) : (z.putSt k s).putSt k s' = z.putSt k s' := by
  unfold Zys.putSt
  congr 1
  · funext c; simp only; split <;> simp_all
  · funext c; simp only; split <;> simp_all

/-- opening a member for writing, in a state without a directory in the way -/
theorem openWb_of {s : Zip.St} (hs : Zip.Ok s) (hd : s.file ≠ .dir) (p : Str) :
    ∃ s' h, Zip.open_ p (some cl!"wb") s = (.ok .statement, s') ∧ s'.handle = some h ∧ h.closed = false ∧ h.mode ≠ .r ∧
      h.entries = Zip.stored s := by
  have hw : (Option.all (fun o => o.contains 'r') (some cl!"wb")) = false := by decide +kernel
  have hw' : (Option.any (fun o => o.contains 'w') (some cl!"wb")) = true := by decide +kernel
  have hw'' : ((some cl!"wb").getD cl!"r").contains 'r' = false := by decide +kernel
  unfold Zip.open_ Zip.openZip
  rcases Zip.closeZip_file hs with h | ⟨h, h1⟩
  · simp only [hw, hw', hw'', h, if_true, Bool.false_eq_true, if_false]
    exact ⟨_, _, rfl, rfl, rfl, by simp, rfl⟩
  · simp only [hw, hw', hw'', h1, if_true, Bool.false_eq_true, if_false]
    cases hf : s.file with
    | archive es => exact ⟨_, _, rfl, rfl, rfl, by simp, by simp [Zip.stored, hf]⟩
    | raw => exact ⟨_, _, rfl, rfl, rfl, by simp, by simp [Zip.stored, hf]⟩
    | missing => exact ⟨_, _, rfl, rfl, rfl, by simp, by simp [Zip.stored, hf]⟩
    | dir => exact absurd hf hd

/-- the state of a connection after a member was written -/
def added (es : List Zip.Entry) (p : Str) (d : Bytes) : Zip.St := ⟨.archive (es ++ [⟨p, d⟩]), some ⟨.r, es ++ [⟨p, d⟩], false, false⟩⟩

/-- opening a member for writing and leaving the statement -/
theorem zip_openW {z : Zys} {X : Str} {e : List Str} (hs : Zip.Ok (z.st (zkey X))) (hd : z.file X ≠ .dir) (hn : Nm e) (he : e ≠ [])
    (hz : '\x00' ∉ slash e) :
    ∃ s', uOpenW zysOps (zat X e) z = (.ok (.zipW (zkey X) (slash e)), z.putSt (zkey X) s') ∧
      ∀ (t : Sys) (d : Bytes) (x : Option PyErr), leave (zkey X) (slash e) (d, x) ((z.putSt (zkey X) s').withSys t) =
        (match x with | some e => .error e | none => .ok (), (z.withSys t).putSt (zkey X) (added (Zip.stored (z.st (zkey X))) (slash e) d)) := by
  obtain ⟨s', h, h1, h2, h3, h4, h5⟩ := openWb_of hs hd (slash e)
  have h6 : (zat X e).path = slash e := by rw [zat_path hn, pathOf_ne he]
  refine ⟨s', ?_, fun t d x => ?_⟩
  · refine (zys_withConn X _ _ _ z).trans ?_
    have h7 : onZip (zkey X) (Zip.open_ (slash e) (some cl!"wb")) z = (.ok .statement, z.putSt (zkey X) s') := by
      unfold onZip
      rw [h1]
    have : (onZip (zkey X) (Zip.open_ (zat X e).path (some cl!"wb")) >>= fun o => (match o with
        | .file d => pure (.zipR (zkey X) d)
        | .statement => pure (.zipW (zkey X) (zat X e).path) : OM Zys ZHd)) z = (.ok (.zipW (zkey X) (slash e)), z.putSt (zkey X) s') := by
      rw [h6]
      exact bind_ok h7
    exact this
  · have h8 : slash e ≠ [] := by
      cases e with
      | nil => exact absurd rfl he
      | cons c e => simp [slash_cons]
    have h9 := Zip.exitW_of h2 h3 h4 h8 hz d
    have h10 : onZip (zkey X) (Zip.exitWriting (slash e) d) ((z.putSt (zkey X) s').withSys t) =
        (.ok (), (z.withSys t).putSt (zkey X) (added (Zip.stored (z.st (zkey X))) (slash e) d)) := by
      unfold onZip
      have : ((z.putSt (zkey X) s').withSys t).st (zkey X) = s' := st_putSt z _ _
      rw [this, h9]
      have : ((z.putSt (zkey X) s').withSys t) = (z.withSys t).putSt (zkey X) s' := rfl
      rw [this, putSt_putSt, h5]
      rfl
    unfold leave
    rw [bind_ok h10]
    cases x <;> rfl

section
variable {ι : Type} {E : ι → Dict} {r : ι → Nat}

/-- a file is read to its end -/
theorem readBlocks_eq (hr : Function.Injective r) {k : Option ι} {q : List Str} {inf : Hd} {data : Bytes} (n : Nat) :
    ∀ {z : Zys} {buf : Bytes} {pos : Nat}, SysOk E r z.sys → RdAt r z.sys k q inf data pos → data.length - pos < n →
    ∃ s', readBlocks inf n buf z = ((buf ++ data.drop pos, none), z.withSys s') ∧ SysOk E r s' ∧ siteV r s' = siteV r z.sys ∧ LinksStay z.sys s' := by
  induction n with
  | zero => intro z buf pos _ _ h; omega
  | succ n ih =>
    intro z buf pos h hrd hlen
    obtain ⟨s1, e1, ok1, v1, rd1, -⟩ := read_step h hr hrd 8192
    have l1 : LinksStay z.sys s1 := by
      have := links_hRead 8192 inf z.sys
      rwa [e1] at this
    unfold readBlocks
    rw [onSys_ok e1]
    simp only
    by_cases hd : data.drop pos = []
    · refine ⟨s1, ?_, ok1, v1, l1⟩
      simp [hd]
    · have hl : pos < data.length := by
        by_contra hc
        exact hd (List.drop_eq_nil_of_le (by omega))
      have hne : (data.drop pos).take 8192 ≠ [] := by
        intro hx
        have := congrArg List.length hx
        rw [List.length_take, List.length_drop, List.length_nil] at this
        omega
      rw [if_neg hne]
      obtain ⟨s2, e2, ok2, v2, l2⟩ := ih (z := z.withSys s1) (buf := buf ++ (data.drop pos).take 8192) ok1 rd1
        (by simp only [List.length_take, List.length_drop]; omega)
      refine ⟨s2, ?_, ok2, v2.trans v1, l1.trans l2⟩
      have : data.drop (pos + ((data.drop pos).take 8192).length) = (data.drop pos).drop 8192 := by
        rw [List.drop_drop]
        rw [List.length_take, List.length_drop]
        by_cases hc : 8192 ≤ data.length - pos
        · rw [Nat.min_eq_left hc]
        · rw [Nat.min_eq_right (by omega), List.drop_eq_nil_of_le (by omega), List.drop_eq_nil_of_le (by omega)]
      rw [e2, this, List.append_assoc, List.take_append_drop]
      rfl

/-- the bytes of a file become a member -/
theorem zip_put {z : Zys} (h : SysOk E r z.sys) (hr : Function.Injective r) {k : Option ι} {p e : List Str} {d : Bytes} (hn : Nm p)
    (hv : siteV r z.sys k p = some (.file d)) {X : Str} (hs : Zip.Ok (z.st (zkey X))) (hd : z.file X ≠ .dir) (hne : Nm e) (he : e ≠ [])
    (hz : '\x00' ∉ slash e) :
    ∃ s', copyContent zysOps (siteAt E k p) (zat X e) z =
        (.ok (), (z.withSys s').putSt (zkey X) (added (Zip.stored (z.st (zkey X))) (slash e) d)) ∧
      SysOk E r s' ∧ siteV r s' = siteV r z.sys ∧ LinksStay z.sys s' := by
  obtain ⟨s1, inf, e1, ok1, v1, rd1⟩ := site_openR h hn hv
  have l1 : LinksStay z.sys s1 := by
    have := links_openR (siteC r k) (siteAt E k p) z.sys
    rwa [e1] at this
  have c1 : uOpenR zysOps (siteAt E k p) z = (.ok (.sys inf), z.withSys s1) := (zsite_withConn h hn _ _).trans (zsite_openR e1)
  obtain ⟨t, c2, c3⟩ := zip_openW (z := z.withSys s1) (X := X) hs hd hne he hz
  have c4 : onSys (hSize inf) ((z.withSys s1).putSt (zkey X) t) = (.ok d.length, (z.withSys s1).putSt (zkey X) t) :=
    onSys_ask (hSize_eq (s := s1) rd1)
  obtain ⟨s2, e2, ok2, v2, l2⟩ := readBlocks_eq hr (d.length + 1) (z := (z.withSys s1).putSt (zkey X) t) (buf := []) ok1 rd1 (by omega)
  refine ⟨s2, ?_, ok2, v2.trans v1, l1.trans l2⟩
  unfold copyContent
  rw [bind_ok c1, bind_ok c2]
  have c5 : (onSys (hSize inf) >>= fun n => (fun z => (let (r, z') := readBlocks inf (n + 1) [] z; leave (zkey X) (slash e) r z') : OM Zys Unit))
      ((z.withSys s1).putSt (zkey X) t) = (.ok (), (z.withSys s2).putSt (zkey X) (added (Zip.stored (z.st (zkey X))) (slash e) d)) := by
    refine (bind_ok c4).trans ?_
    simp only [e2]
    exact c3 s2 d none
  exact c5

/-- fs.py:903-929 copying a file to a member, once it is known where it goes -/
theorem zip_copyTo {z : Zys} (h : SysOk E r z.sys) (hr : Function.Injective r) {k : Option ι} {init ds : List Str} {n : Str} {d : Bytes} {b fl : Bool}
    {ig : List Str} {depth : Nat} (hn : Nm (init ++ [n])) (hv : siteV r z.sys k (init ++ [n]) = some (.file d)) {X : Str} (hX : ConnOk X)
    (hs : Zip.Ok (z.st (zkey X))) (hd : z.file X ≠ .dir) (hb : uIsdir zysOps (zat X ds) z = (.ok b, z))
    (hne : Nm (if b then ds ++ [n] else ds)) (he : (if b then ds ++ [n] else ds) ≠ []) (hz : '\x00' ∉ slash (if b then ds ++ [n] else ds)) :
    ∃ s', uCopy zysOps depth (siteAt E k (init ++ [n])) (zat X ds) false ig fl z =
        (.ok (), (z.withSys s').putSt (zkey X) (added (Zip.stored (z.st (zkey X))) (slash (if b then ds ++ [n] else ds)) d)) ∧
      SysOk E r s' ∧ siteV r s' = siteV r z.sys ∧ LinksStay z.sys s' := by
  obtain ⟨s', h1, h2⟩ := zip_put h hr hn hv hs hd hne he hz
  refine ⟨s', ?_, h2⟩
  let L := zysLaws E r hr (fun _ _ => True)
  have hI : SysOk E r z.sys ∧ True := ⟨h, trivial⟩
  have hv' : L.V z k (init ++ [n]) = some (.file d) := hv
  have hc : Clear (L.V z k) (init ++ [n]) := L.clear_of hI (by rw [hv']; simp) (by rw [hv']; simp)
  have e1 := L.uExists (k := k) (s := z) hI hn hc
  have e2 := L.uIsfile (k := k) (s := z) hI hn hc
  have e3 := L.uIslink (k := k) (s := z) hI hn hc (by rw [hv']; simp)
  rw [hv'] at e1 e2
  have fin : copyOne zysOps (.sys (siteC r k)) (siteAt E k (init ++ [n])) (zat X (if b then ds ++ [n] else ds)) fl z =
      (.ok (), (z.withSys s').putSt (zkey X) (added (Zip.stored (z.st (zkey X))) (slash (if b then ds ++ [n] else ds)) d)) := by
    unfold copyOne
    refine (bind_ok e3).trans ?_
    rw [Bool.false_and, if_neg Bool.false_ne_true]
    refine (bind_ok h1).trans ?_
    rw [if_neg (fun hs => site_scheme (E := E) (k := k) (cs := init ++ [n]) (hs.trans (zat_scheme X _)))]
    rfl
  refine (zsite_withConn h hn _ _).trans ?_
  unfold Any.copy
  refine (bind_ok e1).trans ?_
  rw [show (some (Kind.file d)).isSome = true from rfl, Bool.not_true, if_neg Bool.false_ne_true, Bool.not_false, if_pos rfl]
  refine (bind_ok e2).trans ?_
  rw [show isF (some (Kind.file d)) = true from rfl, Bool.not_true, if_neg Bool.false_ne_true]
  refine (bind_ok hb).trans ?_
  cases b with
  | true =>
    rw [if_pos rfl] at fin hne
    rw [if_pos rfl, site_last hn, zat_div hX hne]
    exact fin
  | false =>
    rw [if_neg Bool.false_ne_true] at fin
    exact fin

end

/-- directories cannot be made in archives that have something in them -/
theorem zip_makedirs {z : Zys} {X : Str} {es : List Zip.Entry} (hX : ConnOk X) (ho : Opened z X es) (h0 : Below es []) :
    ∀ (depth : Nat) (e : List Str), Nm e → e ≠ [] → ¬ Below es e → e.length ≤ depth →
    makedirs zysOps depth (zat X e) z = (.error .notImplemented, z) := by
  intro depth
  induction depth with
  | zero => intro e _ h1 _ h2; exact absurd (List.length_eq_zero_iff.1 (Nat.le_zero.1 h2)) h1
  | succ depth ih =>
    intro e hn he hb hl
    obtain ⟨c, n, rfl⟩ : ∃ c n, e = c ++ [n] := by
      rcases List.eq_nil_or_concat e with h | ⟨c, n, h⟩
      · exact absurd h he
      · exact ⟨c, n, by rw [h, List.concat_eq_append]⟩
    have h1 : uIsdir zysOps (zat X (c ++ [n])) z = (.ok false, z) :=
      (zys_withConn X _ _ _ z).trans ((opened_isdir ho hn he).trans (by rw [decide_eq_false hb]))
    unfold makedirs
    rw [bind_ok h1, if_neg Bool.false_ne_true]
    have hmk : ∀ z, uMkdir zysOps (zat X (c ++ [n])) z = (.error .notImplemented, z) := fun z => (zys_withConn X _ _ _ z).trans rfl
    have hne : n ≠ [] := (hn.noSlash n (by simp)).1
    by_cases hc0 : c = []
    · subst hc0
      rw [List.nil_append] at hn hmk ⊢
      have h2 : uIsdir zysOps (zbare X) z = (.ok true, z) := (zbare_isdir ho).trans (by rw [decide_eq_true h0])
      rw [bind_lift (zat_split_top hX hn)]
      simp only
      rw [bind_ok h2, Bool.not_true, if_neg Bool.false_ne_true, if_pos hne]
      exact hmk z
    · rw [bind_lift (zat_split hX hn hc0)]
      by_cases hc : Below es c
      · have h2 : uIsdir zysOps (zat X c) z = (.ok true, z) :=
          (zys_withConn X _ _ _ z).trans ((opened_isdir ho hn.of_prefix hc0).trans (by rw [decide_eq_true hc]))
        simp only
        rw [bind_ok h2, Bool.not_true, if_neg Bool.false_ne_true, if_pos hne]
        exact hmk z
      · have h2 : uIsdir zysOps (zat X c) z = (.ok false, z) :=
          (zys_withConn X _ _ _ z).trans ((opened_isdir ho hn.of_prefix hc0).trans (by rw [decide_eq_false hc]))
        simp only
        rw [bind_ok h2, Bool.not_false, if_pos rfl, bind_error (ih c hn.of_prefix hc0 hc (by simp at hl; omega))]

end Verif.Any
