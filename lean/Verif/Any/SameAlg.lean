import Verif.Any.Same
/-!
# A file system of the repository and the plain file system: the algorithms

The algorithms of fs.py (Verif/Any/Ops.lean) over a place of the repository do what they do over the plain file system.
-/
namespace Verif.Any
open Verif.Spec Verif.Gen
open Mem (World Meth)

section
variable {ι : Type} {E : ι → Dict} {r : ι → Nat} {k : Option ι} {F : Option ι → List Str → Option Kind}

theorem Fit.of_prefix {a b : List Str} (h : Fit (a ++ b)) : Fit a := ⟨h.nm.of_prefix, fun n hn => h.trim n (by simp [hn])⟩

theorem Fit.nil : Fit [] := ⟨.nil, by simp⟩

/-- names that fit somewhere fit below every other name -/
theorem Fit.append {d q t : List Str} (hd : Fit d) (hne : d ≠ []) (h : Fit (q ++ t)) : Fit (d ++ t) := by
  obtain ⟨c, l, rfl⟩ := List.exists_cons_of_ne_nil hne
  refine ⟨⟨⟨fun x hx => ?_, fun r hr => hd.nm.ok.head r (by simpa using hr)⟩, fun x hx => ?_, fun r hr => hd.nm.noColon r (by simpa using hr)⟩,
    fun x hx => ?_⟩
  · rcases List.mem_append.1 hx with hx | hx
    · exact hd.nm.ok.clean x hx
    · exact h.nm.ok.clean x (by simp [hx])
  · rcases List.mem_append.1 hx with hx | hx
    · exact hd.nm.noDots x hx
    · exact h.nm.noDots x (by simp [hx])
  · rcases List.mem_append.1 hx with hx | hx
    · exact hd.trim x hx
    · exact h.trim x (by simp [hx])

/-! ## The algorithms with their binds in order -/

section
variable {σ : Type} {O : Ops σ}

theorem makedirs_eq (depth : Nat) (path : Uri) : makedirs O (depth + 1) path = (uIsdir O path >>= fun b =>
    if b then pure () else OM.lift path.split >>= fun x => uIsdir O x.1 >>= fun b =>
      (if !b then makedirs O depth x.1 else pure ()) >>= fun _ => if x.2 ≠ [] then uMkdir O path else pure ()) := by
  rw [makedirs]
  congr 1; funext b; cases b
  · rw [if_neg (by simp), if_neg (by simp)]
    congr 1; funext x
    obtain ⟨x, y⟩ := x
    show (uIsdir O x >>= _) = (uIsdir O x >>= _)
    congr 1; funext b; cases b <;> rfl
  · rfl

theorem copyBody_eq (depth : Nat) (c : O.Conn) (ig : List Str) (fl : Bool) (n : Nat) (droot top : Uri) (dirs files : List Str) :
    copyBody O depth c ig fl n droot top dirs files =
      ((if stripW (top.path.drop n) ≠ [] then OM.lift (droot.div (stripW (top.path.drop n))) else pure droot) >>= fun dbase =>
        copyDirs O depth c ig fl top dbase dirs dirs >>= fun dirs' => copyFiles O c fl top dbase files >>= fun _ => pure dirs') := by
  unfold copyBody
  dsimp only
  split <;> rfl

theorem copy_eq (depth : Nat) (c : O.Conn) (source dest : Uri) (rec_ : Bool) (ig : List Str) (fl : Bool) :
    copy O depth c source dest rec_ ig fl = (uExists O source >>= fun b => if !b then OM.raise .fileDoesNotExist else
      if !rec_ then uIsfile O source >>= fun b => if !b then OM.raise .assertionError else
        uIsdir O dest >>= fun b => (if b then OM.lift (dest.div source.last) else pure dest) >>= fun dest => copyOne O c source dest fl
      else uIsdir O source >>= fun b => if !b then OM.raise .assertionError else
        uIsdir O dest >>= fun b => (if b then OM.lift (dest.div source.last) else pure dest) >>= fun droot =>
          uIslink O source >>= fun b => if b && !fl then copyLink O c source droot
            else uMakedirs O depth droot >>= fun _ => copyWalk O depth c ig fl source droot) := by
  unfold copy
  congr 1; funext b
  cases b
  · rfl
  · cases rec_
    · show (uIsfile O source >>= _) = (uIsfile O source >>= _)
      congr 1; funext b; cases b
      · rfl
      · show (uIsdir O dest >>= _) = (uIsdir O dest >>= _)
        congr 1; funext b; cases b <;> rfl
    · show (uIsdir O source >>= _) = (uIsdir O source >>= _)
      congr 1; funext b; cases b
      · rfl
      · show (uIsdir O dest >>= _) = (uIsdir O dest >>= _)
        congr 1; funext b; cases b <;> rfl

end

theorem alike_of_eq {α β : Type} {R : α → β → Prop} {a a' : OM Tree α} {b b' : OM Sys β} (h1 : a' = a) (h2 : b' = b)
    (h : Alike E r k F R a b) : Alike E r k F R a' b' := by rw [h1, h2]; exact h

/-! ## The URIs -/

theorem pAt_site (cs : List Str) : pAt cs = siteAt (fun _ : Unit => ([] : Dict)) (some ()) cs := rfl

theorem at_div {cs : List Str} {n : Str} (hf : Fit (cs ++ [n])) : (siteAt E k cs).div n = .ok (siteAt E k (cs ++ [n])) :=
  site_div hf.nm (by simp) (by simp [slash])

theorem alike_div {cs : List Str} {n : Str} (hf : Fit (cs ++ [n])) :
    Alike E r k F (fun a b => a = pAt (cs ++ [n]) ∧ b = siteAt E k (cs ++ [n])) (OM.lift ((pAt cs).div n)) (OM.lift ((siteAt E k cs).div n)) :=
  alike_lift (at_div (E := fun _ : Unit => ([] : Dict)) (k := some ()) hf) (at_div hf) ⟨rfl, rfl⟩

theorem alike_split {cs : List Str} {n : Str} (hf : Fit (cs ++ [n])) :
    Alike E r k F (fun a b => a = (pAt cs, n) ∧ b = (siteAt E k cs, n)) (OM.lift (pAt (cs ++ [n])).split) (OM.lift (siteAt E k (cs ++ [n])).split) :=
  alike_lift (site_split (E := fun _ : Unit => ([] : Dict)) (k := some ()) hf.nm) (site_split hf.nm) ⟨rfl, rfl⟩

/-- fs.py:945-947 what is below the source -/
theorem at_tojoin {q t : List Str} (hf : Fit (q ++ t)) (hq : q ≠ []) :
    (t = [] ∧ stripW ((siteAt E k (q ++ t)).path.drop ((siteAt E k q).path.length + 1)) = []) ∨
    ∃ p, t ≠ [] ∧ p ≠ [] ∧ slash t = '/' :: p ∧ stripW ((siteAt E k (q ++ t)).path.drop ((siteAt E k q).path.length + 1)) = p := by
  have e1 : pathOf (q ++ t) = slash q ++ slash t := by rw [pathOf_ne (by simp [hq]), slash_append]
  rw [site_path hf.nm, site_path hf.nm.of_prefix, e1, pathOf_ne hq]
  by_cases h : t = []
  · subst h
    refine .inl ⟨rfl, ?_⟩
    rw [List.drop_eq_nil_of_le (by simp [slash])]; rfl
  · obtain ⟨p, h1, h2, h3⟩ := slash_trimmed h (fun n hn' => ⟨(hf.nm.ok.clean n (by simp [hn'])).ne, hf.trim n (by simp [hn'])⟩)
    have : (slash q ++ slash t).drop ((slash q).length + 1) = p := by
      rw [h1, show slash q ++ '/' :: p = (slash q ++ ['/']) ++ p by simp, List.drop_left' (by simp)]
    exact .inr ⟨p, h, h2, h1, by rw [this, h3]⟩

/-- fs.py:945-950 where the contents go -/
theorem alike_dbase {q t d : List Str} (hf : Fit (q ++ t)) (hq : q ≠ []) (hd : Fit (d ++ t)) :
    Alike E r k F (fun a b => a = pAt (d ++ t) ∧ b = siteAt E k (d ++ t))
      (if stripW ((pAt (q ++ t)).path.drop ((pAt q).path.length + 1)) ≠ [] then
        OM.lift ((pAt d).div (stripW ((pAt (q ++ t)).path.drop ((pAt q).path.length + 1)))) else pure (pAt d) : OM Tree Uri)
      (if stripW ((siteAt E k (q ++ t)).path.drop ((siteAt E k q).path.length + 1)) ≠ [] then
        OM.lift ((siteAt E k d).div (stripW ((siteAt E k (q ++ t)).path.drop ((siteAt E k q).path.length + 1)))) else pure (siteAt E k d) : OM Sys Uri) := by
  rcases at_tojoin (E := E) (k := k) hf hq with ⟨rfl, e⟩ | ⟨p, h1, h2, h3, e⟩ <;>
  rcases at_tojoin (E := fun _ : Unit => ([] : Dict)) (k := some ()) hf hq with ⟨h4, e'⟩ | ⟨p', h4, h5, h6, e'⟩
  · rw [e, show stripW ((pAt (q ++ [])).path.drop ((pAt q).path.length + 1)) = [] from e', if_neg (by simp), if_neg (by simp)]
    exact alike_pure (by simp)
  · exact absurd rfl h4
  · exact absurd h4 h1
  · rw [h3] at h6
    obtain rfl : p = p' := by simpa using h6
    rw [e, show stripW ((pAt (q ++ t)).path.drop ((pAt q).path.length + 1)) = p from e', if_pos h2, if_pos h2]
    exact alike_lift (site_div (E := fun _ : Unit => ([] : Dict)) (k := some ()) hd.nm h1 h3) (site_div hd.nm h1 h3) ⟨rfl, rfl⟩

/-! ## Calls through the decorator -/

theorem alike_uExists {cs : List Str} (hf : Fit cs) : Alike E r k F Eq (uExists plainOps (pAt cs)) (uExists sysOps (siteAt E k cs)) :=
  alike_conn hf.nm _ _ (alike_exists hf.nm)

theorem alike_uIsfile {cs : List Str} (hf : Fit cs) : Alike E r k F Eq (uIsfile plainOps (pAt cs)) (uIsfile sysOps (siteAt E k cs)) :=
  alike_conn hf.nm _ _ (alike_isfile hf.nm)

theorem alike_uIsdir {cs : List Str} (hf : Fit cs) : Alike E r k F Eq (uIsdir plainOps (pAt cs)) (uIsdir sysOps (siteAt E k cs)) :=
  alike_conn hf.nm _ _ (alike_isdir hf.nm)

theorem alike_uIslink {cs : List Str} (hf : Fit cs) :
    Alike E r k F (fun a b => a = false ∧ b = false) (uIslink plainOps (pAt cs)) (uIslink sysOps (siteAt E k cs)) :=
  alike_conn hf.nm _ _ (alike_islink hf.nm)

theorem alike_uListdir {cs : List Str} (hf : Fit cs) :
    Alike E r k F (fun a b => a = b ∧ ∀ n ∈ a, Fit (cs ++ [n])) (uListdir plainOps (pAt cs)) (uListdir sysOps (siteAt E k cs)) :=
  alike_conn hf.nm _ _ (alike_listdir hf.nm)

/-! ## Walking -/

theorem alike_classify {cs : List Str} : ∀ (l : List Str), (∀ n ∈ l, Fit (cs ++ [n])) →
    Alike E r k F (fun a b => a = b ∧ (∀ n ∈ a.1, Fit (cs ++ [n])) ∧ ∀ n ∈ a.2, Fit (cs ++ [n]))
      (classify plainOps pC (pAt cs) l) (classify sysOps (siteC r k) (siteAt E k cs) l)
  | [], _ => alike_pure (by simp)
  | n :: l, h => by
    unfold classify
    refine alike_bind (alike_div (h n (by simp))) ?_
    rintro _ _ ⟨rfl, rfl⟩
    refine alike_bind (alike_isdir (h n (by simp)).nm) ?_
    rintro b _ rfl
    refine alike_bind (alike_classify l fun m hm => h m (by simp [hm])) ?_
    rintro ⟨d, f⟩ _ ⟨rfl, h1, h2⟩
    refine alike_pure ⟨rfl, ?_, ?_⟩
    · cases b
      · exact h1
      · simpa using ⟨h n (by simp), h1⟩
    · cases b
      · simpa using ⟨h n (by simp), h2⟩
      · exact h2

theorem alike_walkDirs {τ τ' : Type} {Rt : τ → τ' → Prop} {fl : Bool} {cs : List Str} {v : Uri → τ → OM Tree τ} {v' : Uri → τ' → OM Sys τ'}
    (hv : ∀ n, Fit (cs ++ [n]) → ∀ t t', Rt t t' → Alike E r k F Rt (v (pAt (cs ++ [n])) t) (v' (siteAt E k (cs ++ [n])) t')) :
    ∀ (l : List Str), (∀ n ∈ l, Fit (cs ++ [n])) → ∀ t t', Rt t t' →
      Alike E r k F Rt (walkDirs plainOps fl v (pAt cs) l t) (walkDirs sysOps fl v' (siteAt E k cs) l t')
  | [], _, _, _, h => alike_pure h
  | n :: l, h, t, t', ht => by
    unfold walkDirs
    refine alike_bind (alike_div (h n (by simp))) ?_
    rintro _ _ ⟨rfl, rfl⟩
    refine alike_bind (alike_uIslink (h n (by simp))) ?_
    rintro _ _ ⟨rfl, rfl⟩
    refine alike_bind (hv n (h n (by simp)) t t' ht) ?_
    intro t1 t1' h1
    exact alike_walkDirs hv l (fun m hm => h m (by simp [hm])) t1 t1' h1

/-- the loop of a consumer of `walk`, in the directory `cs` -/
def SimBody {ι : Type} (E : ι → Dict) (r : ι → Nat) (k : Option ι) (F : Option ι → List Str → Option Kind) {τ τ' : Type}
    (Rt : τ → τ' → Prop) (P : List Str → Prop) (body : τ → Uri → List Str → List Str → OM Tree (τ × List Str))
    (body' : τ' → Uri → List Str → List Str → OM Sys (τ' × List Str)) : Prop :=
  ∀ t t' cs dirs files, Rt t t' → Fit cs → P cs → (∀ n ∈ dirs, Fit (cs ++ [n])) → (∀ n ∈ files, Fit (cs ++ [n])) →
    Alike E r k F (fun a b => Rt a.1 b.1 ∧ a.2 = b.2 ∧ ∀ n ∈ a.2, Fit (cs ++ [n])) (body t (pAt cs) dirs files) (body' t' (siteAt E k cs) dirs files)

theorem alike_walk {τ τ' : Type} {Rt : τ → τ' → Prop} {P : List Str → Prop} {td fl : Bool}
    {body : τ → Uri → List Str → List Str → OM Tree (τ × List Str)} {body' : τ' → Uri → List Str → List Str → OM Sys (τ' × List Str)}
    (hb : SimBody E r k F Rt P body body') (hP : ∀ cs n, P cs → P (cs ++ [n])) :
    ∀ (depth : Nat) (cs : List Str), Fit cs → P cs → ∀ t t', Rt t t' →
      Alike E r k F Rt (walk plainOps pC td fl body depth (pAt cs) t) (walk sysOps (siteC r k) td fl body' depth (siteAt E k cs) t')
  | 0, _, _, _, _, _, _ => alike_raise _
  | depth + 1, cs, hf, hp, t, t', ht => by
    unfold walk
    refine alike_bind (alike_listdir hf.nm) ?_
    rintro l _ ⟨rfl, hl⟩
    refine alike_bind (alike_classify (sortStr l) fun n hn => hl n (mem_sortStr.1 hn)) ?_
    rintro ⟨dirs, files⟩ _ ⟨rfl, h1, h2⟩
    have hv : ∀ n, Fit (cs ++ [n]) → ∀ t t', Rt t t' → Alike E r k F Rt (walk plainOps pC td fl body depth (pAt (cs ++ [n])) t)
        (walk sysOps (siteC r k) td fl body' depth (siteAt E k (cs ++ [n])) t') :=
      fun n hn t t' ht => alike_walk hb hP depth _ hn (hP _ _ hp) t t' ht
    refine alike_ite (fun _ => ?_) (fun _ => ?_)
    · refine alike_bind (hb t t' cs dirs files ht hf hp h1 h2) ?_
      rintro ⟨t1, d1⟩ ⟨t1', d1'⟩ ⟨h3, h4, h5⟩
      obtain rfl : d1 = d1' := h4
      exact alike_walkDirs hv d1 h5 t1 t1' h3
    · refine alike_bind (alike_walkDirs hv dirs h1 t t' ht) ?_
      intro t1 t1' h3
      refine alike_bind (hb t1 t1' cs dirs files h3 hf hp h1 h2) ?_
      rintro ⟨t2, d2⟩ ⟨t2', d2'⟩ ⟨h4, -⟩
      exact alike_pure h4

/-- the URIs of the same path in the two file systems -/
def TwinUri {ι : Type} (E : ι → Dict) (k : Option ι) (u v : Uri) : Prop := ∃ cs, Fit cs ∧ u = pAt cs ∧ v = siteAt E k cs

theorem TwinUri.path {u v : Uri} (h : TwinUri E k u v) : u.path = v.path := by
  obtain ⟨cs, hf, rfl, rfl⟩ := h
  rw [site_path hf.nm, pAt_site, site_path hf.nm]

theorem alike_uWalk {cs : List Str} (hf : Fit cs) (depth : Nat) (td fl : Bool) :
    Alike E r k F (fun a b => a.map (fun x => (x.1.path, x.2)) = b.map (fun x => (x.1.path, x.2)))
      (uWalk plainOps depth (pAt cs) td fl) (uWalk sysOps depth (siteAt E k cs) td fl) := by
  refine alike_conn hf.nm _ _ ?_
  refine alike_walk (P := fun _ => True) ?_ (fun _ _ _ => trivial) depth cs hf trivial [] [] rfl
  intro t t' cs dirs files ht hc _ h1 _
  refine alike_pure ⟨?_, rfl, h1⟩
  have : (pAt cs).path = (siteAt E k cs).path := TwinUri.path ⟨cs, hc, rfl, rfl⟩
  simp only [List.map_append, ht]
  simp [this]

theorem alike_mapM_div {cs : List Str} : ∀ (l : List Str), (∀ n ∈ l, Fit (cs ++ [n])) →
    Alike E r k F (fun a b => a.map Uri.path = b.map Uri.path) (l.mapM fun f => OM.lift ((pAt cs).div f))
      (l.mapM fun f => OM.lift ((siteAt E k cs).div f))
  | [], _ => alike_pure rfl
  | n :: l, h => by
    rw [List.mapM_cons, List.mapM_cons]
    refine alike_bind (alike_div (h n (by simp))) ?_
    rintro _ _ ⟨rfl, rfl⟩
    refine alike_bind (alike_mapM_div l fun m hm => h m (by simp [hm])) ?_
    intro a b hab
    refine alike_pure ?_
    rw [List.map_cons, List.map_cons, hab, TwinUri.path ⟨_, h n (by simp), rfl, rfl⟩]

theorem alike_uGlob {cs : List Str} (hf : Fit cs) (m : Str → Bool) :
    Alike E r k F (fun a b => a.map Uri.path = b.map Uri.path) (uGlob plainOps (pAt cs) m) (uGlob sysOps (siteAt E k cs) m) := by
  refine alike_conn hf.nm _ _ ?_
  refine alike_bind (alike_uListdir hf) ?_
  rintro l _ ⟨rfl, hl⟩
  exact alike_mapM_div _ fun n hn => hl n (List.mem_filter.1 hn).1

/-! ## Making and removing -/

variable (hr : Function.Injective r)
include hr

theorem alike_uMkdir {cs : List Str} (hf : Fit cs) :
    Alike E r k F (fun _ _ => True) (uMkdir plainOps (pAt cs)) (uMkdir sysOps (siteAt E k cs)) :=
  alike_conn hf.nm _ _ (alike_mkdir hr hf)

theorem alike_uCopystat {cs ds : List Str} (hf : Fit cs) (hf' : Fit ds) :
    Alike E r k F (fun _ _ => True) (uCopystat plainOps (pAt cs) (pAt ds)) (uCopystat sysOps (siteAt E k cs) (siteAt E k ds)) :=
  alike_conn hf.nm _ _ (alike_copystat hr hf.nm hf'.nm)

theorem alike_makedirs : ∀ (depth : Nat) (cs : List Str), Fit cs →
    Alike E r k F (fun _ _ => True) (makedirs plainOps depth (pAt cs)) (makedirs sysOps depth (siteAt E k cs))
  | 0, _, _ => alike_raise _
  | depth + 1, cs, hf => by
    refine alike_of_eq (makedirs_eq _ _) (makedirs_eq _ _) ?_
    rcases List.eq_nil_or_concat cs with rfl | ⟨q, n, rfl⟩
    · intro t s h
      have e1 : uIsdir plainOps (pAt []) t = (.ok true, t) := by
        show pAsk isD (pAt []) t = _
        unfold pAsk
        rw [pAt_comps .nil, if_pos (by intro a ha; simp at ha; simp [ha])]
        rfl
      have e2 : uIsdir sysOps (siteAt E k []) s = (.ok true, s) := by
        have : Clear (siteV r s k) [] := ⟨fun p hp hne => absurd (List.prefix_nil.1 hp) hne, by rw [site_root h.ok]; simp⟩
        refine (Props.site_wc h.ok .nil _ _).trans ?_
        rw [site_isdir h.ok .nil this, site_root h.ok]; rfl
      rw [bind_ok e1, bind_ok e2]
      exact .ok trivial h
    · rw [List.concat_eq_append] at *
      refine alike_bind (alike_uIsdir hf) ?_
      rintro b _ rfl
      refine alike_ite (fun _ => alike_pure trivial) (fun _ => ?_)
      refine alike_bind (alike_split hf) ?_
      rintro _ _ ⟨rfl, rfl⟩
      dsimp only
      refine alike_bind (alike_uIsdir hf.of_prefix) ?_
      rintro b _ rfl
      have hm : Alike E r k F (fun _ _ => True) (if n ≠ [] then uMkdir plainOps (pAt (q ++ [n])) else pure ())
          (if n ≠ [] then uMkdir sysOps (siteAt E k (q ++ [n])) else pure ()) :=
        alike_ite (fun _ => alike_uMkdir hr hf) (fun _ => alike_pure trivial)
      exact alike_bind (alike_ite (fun _ => alike_makedirs depth q hf.of_prefix) (fun _ => alike_pure (R := fun _ _ => True) trivial)) fun _ _ _ => hm

theorem alike_uMakedirs (depth : Nat) {cs : List Str} (hf : Fit cs) :
    Alike E r k F (fun _ _ => True) (uMakedirs plainOps depth (pAt cs)) (uMakedirs sysOps depth (siteAt E k cs)) :=
  alike_conn hf.nm _ _ (alike_makedirs hr depth cs hf)

omit hr in
theorem alike_forM {α : Type} {f : α → OM Tree PUnit} {g : α → OM Sys PUnit} : ∀ (l : List α),
    (∀ x ∈ l, Alike E r k F (fun _ _ => True) (f x) (g x)) → Alike E r k F (fun _ _ => True) (l.forM f) (l.forM g)
  | [], _ => alike_pure trivial
  | x :: l, h => by
    show Alike E r k F (fun _ _ => True) (f x >>= fun _ => l.forM f) (g x >>= fun _ => l.forM g)
    exact alike_bind (h x (by simp)) fun _ _ _ => alike_forM l fun y hy => h y (by simp [hy])

theorem alike_removeBody {cs dirs files : List Str} (h1 : ∀ n ∈ dirs, Fit (cs ++ [n])) (h2 : ∀ n ∈ files, Fit (cs ++ [n])) :
    Alike E r k F (fun _ _ => True) (removeBody plainOps pC (pAt cs) dirs files) (removeBody sysOps (siteC r k) (siteAt E k cs) dirs files) := by
  unfold removeBody
  refine alike_bind (alike_forM files fun n hn => ?_) fun _ _ _ => alike_forM dirs fun n hn => ?_
  · refine alike_bind (alike_div (h2 n hn)) ?_
    rintro _ _ ⟨rfl, rfl⟩
    exact alike_removefile hr (h2 n hn).nm
  · refine alike_bind (alike_div (h1 n hn)) ?_
    rintro _ _ ⟨rfl, rfl⟩
    refine alike_bind (alike_islink (h1 n hn).nm) ?_
    rintro _ _ ⟨rfl, rfl⟩
    exact alike_removedir hr (h1 n hn).nm

theorem alike_removeDirRec (depth : Nat) {cs : List Str} (hf : Fit cs) :
    Alike E r k F (fun _ _ => True) (removeDirRec plainOps depth pC (pAt cs)) (removeDirRec sysOps depth (siteC r k) (siteAt E k cs)) := by
  unfold removeDirRec
  refine alike_bind (alike_walk (Rt := fun _ _ => True) (P := fun _ => True) ?_ (fun _ _ _ => trivial) depth cs hf trivial () () trivial) ?_
  · intro _ _ cs dirs files _ _ _ h1 h2
    exact alike_bind (alike_removeBody hr h1 h2) fun _ _ _ => alike_pure ⟨trivial, rfl, h1⟩
  · intro _ _ _
    refine alike_bind (alike_islink hf.nm) ?_
    rintro _ _ ⟨rfl, rfl⟩
    exact alike_removedir hr hf.nm

theorem alike_uRemove (depth : Nat) {cs : List Str} (hf : Fit cs) (rec_ : Bool) :
    Alike E r k F (fun _ _ => True) (uRemove plainOps depth (pAt cs) rec_) (uRemove sysOps depth (siteAt E k cs) rec_) := by
  refine alike_conn hf.nm _ _ ?_
  refine alike_bind (alike_islink hf.nm) ?_
  rintro _ _ ⟨rfl, rfl⟩
  refine alike_bind (alike_exists hf.nm) ?_
  rintro b _ rfl
  refine alike_ite (fun _ => alike_raise _) (fun _ => ?_)
  refine alike_bind (alike_isdir hf.nm) ?_
  rintro b _ rfl
  refine alike_ite (fun _ => alike_ite (fun _ => alike_removeDirRec hr depth hf) (fun _ => alike_removedir hr hf.nm)) (fun _ => ?_)
  refine alike_bind (alike_isfile hf.nm) ?_
  rintro b _ rfl
  exact alike_ite (fun _ => alike_removefile hr hf.nm) (fun _ => alike_pure trivial)

/-! ## Copying -/

omit hr in
theorem siteAt_sch {cs ds : List Str} : (siteAt E k cs).scheme = (siteAt E k ds).scheme := by
  cases k <;> rfl

theorem alike_copyOne {cs ds : List Str} (hf : Fit cs) (hg : Fit ds) (fl : Bool) :
    Alike E r k F (fun _ _ => True) (copyOne plainOps pC (pAt cs) (pAt ds) fl) (copyOne sysOps (siteC r k) (siteAt E k cs) (siteAt E k ds) fl) := by
  unfold copyOne
  refine alike_bind (alike_uIslink hf) ?_
  rintro _ _ ⟨rfl, rfl⟩
  refine alike_bind (alike_content hr hf.nm hg) fun _ _ _ => ?_
  rw [if_pos (siteAt_sch (E := E) (k := k)), if_pos (show (pAt cs).scheme = (pAt ds).scheme from rfl)]
  exact alike_copystat hr hf.nm hg.nm

theorem alike_copyFiles {cs ds : List Str} (fl : Bool) : ∀ (l : List Str), (∀ n ∈ l, Fit (cs ++ [n])) → (∀ n ∈ l, Fit (ds ++ [n])) →
    Alike E r k F (fun _ _ => True) (copyFiles plainOps pC fl (pAt cs) (pAt ds) l)
      (copyFiles sysOps (siteC r k) fl (siteAt E k cs) (siteAt E k ds) l)
  | [], _, _ => alike_pure trivial
  | n :: l, h1, h2 => by
    unfold copyFiles
    refine alike_bind (alike_div (h1 n (by simp))) ?_
    rintro _ _ ⟨rfl, rfl⟩
    refine alike_bind (alike_div (h2 n (by simp))) ?_
    rintro _ _ ⟨rfl, rfl⟩
    exact alike_bind (alike_copyOne hr (h1 n (by simp)) (h2 n (by simp)) fl) fun _ _ _ =>
      alike_copyFiles fl l (fun m hm => h1 m (by simp [hm])) (fun m hm => h2 m (by simp [hm]))

theorem alike_copyDirs (depth : Nat) {cs ds ig : List Str} (fl : Bool) : ∀ (l dirs : List Str), (∀ n ∈ l, Fit (cs ++ [n])) →
    (∀ n ∈ l, Fit (ds ++ [n])) → (∀ n ∈ dirs, Fit (cs ++ [n])) →
    Alike E r k F (fun a b => a = b ∧ ∀ n ∈ a, Fit (cs ++ [n])) (copyDirs plainOps depth pC ig fl (pAt cs) (pAt ds) l dirs)
      (copyDirs sysOps depth (siteC r k) ig fl (siteAt E k cs) (siteAt E k ds) l dirs)
  | [], _, _, _, h => alike_pure ⟨rfl, h⟩
  | n :: l, dirs, h1, h2, h3 => by
    unfold copyDirs
    refine alike_ite (fun _ => ?_) (fun _ => ?_)
    · exact alike_copyDirs depth fl l _ (fun m hm => h1 m (by simp [hm])) (fun m hm => h2 m (by simp [hm]))
        fun m hm => h3 m (List.erase_subset hm)
    · refine alike_bind (alike_div (h2 n (by simp))) ?_
      rintro _ _ ⟨rfl, rfl⟩
      refine alike_bind (alike_div (h1 n (by simp))) ?_
      rintro _ _ ⟨rfl, rfl⟩
      refine alike_bind (alike_uIslink (h1 n (by simp))) ?_
      rintro _ _ ⟨rfl, rfl⟩
      exact alike_bind (alike_uMakedirs hr depth (h2 n (by simp))) fun _ _ _ =>
        alike_copyDirs depth fl l dirs (fun m hm => h1 m (by simp [hm])) (fun m hm => h2 m (by simp [hm])) h3

theorem alike_copyBody (depth : Nat) {q t d ig dirs files : List Str} (fl : Bool) (hf : Fit (q ++ t)) (hq : q ≠ []) (hd : Fit d) (hne : d ≠ [])
    (h1 : ∀ n ∈ dirs, Fit (q ++ t ++ [n])) (h2 : ∀ n ∈ files, Fit (q ++ t ++ [n])) :
    Alike E r k F (fun a b => a = b ∧ ∀ n ∈ a, Fit (q ++ t ++ [n]))
      (copyBody plainOps depth pC ig fl ((pAt q).path.length + 1) (pAt d) (pAt (q ++ t)) dirs files)
      (copyBody sysOps depth (siteC r k) ig fl ((siteAt E k q).path.length + 1) (siteAt E k d) (siteAt E k (q ++ t)) dirs files) := by
  have ha : ∀ {n}, Fit (q ++ t ++ [n]) → Fit (d ++ t ++ [n]) := by
    intro n hn
    rw [List.append_assoc] at hn ⊢
    exact hd.append hne hn
  refine alike_of_eq (copyBody_eq _ _ _ _ _ _ _ _ _) (copyBody_eq _ _ _ _ _ _ _ _ _) ?_
  refine alike_bind (alike_dbase hf hq (hd.append hne hf)) ?_
  rintro _ _ ⟨rfl, rfl⟩
  refine alike_bind (alike_copyDirs hr depth fl dirs dirs h1 (fun n hn => ha (h1 n hn)) h1) ?_
  rintro d1 _ ⟨rfl, h3⟩
  exact alike_bind (alike_copyFiles hr fl files h2 fun n hn => ha (h2 n hn)) fun _ _ _ => alike_pure ⟨rfl, h3⟩

theorem alike_copyWalk (depth : Nat) {q d ig : List Str} (fl : Bool) (hf : Fit q) (hq : q ≠ []) (hd : Fit d) (hne : d ≠ []) :
    Alike E r k F (fun _ _ => True) (copyWalk plainOps depth pC ig fl (pAt q) (pAt d))
      (copyWalk sysOps depth (siteC r k) ig fl (siteAt E k q) (siteAt E k d)) := by
  refine alike_conn hf.nm _ _ ?_
  refine alike_walk (Rt := fun _ _ => True) (P := fun cs => q <+: cs) ?_ (fun cs n h => h.trans (List.prefix_append _ _)) depth q hf
    (List.prefix_refl _) () () trivial
  rintro _ _ cs dirs files _ hc ⟨t, rfl⟩ h1 h2
  refine alike_bind (alike_copyBody hr depth fl hc hq hd hne h1 h2) ?_
  rintro d1 _ ⟨rfl, h3⟩
  exact alike_pure ⟨trivial, rfl, h3⟩

omit hr in
/-- fs.py:916-919, 934-937 copying into a directory -/
theorem alike_into {p q : List Str} {n : Str} (hp : Fit (p ++ [n])) (hq : Fit q) (hqn : Fit (q ++ [n])) {b : Bool} (hb : q = [] → b = true) :
    Alike E r k F (fun u v => ∃ d, d ≠ [] ∧ Fit d ∧ u = pAt d ∧ v = siteAt E k d)
      (if b = true then OM.lift ((pAt q).div (pAt (p ++ [n])).last) else pure (pAt q))
      (if b = true then OM.lift ((siteAt E k q).div (siteAt E k (p ++ [n])).last) else pure (siteAt E k q)) := by
  refine alike_ite (fun _ => ?_) (fun h => ?_)
  · rw [site_last hp.nm, show (pAt (p ++ [n])).last = n from site_last (E := fun _ : Unit => ([] : Dict)) (k := some ()) hp.nm]
    exact alike_lift (at_div (E := fun _ : Unit => ([] : Dict)) (k := some ()) hqn) (at_div hqn) ⟨_, by simp, hqn, rfl, rfl⟩
  · exact alike_pure ⟨q, fun e => h (hb e), hq, rfl, rfl⟩

omit hr in
/-- the root is a directory -/
theorem alike_uIsdir_root {cs : List Str} (hf : Fit cs) :
    Alike E r k F (fun a b => a = b ∧ (cs = [] → a = true)) (uIsdir plainOps (pAt cs)) (uIsdir sysOps (siteAt E k cs)) := by
  intro t s h
  have h0 := alike_uIsdir (E := E) (r := r) (k := k) (F := F) hf t s h
  have h1 : cs = [] → (uIsdir plainOps (pAt cs) t) = (.ok true, t) := by
    rintro rfl
    show pAsk isD (pAt []) t = _
    unfold pAsk
    rw [pAt_comps .nil, if_pos (by intro a ha; simp at ha; simp [ha])]
    rfl
  revert h0 h1
  generalize uIsdir plainOps (pAt cs) t = x
  generalize uIsdir sysOps (siteAt E k cs) s = y
  intro h0 h1
  cases h0 with
  | out => exact .out _ _
  | err h => exact .err h
  | ok hab hr =>
    refine .ok ⟨hab, fun e => ?_⟩ hr
    have := h1 e
    simpa using congrArg Prod.fst this

theorem alike_uCopy (depth : Nat) {p q ig : List Str} (rec_ fl : Bool) (hne : p ≠ []) (hp : Fit p) (hq : Fit q)
    (hqn : Fit (q ++ [p.getLastD []])) :
    Alike E r k F (fun _ _ => True) (uCopy plainOps depth (pAt p) (pAt q) rec_ ig fl)
      (uCopy sysOps depth (siteAt E k p) (siteAt E k q) rec_ ig fl) := by
  rcases List.eq_nil_or_concat p with rfl | ⟨p, n, rfl⟩
  · exact absurd rfl hne
  rw [List.concat_eq_append] at *
  have hqn : Fit (q ++ [n]) := by simpa using hqn
  refine alike_conn hp.nm _ _ ?_
  refine alike_of_eq (copy_eq _ _ _ _ _ _ _) (copy_eq _ _ _ _ _ _ _) ?_
  refine alike_bind (alike_uExists hp) ?_
  rintro b _ rfl
  refine alike_ite (fun _ => alike_raise _) (fun _ => ?_)
  refine alike_ite (fun _ => ?_) (fun _ => ?_)
  · refine alike_bind (alike_uIsfile hp) ?_
    rintro b _ rfl
    refine alike_ite (fun _ => alike_raise _) (fun _ => ?_)
    refine alike_bind (alike_uIsdir_root hq) ?_
    rintro b _ ⟨rfl, hb⟩
    refine alike_bind (alike_into hp hq hqn hb) ?_
    rintro _ _ ⟨d, hd, hf, rfl, rfl⟩
    exact alike_copyOne hr hp hf fl
  · refine alike_bind (alike_uIsdir hp) ?_
    rintro b _ rfl
    refine alike_ite (fun _ => alike_raise _) (fun _ => ?_)
    refine alike_bind (alike_uIsdir_root hq) ?_
    rintro b _ ⟨rfl, hb⟩
    refine alike_bind (alike_into hp hq hqn hb) ?_
    rintro _ _ ⟨d, hd, hf, rfl, rfl⟩
    refine alike_bind (alike_uIslink hp) ?_
    rintro _ _ ⟨rfl, rfl⟩
    exact alike_bind (alike_uMakedirs hr depth hf) fun _ _ _ => alike_copyWalk hr depth fl hp hne hf hd

end
end Verif.Any
