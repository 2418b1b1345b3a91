import Verif.Any.Dropped
import Verif.Props.Freight
/-!
# C127 Archives whose connections are dropped
-/
namespace Verif.Props
open Verif.Spec Verif.Any

section
variable {ι κ ζ : Type} [DecidableEq κ] [DecidableEq ζ] {E : ι → Dict} {r : ι → Nat} {site : κ → Option ι} {C : Codec} {arc : ζ → κ × List Str} {X : ζ → Str}
variable {F : Option ι → List Str → Option Any.Kind} {G : Reg.Key → Option AHandle}

omit [DecidableEq κ] in
theorem sweep_arel (hX : Function.Injective X) {T : κ → Tree} {M : ζ → Option (List Zip.Entry)} {y : Arc} (h : ARel E r site X F G (T, M) y) (l : List ζ) :
    ARel E r site X F G (T, fun z => if z ∈ l then none else M z) (y.sweep (l.map fun z => zkey (X z))) := by
  have hin : ∀ z, zkey (X z) ∈ l.map (fun z => zkey (X z)) ↔ z ∈ l := by
    intro z
    rw [List.mem_map]
    constructor
    · rintro ⟨z', h1, h2⟩
      rw [← hX (zkey_inj h2)]; exact h1
    · exact fun h => ⟨z, h, rfl⟩
  refine ⟨h.rels, fun z => ?_, fun z => ?_, fun k hk => ?_⟩
  · unfold Arc.sweep
    dsimp only
    split
    · exact fun _ c => nomatch c
    · exact h.clean z
  · unfold Arc.sweep
    dsimp only
    by_cases hz : z ∈ l
    · rw [if_pos ((hin z).2 hz), if_pos hz]; rfl
    · rw [if_neg (fun c => hz ((hin z).1 c)), if_neg hz]; exact h.seen z
  · unfold Arc.sweep
    dsimp only
    rw [if_neg, h.rest k hk]
    intro c
    rw [List.mem_map] at c
    obtain ⟨z, -, h2⟩ := c
    exact hk z h2

omit [DecidableEq κ] [DecidableEq ζ] in
theorem sweepExec_none {σ : Type} {step : SweepAct κ ζ → OM σ Ans} {pr : SweepPrg κ ζ} {n : Nat} {s : σ} (h : pr (pr.exec step n s).1 = none) :
    pr.exec step (n + 1) s = pr.exec step n s := by
  simp only [SweepPrg.exec, h]

omit [DecidableEq κ] [DecidableEq ζ] in
theorem sweepExec_some {σ : Type} {step : SweepAct κ ζ → OM σ Ans} {pr : SweepPrg κ ζ} {n : Nat} {s : σ} {a : SweepAct κ ζ} (h : pr (pr.exec step n s).1 = some a) :
    pr.exec step (n + 1) s = ((pr.exec step n s).1 ++ [(step a (pr.exec step n s).2).1], (step a (pr.exec step n s).2).2) := by
  simp only [SweepPrg.exec, h]

theorem sweep_rel (hr : Function.Injective r) (hs : Function.Injective site) (hX : Function.Injective X) (hXc : ∀ z, ConnOk (X z)) {may : κ → κ → Bool}
    (hmay : ∀ k k', may k k' = true → May (site k) (site k')) {loc : κ → Bool} (hloc : ∀ k, loc k = (site k).isNone)
    (hU : ∀ z, URI (X z) = .ok (siteAt E (site (arc z).1) (arc z).2)) (depth : Nat)
    (pr : SweepPrg κ ζ) : ∀ (n : Nat) {x : (κ → Tree) × (ζ → Option (List Zip.Entry))} {y : Arc}, ARel E r site X F G x y →
    (∀ a ∈ (pr.exec (SweepAct.says C may loc arc depth) n x).1, a ≠ .error .outside) →
    (pr.exec (SweepAct.run C E site X depth) n y).1 = (pr.exec (SweepAct.says C may loc arc depth) n x).1 ∧
      ARel E r site X F G (pr.exec (SweepAct.says C may loc arc depth) n x).2 (pr.exec (SweepAct.run C E site X depth) n y).2
  | 0, _, _, h, _ => ⟨rfl, h⟩
  | n + 1, x, y, h, hq => by
    cases hp : pr (pr.exec (SweepAct.says C may loc arc depth) n x).1 with
    | none =>
      rw [sweepExec_none hp] at hq ⊢
      obtain ⟨h1, h2⟩ := sweep_rel hr hs hX hXc hmay hloc hU depth pr n h hq
      rw [sweepExec_none (by rw [h1, hp])]
      exact ⟨h1, h2⟩
    | some a =>
      rw [sweepExec_some hp] at hq ⊢
      obtain ⟨h1, h2⟩ := sweep_rel hr hs hX hXc hmay hloc hU depth pr n h fun x hx => hq x (by simp [hx])
      rw [sweepExec_some (by rw [h1, hp])]
      cases a with
      | sweep l => exact ⟨by rw [h1]; rfl, sweep_arel hX h2 l⟩
      | act a =>
        rcases freight_step (C := C) hr hs hX hXc hmay hloc hU depth a h2 with h3 | ⟨h3, h4⟩
        · exact absurd h3 (hq _ (List.mem_append_right _ (List.mem_singleton.2 rfl)))
        · exact ⟨by rw [h1]; exact congrArg _ (congrArg (fun x => [x]) h3), h4⟩

/-- Connections of archives may be dropped between any two calls of a program: files and directories are what they would be, and
    the calls answer what is expected of an archive that has not been opened since. -/
theorem C127_program (hr : Function.Injective r) (hs : Function.Injective site) (hX : Function.Injective X) (hXc : ∀ z, ConnOk (X z)) {may : κ → κ → Bool}
    (hmay : ∀ k k', may k k' = true → May (site k) (site k')) {loc : κ → Bool} (hloc : ∀ k, loc k = (site k).isNone)
    (hU : ∀ z, URI (X z) = .ok (siteAt E (site (arc z).1) (arc z).2)) {T : κ → Tree} {s : Arc}
    (hok : SysOk E r s.sys) (h : ∀ k, Holds r s.sys (site k) (T k)) (hc : ∀ z, Clean (s.handle (zkey (X z)))) (depth : Nat)
    (pr : SweepPrg κ ζ) (n : Nat)
    (hq : ∀ x ∈ (pr.exec (SweepAct.says C may loc arc depth) n (T, fun z => seenOf (s.handle (zkey (X z))))).1, x ≠ .error .outside) :
    (pr.exec (SweepAct.run C E site X depth) n s).1 = (pr.exec (SweepAct.says C may loc arc depth) n (T, fun z => seenOf (s.handle (zkey (X z))))).1 ∧
    (∀ k, Holds r (pr.exec (SweepAct.run C E site X depth) n s).2.sys (site k)
      ((pr.exec (SweepAct.says C may loc arc depth) n (T, fun z => seenOf (s.handle (zkey (X z))))).2.1 k)) ∧
    SysOk E r (pr.exec (SweepAct.run C E site X depth) n s).2.sys ∧
    (∀ j, (∀ k, site k ≠ j) → siteV r (pr.exec (SweepAct.run C E site X depth) n s).2.sys j = siteV r s.sys j) ∧
    ∀ k, (∀ z, zkey (X z) ≠ k) → (pr.exec (SweepAct.run C E site X depth) n s).2.handle k = s.handle k := by
  obtain ⟨h1, h2⟩ := sweep_rel (C := C) (F := siteV r s.sys) (G := s.handle) hr hs hX hXc hmay hloc hU depth pr n
    (x := (T, fun z => seenOf (s.handle (zkey (X z))))) (y := s) ⟨⟨hok, h, fun _ _ => rfl⟩, hc, fun _ => rfl, fun _ _ => rfl⟩ hq
  exact ⟨h1, h2.rels.here, h2.rels.ok, h2.rels.there, h2.rest⟩

/-- what opens an archive anew -/
def ZAct.Opens : ZAct → Prop
  | .read _ | .write _ _ => True
  | _ => False

/-- a call that opens the archive does not ask what was seen before -/
theorem opens_says {z : ζ} {a : ZAct} (ha : ZAct.Opens a) {may : κ → κ → Bool} {depth : Nat} {T : κ → Tree} {M : ζ → Option (List Zip.Entry)}
    (v : Option (List Zip.Entry)) :
    (ArcAct.says C may arc depth (.zip z a) (T, fun y => if y = z then v else M y)).1 = (ArcAct.says C may arc depth (.zip z a) (T, M)).1 ∧
    ∀ x, (ArcAct.says C may arc depth (.zip z a) (T, M)).1 = .ok x →
      ArcAct.says C may arc depth (.zip z a) (T, fun y => if y = z then v else M y) = ArcAct.says C may arc depth (.zip z a) (T, M) := by
  have hM : ∀ w, (fun y => if y = z then w else if y = z then v else M y) = fun y => if y = z then w else M y := by
    intro w
    funext y
    by_cases c : y = z <;> simp [c]
  unfold ArcAct.says
  dsimp only
  by_cases hc : (arc z).2 = [] ∨ ¬ Any.Fit (arc z).2 ∨ ¬ (T (arc z).1).Way (arc z).2 ∨ ¬ Nm a.about
  · rw [if_pos hc, if_pos hc]; exact ⟨rfl, fun x hx => nomatch hx⟩
  rw [if_neg hc, if_neg hc, hM, if_pos rfl]
  cases a with
  | read m =>
    simp only [ZAct.tells]
    cases found C (T (arc z).1) (arc z).2 with
    | error e => exact ⟨rfl, fun x hx => nomatch hx⟩
    | ok es =>
      dsimp only
      cases member es m with
      | none => exact ⟨rfl, fun x hx => nomatch hx⟩
      | some b => exact ⟨rfl, fun _ _ => rfl⟩
  | write m b =>
    simp only [ZAct.tells]
    by_cases h1 : m = [] ∨ '\x00' ∈ pathOf m
    · rw [if_pos h1, if_pos h1]; exact ⟨rfl, fun x hx => nomatch hx⟩
    · rw [if_neg h1, if_neg h1]
      rcases (T (arc z).1).get (arc z).2 with _ | _ | _ | _ <;> dsimp only
      · by_cases h2 : (T (arc z).1).get (arc z).2.dropLast = some .dir
        · rw [if_pos h2, if_pos h2]; exact ⟨rfl, fun _ _ => rfl⟩
        · rw [if_neg h2, if_neg h2]; exact ⟨rfl, fun x hx => nomatch hx⟩
      all_goals first | exact ⟨rfl, fun _ _ => rfl⟩ | exact ⟨rfl, fun x hx => nomatch hx⟩
  | _ => exact ha.elim

/-- Reading or writing a member heals: it answers what it would have answered if the connection had not been dropped, and when it
    succeeds so does every call of every program after it. -/
theorem C127_heals (hr : Function.Injective r) (hs : Function.Injective site) (hX : Function.Injective X) (hXc : ∀ z, ConnOk (X z)) {may : κ → κ → Bool}
    (hmay : ∀ k k', may k k' = true → May (site k) (site k')) {loc : κ → Bool} (hloc : ∀ k, loc k = (site k).isNone)
    (hU : ∀ z, URI (X z) = .ok (siteAt E (site (arc z).1) (arc z).2)) {T : κ → Tree} {s : Arc}
    (hok : SysOk E r s.sys) (h : ∀ k, Holds r s.sys (site k) (T k)) (hc : ∀ z, Clean (s.handle (zkey (X z)))) (depth : Nat)
    (z : ζ) {a : ZAct} (ha : ZAct.Opens a)
    (ho : (ArcAct.says C may arc depth (.zip z a) (T, fun z => seenOf (s.handle (zkey (X z))))).1 ≠ .error .outside) :
    ((ArcAct.zip z a : ArcAct κ ζ).run C E site X depth (s.sweep [zkey (X z)])).1 = ((ArcAct.zip z a : ArcAct κ ζ).run C E site X depth s).1 ∧
    ∀ x, ((ArcAct.zip z a : ArcAct κ ζ).run C E site X depth s).1 = .ok x → ∀ (pr : SweepPrg κ ζ) (n : Nat),
      (∀ x ∈ (pr.exec (SweepAct.says C may loc arc depth) n (ArcAct.says C may arc depth (.zip z a) (T, fun z => seenOf (s.handle (zkey (X z))))).2).1,
        x ≠ .error .outside) →
      (pr.exec (SweepAct.run C E site X depth) n ((ArcAct.zip z a : ArcAct κ ζ).run C E site X depth (s.sweep [zkey (X z)])).2).1 =
        (pr.exec (SweepAct.run C E site X depth) n ((ArcAct.zip z a : ArcAct κ ζ).run C E site X depth s).2).1 := by
  have h0 : ARel E r site X (siteV r s.sys) s.handle (T, fun z => seenOf (s.handle (zkey (X z)))) s :=
    ⟨⟨hok, h, fun _ _ => rfl⟩, hc, fun _ => rfl, fun _ _ => rfl⟩
  have h1 := sweep_arel hX h0 [z]
  simp only [List.map_cons, List.map_nil, List.mem_singleton] at h1
  obtain ⟨o1, o2⟩ := opens_says (C := C) (arc := arc) ha (z := z) (may := may) (depth := depth) (T := T) (M := fun z => seenOf (s.handle (zkey (X z)))) none
  rcases arc_step (C := C) hr hs hX hmay hU depth (.zip z a) h0 with c | ⟨a1, a2⟩
  · exact absurd c ho
  rcases arc_step (C := C) hr hs hX hmay hU depth (.zip z a) h1 with c | ⟨b1, b2⟩
  · exact absurd (o1.symm.trans c) ho
  refine ⟨by rw [a1, b1, o1], fun x hx pr n hq => ?_⟩
  rw [o2 x (a1.symm.trans hx)] at b2
  rw [(sweep_rel (C := C) hr hs hX hXc hmay hloc hU depth pr n a2 hq).1, (sweep_rel (C := C) hr hs hX hXc hmay hloc hU depth pr n b2 hq).1]

/-- After the connection was dropped, the listing of an archive is what its file holds, not what was seen before. -/
theorem C127_lists (hr : Function.Injective r) (hs : Function.Injective site) (hX : Function.Injective X) {may : κ → κ → Bool}
    (hmay : ∀ k k', may k k' = true → May (site k) (site k'))
    (hU : ∀ z, URI (X z) = .ok (siteAt E (site (arc z).1) (arc z).2)) {T : κ → Tree} {s : Arc}
    (hok : SysOk E r s.sys) (h : ∀ k, Holds r s.sys (site k) (T k)) (hc : ∀ z, Clean (s.handle (zkey (X z)))) (depth : Nat)
    (z : ζ) {m : List Str} (hm : Nm m) (hm0 : m ≠ []) {d : Bytes} {es : List Zip.Entry} (hp : (arc z).2 ≠ []) (hf : Any.Fit (arc z).2)
    (hw : (T (arc z).1).Way (arc z).2) (hg : (T (arc z).1).get (arc z).2 = some (.file d)) (hd : C.unpack d = some es) :
    ((ArcAct.zip z (.listdir m) : ArcAct κ ζ).run C E site X depth (s.sweep [zkey (X z)])).1 =
      if hasDir es m then .ok (.names (namesIn es m)) else .error .fileDoesNotExist := by
  have h0 : ARel E r site X (siteV r s.sys) s.handle (T, fun z => seenOf (s.handle (zkey (X z)))) s :=
    ⟨⟨hok, h, fun _ _ => rfl⟩, hc, fun _ => rfl, fun _ _ => rfl⟩
  have h1 := sweep_arel hX h0 [z]
  simp only [List.map_cons, List.map_nil, List.mem_singleton] at h1
  have e : (ArcAct.says C may arc depth (.zip z (.listdir m)) (T, fun y => if y = z then none else seenOf (s.handle (zkey (X y))))).1 =
      if hasDir es m then .ok (.names (namesIn es m)) else .error .fileDoesNotExist := by
    unfold ArcAct.says
    dsimp only
    rw [if_neg (by push Not; exact ⟨hp, hf, hw, hm⟩)]
    simp only [ZAct.tells, hg, found, hd]
    simp only [if_true, hm0, false_and, if_false]
    split_ifs <;> simp_all
  rcases arc_step (C := C) hr hs hX hmay hU depth (.zip z (.listdir m)) h1 with c | ⟨b1, b2⟩
  · rw [e] at c
    split_ifs at c
    cases c
  · rw [b1, e]

end

/-! ## Concrete cases -/

/-- the program that makes the calls of a list -/
def listSw {κ ζ : Type} (l : List (SweepAct κ ζ)) : SweepPrg κ ζ := fun h => l[h.length]?

/-- a member is written; it is asked for before and after the connection is dropped, and after it is read again -/
def sweepPrgL : List (SweepAct Bool (Option Bool)) :=
  [.act (.act (.act (.zip (some true) (.write [cl!"m", cl!"n"] [7])))), .act (.act (.act (.zip (some true) (.exists_ [cl!"m"])))), .sweep [some true],
   .act (.act (.act (.zip (some true) (.exists_ [cl!"m"])))), .act (.act (.act (.zip (some true) (.read [cl!"m", cl!"n"])))),
   .act (.act (.act (.zip (some true) (.exists_ [cl!"m"])))), .sweep [some true, some false], .act (.act (.act (.zip (some true) (.listdir [cl!"m"])))),
   .act (.act (.act (.zip (some true) (.isdir [cl!"m"])))), .sweep [some false], .act (.act (.act (.zip (some true) (.isdir [cl!"m"]))))]

theorem sweep_answers (loc : Bool → Bool) (h : loc = (fun b => b) ∨ loc = fun b => !b) :
    ((listSw sweepPrgL).exec (SweepAct.says toy (fun _ _ => true) loc toyArc 50) 40 ((fun _ => twinTree), fun _ => none)).1 =
    [.ok .unit, .ok (.bool true), .ok .unit, .error .attributeError, .ok (.bytes [7]), .ok (.bool true), .ok .unit, .ok (.names [cl!"n"]), .ok (.bool true), .ok .unit,
     .ok (.bool true)] := by
  rcases h with rfl | rfl <;> decide +kernel

/-- whichever of the two places is the local one -/
example (sw : Bool) : ((listSw sweepPrgL).exec (SweepAct.run toy (fun _ : Unit => []) (twinSite sw) (toyText sw) 50) 40 toyStart).1 =
    ((listSw sweepPrgL).exec (SweepAct.says toy (fun _ _ => true) (fun k => (twinSite sw k).isNone) toyArc 50) 40 ((fun _ => twinTree), fun _ => none)).1 :=
  (C127_program unit_inj (twinSite_inj sw) (toyText_inj sw) (toyText_conn sw) (may := fun _ _ => true) (by revert sw; unfold May; decide) (fun _ => rfl) (toyText_uri sw)
    (s := toyStart) twin_ok (fun k => twin_holds _) (fun _ _ c => nomatch c) 50 (listSw sweepPrgL) 40 (by
      intro x hx e
      change x ∈ ((listSw sweepPrgL).exec (SweepAct.says toy (fun _ _ => true) (fun k => (twinSite sw k).isNone) toyArc 50) 40 ((fun _ => twinTree), fun _ => none)).1 at hx
      rw [sweep_answers _ (toy_loc sw), e] at hx
      revert hx
      decide)).1

/-- Refuted: "dropping connections that are not in use changes no answer".  A member that exists is asked for: AttributeError. -/
theorem C127_refuted (sw : Bool) :
    ((listSw (sweepPrgL.take 4)).exec (SweepAct.run toy (fun _ : Unit => []) (twinSite sw) (toyText sw) 50) 9 toyStart).1 =
      [.ok .unit, .ok (.bool true), .ok .unit, .error .attributeError] ∧
    ((listSw ((sweepPrgL.take 2) ++ (sweepPrgL.drop 3).take 1)).exec (SweepAct.run toy (fun _ : Unit => []) (twinSite sw) (toyText sw) 50) 9 toyStart).1 =
      [.ok .unit, .ok (.bool true), .ok (.bool true)] := by
  revert sw
  decide +kernel

/-- writing a member heals -/
example (sw : Bool) : ((ArcAct.zip (some true) (.write [cl!"m"] [7]) : ArcAct Bool (Option Bool)).run toy (fun _ : Unit => []) (twinSite sw) (toyText sw) 50
      (toyStart.sweep [zkey (toyText sw (some true))])).1 =
    ((ArcAct.zip (some true) (.write [cl!"m"] [7]) : ArcAct Bool (Option Bool)).run toy (fun _ : Unit => []) (twinSite sw) (toyText sw) 50 toyStart).1 :=
  (C127_heals (C := toy) unit_inj (twinSite_inj sw) (toyText_inj sw) (toyText_conn sw) (may := fun _ _ => true) (by revert sw; unfold May; decide) (fun _ => rfl) (toyText_uri sw)
    (T := fun _ => twinTree) (s := toyStart) twin_ok (fun k => twin_holds _) (fun _ _ c => nomatch c) 50 (some true) (a := .write [cl!"m"] [7]) trivial
    (by show (ArcAct.says toy _ toyArc 50 _ ((fun _ => twinTree), fun _ => none)).1 ≠ _; decide +kernel)).1

/-- another archive is copied over the file of the archive; what was seen before is listed until the connection is dropped -/
def staleL : List (SweepAct Bool (Option Bool)) :=
  [.act (.act (.act (.zip (some true) (.write [cl!"m", cl!"n"] [7])))), .act (.act (.act (.zip (some false) (.write [cl!"m", cl!"k"] [8])))),
   .act (.act (.act (.call (.copy false [cl!"z"] true [cl!"z"] false [] true)))), .act (.act (.act (.zip (some true) (.listdir [cl!"m"])))), .sweep [some true],
   .act (.act (.act (.zip (some true) (.listdir [cl!"m"]))))]

/-- Refuted: "the listing of an archive is what its file holds"; dropping the connection changes it. -/
theorem C127_stale_refuted (sw : Bool) : ((listSw staleL).exec (SweepAct.run toy (fun _ : Unit => []) (twinSite sw) (toyText sw) 50) 9 toyStart).1 =
    [.ok .unit, .ok .unit, .ok .unit, .ok (.names [cl!"n"]), .ok .unit, .ok (.names [cl!"k"])] := by
  revert sw
  decide +kernel

theorem stale_says (loc : Bool → Bool) (h : loc = (fun b => b) ∨ loc = fun b => !b) :
    ((listSw staleL).exec (SweepAct.says toy (fun _ _ => true) loc toyArc 50) 4 ((fun _ => twinTree), fun _ => none)).1 =
      [.ok .unit, .ok .unit, .ok .unit, .ok (.names [cl!"n"])] ∧
    (((listSw staleL).exec (SweepAct.says toy (fun _ _ => true) loc toyArc 50) 4 ((fun _ => twinTree), fun _ => none)).2.1 true).get [cl!"z"] =
      some (.file (toy.store [] [⟨cl!"/m/k", [8]⟩])) ∧
    (((listSw staleL).exec (SweepAct.says toy (fun _ _ => true) loc toyArc 50) 4 ((fun _ => twinTree), fun _ => none)).2.1 true).Way [cl!"z"] := by
  rcases h with rfl | rfl <;> decide +kernel

/-- the same by the theorem -/
example (sw : Bool) : ((ArcAct.zip (some true) (.listdir [cl!"m"]) : ArcAct Bool (Option Bool)).run toy (fun _ : Unit => []) (twinSite sw) (toyText sw) 50
    (((listSw staleL).exec (SweepAct.run toy (fun _ : Unit => []) (twinSite sw) (toyText sw) 50) 4 toyStart).2.sweep [zkey (toyText sw (some true))])).1 =
    .ok (.names [cl!"k"]) := by
  have hmay : ∀ k k', (true : Bool) = true → May (twinSite sw k) (twinSite sw k') := by
    revert sw; unfold May; decide
  obtain ⟨h1, h2, h3⟩ := stale_says _ (toy_loc sw)
  have hq : ∀ x ∈ ((listSw staleL).exec (SweepAct.says toy (fun _ _ => true) (fun k => (twinSite sw k).isNone) toyArc 50) 4 ((fun _ => twinTree), fun _ => none)).1,
      x ≠ .error .outside := by
    rw [h1]
    decide
  obtain ⟨-, g⟩ := sweep_rel (C := toy) (arc := toyArc) (F := siteV (fun _ => 0) toyStart.sys) (G := toyStart.handle) unit_inj (twinSite_inj sw) (toyText_inj sw) (toyText_conn sw)
    (may := fun _ _ => true) (fun k k' => hmay k k') (loc := fun k => (twinSite sw k).isNone) (fun _ => rfl) (toyText_uri sw) 50 (listSw staleL) 4
    (x := ((fun _ => twinTree), fun _ => none)) (y := toyStart) ⟨⟨twin_ok, fun k => twin_holds _, fun _ _ => rfl⟩, (fun _ _ c => nomatch c), fun _ => rfl, fun _ _ => rfl⟩ hq
  rw [C127_lists (C := toy) (arc := toyArc) unit_inj (twinSite_inj sw) (toyText_inj sw) (may := fun _ _ => true) (fun k k' => hmay k k') (toyText_uri sw)
    g.rels.ok g.rels.here g.clean 50 (some true) (m := [cl!"m"]) (by decide) (by decide) (by decide) (by decide) h3 h2 (toy.back _ _), if_pos (by decide)]
  decide

end Verif.Props
