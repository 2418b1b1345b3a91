import Verif.Conc.Pool
import Verif.Gen.Tidy
/-!
# Which method calls an operation makes

`Op.Ok L G op Q`: as long as method calls answer as `Prim.Says` says, `op` makes only calls that satisfy `Prim.Fit`, and returns
something with the property `Q`.  If links are allowed (`L`) nothing is said of where the calls are; otherwise they are at and below the
home directory of the thread, or ask whether the directory that contains it is there.
-/
namespace Verif.Conc
open Mem Gen Spec

/-- where a thread works: the directory `base ++ [name]` in the file system `root` -/
structure Ground where
  conn : ConnKey → Option Nat
  root : Nat
  base : List Str
  name : Str

namespace Ground

/-- the home directory -/
def home (G : Ground) : List Str := G.base ++ [G.name]

/-- URIs of places at and below the home directory -/
def Inn (G : Ground) (u : Uri) : Prop :=
  ∃ E cs, u = mem E cs ∧ Ok cs ∧ FineAll cs ∧ G.home <+: cs ∧ G.conn (connKey (mem E [])) = some G.root

/-- URIs of the directory that contains the home directory -/
def Base (G : Ground) (u : Uri) : Prop :=
  ∃ E, u = mem E G.base ∧ Ok G.base ∧ G.conn (connKey (mem E [])) = some G.root

/-- the root of a connection -/
def Rt (G : Ground) (r : Nat) : Prop := ∃ k, G.conn k = some r

end Ground

section

theorem Op.next_next {α β γ : Type} (f : α → Op β) (g : β → Op γ) (m : Op α) : (m.next f).next g = m.next fun a => (f a).next g := by
  induction m with
  | ret r => cases r <;> rfl
  | ask p k ih => exact congrArg (Op.ask p) (funext ih)

instance : LawfulMonad Op := LawfulMonad.mk' Op
  (id_map := fun m => by
    show Op.next (fun a => .ret (.ok a)) m = m
    induction m with
    | ret r => cases r <;> rfl
    | ask p k ih => exact congrArg (Op.ask p) (funext ih))
  (pure_bind := fun _ _ => rfl)
  (bind_assoc := fun m f g => Op.next_next f g m)

variable (L : Prop) (G : Ground)

/-- the method calls that may be made -/
def Prim.Fit : {β : Type} → Prim β → Prop
  | _, .conn u _ => ¬ L → G.Inn u ∨ G.Base u
  | _, .isdir r u => G.Rt r ∧ (¬ L → r = G.root ∧ (G.Inn u ∨ G.Base u))
  | _, .exists_ r u | _, .isfile r u | _, .islink r u | _, .readlink r u | _, .listdir r u | _, .mkdir r u
  | _, .removefile r u | _, .removedir r u => G.Rt r ∧ (¬ L → r = G.root ∧ G.Inn u)
  | _, .symlink r _ _ => G.Rt r ∧ L
  | _, .copystat r u v => G.Rt r ∧ (¬ L → r = G.root ∧ G.Inn u ∧ G.Inn v)
  | _, .content u v => ¬ L → G.Inn u ∧ G.Inn v
  | _, .md5 u => ¬ L → G.Inn u

/-- what is known of the answers -/
def Prim.Says : {β : Type} → Prim β → Except PyErr β → Prop
  | _, .conn u _, x => ∀ r, x = .ok r → G.conn (connKey u) = some r
  | _, .isdir _ u, x => ¬ L → G.Base u → x = .ok true
  | _, .islink _ _, x => ¬ L → ∀ b, x = .ok b → b = false
  | _, .listdir _ _, x => ¬ L → ∀ l, x = .ok l → FineAll l
  | _, _, _ => True

/-- what an operation does as long as its calls answer as they should -/
def Op.Ok {α : Type} : Op α → (α → Prop) → Prop
  | .ret (.ok a), Q => Q a
  | .ret (.error _), _ => True
  | .ask p k, Q => p.Fit L G ∧ ∀ x, p.Says L G x → (k x).Ok Q

end

variable {L : Prop} {G : Ground}

theorem ite_bind {α β : Type} {c : Prop} [Decidable c] (a b : Op α) (g : α → Op β) :
    (if c then a >>= g else b >>= g) = (if c then a else b) >>= g := by split <;> rfl

namespace Op.Ok

theorem ret {α : Type} {a : α} {Q : α → Prop} (h : Q a) : Op.Ok L G (pure a) Q := h
theorem raise {α : Type} {e : PyErr} {Q : α → Prop} : Op.Ok L G (Op.raise e) Q := trivial

theorem bind {α β : Type} {m : Op α} {f : α → Op β} {Q : α → Prop} {Q' : β → Prop} (h : m.Ok L G Q) (h' : ∀ a, Q a → (f a).Ok L G Q') :
    (m >>= f).Ok L G Q' := by
  show (Op.next f m).Ok L G Q'
  induction m with
  | ret r =>
    cases r with
    | ok a => exact h' a h
    | error e => trivial
  | ask p k ih => exact ⟨h.1, fun x hx => ih x (h.2 x hx)⟩

theorem mono {α : Type} {m : Op α} {Q Q' : α → Prop} (h : m.Ok L G Q) (hq : ∀ a, Q a → Q' a) : m.Ok L G Q' := by
  induction m with
  | ret r =>
    cases r with
    | ok a => exact hq a h
    | error e => trivial
  | ask p k ih => exact ⟨h.1, fun x hx => ih x (h.2 x hx)⟩

theorem lift_bind {α β : Type} {x : Except PyErr α} {f : α → Op β} {Q : β → Prop} (h : ∀ a, x = .ok a → (f a).Ok L G Q) :
    (Op.lift x >>= f).Ok L G Q := by
  cases x with
  | error e => trivial
  | ok a => exact h a rfl

theorem ite {α : Type} {c : Prop} [Decidable c] {m m' : Op α} {Q : α → Prop} (h : m.Ok L G Q) (h' : m'.Ok L G Q) :
    (if c then m else m').Ok L G Q := by split <;> assumption

theorem get {β : Type} {p : Prim β} {Q : β → Prop} (h : p.Fit L G) (hq : ∀ b, p.Says L G (.ok b) → Q b) : (Op.get p).Ok L G Q := by
  refine ⟨h, fun x hx => ?_⟩
  cases x with
  | error e => trivial
  | ok b => exact hq b hx

theorem get_ {β : Type} {p : Prim β} (h : p.Fit L G) : (Op.get p).Ok L G fun _ => True := get h fun _ _ => trivial

end Op.Ok

/-! ## URIs -/

theorem Ground.Inn.div {u p : Uri} {n : Str} (h : G.Inn u) (hn : Fine n) (hp : u.div n = .ok p) : G.Inn p := by
  obtain ⟨E, cs, rfl, h1, h2, h3, h4⟩ := h
  rw [mem_div h2.clean hn.1] at hp
  cases hp
  refine ⟨E, cs ++ [n], rfl, h1.append ?_ (by simpa using hn.1), h2.snoc hn, h3.trans (List.prefix_append _ _), h4⟩
  rintro rfl
  rw [List.prefix_nil] at h3
  simp [Ground.home] at h3

theorem Ground.Inn.root {u : Uri} (h : G.Inn u) {r : Nat} (hr : G.conn (connKey u) = some r) : r = G.root := by
  obtain ⟨E, cs, rfl, -, -, -, h4⟩ := h
  rw [mem_key E cs [], h4] at hr
  cases hr; rfl

theorem Ground.Base.root {u : Uri} (h : G.Base u) {r : Nat} (hr : G.conn (connKey u) = some r) : r = G.root := by
  obtain ⟨E, rfl, -, h4⟩ := h
  rw [mem_key E _ [], h4] at hr
  cases hr; rfl

theorem Ground.home_ne {cs : List Str} (h3 : G.home <+: cs) : cs ≠ [] := by
  rintro rfl
  rw [List.prefix_nil] at h3
  simp [Ground.home] at h3

/-- the directory a place is in -/
theorem Ground.Inn.split {u pth : Uri} {tail : Str} (h : G.Inn u) (hs : u.split = .ok (pth, tail)) : (G.Inn pth ∨ G.Base pth) ∧ Fine tail := by
  obtain ⟨E, cs, rfl, h1, h2, h3, h4⟩ := h
  rcases List.eq_nil_or_concat cs with rfl | ⟨init, m, rfl⟩
  · exact absurd rfl (Ground.home_ne h3)
  · rw [List.concat_eq_append] at *
    rw [mem_split h2.init.clean (h2 m (by simp)).1] at hs
    cases hs
    refine ⟨?_, h2 _ (by simp)⟩
    rcases List.prefix_concat_iff.1 h3 with e | e
    · right
      have : G.base = init := by
        have := congrArg List.dropLast e
        simpa [Ground.home] using this
      subst this
      exact ⟨E, rfl, h1.of_prefix, h4⟩
    · exact .inl ⟨E, init, rfl, h1.of_prefix, h2.init, e, h4⟩

theorem Ground.Inn.last {u : Uri} (h : G.Inn u) : Fine u.last := by
  obtain ⟨E, cs, rfl, h1, h2, h3, h4⟩ := h
  rcases List.eq_nil_or_concat cs with rfl | ⟨init, m, rfl⟩
  · exact absurd rfl (Ground.home_ne h3)
  · rw [List.concat_eq_append] at *
    rw [mem_last (h2 m (by simp)).1]
    exact h2 m (by simp)

/-! ## Operations -/

/-- a method call on the connection of a URI -/
theorem ok_conn {α : Type} {u : Uri} {m : Meth} {body : Nat → Op α} {Q : α → Prop} (hu : ¬ L → G.Inn u ∨ G.Base u)
    (h : ∀ r, G.Rt r → (¬ L → r = G.root) → (body r).Ok L G Q) : (oConn u m body).Ok L G Q := by
  refine Op.Ok.bind (Op.Ok.get (Q := fun r => G.conn (connKey u) = some r) hu fun r hr => hr r rfl) fun r hr => h r ⟨_, hr⟩ fun hL => ?_
  rcases hu hL with h | h
  · exact h.root hr
  · exact h.root hr

section
variable {u v : Uri} (hu : ¬ L → G.Inn u)
include hu

theorem ok_isdir : (oIsdir u).Ok L G fun _ => True :=
  ok_conn (fun hL => .inl (hu hL)) fun _ hr h => .get_ ⟨hr, fun hL => ⟨h hL, .inl (hu hL)⟩⟩
theorem ok_exists : (oExists u).Ok L G fun _ => True :=
  ok_conn (fun hL => .inl (hu hL)) fun _ hr h => .get_ ⟨hr, fun hL => ⟨h hL, hu hL⟩⟩
theorem ok_isfile : (oIsfile u).Ok L G fun _ => True :=
  ok_conn (fun hL => .inl (hu hL)) fun _ hr h => .get_ ⟨hr, fun hL => ⟨h hL, hu hL⟩⟩
theorem ok_islink : (oIslink u).Ok L G fun b => ¬ L → b = false :=
  ok_conn (fun hL => .inl (hu hL)) fun _ hr h => .get ⟨hr, fun hL => ⟨h hL, hu hL⟩⟩ fun b hb hL => hb hL b rfl
theorem ok_mkdir : (oMkdir u).Ok L G fun _ => True :=
  ok_conn (fun hL => .inl (hu hL)) fun _ hr h => .get_ ⟨hr, fun hL => ⟨h hL, hu hL⟩⟩
theorem ok_listdir : (oListdir u).Ok L G fun l => ¬ L → FineAll l :=
  ok_conn (fun hL => .inl (hu hL)) fun _ hr h => .get ⟨hr, fun hL => ⟨h hL, hu hL⟩⟩ fun b hb hL => hb hL b rfl

end

/-- as `ok_isdir`, of the directory that contains the home directory -/
theorem ok_isdir' {u : Uri} (hu : ¬ L → G.Inn u ∨ G.Base u) : (oIsdir u).Ok L G fun b => ¬ L → G.Base u → b = true :=
  ok_conn hu fun _ hr h => .get ⟨hr, fun hL => ⟨h hL, hu hL⟩⟩ fun b hb hL hB => by simpa using hb hL hB

theorem ok_makedirs_ (n : Nat) : ∀ {u : Uri}, (¬ L → G.Inn u) → (oMakedirs_ n u).Ok L G fun _ => True := by
  induction n with
  | zero => intro u _; exact .raise
  | succ n ih =>
    intro u hu
    rw [oMakedirs_]
    refine (ok_isdir hu).bind fun b _ => .ite (.ret trivial) (.lift_bind fun x hx => ?_)
    obtain ⟨pth, tail⟩ := x
    have hp : ¬ L → G.Inn pth ∨ G.Base pth := fun hL => ((hu hL).split hx).1
    simp only
    refine (ok_isdir' hp).bind fun b hb => ?_
    have h2 : Op.Ok L G (if tail ≠ [] then oMkdir u else pure ()) fun _ => True := .ite (ok_mkdir hu) (.ret trivial)
    cases b with
    | true => exact h2
    | false =>
      refine Op.Ok.bind (Q := fun _ => True) (ih fun hL => ?_) fun _ _ => h2
      rcases hp hL with h | h
      · exact h
      · exact absurd (hb hL h) (by simp)

theorem ok_makedirs (n : Nat) {u : Uri} (hu : ¬ L → G.Inn u) : (oMakedirs n u).Ok L G fun _ => True :=
  ok_conn (fun hL => .inl (hu hL)) fun _ _ _ => ok_makedirs_ n hu

theorem ok_classify {r : Nat} (hr : G.Rt r) (h0 : ¬ L → r = G.root) {top : Uri} (ht : ¬ L → G.Inn top) (l : List Str) (hl : ¬ L → FineAll l) :
    (oClassify r top l).Ok L G fun x => ¬ L → FineAll x.1 ∧ FineAll x.2 := by
  induction l with
  | nil => exact .ret fun _ => ⟨by simp [FineAll], by simp [FineAll]⟩
  | cons x l ih =>
    rw [oClassify]
    refine .lift_bind fun p hp => (Op.Ok.get_ (p := .isdir r p) ⟨hr, fun hL => ⟨h0 hL, .inl ((ht hL).div (hl hL x (by simp)) hp)⟩⟩).bind fun d _ =>
      (ih fun hL c hc => hl hL c (by simp [hc])).bind fun y hy => .ret fun hL => ?_
    obtain ⟨a, b⟩ := y
    have key : ∀ l, FineAll l → FineAll (x :: l) := fun l h c hc => by
      rcases List.mem_cons.1 hc with rfl | hc
      · exact hl hL _ (by simp)
      · exact h c hc
    dsimp only
    split
    · exact ⟨key _ (hy hL).1, (hy hL).2⟩
    · exact ⟨(hy hL).1, key _ (hy hL).2⟩

/-- walking: `V` holds of the directories visited -/
theorem ok_walk {r : Nat} (hr : G.Rt r) (h0 : ¬ L → r = G.root) {σ : Type} {td f : Bool} {V : Uri → Prop}
    (hV : ∀ u, V u → ¬ L → G.Inn u) (hd : ∀ u n p, V u → (¬ L → Fine n) → u.div n = .ok p → V p)
    {body : σ → Uri → List Str → List Str → Op (σ × List Str)}
    (h : ∀ x u d m, V u → (¬ L → FineAll d) → (¬ L → FineAll m) → (body x u d m).Ok L G fun y => ¬ L → FineAll y.2)
    (n : Nat) : ∀ u x, V u → (oWalk_ r td f body n u x).Ok L G fun _ => True := by
  induction n with
  | zero => intro u x _; exact .raise
  | succ n ih =>
    intro u x hu
    rw [oWalk_]
    have hds : ∀ l, (¬ L → FineAll l) → ∀ x, (oWalkDirs f (oWalk_ r td f body n) u l x).Ok L G fun _ => True := by
      intro l
      induction l with
      | nil => intro _ _; exact .ret trivial
      | cons y l ihl =>
        intro hl x
        have hl' : ¬ L → FineAll l := fun hL c hc => hl hL c (by simp [hc])
        rw [oWalkDirs]
        refine .lift_bind fun p hp => ?_
        have hv := hd u y p hu (fun hL => hl hL y (by simp)) hp
        refine (ok_islink (hV p hv)).bind fun b _ => ?_
        have h1 : (if (!b || f) = true then oWalk_ r td f body n p x else pure x).Ok L G fun _ => True := .ite (ih p x hv) (.ret trivial)
        rw [ite_bind]
        exact h1.bind fun z _ => ihl hl' z
    refine (Op.Ok.get (p := .listdir r u) (Q := fun l => ¬ L → FineAll l) ⟨hr, fun hL => ⟨h0 hL, hV u hu hL⟩⟩ fun l hl hL => hl hL l rfl).bind fun names hn => ?_
    refine (ok_classify hr h0 (hV u hu) _ fun hL c hc => hn hL c (mem_sortStr.1 hc)).bind fun y hy => ?_
    obtain ⟨dirs, nondirs⟩ := y
    have h1 := fun x => h x u dirs nondirs hu (fun hL => (hy hL).1) fun hL => (hy hL).2
    exact .ite ((h1 x).bind fun z hz => hds z.2 hz z.1)
      ((hds dirs (fun hL => (hy hL).1) x).bind fun x' _ => (h1 x').bind fun _ _ => .ret trivial)

/-- walking at and below the home directory -/
theorem ok_walk' {r : Nat} (hr : G.Rt r) (h0 : ¬ L → r = G.root) {σ : Type} {td f : Bool}
    {body : σ → Uri → List Str → List Str → Op (σ × List Str)}
    (h : ∀ x u d m, (¬ L → G.Inn u) → (¬ L → FineAll d) → (¬ L → FineAll m) → (body x u d m).Ok L G fun y => ¬ L → FineAll y.2)
    (n : Nat) {u : Uri} (hu : ¬ L → G.Inn u) (x : σ) : (oWalk_ r td f body n u x).Ok L G fun _ => True :=
  ok_walk hr h0 (V := fun u => ¬ L → G.Inn u) (fun _ h => h) (fun _ _ _ h hn hp hL => (h hL).div (hn hL) hp) h n u x hu

theorem ok_uWalk (n : Nat) {u : Uri} (hu : ¬ L → G.Inn u) (td f : Bool) : (oWalk n u td f).Ok L G fun _ => True :=
  ok_conn (fun hL => .inl (hu hL)) fun _ hr h => ok_walk' hr h (fun _ _ _ _ _ hd _ => .ret hd) n hu []

theorem ok_mapM {α β : Type} {f : α → Op β} (h : ∀ a, (f a).Ok L G fun _ => True) (l : List α) : (l.mapM f).Ok L G fun _ => True := by
  induction l with
  | nil => rw [List.mapM_nil]; exact .ret trivial
  | cons a l ih => rw [List.mapM_cons]; exact (h a).bind fun _ _ => ih.bind fun _ _ => .ret trivial

theorem ok_glob {u : Uri} (hu : ¬ L → G.Inn u) (f : Str → Bool) : (oGlob u f).Ok L G fun _ => True :=
  ok_conn (fun hL => .inl (hu hL)) fun _ _ _ => (ok_listdir hu).bind fun l _ => ok_mapM (fun a => by
    unfold Op.lift
    cases u.div a <;> exact trivial) _

theorem ok_forM {α : Type} {f : α → Op PUnit} (l : List α) (h : ∀ a ∈ l, (f a).Ok L G fun _ => True) : (l.forM f).Ok L G fun _ => True := by
  induction l with
  | nil => exact .ret trivial
  | cons a l ih => exact (h a (by simp)).bind fun _ _ => ih fun b hb => h b (by simp [hb])

theorem ok_removeBody {r : Nat} (hr : G.Rt r) (h0 : ¬ L → r = G.root) {top : Uri} (ht : ¬ L → G.Inn top) {d m : List Str}
    (hd : ¬ L → FineAll d) (hm : ¬ L → FineAll m) : (oRemoveBody r top d m).Ok L G fun _ => True := by
  unfold oRemoveBody
  refine (ok_forM m fun a ha => .lift_bind fun p hp => ?_).bind fun _ _ => ok_forM d fun a ha => .lift_bind fun p hp => ?_
  · exact .get_ ⟨hr, fun hL => ⟨h0 hL, (ht hL).div (hm hL a ha) hp⟩⟩
  · have hf : G.Rt r ∧ (¬ L → r = G.root ∧ G.Inn p) := ⟨hr, fun hL => ⟨h0 hL, (ht hL).div (hd hL a ha) hp⟩⟩
    exact (Op.Ok.get_ (p := .islink r p) hf).bind fun b _ => .ite (.get_ hf) (.get_ hf)

theorem ok_removeDirRec (n : Nat) {r : Nat} (hr : G.Rt r) (h0 : ¬ L → r = G.root) {u : Uri} (hu : ¬ L → G.Inn u) :
    (oRemoveDirRec n r u).Ok L G fun _ => True := by
  unfold oRemoveDirRec
  refine (ok_walk' hr h0 (fun _ v d m hv hd hm => (ok_removeBody hr h0 hv hd hm).bind fun _ _ => .ret hd) n hu ()).bind fun _ _ => ?_
  have hf : G.Rt r ∧ (¬ L → r = G.root ∧ G.Inn u) := ⟨hr, fun hL => ⟨h0 hL, hu hL⟩⟩
  exact (Op.Ok.get_ (p := .islink r u) hf).bind fun b _ => .ite (.get_ hf) (.get_ hf)

theorem ok_remove (n : Nat) {u : Uri} (hu : ¬ L → G.Inn u) (rec : Bool) : (oRemove n u rec).Ok L G fun _ => True := by
  refine ok_conn (fun hL => .inl (hu hL)) fun r hr h0 => ?_
  have hf : G.Rt r ∧ (¬ L → r = G.root ∧ G.Inn u) := ⟨hr, fun hL => ⟨h0 hL, hu hL⟩⟩
  refine (Op.Ok.get_ (p := .islink r u) hf).bind fun b _ => .ite (.get_ hf) ?_
  refine (Op.Ok.get_ (p := .exists_ r u) hf).bind fun b _ => .ite .raise ?_
  refine (Op.Ok.get_ (p := .isdir r u) ⟨hr, fun hL => ⟨h0 hL, .inl (hu hL)⟩⟩).bind fun b _ =>
    .ite (.ite (ok_removeDirRec n hr h0 hu) (.get_ hf)) ?_
  exact (Op.Ok.get_ (p := .isfile r u) hf).bind fun b _ => .ite (.get_ hf) (.ret trivial)

theorem ok_copyLink {r : Nat} (hr : G.Rt r) (hL : L) (u v : Uri) : (oCopyLink r u v).Ok L G fun _ => True := by
  unfold oCopyLink
  have hn : ∀ {p : Prop}, ¬ L → p := fun h => absurd hL h
  refine (Op.Ok.get_ (p := .islink r u) ⟨hr, hn⟩).bind fun b _ => ?_
  have h2 : Op.Ok L G (do
      if ← oIsfile v then Op.get (.removefile r v)
      let t ← Op.get (.readlink r u)
      Op.get (.symlink r t v)) fun _ => True := by
    refine (ok_isfile hn).bind fun b' _ => ?_
    have h3 : Op.Ok L G (do
        let t ← Op.get (.readlink r u)
        Op.get (.symlink r t v)) fun _ => True :=
      (Op.Ok.get_ (p := .readlink r u) ⟨hr, hn⟩).bind fun t _ => .get_ ⟨hr, hL⟩
    cases b' with
    | false => exact h3
    | true => exact (Op.Ok.get_ (p := .removefile r v) ⟨hr, hn⟩).bind fun _ _ => h3
  cases b with
  | true => exact h2
  | false => exact (Op.Ok.raise (Q := fun _ => True)).bind fun _ _ => h2

/-- a link is copied only where there are links -/
theorem ok_maybeLink {b f : Bool} (hb : ¬ L → b = false) {r : Nat} (hr : G.Rt r) {u v : Uri} {m : Op Unit} (hm : m.Ok L G fun _ => True) :
    Op.Ok L G (if (b && !f) = true then oCopyLink r u v else m) fun _ => True := by
  split
  · rename_i h
    refine ok_copyLink hr ?_ u v
    by_contra hL
    rw [hb hL] at h
    simp at h
  · exact hm

theorem ok_copyOne {r : Nat} (hr : G.Rt r) (h0 : ¬ L → r = G.root) {u v : Uri} (hu : ¬ L → G.Inn u) (hv : ¬ L → G.Inn v) (f : Bool) :
    (oCopyOne r u v f).Ok L G fun _ => True := by
  unfold oCopyOne
  refine (ok_islink hu).bind fun b hb => ok_maybeLink hb hr ?_
  exact (Op.Ok.get_ (p := .content u v) fun hL => ⟨hu hL, hv hL⟩).bind fun _ _ =>
    .ite (.get_ ⟨hr, fun hL => ⟨h0 hL, hu hL, hv hL⟩⟩) (.ret trivial)

theorem ok_copyDirs (n : Nat) {r : Nat} (hr : G.Rt r) (ig : List Str) (f : Bool) {top dbase : Uri} (ht : ¬ L → G.Inn top) (hd : ¬ L → G.Inn dbase) :
    ∀ l m : List Str, (¬ L → FineAll l) → (¬ L → FineAll m) → (oCopyDirs n r ig f top dbase l m).Ok L G fun l => ¬ L → FineAll l := by
  intro l
  induction l with
  | nil => intro m _ hm; exact .ret hm
  | cons x l ih =>
    intro m hl hm
    have hl' : ¬ L → FineAll l := fun hL c hc => hl hL c (by simp [hc])
    rw [oCopyDirs]
    refine .ite (ih _ hl' fun hL c hc => hm hL c (List.mem_of_mem_erase hc)) (.lift_bind fun ddir h1 => .lift_bind fun srcp h2 => ?_)
    have hx := fun hL => hl hL x (by simp)
    refine (ok_islink fun hL => (ht hL).div (hx hL) h2).bind fun b hb => ?_
    have : ∀ (c : Prop) [Decidable c] (a b : Op Unit) (g : Unit → Op (List Str)), (if c then a >>= g else b >>= g) =
      (if c then a else b) >>= g := by intros; split <;> rfl
    rw [this]
    exact (ok_maybeLink hb hr (ok_makedirs n fun hL => (hd hL).div (hx hL) h1)).bind fun _ _ => ih m hl' hm

theorem ok_copyFiles {r : Nat} (hr : G.Rt r) (h0 : ¬ L → r = G.root) (f : Bool) {top dbase : Uri} (ht : ¬ L → G.Inn top) (hd : ¬ L → G.Inn dbase) :
    ∀ l : List Str, (¬ L → FineAll l) → (oCopyFiles r f top dbase l).Ok L G fun _ => True := by
  intro l
  induction l with
  | nil => intro _; exact .ret trivial
  | cons x l ih =>
    intro hl
    rw [oCopyFiles]
    have hx := fun hL => hl hL x (by simp)
    exact .lift_bind fun a h1 => .lift_bind fun b h2 =>
      (ok_copyOne hr h0 (fun hL => (ht hL).div (hx hL) h1) (fun hL => (hd hL).div (hx hL) h2) f).bind fun _ _ =>
        ih fun hL c hc => hl hL c (by simp [hc])

/-- fs.py:945-950 where the contents of a directory go -/
theorem dbase_inn {E : Dict} {s t : List Str} {droot : Uri} (hs : Ok (s ++ t)) (hs0 : s ≠ []) (hd : G.Inn droot) (ht : FineAll t) :
    ∃ d, G.Inn d ∧ (if stripW ((mem E (s ++ t)).path.drop ((mem E s).path.length + 1)) ≠ [] then
        Op.lift (droot.div (stripW ((mem E (s ++ t)).path.drop ((mem E s).path.length + 1)))) else pure droot : Op Uri) = pure d := by
  obtain ⟨D, ds, rfl, h1, h2, h3, h4⟩ := hd
  refine ⟨mem D (ds ++ t), ⟨D, _, rfl, h1.append (Ground.home_ne h3) ht.clean, h2.append ht, h3.trans (List.prefix_append _ _), h4⟩, ?_⟩
  have e1 : pathOf (s ++ t) = slash s ++ slash t := by rw [pathOf_ne (by simp [hs0]), slash_append]
  rw [mem_path hs, mem_path hs.of_prefix, e1, pathOf_ne hs0]
  by_cases h : t = []
  · subst h
    have : stripW ((slash s ++ slash []).drop ((slash s).length + 1)) = [] := by
      rw [List.drop_eq_nil_of_le (by simp [slash])]; rfl
    rw [this]
    simp
  · obtain ⟨p, h1, h2', h3⟩ := slash_trimmed h (fun n hn => ⟨(hs.clean n (by simp [hn])).ne, (ht n hn).2⟩)
    have : (slash s ++ slash t).drop ((slash s).length + 1) = p := by
      rw [h1, show slash s ++ '/' :: p = (slash s ++ ['/']) ++ p by simp, List.drop_left' (by simp)]
    rw [this, h3, if_pos h2']
    rw [mem_div_path h2.clean h (fun n hn => hs.clean n (by simp [hn])) D h1]
    rfl

/-- the directory `top` is at or below `u` -/
def Under (L : Prop) (u top : Uri) : Prop := ¬ L → ∃ E s t, u = mem E s ∧ top = mem E (s ++ t) ∧ Ok s ∧ FineAll s ∧ FineAll t

theorem ok_copyBody (n : Nat) {r : Nat} (hr : G.Rt r) (h0 : ¬ L → r = G.root) (ig : List Str) (f : Bool) {u top droot : Uri} (hu : ¬ L → G.Inn u)
    (ht : Under L u top) (hti : ¬ L → G.Inn top) (hd : ¬ L → G.Inn droot) {l m : List Str} (hl : ¬ L → FineAll l) (hm : ¬ L → FineAll m) :
    (oCopyBody n r ig f (u.path.length + 1) droot top l m).Ok L G fun l => ¬ L → FineAll l := by
  have h : ∀ dbase, (¬ L → G.Inn dbase) → Op.Ok L G (do
      let dirs' ← oCopyDirs n r ig f top dbase l l
      oCopyFiles r f top dbase m
      pure dirs') fun l => ¬ L → FineAll l := fun dbase hdb =>
    (ok_copyDirs n hr ig f hti hdb l l hl hl).bind fun x hx => (ok_copyFiles hr h0 f hti hdb m hm).bind fun _ _ => .ret hx
  unfold oCopyBody
  dsimp only
  have e : ∀ (c : Prop) [Decidable c] (a b : Op Uri) (g : Uri → Op (List Str)), (if c then a >>= g else b >>= g) =
      (if c then a else b) >>= g := by intros; split <;> rfl
  rw [e]
  by_cases hL : L
  · refine Op.Ok.bind (Q := fun _ => True) (.ite ?_ (.ret trivial)) fun d _ => h d fun h => absurd hL h
    generalize droot.div _ = x
    cases x <;> exact trivial
  · obtain ⟨E, s, t, rfl, rfl, hs, hfs, hft⟩ := ht hL
    have hs0 : s ≠ [] := by
      obtain ⟨E', cs, e1, h1, h2, h3, h4⟩ := hu hL
      have := stepsOf_mem hs E
      rw [e1, stepsOf_mem h1] at this
      simp at this
      rw [← this]
      exact Ground.home_ne h3
    obtain ⟨d, hdi, hde⟩ := dbase_inn (E := E) (hs.append hs0 hft.clean) hs0 (hd hL) hft
    rw [hde]
    exact h d fun _ => hdi

theorem ok_copyWalk (n : Nat) {r : Nat} (hr : G.Rt r) (h0 : ¬ L → r = G.root) (ig : List Str) (f : Bool) {u droot : Uri} (hu : ¬ L → G.Inn u)
    (hd : ¬ L → G.Inn droot) : (oCopyWalk n r ig f u droot).Ok L G fun _ => True := by
  refine ok_conn (fun hL => .inl (hu hL)) fun q hq hq0 => ?_
  refine ok_walk hq hq0 (V := fun v => Under L u v ∧ (¬ L → G.Inn v)) (fun v hv => hv.2) ?_ ?_ n u () ⟨?_, hu⟩
  · rintro v m p ⟨hv, hi⟩ hm hp
    refine ⟨fun hL => ?_, fun hL => (hi hL).div (hm hL) hp⟩
    obtain ⟨E, s, t, rfl, rfl, hs, hfs, hft⟩ := hv hL
    rw [mem_div (hfs.append hft).clean (hm hL).1] at hp
    cases hp
    exact ⟨E, s, t ++ [m], rfl, by rw [List.append_assoc], hs, hfs, hft.snoc (hm hL)⟩
  · exact fun _ v d m hv hd' hm => (ok_copyBody n hr h0 ig f hu hv.1 hv.2 hd hd' hm).bind fun y hy => .ret hy
  · intro hL
    obtain ⟨E', cs, rfl, h1, h2, h3, h4⟩ := hu hL
    exact ⟨E', cs, [], rfl, by simp, h1, h2, by simp [FineAll]⟩

theorem ok_copy_ (n : Nat) {r : Nat} (hr : G.Rt r) (h0 : ¬ L → r = G.root) {u v : Uri} (hu : ¬ L → G.Inn u) (hv : ¬ L → G.Inn v) (rec : Bool)
    (ig : List Str) (f : Bool) : (oCopy_ n r u v rec ig f).Ok L G fun _ => True := by
  have dest : ∀ {g : Uri → Op Unit}, (∀ d, (¬ L → G.Inn d) → (g d).Ok L G fun _ => True) → Op.Ok L G (do
      let dest ← if ← oIsdir v then Op.lift (v.div u.last) else pure v
      g dest) fun _ => True := by
    intro g hg
    refine (ok_isdir hv).bind fun b _ => ?_
    cases b with
    | true => exact .lift_bind fun d h => hg d fun hL => (hv hL).div (hu hL).last h
    | false => exact hg v hv
  have h1 : Op.Ok L G (do
      if !(← oIsfile u) then Op.raise .assertionError
      let dest ← if ← oIsdir v then Op.lift (v.div u.last) else pure v
      oCopyOne r u dest f) fun _ => True := by
    have := dest fun d hd => ok_copyOne hr h0 hu hd f
    refine (ok_isfile hu).bind fun b _ => ?_
    cases b with
    | true => exact this
    | false => exact (Op.Ok.raise (Q := fun _ => True)).bind fun _ _ => this
  have h2 : Op.Ok L G (do
      if !(← oIsdir u) then Op.raise .assertionError
      let droot ← if ← oIsdir v then Op.lift (v.div u.last) else pure v
      if (← oIslink u) && !f then oCopyLink r u droot
      else
        oMakedirs n droot
        oCopyWalk n r ig f u droot) fun _ => True := by
    have := dest (g := fun droot => do
      if (← oIslink u) && !f then oCopyLink r u droot
      else
        oMakedirs n droot
        oCopyWalk n r ig f u droot) fun d hd => (ok_islink hu).bind fun b hb => ok_maybeLink hb hr
          ((ok_makedirs n hd).bind fun _ _ => ok_copyWalk n hr h0 ig f hu hd)
    refine (ok_isdir hu).bind fun b _ => ?_
    cases b with
    | true => exact this
    | false => exact (Op.Ok.raise (Q := fun _ => True)).bind fun _ _ => this
  unfold oCopy_
  refine (ok_exists hu).bind fun b _ => ?_
  have h3 := fun (c : Prop) [Decidable c] => Op.Ok.ite (c := c) h1 h2
  cases b with
  | true => exact h3 _
  | false => exact (Op.Ok.raise (Q := fun _ => True)).bind fun _ _ => h3 _

theorem ok_copy (n : Nat) {u v : Uri} (hu : ¬ L → G.Inn u) (hv : ¬ L → G.Inn v) (rec : Bool) (ig : List Str) (f : Bool) :
    (oCopy n u v rec ig f).Ok L G fun _ => True :=
  ok_conn (fun hL => .inl (hu hL)) fun _ hr h0 => ok_copy_ n hr h0 hu hv rec ig f

theorem ok_move (n : Nat) {u v : Uri} (hu : ¬ L → G.Inn u) (hv : ¬ L → G.Inn v) : (oMove n u v).Ok L G fun _ => True := by
  refine ok_conn (fun hL => .inl (hu hL)) fun _ _ _ => (ok_isfile hu).bind fun b _ => ?_
  exact .ite ((ok_copy n hu hv _ _ _).bind fun _ _ => ok_remove n hu _) ((ok_copy n hu hv _ _ _).bind fun _ _ => ok_remove n hu _)

theorem ok_md5 {u : Uri} (hu : ¬ L → G.Inn u) : (oMd5 u).Ok L G fun _ => True := .get_ hu

theorem ok_tree {t : TreeCall} (hu : ¬ L → ∀ u ∈ t.uris, G.Inn u) : t.op.Ok L G fun _ => True := by
  have fin : ∀ {α : Type} {m : Op α} {f : α → Ans}, (m.Ok L G fun _ => True) → Op.Ok L G (m >>= fun a => pure (f a)) fun _ => True :=
    fun h => h.bind fun _ _ => .ret trivial
  cases t with
  | makedirs n u => exact fin (ok_makedirs n fun hL => hu hL u (by simp [TreeCall.uris]))
  | remove n u r => exact fin (ok_remove n (fun hL => hu hL u (by simp [TreeCall.uris])) r)
  | walk n u t f => exact fin (ok_uWalk n (fun hL => hu hL u (by simp [TreeCall.uris])) t f)
  | glob u m => exact fin (ok_glob (fun hL => hu hL u (by simp [TreeCall.uris])) m)
  | copy n u v r i f =>
    exact fin (ok_copy n (fun hL => hu hL u (by simp [TreeCall.uris])) (fun hL => hu hL v (by simp [TreeCall.uris])) r i f)
  | move n u v => exact fin (ok_move n (fun hL => hu hL u (by simp [TreeCall.uris])) fun hL => hu hL v (by simp [TreeCall.uris]))
  | md5 u => exact fin (ok_md5 fun hL => hu hL u (by simp [TreeCall.uris]))

end Verif.Conc
