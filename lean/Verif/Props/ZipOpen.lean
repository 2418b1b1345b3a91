import Verif.Zip.Open
import Verif.Zip.Lemmas
import Verif.Any.ArcLemmas
import Verif.Any.FilesLemmas
/-!
# C125 Members of an archive that are open for writing at the same time
-/
namespace Verif.Props
open Verif.Spec Verif.Zip
open Verif.Any (member hasDir namesIn putAt Nm)

/-- the connection is in the state that the description tells -/
structure ZRel (d : Desk) (t : Tally) : Prop where
  stmts : d.stmts = t.stmts
  names : ∀ s ∈ t.stmts, s.path ≠ [] ∧ '\x00' ∉ s.path
  base : t.base ≠ .dir
  fresh : t.use = .fresh → d.z = ⟨t.base, none⟩ ∧ t.kept = [] ∧ t.stmts = []
  reading : t.use = .reading → d.z = ⟨.archive t.members, some ⟨.r, t.members, false, false⟩⟩
  writing : t.use = .writing → ∃ f m b, m ≠ .r ∧ d.z = ⟨f, some ⟨m, t.members, b, false⟩⟩ ∧ (b = false → f = .archive t.members) ∧ f ≠ .missing

/-- the state after a connection that was used is opened for reading -/
def seenSt (t : Tally) : St := ⟨.archive t.members, some ⟨.r, t.members, false, false⟩⟩

variable {d : Desk} {t : Tally}

theorem zrel_close (h : ZRel d t) (hu : t.use ≠ .fresh) : ∃ m, closeZip d.z = ⟨.archive t.members, some ⟨m, t.members, false, true⟩⟩ := by
  cases hv : t.use with
  | fresh => exact absurd hv hu
  | reading => exact ⟨.r, by rw [h.reading hv]; rfl⟩
  | writing =>
    obtain ⟨f, m, b, -, e, h2, -⟩ := h.writing hv
    refine ⟨m, ?_⟩
    rw [e]
    cases b with
    | true => rfl
    | false => rw [h2 rfl]; rfl

theorem zrel_openR (h : ZRel d t) : openZip none d.z =
    match t.found with
    | .ok () => (.ok (), seenSt t)
    | .error e => (.error e, d.z) := by
  by_cases hu : t.use = .fresh
  · obtain ⟨e, hk, -⟩ := h.fresh hu
    unfold Tally.found
    rw [if_neg (by simpa using hu), e]
    cases hb : t.base with
    | archive es =>
      have : t.members = es := by unfold Tally.members; rw [hb, hk]; simp
      unfold seenSt
      rw [this]
      rfl
    | raw => rfl
    | missing => rfl
    | dir => exact absurd hb h.base
  · obtain ⟨m, e⟩ := zrel_close h hu
    unfold Tally.found
    rw [if_pos hu]
    unfold openZip
    simp only [e]
    rfl

theorem zrel_read (h : ZRel d t) : ZRel ⟨seenSt t, d.stmts⟩ { t with use := .reading } :=
  ⟨h.stmts, h.names, h.base, (fun c => nomatch c), fun _ => rfl, fun c => nomatch c⟩

theorem zrel_handle (h : ZRel d t) (hu : t.use ≠ .fresh) : ∃ g, d.z.handle = some g ∧ g.entries = t.members ∧ d.z.file ≠ .missing := by
  cases hv : t.use with
  | fresh => exact absurd hv hu
  | reading => exact ⟨_, by rw [h.reading hv], rfl, by rw [h.reading hv]; simp⟩
  | writing =>
    obtain ⟨f, m, b, -, e, -, h3⟩ := h.writing hv
    exact ⟨_, by rw [e], rfl, by rw [e]; exact h3⟩

theorem zrel_buf (h : ZRel d t) {i : Nat} {f : Stmt → Except PyErr (Reply × Stmt)} {g : Stmt → Reply × Stmt} (hfg : ∀ s, f s = .ok (g s))
    (hp : ∀ s, (g s).2.path = s.path) : (onBuf i f d).1 = (t.onBuf i g).1 ∧ ZRel (onBuf i f d).2 (t.onBuf i g).2 := by
  unfold onBuf Tally.onBuf
  rw [h.stmts]
  cases hs : t.stmts[i]? with
  | none => exact ⟨rfl, h⟩
  | some s =>
    dsimp only
    split_ifs with hc
    · exact ⟨rfl, h⟩
    · rw [hfg]
      refine ⟨rfl, ?_, fun s' hs' => ?_, h.base, fun hu => ?_, h.reading, h.writing⟩
      · dsimp only
      · rcases List.mem_or_eq_of_mem_set hs' with h1 | rfl
        · exact h.names _ h1
        · rw [hp]; exact h.names _ (List.mem_of_getElem? hs)
      · rw [(h.fresh hu).2.2] at hs; simp at hs

theorem ispart_of {p : Str} (hp : p ≠ ['/']) {z : St} {g : ZHandle} (hg : z.handle = some g) (ex : List Cmp) :
    ispart p ex z = (.ok (g.entries.any fun e => decide (comparePathStrings p e.name ∈ ex)), z) := by
  unfold ispart
  rw [if_neg hp, hg]

theorem any_isfile {es : List Entry} {m : List Str} : (es.any fun e => decide (comparePathStrings (pathOf m) e.name ∈ [Cmp.isfile])) = (member es m).isSome := by
  rw [Any.member_isSome]
  congr 1
  funext e
  simp [comparePathStrings_isfile]

theorem any_isdir {es : List Entry} {m : List Str} (hm : m ≠ []) : (es.any fun e => decide (comparePathStrings (pathOf m) e.name ∈ [Cmp.isdir])) = decide (hasDir es m) := by
  rw [Bool.eq_iff_iff, List.any_eq_true, decide_eq_true_eq, Any.dir_iff hm]
  simp

theorem any_exists {es : List Entry} {m : List Str} (hm : m ≠ []) :
    (es.any fun e => decide (comparePathStrings (pathOf m) e.name ∈ [Cmp.isdir, Cmp.isfile])) = decide ((member es m).isSome = true ∨ hasDir es m) := by
  rw [Bool.eq_iff_iff, List.any_eq_true, decide_eq_true_eq, Any.dir_iff hm, Any.member_isSome, List.any_eq_true]
  simp only [List.mem_cons, List.not_mem_nil, or_false, decide_eq_true_eq, comparePathStrings_isfile]
  constructor
  · rintro ⟨e, he, h | h⟩
    · exact .inr ⟨e, he, h⟩
    · exact .inl ⟨e, he, h⟩
  · rintro (⟨e, he, h⟩ | ⟨e, he, h⟩)
    · exact ⟨e, he, .inr h⟩
    · exact ⟨e, he, .inl h⟩

theorem zrel_ask (h : ZRel d t) {m : List Str} (hm : Nm m) {ex : List Cmp} {b : Bool}
    (hb : m ≠ [] → (t.members.any fun e => decide (comparePathStrings (pathOf m) e.name ∈ ex)) = b) :
    ask (ispart (pathOf m) ex) .bool d =
      (if m = [] then (.ok (.bool true)) else if t.use = .fresh then .error .attributeError else .ok (.bool b), d) := by
  unfold ask
  by_cases h0 : m = []
  · subst h0; rfl
  · have hp : pathOf m ≠ ['/'] := fun c => h0 ((Any.pathOf_root hm).1 c)
    rw [if_neg h0]
    by_cases hu : t.use = .fresh
    · rw [if_pos hu]
      unfold ispart
      rw [if_neg hp, (h.fresh hu).1]
      dsimp only
      rw [← (h.fresh hu).1]
      rfl
    · obtain ⟨g, hg, he, -⟩ := zrel_handle h hu
      rw [if_neg hu, ispart_of hp hg, he, hb h0]
      rfl

theorem zrel_names (h : ZRel d t) (hu : t.use ≠ .fresh) {m : List Str} (hm : Nm m) : (listdirOpen (pathOf m) d.z) =
    (if ¬ hasDir t.members m then .error .fileDoesNotExist
      else .ok (sortStr ((t.members.map fun e => contentItem (pathOf m) e.name).filter fun c => c ≠ []).dedup), d.z) := by
  obtain ⟨g, hg, he, -⟩ := zrel_handle h hu
  unfold listdirOpen
  rw [hg]
  dsimp only
  by_cases h0 : m = []
  · subst h0
    rw [if_neg (by simp [hasDir]), he]
    rfl
  · unfold Zip.isdir
    rw [ispart_of (fun c => h0 ((Any.pathOf_root hm).1 c)) hg, he, any_isdir h0]
    by_cases hd : hasDir t.members m
    · rw [decide_eq_true hd, if_neg (not_not.2 hd)]
    · rw [decide_eq_false hd, if_pos hd]

/-- each step answers what the description says, and leaves what it says -/
theorem C125_step (h : ZRel d t) (a : Act) (hm : Nm a.about) (ho : (a.says t).1 ≠ .error .outside) : (a.run d).1 = (a.says t).1 ∧ ZRel (a.run d).2 (a.says t).2 := by
  cases a with
  | begin m =>
    unfold Act.says at ho ⊢
    dsimp only at ho ⊢
    split_ifs at ho ⊢ with hc
    · exact absurd rfl ho
    push Not at hc
    have key : ∃ f md b, md ≠ .r ∧ open_ (pathOf m) (some cl!"w") d.z = (.ok .statement, ⟨f, some ⟨md, t.members, b, false⟩⟩) ∧ (b = false → f = .archive t.members) ∧ f ≠ .missing := by
      unfold open_ openZip
      by_cases hu : t.use = .fresh
      · obtain ⟨e, hk, -⟩ := h.fresh hu
        rw [e]
        cases hb : t.base with
        | archive es =>
          have : t.members = es := by unfold Tally.members; rw [hb, hk]; simp
          rw [this]
          exact ⟨.archive es, .a, false, by simp, rfl, fun _ => rfl, by simp⟩
        | raw =>
          have : t.members = [] := by unfold Tally.members; rw [hb, hk]; simp
          rw [this]
          exact ⟨.raw, .a, true, by simp, rfl, by simp, by simp⟩
        | missing =>
          have : t.members = [] := by unfold Tally.members; rw [hb, hk]; simp
          rw [this]
          exact ⟨_, .w, true, by simp, rfl, by simp, by simp⟩
        | dir => exact absurd hb h.base
      · obtain ⟨m', e⟩ := zrel_close h hu
        simp only [e]
        exact ⟨_, .a, false, by simp, rfl, fun _ => rfl, by simp⟩
    obtain ⟨f, md, b, k1, k2, k3, k4⟩ := key
    unfold Act.run
    dsimp only
    rw [k2, h.stmts]
    refine ⟨rfl, rfl, fun s hs => ?_, h.base, (fun c => nomatch c), (fun c => nomatch c), fun _ => ⟨f, md, b, k1, rfl, k3, k4⟩⟩
    rcases List.mem_append.1 hs with h1 | h1
    · exact h.names s h1
    · rw [List.mem_singleton.1 h1]
      refine ⟨?_, hc.2.2⟩
      obtain ⟨c, l, rfl⟩ := List.exists_cons_of_ne_nil hc.2.1
      simp [pathOf, slash]
  | write i b =>
    refine zrel_buf h (fun s => ?_) fun s => ?_
    · by_cases hb : b = []
      · subst hb; rfl
      · simp only [Any.write_eq_putAt hb, if_neg hb]
    · split_ifs <;> rfl
  | seek i n =>
    refine zrel_buf h (fun s => ?_) fun s => rfl
    have : ¬ (n : Int) < 0 := by omega
    simp [BytesIO.seek, Except.map, this]
  | truncate i =>
    refine zrel_buf h (fun s => ?_) fun s => rfl
    have : ¬ (s.pos : Int) < 0 := by omega
    simp [BytesIO.truncate, Except.map, this]
  | value i => exact zrel_buf h (fun s => rfl) fun s => rfl
  | close i =>
    unfold Act.run Act.says
    dsimp only
    rw [h.stmts]
    cases hs : t.stmts[i]? with
    | none => exact ⟨rfl, h⟩
    | some s =>
      refine ⟨rfl, rfl, fun s' hs' => ?_, h.base, fun hu => ?_, h.reading, h.writing⟩
      · rcases List.mem_or_eq_of_mem_set hs' with h1 | rfl
        · exact h.names _ h1
        · exact h.names s (List.mem_of_getElem? hs)
      · rw [(h.fresh hu).2.2] at hs; simp at hs
  | leave i =>
    unfold Act.run Act.says
    dsimp only
    rw [h.stmts]
    cases hs : t.stmts[i]? with
    | none => exact ⟨rfl, h⟩
    | some s =>
      dsimp only
      by_cases hc : s.closed = true
      · rw [if_pos hc, if_pos (.inl hc)]; exact ⟨rfl, h⟩
      rw [if_neg hc]
      have hn := h.names s (List.mem_of_getElem? hs)
      have hzn : zipName s.path = s.path := by
        have := takeWhile_stop (p := fun c => decide (c ≠ '\x00')) (a := s.path) (b := []) (fun c hc => by simpa using fun (e : c = '\x00') => hn.2 (e ▸ hc)) (by simp)
        simpa [zipName] using this
      cases hu : t.use with
      | fresh => rw [(h.fresh hu).2.2] at hs; simp at hs
      | reading =>
        rw [if_pos (.inr (by simp))]
        have : exitWriting s.path s.buf d.z = (.error .valueError, d.z) := by rw [h.reading hu]; rfl
        rw [this]
        refine ⟨rfl, ?_⟩
        dsimp only
        rw [← h.stmts]
        exact h
      | writing =>
        rw [if_neg (by simp [hc])]
        obtain ⟨f, m, b, k1, e, -, -⟩ := h.writing hu
        have : exitWriting s.path s.buf d.z = (.ok (), ⟨.archive (t.members ++ [⟨s.path, s.buf⟩]), some ⟨.r, t.members ++ [⟨s.path, s.buf⟩], false, false⟩⟩) := by
          rw [e]
          unfold exitWriting
          dsimp only
          rw [if_neg (by simp), if_neg k1, hzn, if_neg hn.1]
          rfl
        rw [this]
        refine ⟨rfl, rfl, fun s' hs' => ?_, h.base, (fun c => nomatch c), fun _ => ?_, fun c => nomatch c⟩
        · rcases List.mem_or_eq_of_mem_set hs' with h1 | rfl
          · exact h.names _ h1
          · exact hn
        · simp only [Tally.members, List.append_assoc]
  | read m =>
    unfold Act.run Act.says ask
    dsimp only
    unfold Zip.read open_
    rw [zrel_openR h]
    cases hf : t.found with
    | error e => exact ⟨rfl, h⟩
    | ok x =>
      dsimp only
      rw [if_pos (by decide +kernel)]
      unfold openForReading
      have : (seenSt t).handle = some ⟨.r, t.members, false, false⟩ := rfl
      rw [this]
      dsimp only
      have hg := Any.getinfo_member (es := t.members) (m := m)
      cases hv : getinfo t.members (pathOf m) with
      | none =>
        rw [hv] at hg
        rw [← hg]
        exact ⟨rfl, zrel_read h⟩
      | some e =>
        rw [hv] at hg
        rw [← hg]
        exact ⟨rfl, zrel_read h⟩
  | isfile m =>
    have hm : Nm m := hm
    show (ask (ispart (pathOf m) [.isfile]) .bool d).1 = _ ∧ ZRel (ask (ispart (pathOf m) [.isfile]) .bool d).2 _
    rw [zrel_ask h hm fun _ => any_isfile]
    unfold Act.says
    dsimp only
    split_ifs <;> exact ⟨rfl, h⟩
  | isdir m =>
    have hm : Nm m := hm
    show (ask (ispart (pathOf m) [.isdir]) .bool d).1 = _ ∧ ZRel (ask (ispart (pathOf m) [.isdir]) .bool d).2 _
    rw [zrel_ask h hm any_isdir]
    unfold Act.says
    dsimp only
    split_ifs <;> exact ⟨rfl, h⟩
  | exists_ m =>
    have hm : Nm m := hm
    show (ask (ispart (pathOf m) [.isdir, .isfile]) .bool d).1 = _ ∧ ZRel (ask (ispart (pathOf m) [.isdir, .isfile]) .bool d).2 _
    rw [zrel_ask h hm any_exists]
    unfold Act.says
    dsimp only
    split_ifs <;> exact ⟨rfl, h⟩
  | listdir m =>
    have hm : Nm m := hm
    have hnames : ∀ {d' : Desk} {t' : Tally}, ZRel d' t' → t'.use ≠ .fresh → t'.members = t.members →
        ((if ¬ hasDir t.members m then (.error .fileDoesNotExist, t')
          else if m = [] ∧ ∃ e ∈ t.members, e.name.head? ≠ some '/' then (.error .outside, t')
          else (.ok (.names (namesIn t.members m)), t') : Except PyErr Reply × Tally)).1 ≠ .error .outside →
        ((listdirOpen (pathOf m) d'.z).1.map .names = ((if ¬ hasDir t.members m then (.error .fileDoesNotExist, t')
          else if m = [] ∧ ∃ e ∈ t.members, e.name.head? ≠ some '/' then (.error .outside, t')
          else (.ok (.names (namesIn t.members m)), t') : Except PyErr Reply × Tally)).1 ∧
        ZRel ⟨(listdirOpen (pathOf m) d'.z).2, d'.stmts⟩ ((if ¬ hasDir t.members m then (.error .fileDoesNotExist, t')
          else if m = [] ∧ ∃ e ∈ t.members, e.name.head? ≠ some '/' then (.error .outside, t')
          else (.ok (.names (namesIn t.members m)), t') : Except PyErr Reply × Tally)).2) := by
      intro d' t' h' hu' he ho'
      rw [zrel_names h' hu' hm, he]
      by_cases h1 : hasDir t.members m
      swap
      · rw [if_pos h1]
        simp only [h1, not_false_eq_true, if_true]
        exact ⟨rfl, h'⟩
      rw [if_neg (not_not.mpr h1)] at ho' ⊢
      by_cases h2 : m = [] ∧ ∃ e ∈ t.members, e.name.head? ≠ some '/'
      · rw [if_pos h2] at ho'
        exact absurd rfl ho'
      · rw [if_neg h2, if_neg (not_not.mpr h1)]
        refine ⟨?_, h'⟩
        dsimp only
        rw [Any.names_eq hm fun h0 e he => by
          by_contra hc
          exact h2 ⟨h0, e, he, hc⟩]
        rfl
    unfold Act.says at ho ⊢
    dsimp only at ho ⊢
    unfold Act.run ask Zip.listdir
    dsimp only
    by_cases hu : t.use = .fresh
    · obtain ⟨e, -, -⟩ := h.fresh hu
      by_cases hb : t.base = .missing
      · rw [if_pos (show d.z.file = .missing by rw [e]; exact hb), if_pos ⟨hu, hb⟩]
        exact ⟨rfl, h⟩
      · have k : ¬ (t.use = .fresh ∧ t.base = .missing) := fun c => hb c.2
        rw [if_neg k] at ho ⊢
        rw [if_neg (show d.z.file ≠ .missing by rw [e]; exact hb)]
        have hh : d.z.handle = none := by rw [e]
        rw [hh]
        dsimp only
        rw [zrel_openR h]
        cases hf : t.found with
        | error x => exact ⟨rfl, h⟩
        | ok x =>
          rw [hf] at ho
          dsimp only at ho ⊢
          rw [if_pos hu] at ho ⊢
          exact hnames (zrel_read h) (by simp) rfl ho
    · have k : ¬ (t.use = .fresh ∧ t.base = .missing) := fun c => hu c.1
      rw [if_neg k] at ho ⊢
      obtain ⟨g, hg, -, hx⟩ := zrel_handle h hu
      rw [if_neg hx, hg]
      have hf : t.found = .ok () := by unfold Tally.found; rw [if_pos hu]
      rw [hf] at ho ⊢
      dsimp only at ho ⊢
      rw [if_neg hu] at ho ⊢
      exact hnames h hu rfl ho

/-- a new connection to the archive `c` -/
def newDesk (c : Container) : Desk := ⟨⟨c, none⟩, []⟩

/-- what the description says of a new connection to the archive `c` -/
def newTally (c : Container) : Tally := ⟨c, [], .fresh, []⟩

theorem zrel_new {c : Container} (hc : c ≠ .dir) : ZRel (newDesk c) (newTally c) :=
  ⟨rfl, (fun _ h => by simp [newTally] at h), hc, (fun _ => ⟨rfl, rfl, rfl⟩), (fun h => nomatch h), fun h => nomatch h⟩

/-- Whatever a program does with a connection to an archive and with the statements it has got (any number of them at a time,
    left in any order or never), it gets the answers that are expected, and the archive is as expected.  (Steps outside: a
    name with a NUL, the root as a member, a list of the root of an archive with members like a//b, a statement the program
    has not got.) -/
theorem C125_program {c : Container} (hc : c ≠ .dir) (pr : ZPrg)
    (hm : ∀ l a, pr l = some a → Nm a.about) :
    ∀ n, (∀ x ∈ (pr.exec Act.says n (newTally c)).1, x ≠ .error .outside) →
      (pr.exec Act.run n (newDesk c)).1 = (pr.exec Act.says n (newTally c)).1 ∧
      ZRel (pr.exec Act.run n (newDesk c)).2 (pr.exec Act.says n (newTally c)).2 := by
  intro n
  induction n with
  | zero => intro _; exact ⟨rfl, zrel_new hc⟩
  | succ n ih =>
    intro ho
    unfold ZPrg.exec at ho ⊢
    dsimp only at ho ⊢
    cases hp : pr (pr.exec Act.says n (newTally c)).1 with
    | none =>
      rw [hp] at ho
      obtain ⟨h1, h2⟩ := ih ho
      rw [h1, hp]
      exact ⟨h1, h2⟩
    | some a =>
      rw [hp] at ho
      dsimp only at ho
      obtain ⟨h1, h2⟩ := ih fun x hx => ho x (List.mem_append_left _ hx)
      rw [h1, hp]
      obtain ⟨h3, h4⟩ := C125_step h2 a (hm _ _ hp) (ho _ (by simp))
      dsimp only
      exact ⟨by rw [h3], h4⟩

/-! ## What this means for the members -/

/-- the answers to a list of steps, and what is left -/
def doAll : List Act → Desk → List (Except PyErr Reply) × Desk
  | [], d => ([], d)
  | a :: l, d => ((a.run d).1 :: (doAll l (a.run d).2).1, (doAll l (a.run d).2).2)

/-- the members of the archive, once the connection is closed -/
def held (d : Desk) : List Entry := stored (closeZip d.z)

theorem zrel_held (h : ZRel d t) : held d = t.members := by
  unfold held
  by_cases hu : t.use = .fresh
  · obtain ⟨e, hk, -⟩ := h.fresh hu
    rw [e]
    unfold Tally.members
    rw [hk]
    cases t.base <;> simp [closeZip, stored]
  · obtain ⟨m, e⟩ := zrel_close h hu
    rw [e]
    rfl

/-- the member that a step stores, by its answer: that of a statement that is left -/
def put : Act → Except PyErr Reply → List Stmt → List Entry
  | .leave i, .ok _, l => (l[i]?.map fun s => ⟨s.path, s.buf⟩).toList
  | _, _, _ => []

theorem says_members (a : Act) (t : Tally) : (a.says t).2.members = t.members ++ put a (a.says t).1 t.stmts := by
  have hb : ∀ (i : Nat) (f : Stmt → Reply × Stmt), (t.onBuf i f).2.members = t.members := by
    intro i f
    unfold Tally.onBuf
    cases t.stmts[i]? with
    | none => rfl
    | some s => dsimp only; split_ifs <;> rfl
  cases a with
  | leave i =>
    unfold Act.says
    dsimp only
    cases hs : t.stmts[i]? with
    | none => simp [put]
    | some s =>
      dsimp only
      split_ifs with hc
      · simp [put]
      · simp [Tally.members, put, hs]
  | begin m => unfold Act.says; dsimp only; split_ifs <;> simp [Tally.members, put]
  | write i b => simpa [Act.says, put] using hb i _
  | seek i n => simpa [Act.says, put] using hb i _
  | truncate i => simpa [Act.says, put] using hb i _
  | value i => simpa [Act.says, put] using hb i _
  | close i => unfold Act.says; dsimp only; cases t.stmts[i]? <;> simp [Tally.members, put]
  | read m =>
    unfold Act.says
    dsimp only
    cases t.found with
    | error e => simp [put]
    | ok x => dsimp only; cases member t.members m <;> simp [Tally.members, put]
  | exists_ m => unfold Act.says; dsimp only; split_ifs <;> simp [put]
  | isfile m => unfold Act.says; dsimp only; split_ifs <;> simp [put]
  | isdir m => unfold Act.says; dsimp only; split_ifs <;> simp [put]
  | listdir m =>
    unfold Act.says
    dsimp only
    split_ifs
    · simp [put]
    all_goals
      cases t.found with
      | error e => simp [put]
      | ok x => simp [Tally.members, put]

/-- The only step that changes the members of the archive is leaving a statement, if it does not raise: it adds the member
    with the bytes of the statement. -/
theorem C125_stored (h : ZRel d t) (a : Act) (hm : Nm a.about) (ho : (a.says t).1 ≠ .error .outside) :
    held (a.run d).2 = held d ++ put a (a.run d).1 d.stmts := by
  obtain ⟨h1, h2⟩ := C125_step h a hm ho
  rw [zrel_held h2, zrel_held h, h1, says_members, h.stmts]

/-- the steps are none of those outside -/
def ActsFit : List Act → Tally → Prop
  | [], _ => True
  | a :: l, t => Nm a.about ∧ (a.says t).1 ≠ .error .outside ∧ ActsFit l (a.says t).2

/-- A program that leaves no statement (it may open, write and close as many as it likes) stores nothing. -/
theorem C125_unleft : ∀ {l : List Act} {d : Desk} {t : Tally}, ZRel d t → ActsFit l t → (∀ i, Act.leave i ∉ l) → held (doAll l d).2 = held d
  | [], _, _, _, _, _ => rfl
  | a :: l, d, t, h, hc, hl => by
    obtain ⟨hm, ho, hc⟩ := hc
    have h2 := (C125_step h a hm ho).2
    show held (doAll l (a.run d).2).2 = _
    rw [C125_unleft h2 hc fun i hi => hl i (List.mem_cons_of_mem _ hi), C125_stored h a hm ho]
    have : put a (a.run d).1 d.stmts = [] := by
      cases a with
      | leave i => exact absurd (List.mem_cons_self ..) (hl i)
      | _ => rfl
    rw [this, List.append_nil]

theorem says_reading {a : Act} {t : Tally} (hu : t.use = .reading) (ha : ∀ m, a ≠ .begin m) : (a.says t).2.use = .reading := by
  have hb : ∀ (i : Nat) (f : Stmt → Reply × Stmt), (t.onBuf i f).2.use = .reading := by
    intro i f
    unfold Tally.onBuf
    cases t.stmts[i]? with
    | none => exact hu
    | some s => dsimp only; split_ifs <;> exact hu
  cases a with
  | begin m => exact absurd rfl (ha m)
  | write i b => exact hb i _
  | seek i n => exact hb i _
  | truncate i => exact hb i _
  | value i => exact hb i _
  | close i => unfold Act.says; dsimp only; cases t.stmts[i]? <;> exact hu
  | leave i =>
    unfold Act.says
    dsimp only
    cases t.stmts[i]? with
    | none => exact hu
    | some s => dsimp only; rw [hu]; simp [hu]
  | read m =>
    unfold Act.says
    dsimp only
    cases t.found with
    | error e => exact hu
    | ok x => dsimp only; cases member t.members m <;> rfl
  | exists_ m => unfold Act.says; dsimp only; split_ifs <;> exact hu
  | isfile m => unfold Act.says; dsimp only; split_ifs <;> exact hu
  | isdir m => unfold Act.says; dsimp only; split_ifs <;> exact hu
  | listdir m =>
    unfold Act.says
    dsimp only
    rw [if_neg (by rw [hu]; simp)]
    cases t.found with
    | error e => exact hu
    | ok x => dsimp only; split_ifs <;> first | rfl | exact hu

/-- all steps of the list that leave a statement raise ValueError -/
def Refused (l : List Act) (d : Desk) : Prop := ∀ (n i : Nat), l[n]? = some (Act.leave i) → (doAll l d).1[n]? = some (Except.error PyErr.valueError)

theorem refused_reading : ∀ {l : List Act} {d : Desk} {t : Tally}, ZRel d t → t.use = .reading → ActsFit l t → (∀ m, Act.begin m ∉ l) →
    Refused l d ∧ held (doAll l d).2 = held d
  | [], _, _, _, _, _, _ => ⟨fun n i h => by simp at h, rfl⟩
  | a :: l, d, t, h, hu, hc, hl => by
    obtain ⟨hm, ho, hc⟩ := hc
    obtain ⟨h1, h2⟩ := C125_step h a hm ho
    have ha : ∀ m, a ≠ .begin m := fun m e => hl m (e ▸ List.mem_cons_self ..)
    obtain ⟨r1, r2⟩ := refused_reading h2 (says_reading hu ha) hc fun m hm => hl m (List.mem_cons_of_mem _ hm)
    have key : ∀ i, a = .leave i → (a.run d).1 = .error .valueError := by
      rintro i rfl
      rw [h1]
      unfold Act.says at ho ⊢
      dsimp only at ho ⊢
      cases hs : t.stmts[i]? with
      | none => rw [hs] at ho; exact absurd rfl ho
      | some s => dsimp only; rw [if_pos (.inr (by rw [hu]; simp))]
    refine ⟨fun n i hn => ?_, ?_⟩
    · cases n with
      | zero =>
        simp only [List.getElem?_cons_zero, Option.some.injEq] at hn
        simp [doAll, key i hn]
      | succ n => simpa [doAll] using r1 n i (by simpa using hn)
    · show held (doAll l (a.run d).2).2 = _
      rw [r2, C125_stored h a hm ho]
      have : put a (a.run d).1 d.stmts = [] := by
        cases a with
        | leave i => rw [key i rfl]; rfl
        | _ => rfl
      rw [this, List.append_nil]

/-- When a statement has been left, leaving any other one raises ValueError and stores nothing, until a member is opened for
    writing again. -/
theorem C125_second (h : ZRel d t) {i : Nat} {l : List Act} (hi : ((Act.leave i).run d).1 = .ok .unit) (hc : ActsFit (.leave i :: l) t)
    (hl : ∀ m, Act.begin m ∉ l) : Refused l ((Act.leave i).run d).2 ∧ held (doAll l ((Act.leave i).run d).2).2 = held ((Act.leave i).run d).2 := by
  obtain ⟨hm, ho, hc⟩ := hc
  obtain ⟨h1, h2⟩ := C125_step h _ hm ho
  refine refused_reading h2 ?_ hc hl
  rw [hi] at h1
  unfold Act.says at h1 ⊢
  dsimp only at h1 ⊢
  cases hs : t.stmts[i]? with
  | none => rw [hs] at h1; simp at h1
  | some s =>
    rw [hs] at h1
    dsimp only at h1 ⊢
    split_ifs at h1 ⊢ with hx
    rfl

/-- When a member has been read (or asked for: FileDoesNotExistError), the same holds for every statement there is. -/
theorem C125_reading (h : ZRel d t) {m : List Str} {l : List Act} (hs : t.stmts ≠ []) (hc : ActsFit (.read m :: l) t)
    (hl : ∀ m, Act.begin m ∉ l) : Refused l ((Act.read m).run d).2 ∧ held (doAll l ((Act.read m).run d).2).2 = held d := by
  obtain ⟨hm, ho, hc⟩ := hc
  obtain ⟨h1, h2⟩ := C125_step h _ hm ho
  have hu : t.use ≠ .fresh := fun c => hs (h.fresh c).2.2
  have hr : ((Act.read m).says t).2.use = .reading := by
    have : t.found = .ok () := by unfold Tally.found; rw [if_pos hu]
    unfold Act.says
    dsimp only
    rw [this]
    cases member t.members m <;> rfl
  obtain ⟨r1, r2⟩ := refused_reading h2 hr hc hl
  refine ⟨r1, ?_⟩
  rw [r2, C125_stored h _ hm ho]
  exact List.append_nil _

theorem says_write {i : Nat} {p : Str} (b : Bytes) (h : t.stmts[i]? = some ⟨p, [], 0, false⟩) :
    (Act.write i b).says t = (.ok (.num b.length), { t with stmts := t.stmts.set i ⟨p, b, b.length, false⟩ }) := by
  unfold Act.says Tally.onBuf
  dsimp only
  rw [h]
  by_cases hb : b = []
  · subst hb; simp
  · simp [hb, putAt]

/-- `with a.open('w') as f, b.open('w') as g: f.write(x); g.write(y)` for two members of one archive: the member b is stored,
    and the statement raises ValueError; the bytes of a are lost. -/
theorem C125_with {c : Container} (hc : c ≠ .dir) {m m' : List Str} (hm : Nm m) (hm' : Nm m') (h0 : m ≠ []) (h0' : m' ≠ [])
    (hz : '\x00' ∉ pathOf m) (hz' : '\x00' ∉ pathOf m') (x y : Bytes) :
    let r := doAll [.begin m, .begin m', .write 0 x, .write 1 y, .leave 1, .leave 0] (newDesk c)
    r.1 = [.ok (.stmt 0), .ok (.stmt 1), .ok (.num x.length), .ok (.num y.length), .ok .unit, .error .valueError] ∧
    held r.2 = held (newDesk c) ++ [⟨pathOf m', y⟩] := by
  have n0 : Nm [] := by decide
  have h := zrel_new hc
  have e0 := zrel_held h
  have e1 : (Act.begin m).says (newTally c) = (.ok (.stmt 0), ⟨c, [], .writing, [⟨pathOf m, [], 0, false⟩]⟩) := by
    simp [Act.says, newTally, hc, h0, hz]
  obtain ⟨a1, h⟩ := C125_step h (.begin m) hm (by rw [e1]; simp)
  rw [e1] at a1 h
  have e2 : (Act.begin m').says ⟨c, [], .writing, [⟨pathOf m, [], 0, false⟩]⟩ =
      (.ok (.stmt 1), ⟨c, [], .writing, [⟨pathOf m, [], 0, false⟩, ⟨pathOf m', [], 0, false⟩]⟩) := by
    simp [Act.says, hc, h0', hz']
  obtain ⟨a2, h⟩ := C125_step h (.begin m') hm' (by rw [e2]; simp)
  rw [e2] at a2 h
  have e3 := says_write (t := ⟨c, [], .writing, [⟨pathOf m, [], 0, false⟩, ⟨pathOf m', [], 0, false⟩]⟩) (i := 0) x rfl
  obtain ⟨a3, h⟩ := C125_step h (.write 0 x) n0 (by rw [e3]; simp)
  rw [e3] at a3 h
  have e4 := says_write (t := ⟨c, [], .writing, [⟨pathOf m, x, x.length, false⟩, ⟨pathOf m', [], 0, false⟩]⟩) (i := 1) y rfl
  obtain ⟨a4, h⟩ := C125_step h (.write 1 y) n0 (by dsimp only [List.set]; rw [e4]; simp)
  dsimp only [List.set] at a4 h
  rw [e4] at a4 h
  have e5 : (Act.leave 1).says ⟨c, [], .writing, [⟨pathOf m, x, x.length, false⟩, ⟨pathOf m', y, y.length, false⟩]⟩ =
      (.ok .unit, ⟨c, [⟨pathOf m', y⟩], .reading, [⟨pathOf m, x, x.length, false⟩, ⟨pathOf m', y, y.length, true⟩]⟩) := rfl
  obtain ⟨a5, h⟩ := C125_step h (.leave 1) n0 (by dsimp only [List.set]; rw [e5]; simp)
  dsimp only [List.set] at a5 h
  rw [e5] at a5 h
  have e6 : (Act.leave 0).says ⟨c, [⟨pathOf m', y⟩], .reading, [⟨pathOf m, x, x.length, false⟩, ⟨pathOf m', y, y.length, true⟩]⟩ =
      (.error .valueError, ⟨c, [⟨pathOf m', y⟩], .reading, [⟨pathOf m, x, x.length, false⟩, ⟨pathOf m', y, y.length, true⟩]⟩) := rfl
  obtain ⟨a6, h⟩ := C125_step h (.leave 0) n0 (by rw [e6]; simp)
  rw [e6] at a6 h
  refine ⟨?_, ?_⟩
  · simp only [doAll]
    rw [a1, a2, a3, a4, a5, a6]
  · show held (Act.run _ _).2 = _
    rw [zrel_held h, e0]
    simp [newTally, Tally.members]

/-! ## Examples -/

/-- an archive with a member /k/a -/
def deskArc : Container := .archive [⟨cl!"/k/a", [1]⟩]

/-- the member /k/a -/
private def ma : List Str := [cl!"k", cl!"a"]
/-- the member /k/b -/
private def mb : List Str := [cl!"k", cl!"b"]
/-- the member /c -/
private def mc : List Str := [cl!"c"]

/-- a program with three statements: it writes the member /k/b again if the statement for /c could not be left -/
def deskPrg : ZPrg := fun l =>
  match l.length with
  | 0 => some (.begin mb)
  | 1 => some (.begin mc)
  | 2 => some (.write 0 [2, 3])
  | 3 => some (.seek 0 1)
  | 4 => some (.write 0 [4, 5])
  | 5 => some (.leave 0)
  | 6 => some (.leave 1)
  | 7 => if l.getLast? = some (.error .valueError) then some (.begin mb) else none
  | 8 => some (.leave 1)
  | 9 => some (.listdir [cl!"k"])
  | 10 => some (.read mb)
  | _ => none

example : (deskPrg.exec Act.says 11 (newTally deskArc)).1 =
    [.ok (.stmt 0), .ok (.stmt 1), .ok (.num 2), .ok (.num 1), .ok (.num 2), .ok .unit, .error .valueError, .ok (.stmt 2), .ok .unit,
      .ok (.names [cl!"a", cl!"b"]), .ok (.bytes [2, 4, 5])] ∧
    (deskPrg.exec Act.run 11 (newDesk deskArc)).1 = (deskPrg.exec Act.says 11 (newTally deskArc)).1 := by decide +kernel

example : ∀ x ∈ (deskPrg.exec Act.says 11 (newTally deskArc)).1, x ≠ .error .outside := by decide +kernel

example : held (deskPrg.exec Act.run 11 (newDesk deskArc)).2 = [⟨cl!"/k/a", [1]⟩, ⟨cl!"/k/b", [2, 4, 5]⟩, ⟨cl!"/c", []⟩] := by decide +kernel

example : ∃ l a, deskPrg l = some a ∧ Nm a.about ∧ a.about ≠ [] := ⟨[], .begin mb, rfl, by decide, by decide⟩

example : (doAll [.begin mb, .begin mc, .write 0 [1], .write 1 [2], .leave 1, .leave 0] (newDesk .missing)).1 =
    [.ok (.stmt 0), .ok (.stmt 1), .ok (.num 1), .ok (.num 1), .ok .unit, .error .valueError] := by decide +kernel

/-- the steps of `C125_second` and `C125_reading`: there are statements that could have been left -/
example : ZRel (newDesk deskArc) (newTally deskArc) ∧ ActsFit [.begin mb, .begin mc, .leave 0, .leave 1, .leave 0] (newTally deskArc) ∧
    (doAll [.begin mb, .begin mc, .leave 0, .leave 1, .leave 0] (newDesk deskArc)).1 =
      [.ok (.stmt 0), .ok (.stmt 1), .ok .unit, .error .valueError, .error .valueError] := by
  refine ⟨zrel_new (by simp [deskArc]), ?_, by decide +kernel⟩
  refine ⟨by decide, by decide +kernel, by decide, by decide +kernel, by decide, by decide +kernel, by decide, by decide +kernel, by decide, by decide +kernel, trivial⟩

example : ActsFit [.begin mb, .write 0 [1], .read ma, .leave 0] (newTally deskArc) ∧
    (doAll [.begin mb, .write 0 [1], .read ma, .leave 0] (newDesk deskArc)).1 = [.ok (.stmt 0), .ok (.num 1), .ok (.bytes [1]), .error .valueError] ∧
    held (doAll [.begin mb, .write 0 [1], .read ma, .leave 0] (newDesk deskArc)).2 = [⟨cl!"/k/a", [1]⟩] := by
  refine ⟨?_, by decide +kernel, by decide +kernel⟩
  refine ⟨by decide, by decide +kernel, by decide, by decide +kernel, by decide, by decide +kernel, by decide, by decide +kernel, trivial⟩

/-- "What was written to a member is in the archive" is refuted: a member that is opened, written and closed, without `with`,
    is not stored. -/
theorem C125_closed_refuted : let r := doAll [.begin mb, .write 0 [1, 2], .close 0, .read mb] (newDesk .missing)
    r.1 = [.ok (.stmt 0), .ok (.num 2), .ok .unit, .error .fileDoesNotExist] ∧ held r.2 = [] := by decide +kernel

/-- "Asking the connection something changes nothing" is refuted: reading a member between makes leaving the statement raise
    ValueError, without it the member is stored. -/
theorem C125_read_refuted :
    (doAll [.begin mb, .write 0 [7], .leave 0] (newDesk deskArc)).1 = [.ok (.stmt 0), .ok (.num 1), .ok .unit] ∧
    (doAll [.begin mb, .write 0 [7], .read ma, .leave 0] (newDesk deskArc)).1 = [.ok (.stmt 0), .ok (.num 1), .ok (.bytes [1]), .error .valueError] := by
  decide +kernel

/-- "A statement that has been left is over" is refuted the other way: a statement whose leaving raised can be left again
    after another member is opened for writing, and is stored then. -/
theorem C125_again_refuted :
    (doAll [.begin mb, .write 0 [7], .read ma, .leave 0, .begin mc, .leave 0] (newDesk deskArc)).1 =
      [.ok (.stmt 0), .ok (.num 1), .ok (.bytes [1]), .error .valueError, .ok (.stmt 1), .ok .unit] ∧
    held (doAll [.begin mb, .write 0 [7], .read ma, .leave 0, .begin mc, .leave 0] (newDesk deskArc)).2 = [⟨cl!"/k/a", [1]⟩, ⟨cl!"/k/b", [7]⟩] := by
  decide +kernel

end Verif.Props
