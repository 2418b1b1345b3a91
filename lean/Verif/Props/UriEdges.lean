import Verif.Props.UriParser
import Verif.Props.UriMisc
import Verif.Zip.Lemmas
/-!
# Further properties of URIs: relative references (C20), ports (C13), ill-formed escapes (C10), schemes (C16), fragments
(C12)
-/
namespace Verif.Props
open Verif Spec
open Verif.Zip (joinS_append)

/-! ## C20: relative references -/

/-- one component of a relative reference, applied to the list of the directories so far -/
def relStep (acc : List Str) (c : Str) : List Str :=
  if c = [] ∨ c = cl!"." then acc else if c = cl!".." then acc.dropLast else acc ++ [c]

/-- the directories `ds`, followed by the components `rs` of a relative reference -/
def rel (ds rs : List Str) : List Str := rs.foldl relStep ds

theorem normComps_rel (rs : List Str) : ∀ acc : List Str, cl!".." ∉ acc →
    normComps true acc rs = rel acc.reverse rs := by
  induction rs with
  | nil => intro acc _; rfl
  | cons c r ih =>
    intro acc h
    rw [normComps]
    by_cases h1 : c = [] ∨ c = cl!"."
    · rw [if_pos h1, ih acc h]
      simp [rel, relStep, h1]
    · rw [if_neg h1]
      by_cases h2 : c = cl!".."
      · subst h2
        have h3 : acc.head? ≠ some cl!".." := by
          cases acc with
          | nil => simp
          | cons a acc => rintro h4; simp at h4; subst h4; simp at h
        rw [if_neg (by simp [h3]), ih acc.tail (fun h' => h (List.mem_of_mem_tail h'))]
        have : (relStep acc.reverse cl!"..") = acc.tail.reverse := by
          cases acc <;> simp [relStep]
        simp [rel, this]
      · rw [if_pos (.inl h2), ih (c :: acc) (by simp [h, Ne.symm h2])]
        simp [rel, relStep, h1, h2]

/-- a plain directory name: not empty, no '/', neither '.' nor '..' -/
def PlainDir (d : Str) : Prop := d ≠ [] ∧ '/' ∉ d ∧ d ≠ cl!"." ∧ d ≠ cl!".."

theorem rel_plain (ds : List Str) : ∀ acc, (∀ d ∈ ds, PlainDir d) → rel acc ds = acc ++ ds := by
  induction ds with
  | nil => simp [rel]
  | cons d ds ih =>
    intro acc h
    have hd := h d (by simp)
    have : relStep acc d = acc ++ [d] := by
      unfold relStep; rw [if_neg (by simp [hd.1, hd.2.2.1]), if_neg hd.2.2.2]
    have := ih (acc ++ [d]) fun x hx => h x (by simp [hx])
    simp only [rel, List.foldl_cons] at this ⊢
    simp_all

theorem dirnameStr_eq {a b : Str} (h : '/' ∉ b) : dirnameStr (a ++ '/' :: b) = a ++ cl!"/" := by
  unfold dirnameStr
  rw [List.reverse_append, List.reverse_cons, List.append_assoc,
    List.dropWhile_append_of_pos (by intro c hc; simp at hc; simp; rintro rfl; exact h hc)]
  simp

theorem rel_append (acc a b : List Str) : rel acc (a ++ b) = rel (rel acc a) b := by simp [rel]

/-- **C20**: a relative reference, `//./r1/r2/…` (the only spelling of it that can be split), is resolved against the
    directory of the base: '.' and empty components are left out, '..' goes up by one (and stays at the top).  Query and
    fragment are those of the reference. -/
theorem C20_relative {base url : Str} {b u : Parts} (hb : urisplit base = .ok b) (hu : urisplit url = .ok u)
    (hs : u.scheme = none ∨ u.scheme = b.scheme) (ha : u.authority = none) {ds rs : List Str} {last : Str}
    (hd : ∀ d ∈ ds, PlainDir d) (hne : ds ≠ []) (hl : '/' ∉ last) (hr : ∀ c ∈ rs, '/' ∉ c) (hrn : rs ≠ [])
    (hbp : b.path = '/' :: joinS cl!"/" (ds ++ [last])) (hup : u.path = cl!"./" ++ joinS cl!"/" rs) :
    urljoin base url = .ok (uriunsplit { b with path := '/' :: joinS cl!"/" (rel ds rs),
                                                query := u.query, fragment := u.fragment }) := by
  unfold urljoin
  rw [hb, hu]
  simp only
  rw [if_neg (by rcases hs with h | h <;> simp [h]), if_neg (by simp [ha]), if_pos (by rw [hup]; simp)]
  congr 2
  have hdir : dirnameStr b.path = '/' :: joinS cl!"/" ds ++ cl!"/" := by
    rw [hbp, joinS_append hne (by simp)]
    exact dirnameStr_eq (a := '/' :: joinS cl!"/" ds) hl
  have hpath : pathJoin (dirnameStr b.path) u.path = joinS cl!"/" ([] :: ds ++ ([[], cl!"."] ++ rs)) := by
    have e1 : joinS cl!"/" ([] :: ds) = '/' :: joinS cl!"/" ds := by
      cases ds with
      | nil => exact absurd rfl hne
      | cons d ds => rfl
    rw [joinS_append (by simp) (by simp), e1, joinS_append (l := [[], cl!"."]) (by simp) hrn, hdir, hup, pathJoin,
      if_neg (by simp), if_neg (by simp [startsWith])]
    simp [joinS]
  rw [hpath]
  have hsp : splitC '/' (joinS cl!"/" ([] :: ds ++ ([[], cl!"."] ++ rs))) = [] :: ds ++ ([[], cl!"."] ++ rs) := by
    apply splitC_joinS (by simp)
    intro x hx
    simp only [List.cons_append, List.mem_cons, List.mem_append, List.nil_append] at hx
    rcases hx with rfl | hx | rfl | rfl | hx
    · simp
    · exact (hd x hx).2.1
    · simp
    · decide
    · exact hr x hx
  obtain ⟨d, ds', rfl⟩ := List.exists_cons_of_ne_nil hne
  have hd0 := hd d (by simp)
  obtain ⟨c, d', rfl⟩ := List.exists_cons_of_ne_nil hd0.1
  have hc : c ≠ '/' := by rintro rfl; exact hd0.2.1 (by simp)
  obtain ⟨t, ht⟩ : ∃ t, joinS cl!"/" ([] :: ((c :: d') :: ds') ++ ([[], cl!"."] ++ rs)) = '/' :: c :: t := by
    rw [List.cons_append, List.cons_append, joinS]
    cases ds' <;> exact ⟨_, rfl⟩
  unfold normpath
  rw [hsp]
  rw [ht, if_neg (by simp)]
  have p1 : startsWith ('/' :: c :: t) cl!"//" = false := by simp [startsWith, List.isPrefixOf, hc.symm]
  have p2 : startsWith ('/' :: c :: t) cl!"/" = true := by simp [startsWith]
  simp only [p1, p2, Bool.false_and, Bool.false_eq_true, if_false, if_true]
  have : decide (cl!"/" ≠ []) = true := by decide
  rw [this, normComps_rel _ _ (by simp)]
  have e : rel (List.reverse []) ([] :: ((c :: d') :: ds') ++ ([[], cl!"."] ++ rs)) = rel ((c :: d') :: ds') rs := by
    rw [rel_append, rel_append]
    congr 1
    have : rel (List.reverse []) ([] :: ((c :: d') :: ds')) = (c :: d') :: ds' := by
      rw [show ([] : Str) :: ((c :: d') :: ds') = [[]] ++ ((c :: d') :: ds') from rfl, rel_append, rel_plain _ _ hd]
      simp [rel, relStep]
    rw [this]
    simp [rel, relStep]
  rw [e]
  simp

/-- **C20**, with the splitting of the reference -/
theorem C20_relative_url {base : Str} {b : Parts} (hb : urisplit base = .ok b) {ds rs : List Str} {last : Str}
    (hd : ∀ d ∈ ds, PlainDir d) (hne : ds ≠ []) (hl : '/' ∉ last) (hr : ∀ c ∈ rs, NoneOf cl!"/?#(" c) (hrn : rs ≠ [])
    {q : Option Str} (hq : ∀ x, q = some x → NoneOf cl!"#(" x) (hbp : b.path = '/' :: joinS cl!"/" (ds ++ [last])) :
    urljoin base (cl!"//./" ++ joinS cl!"/" rs ++ qs q) =
      .ok (uriunsplit { b with path := '/' :: joinS cl!"/" (rel ds rs), query := q, fragment := none }) := by
  have hj : NoneOf cl!"?#(" (joinS cl!"/" rs) :=
    joinS_chars (p := fun c => c ∉ cl!"?#(") (by decide) fun s hs => (hr s hs).mono (b := cl!"?#(") (by decide)
  have hok : RestOk ('/' :: joinS cl!"/" rs) q none :=
    ⟨NoneOf.cons.2 ⟨by decide, hj⟩, by intro c r h; simp at h; exact h.1.symm, hq, by simp⟩
  have he : cl!"//./" ++ joinS cl!"/" rs ++ qs q = afterScheme cl!"." ('/' :: joinS cl!"/" rs) q none := by
    simp [afterScheme, fragText]
  have hp : '(' ∉ afterScheme cl!"." ('/' :: joinS cl!"/" rs) q none := afterScheme_paren (A := cl!".") (by decide) hok
  have hu : urisplit (afterScheme cl!"." ('/' :: joinS cl!"/" rs) q none) =
      .ok ⟨none, none, '.' :: '/' :: joinS cl!"/" rs, q, none⟩ := by
    rw [urisplit_raw (no_paren_hasSub hp), reRest (A := cl!".") (sc := none) (by decide) hok (by
      simp [reScheme, afterScheme])]
    unfold urisplitPost
    have : replaceS INNER [] cl!"." = cl!"." := by decide
    simp only [this, if_true]
    split <;> rfl
  rw [he]
  exact C20_relative hb hu (.inl rfl) rfl hd hne hl (fun c hc => (hr c hc).not_mem (by simp)) hrn hbp rfl

example : urljoin cl!"http://h/a/b/c?x=1" cl!"//./../d/./e?y=2" = .ok cl!"http://h/a/d/e?y=2" :=
  (C20_relative_url (base := cl!"http://h/a/b/c?x=1") (b := ⟨some cl!"http", some cl!"h", cl!"/a/b/c", some cl!"x=1", none⟩) (by decide +kernel)
    (ds := [cl!"a", cl!"b"]) (rs := [cl!"..", cl!"d", cl!".", cl!"e"]) (last := cl!"c") (q := some cl!"y=2")
    (by unfold PlainDir; decide) (by simp) (by decide) (by unfold NoneOf; decide) (by simp) (by simp [NoneOf]) rfl).trans rfl

/-- C20 fails for a base directly below the root: the slash is doubled (uriparse.py:347 adds one, and `normpath` keeps
    two slashes at the beginning). -/
theorem C20_root_refuted {base url : Str} {b u : Parts} (hb : urisplit base = .ok b) (hu : urisplit url = .ok u)
    (hs : u.scheme = none ∨ u.scheme = b.scheme) (ha : u.authority = none) {rs : List Str} {last : Str}
    (hl : '/' ∉ last) (hr : ∀ c ∈ rs, '/' ∉ c) (hrn : rs ≠ []) (hbp : b.path = '/' :: last)
    (hup : u.path = cl!"./" ++ joinS cl!"/" rs) :
    urljoin base url = .ok (uriunsplit { b with path := cl!"//" ++ joinS cl!"/" (rel [] rs),
                                                query := u.query, fragment := u.fragment }) := by
  unfold urljoin
  rw [hb, hu]
  simp only
  rw [if_neg (by rcases hs with h | h <;> simp [h]), if_neg (by simp [ha]), if_pos (by rw [hup]; simp)]
  congr 2
  have hdir : dirnameStr b.path = cl!"/" := by
    rw [hbp]; exact dirnameStr_eq (a := []) hl
  have hpath : pathJoin (dirnameStr b.path) u.path = joinS cl!"/" ([[], [], cl!"."] ++ rs) := by
    rw [joinS_append (by simp) hrn, hdir, hup, pathJoin, if_neg (by simp), if_neg (by simp [startsWith])]
    simp [joinS]
  rw [hpath]
  have hsp : splitC '/' (joinS cl!"/" ([[], [], cl!"."] ++ rs)) = [[], [], cl!"."] ++ rs := by
    apply splitC_joinS (by simp)
    intro x hx
    simp only [List.cons_append, List.mem_cons, List.nil_append] at hx
    rcases hx with rfl | rfl | rfl | hx
    · simp
    · simp
    · decide
    · exact hr x hx
  obtain ⟨t, ht⟩ : ∃ t, joinS cl!"/" ([[], [], cl!"."] ++ rs) = '/' :: '/' :: '.' :: t := by
    rw [joinS_append (by simp) hrn]; exact ⟨_, rfl⟩
  unfold normpath
  rw [hsp, ht, if_neg (by simp)]
  have p1 : (startsWith ('/' :: '/' :: '.' :: t) cl!"//" && !startsWith ('/' :: '/' :: '.' :: t) cl!"///") = true := by
    simp [startsWith, List.isPrefixOf]
  simp only [p1, if_true]
  have : decide (cl!"//" ≠ []) = true := by decide
  rw [this, normComps_rel _ _ (by simp), rel_append]
  have : rel (List.reverse []) [[], [], cl!"."] = [] := by decide
  rw [this]
  simp

example : urljoin cl!"http://h/c" cl!"//./g" = .ok cl!"http://h//g" := by decide +kernel

theorem normComps_plain (rs : List Str) : ∀ acc : List Str, (∀ d ∈ rs, PlainDir d) →
    normComps false acc rs = acc.reverse ++ rs := by
  induction rs with
  | nil => intro acc _; simp [normComps]
  | cons c r ih =>
    intro acc h
    have hc := h c (by simp)
    rw [normComps, if_neg (by simp [hc.1, hc.2.2.1]), if_pos (.inl hc.2.2.2), ih _ fun d hd => h d (by simp [hd])]
    simp

theorem normComps_up (k : Nat) : ∀ (j : Nat) (ps : List Str), (∀ d ∈ ps, PlainDir d) →
    normComps false (List.replicate j cl!"..") (List.replicate k cl!".." ++ ps) = List.replicate (j + k) cl!".." ++ ps := by
  induction k with
  | zero => intro j ps h; simp [normComps_plain _ _ h]
  | succ k ih =>
    intro j ps h
    rw [List.replicate_succ, List.cons_append, normComps, if_neg (by decide), if_pos (by
      cases j with
      | zero => exact .inr (.inl ⟨rfl, rfl⟩)
      | succ j => exact .inr (.inr rfl)), ← List.replicate_succ, ih _ _ h, Nat.add_right_comm, Nat.add_assoc]

/-- C20 fails for a base without a path: the reference is glued to the host. -/
theorem C20_no_path_refuted {base url : Str} {b u : Parts} (hb : urisplit base = .ok b) (hu : urisplit url = .ok u)
    (hs : u.scheme = none ∨ u.scheme = b.scheme) (ha : u.authority = none) {rs : List Str}
    (hrs : ∃ k ps, rs = List.replicate k cl!".." ++ ps ∧ ∀ d ∈ ps, PlainDir d) (hrn : rs ≠ []) (hbp : b.path = [])
    (hup : u.path = cl!"./" ++ joinS cl!"/" rs) :
    urljoin base url = .ok (uriunsplit { b with path := joinS cl!"/" rs, query := u.query, fragment := u.fragment }) := by
  obtain ⟨k, ps, he, hps⟩ := hrs
  have hr : ∀ d ∈ rs, d ≠ [] ∧ '/' ∉ d := by
    intro d hd
    rw [he, List.mem_append] at hd
    rcases hd with hd | hd
    · rw [List.eq_of_mem_replicate hd]; decide
    · exact ⟨(hps d hd).1, (hps d hd).2.1⟩
  unfold urljoin
  rw [hb, hu]
  simp only
  rw [if_neg (by rcases hs with h | h <;> simp [h]), if_neg (by simp [ha]), if_pos (by rw [hup]; simp)]
  congr 2
  have hpath : pathJoin (dirnameStr b.path) u.path = joinS cl!"/" ([cl!"."] ++ rs) := by
    rw [joinS_append (by simp) hrn, hup, hbp]
    simp [pathJoin, dirnameStr, joinS]
  rw [hpath]
  have hsp : splitC '/' (joinS cl!"/" ([cl!"."] ++ rs)) = [cl!"."] ++ rs := by
    apply splitC_joinS (by simp)
    intro x hx
    simp only [List.cons_append, List.mem_cons, List.nil_append] at hx
    rcases hx with rfl | hx
    · decide
    · exact (hr x hx).2
  obtain ⟨t, ht⟩ : ∃ t, joinS cl!"/" ([cl!"."] ++ rs) = '.' :: t := by
    rw [joinS_append (by simp) hrn]; exact ⟨_, rfl⟩
  have hj : joinS cl!"/" rs ≠ [] := by
    obtain ⟨d, ds, rfl⟩ := List.exists_cons_of_ne_nil hrn
    have := (hr d (by simp)).1
    cases ds <;> simp [joinS, this]
  unfold normpath
  rw [hsp, ht, if_neg (by simp)]
  have p1 : startsWith ('.' :: t) cl!"//" = false := by simp [startsWith, List.isPrefixOf]
  have p2 : startsWith ('.' :: t) cl!"/" = false := by simp [startsWith, List.isPrefixOf]
  simp only [p1, p2, Bool.false_and, Bool.false_eq_true, if_false]
  have : normComps (decide (([] : Str) ≠ [])) [] ([cl!"."] ++ rs) = rs := by
    show normComps false [] (cl!"." :: rs) = rs
    rw [normComps, if_pos (.inr rfl), he]
    simpa using normComps_up k 0 ps hps
  rw [this, List.nil_append, if_neg hj]

example : urljoin cl!"http://h" cl!"//./g" = .ok cl!"http://hg" := by decide +kernel
example : urljoin cl!"http://h" cl!"//./../../g" = .ok cl!"http://h../../g" := by decide +kernel

/-! ## C13: ports -/

/-- `s` is a decimal number of value `n`, digits of which may be separated by single underscores -/
inductive Num : Str → Nat → Prop
  | digit {c : Char} (h : c ∈ cl!"0123456789") : Num [c] (c.toNat - 48)
  | snoc {s : Str} {n : Nat} {c : Char} : Num s n → c ∈ cl!"0123456789" → Num (s ++ [c]) (10 * n + (c.toNat - 48))
  | under {s : Str} {n : Nat} {c : Char} : Num s n → c ∈ cl!"0123456789" → Num (s ++ ['_', c]) (10 * n + (c.toNat - 48))

theorem digit_iff (c : Char) : ('0' ≤ c && c ≤ '9') = true ↔ c ∈ cl!"0123456789" := by
  simp only [Bool.and_eq_true, decide_eq_true_eq, Char.le_def, UInt32.le_iff_toNat_le]
  constructor
  · rintro ⟨h1, h2⟩
    have e : c = Char.ofNat c.toNat := (Char.ofNat_toNat c).symm
    have h1' : 48 ≤ c.toNat := h1
    have h2' : c.toNat ≤ 57 := h2
    rw [e]
    generalize c.toNat = n at *
    have : n = 48 ∨ n = 49 ∨ n = 50 ∨ n = 51 ∨ n = 52 ∨ n = 53 ∨ n = 54 ∨ n = 55 ∨ n = 56 ∨ n = 57 := by omega
    rcases this with rfl | rfl | rfl | rfl | rfl | rfl | rfl | rfl | rfl | rfl <;> decide
  · intro h
    simp only [List.mem_cons, List.not_mem_nil, or_false] at h
    rcases h with rfl | rfl | rfl | rfl | rfl | rfl | rfl | rfl | rfl | rfl <;> decide

theorem pyDigits_sound (r : Str) : ∀ (prev : Bool) (acc n : Nat), pyDigits prev acc r = some n →
    ∀ s, (prev = true → Num s acc) → (prev = false → (s = [] ∧ acc = 0) ∨ ∃ s', s = s' ++ ['_'] ∧ Num s' acc) →
    Num (s ++ r) n := by
  induction r with
  | nil =>
    intro prev acc n h s h1 h2
    cases prev with
    | true => simp [pyDigits] at h; subst h; simpa using h1 rfl
    | false => simp [pyDigits] at h
  | cons c r ih =>
    intro prev acc n h s h1 h2
    rw [pyDigits] at h
    by_cases hc : ('0' ≤ c && c ≤ '9') = true
    · rw [if_pos hc] at h
      have hm := (digit_iff c).1 hc
      have := ih true _ n h (s ++ [c]) (fun _ => ?_) (by simp)
      · simpa using this
      · rw [Nat.mul_comm]
        cases prev with
        | true => exact .snoc (h1 rfl) hm
        | false =>
          rcases h2 rfl with ⟨rfl, rfl⟩ | ⟨s', rfl, hs⟩
          · simpa using Num.digit hm
          · simpa using Num.under hs hm
    · rw [if_neg hc] at h
      by_cases hu : (c = '_' && prev) = true
      · rw [if_pos hu] at h
        simp at hu
        obtain ⟨rfl, rfl⟩ := hu
        have := ih false acc n h (s ++ ['_']) (by simp) (fun _ => .inr ⟨s, rfl, h1 rfl⟩)
        simpa using this
      · rw [if_neg hu] at h; cases h

theorem pyDigits_append {s : Str} {n : Nat} (h : Num s n) : ∀ r, pyDigits false 0 (s ++ r) = pyDigits true n r := by
  induction h with
  | digit h =>
    intro r
    simp only [List.cons_append, List.nil_append]
    rw [pyDigits, if_pos ((digit_iff _).2 h)]
    simp
  | snoc _ h ih =>
    intro r
    rw [List.append_assoc, ih]
    simp only [List.cons_append, List.nil_append]
    rw [pyDigits, if_pos ((digit_iff _).2 h), Nat.mul_comm]
  | under _ h ih =>
    intro r
    rw [List.append_assoc, ih]
    simp only [List.cons_append, List.nil_append]
    rw [pyDigits, if_neg (by decide), if_pos (by decide), pyDigits, if_pos ((digit_iff _).2 h), Nat.mul_comm]

/-- digits, with underscores between them, are read as the number they say, and nothing else is read -/
theorem pyDigits_iff {s : Str} {n : Nat} : pyDigits false 0 s = some n ↔ Num s n :=
  ⟨fun h => by simpa using pyDigits_sound s false 0 n h [] (by simp) (by simp),
   fun h => by have := pyDigits_append h []; simpa [pyDigits] using this⟩

/-- white space, as it may surround a port -/
def spaces : List Nat :=
  [9, 10, 11, 12, 13, 28, 29, 30, 31, 32, 0x85, 0xA0, 0x1680, 0x2000, 0x2001, 0x2002, 0x2003, 0x2004, 0x2005, 0x2006,
   0x2007, 0x2008, 0x2009, 0x200A, 0x2028, 0x2029, 0x202F, 0x205F, 0x3000]

theorem pyIsSpace_iff (c : Char) : pyIsSpace c = true ↔ c.toNat ∈ spaces := by
  unfold pyIsSpace spaces
  simp only [Bool.or_eq_true, Bool.and_eq_true, decide_eq_true_eq, List.mem_cons, List.not_mem_nil, or_false]
  omega

theorem stripW_eq {l s r : Str} (hl : ∀ c ∈ l, c.toNat ∈ spaces) (hr : ∀ c ∈ r, c.toNat ∈ spaces)
    (h1 : ∀ c t, s = c :: t → c.toNat ∉ spaces) (h2 : ∀ t c, s = t ++ [c] → c.toNat ∉ spaces) :
    stripW (l ++ s ++ r) = s := by
  have hrr : ∀ x : Str, (∀ c ∈ x, c.toNat ∈ spaces) → rstripW x = [] := by
    intro x hx
    induction x with
    | nil => rfl
    | cons c x ih =>
      rw [rstripW, ih fun d hd => hx d (by simp [hd])]
      simp [(pyIsSpace_iff c).2 (hx c (by simp))]
  have hr2 : ∀ (x : Str), (∀ t c, x = t ++ [c] → c.toNat ∉ spaces) → rstripW (x ++ r) = x := by
    intro x
    induction x with
    | nil => intro _; exact hrr r hr
    | cons c x ih =>
      intro h
      rw [List.cons_append, rstripW, ih fun t d e => h (c :: t) d (by rw [e]; rfl)]
      cases x with
      | nil =>
        have : pyIsSpace c = false := by
          cases e : pyIsSpace c with
          | false => rfl
          | true => exact absurd ((pyIsSpace_iff c).1 e) (h [] c rfl)
        simp [this]
      | cons d x => rfl
  unfold stripW
  rw [List.append_assoc, List.dropWhile_append_of_pos (fun c hc => (pyIsSpace_iff c).2 (hl c hc))]
  cases s with
  | nil =>
    have : List.dropWhile pyIsSpace ([] ++ r) = [] := by
      rw [List.nil_append]
      clear hrr hr2
      induction r with
      | nil => rfl
      | cons c r ih =>
        rw [List.dropWhile_cons_of_pos ((pyIsSpace_iff c).2 (hr c (by simp)))]
        exact ih fun d hd => hr d (by simp [hd])
    rw [this]; rfl
  | cons c s =>
    have : pyIsSpace c = false := by
      cases e : pyIsSpace c with
      | false => rfl
      | true => exact absurd ((pyIsSpace_iff c).1 e) (h1 c s rfl)
    rw [List.cons_append, List.dropWhile_cons_of_neg (by simp [this])]
    exact hr2 (c :: s) h2

/-- what may stand for a port: a number, with or without a sign, between white space -/
inductive PortText : Str → Int → Prop
  | plain {l s r : Str} {n : Nat} (hl : ∀ c ∈ l, c.toNat ∈ spaces) (hr : ∀ c ∈ r, c.toNat ∈ spaces) (h : Num s n) :
      PortText (l ++ s ++ r) n
  | plus {l s r : Str} {n : Nat} (hl : ∀ c ∈ l, c.toNat ∈ spaces) (hr : ∀ c ∈ r, c.toNat ∈ spaces) (h : Num s n) :
      PortText (l ++ ('+' :: s) ++ r) n
  | minus {l s r : Str} {n : Nat} (hl : ∀ c ∈ l, c.toNat ∈ spaces) (hr : ∀ c ∈ r, c.toNat ∈ spaces) (h : Num s n) :
      PortText (l ++ ('-' :: s) ++ r) (-n)

theorem stripW_spec (s : Str) : ∃ l r, s = l ++ stripW s ++ r ∧ (∀ c ∈ l, c.toNat ∈ spaces) ∧ (∀ c ∈ r, c.toNat ∈ spaces) := by
  have h2 : ∀ x : Str, ∃ r, x = rstripW x ++ r ∧ ∀ c ∈ r, c.toNat ∈ spaces := by
    intro x
    induction x with
    | nil => exact ⟨[], rfl, by simp⟩
    | cons c x ih =>
      obtain ⟨r, h, hr⟩ := ih
      rw [rstripW]
      cases e : rstripW x with
      | nil =>
        rw [e, List.nil_append] at h
        subst h
        by_cases hc : pyIsSpace c = true
        · refine ⟨c :: x, by simp [hc], ?_⟩
          intro d hd
          rcases List.mem_cons.1 hd with rfl | hd
          · exact (pyIsSpace_iff d).1 hc
          · exact hr d hd
        · exact ⟨x, by simp [hc], hr⟩
      | cons d y =>
        rw [e] at h
        exact ⟨r, by simp [h], hr⟩
  obtain ⟨r, h, hr⟩ := h2 (s.dropWhile pyIsSpace)
  refine ⟨s.takeWhile pyIsSpace, r, ?_, ?_, hr⟩
  · unfold stripW
    rw [List.append_assoc, ← h, List.takeWhile_append_dropWhile]
  · intro c hc
    refine (pyIsSpace_iff c).1 ?_
    clear h hr h2
    induction s with
    | nil => simp at hc
    | cons d s ih =>
      by_cases hd : pyIsSpace d = true
      · rw [List.takeWhile_cons_of_pos hd] at hc
        rcases List.mem_cons.1 hc with rfl | hc
        · exact hd
        · exact ih hc
      · rw [List.takeWhile_cons_of_neg hd] at hc; simp at hc

theorem Num.ends {s : Str} {n : Nat} (h : Num s n) :
    (∃ c t, s = c :: t ∧ c ∈ cl!"0123456789") ∧ ∃ t c, s = t ++ [c] ∧ c ∈ cl!"0123456789" := by
  induction h with
  | digit h => exact ⟨⟨_, [], rfl, h⟩, [], _, rfl, h⟩
  | snoc _ h ih =>
    obtain ⟨⟨c, t, rfl, hc⟩, -⟩ := ih
    exact ⟨⟨c, _, rfl, hc⟩, _, _, rfl, h⟩
  | @under s n d _ h ih =>
    obtain ⟨⟨c, t, rfl, hc⟩, -⟩ := ih
    exact ⟨⟨c, _, rfl, hc⟩, c :: t ++ ['_'], d, by simp, h⟩

theorem digit_no_space {c : Char} (h : c ∈ cl!"0123456789") : c.toNat ∉ spaces ∧ c ≠ '-' ∧ c ≠ '+' := by
  simp only [List.mem_cons, List.not_mem_nil, or_false] at h
  rcases h with rfl | rfl | rfl | rfl | rfl | rfl | rfl | rfl | rfl | rfl <;> decide

/-- `int(s)` reads exactly the texts described -/
theorem pyInt_iff {s : Str} {v : Int} : pyInt s = some v ↔ PortText s v := by
  constructor
  · intro h
    obtain ⟨l, r, e, hl, hr⟩ := stripW_spec s
    unfold pyInt at h
    rw [e]
    split at h
    · rename_i t et
      cases hn : pyDigits false 0 t with
      | none => rw [hn] at h; cases h
      | some n =>
        rw [hn] at h
        obtain rfl : -(n : Int) = v := Option.some.inj h
        rw [et]
        exact .minus hl hr (pyDigits_iff.1 hn)
    · rename_i t et
      cases hn : pyDigits false 0 t with
      | none => rw [hn] at h; cases h
      | some n =>
        rw [hn] at h
        obtain rfl : (n : Int) = v := Option.some.inj h
        rw [et]
        exact .plus hl hr (pyDigits_iff.1 hn)
    · cases hn : pyDigits false 0 (stripW s) with
      | none => rw [hn] at h; cases h
      | some n =>
        rw [hn] at h
        obtain rfl : (n : Int) = v := Option.some.inj h
        exact .plain hl hr (pyDigits_iff.1 hn)
  · have last : ∀ {s t : Str} {n : Nat} {d c : Char}, Num s n → s = t ++ [c] ∨ d :: s = t ++ [c] → c.toNat ∉ spaces := by
      intro s t n d c h he
      obtain ⟨-, t', c', e, hc⟩ := h.ends
      have : c = c' := by
        rcases he with he | he
        · rw [e] at he; exact (List.append_inj' he rfl).2 |> fun h => by simpa using h.symm
        · rw [e, ← List.cons_append] at he
          exact (List.append_inj' he rfl).2 |> fun h => by simpa using h.symm
      subst this
      exact (digit_no_space hc).1
    intro h
    cases h with
    | plain hl hr h =>
      obtain ⟨⟨c, t, rfl, hc⟩, -⟩ := h.ends
      have := digit_no_space hc
      unfold pyInt
      rw [stripW_eq hl hr (by intro d t' e; simp at e; rw [← e.1]; exact this.1)
        (by intro t' d e; exact last (d := 'x') h (.inl e))]
      split
      · rename_i e; simp at e; exact absurd e.1 this.2.1
      · rename_i e; simp at e; exact absurd e.1 this.2.2
      · rw [pyDigits_iff.2 h]; rfl
    | plus hl hr h =>
      unfold pyInt
      rw [stripW_eq hl hr (by intro d t' e; simp at e; rw [← e.1]; decide) (by intro t' d e; exact last h (.inr e))]
      simp only [pyDigits_iff.2 h]; rfl
    | minus hl hr h =>
      unfold pyInt
      rw [stripW_eq hl hr (by intro d t' e; simp at e; rw [← e.1]; decide) (by intro t' d e; exact last h (.inr e))]
      simp only [pyDigits_iff.2 h]; rfl

/-- **C13**: the port of a URI is the number that its text says (digits, which may be separated by single underscores, a
    sign, and white space around it), and 0 if there is none; any other text is a ValueError.  User, password and host are
    taken as they are. -/
theorem C13_port {a : Str} (ha : a ≠ []) :
    (∀ p v, (splitAuthority a).port = some p → PortText p v →
      authorityFields (some a) = .ok ((splitAuthority a).user, (splitAuthority a).passwd, (splitAuthority a).host, v)) ∧
    ((splitAuthority a).port = none ∨ (splitAuthority a).port = some [] →
      authorityFields (some a) = .ok ((splitAuthority a).user, (splitAuthority a).passwd, (splitAuthority a).host, 0)) ∧
    (∀ p, (splitAuthority a).port = some p → p ≠ [] → (¬ ∃ v, PortText p v) →
      authorityFields (some a) = .error .valueError) := by
  obtain ⟨c, a, rfl⟩ := List.exists_cons_of_ne_nil ha
  refine ⟨fun p v hp hv => ?_, fun h => ?_, fun p hp hne hv => ?_⟩
  · have h1 := pyInt_iff.2 hv
    have : p ≠ [] := by rintro rfl; revert h1; simp [pyInt, stripW, rstripW, pyDigits]
    obtain ⟨d, p, rfl⟩ := List.exists_cons_of_ne_nil this
    simp only [authorityFields, hp, h1]
  · rcases h with h | h <;> simp only [authorityFields, h]
  · obtain ⟨d, p, rfl⟩ := List.exists_cons_of_ne_nil hne
    have : pyInt (d :: p) = none := by
      cases e : pyInt (d :: p) with
      | none => rfl
      | some v => exact absurd ⟨v, pyInt_iff.1 e⟩ hv
    simp only [authorityFields, hp, this]

example : authorityFields (some cl!"u@h:8_0") = .ok (some cl!"u", none, some cl!"h", 80) :=
  (C13_port (a := cl!"u@h:8_0") (by simp)).1 cl!"8_0" 80 (by decide)
    (.plain (l := []) (r := []) (n := 80) (by simp) (by simp) (.under (.digit (c := '8') (by decide)) (c := '0') (by decide)))
example : (URI cl!"memory://h:+80/a").map (fun u => u.parse.port) = .ok 80 := by decide +kernel
example : (URI cl!"memory://h:x80/a").map (fun u => u.parse.port) = .error .valueError := by decide +kernel

/-! ## C16: the letters of a scheme -/

/-- **C16**: the characters of a scheme are the small letters, '+' and '-'. -/
theorem C16_letters (c : Char) : schemeChar c = true ↔ c ∈ cl!"abcdefghijklmnopqrstuvwxyz+-" := by
  constructor
  · intro h
    simp only [schemeChar, Bool.or_eq_true, Bool.and_eq_true, decide_eq_true_eq] at h
    rcases h with (h | rfl) | rfl
    · obtain ⟨h1, h2⟩ := h
      have e : c = Char.ofNat c.toNat := (Char.ofNat_toNat c).symm
      have h1' : 97 ≤ c.toNat := h1
      have h2' : c.toNat ≤ 122 := h2
      rw [e]
      generalize c.toNat = n at *
      have hall : ∀ m < 123, 97 ≤ m → Char.ofNat m ∈ cl!"abcdefghijklmnopqrstuvwxyz+-" := by decide +kernel
      exact hall n (by omega) h1'
    · decide
    · decide
  · have : ∀ c ∈ cl!"abcdefghijklmnopqrstuvwxyz+-", schemeChar c = true := by decide +kernel
    exact this c

example : (URI cl!"Memory:///a").map (fun u => u.cls) = .ok .localfs := by decide +kernel

/-! ## C12: the fragment -/

/-- **C12**: the fragment is printed at the end, after a '#', and nothing is printed for a fragment that is missing or
    empty. -/
theorem C12_fragment (p : UriParse) (f : Str) (hf : f ≠ []) :
    ({ p with fragment := some f } : UriParse).str =
      (match ({ p with fragment := none } : UriParse).str with
        | .ok s => .ok (s ++ '#' :: f)
        | .error e => .error e) ∧
    ({ p with fragment := some [] } : UriParse).str = ({ p with fragment := none } : UriParse).str := by
  obtain ⟨c, f, rfl⟩ := List.exists_cons_of_ne_nil hf
  unfold UriParse.str
  cases p.scheme with
  | none => exact ⟨rfl, rfl⟩
  | some s => simp [truthy]

/-! ## C10: ill-formed UTF-8 -/

theorem decStep_truncated (c : Char) (k : Nat) (h0 : 0 < k) (h1 : k < (encChar c).length) (r : List Nat)
    (hr : ∀ b t, r = b :: t → isCont b = false) :
    ∃ b t, (encChar c).take k = b :: t ∧ decStep b (t ++ r) = .inr t.length := by
  have hrange := char_range c
  unfold encChar at *
  generalize c.toNat = n at *
  simp only at *
  split at h1
  · simp at h1; omega
  rename_i g1
  split at h1
  · rename_i g2
    rw [if_neg g1, if_pos g2]
    obtain rfl : k = 1 := by simp at h1; omega
    refine ⟨_, _, rfl, ?_⟩
    have a1 : ¬ (0xC0 + n / 64 < 0x80) := by omega
    have a2 : 0xC2 ≤ 0xC0 + n / 64 ∧ 0xC0 + n / 64 < 0xE0 := by omega
    cases r with
    | nil => simp [decStep, a1, a2]
    | cons b r => simp [decStep, a1, a2, hr b r rfl]
  rename_i g2
  have hsec : ∀ b0 b, isCont b = false → secondOk b0 b = false := by
    intro b0 b h; simp [secondOk, h]
  split at h1
  · rename_i g3
    rw [if_neg g1, if_neg g2, if_pos g3]
    have a1 : ¬ (0xE0 + n / 4096 < 0x80) := by omega
    have a2 : ¬ (0xE0 + n / 4096 < 0xE0) := by omega
    have a2' : 0xE0 ≤ 0xE0 + n / 4096 ∧ 0xE0 + n / 4096 < 0xF0 := by omega
    have a3 : secondOk (0xE0 + n / 4096) (0x80 + n / 64 % 64) = true := by
      simp [secondOk, isCont]; omega
    have : k = 1 ∨ k = 2 := by simp at h1; omega
    rcases this with rfl | rfl
    · refine ⟨_, _, rfl, ?_⟩
      cases r with
      | nil => simp [decStep, a1, a2, a2']
      | cons b r => simp [decStep, a1, a2, a2', hsec _ _ (hr b r rfl)]
    · refine ⟨_, _, rfl, ?_⟩
      cases r with
      | nil => simp [decStep, a1, a2, a2', a3]
      | cons b r => simp [decStep, a1, a2, a2', a3, hr b r rfl]
  · rename_i g3
    rw [if_neg g1, if_neg g2, if_neg g3]
    have a1 : ¬ (0xF0 + n / 262144 < 0x80) := by omega
    have a2 : ¬ (0xF0 + n / 262144 < 0xE0) := by omega
    have a2' : ¬ (0xF0 + n / 262144 < 0xF0) := by omega
    have a2'' : 0xF0 ≤ 0xF0 + n / 262144 ∧ 0xF0 + n / 262144 < 0xF5 := by omega
    have a3 : secondOk (0xF0 + n / 262144) (0x80 + n / 4096 % 64) = true := by
      simp [secondOk, isCont]; omega
    have a4 : isCont (0x80 + n / 64 % 64) = true := by simp [isCont]; omega
    have : k = 1 ∨ k = 2 ∨ k = 3 := by simp at h1; omega
    rcases this with rfl | rfl | rfl
    · refine ⟨_, _, rfl, ?_⟩
      cases r with
      | nil => simp [decStep, a1, a2, a2', a2'']
      | cons b r => simp [decStep, a1, a2, a2', a2'', hsec _ _ (hr b r rfl)]
    · refine ⟨_, _, rfl, ?_⟩
      cases r with
      | nil => simp [decStep, a1, a2, a2', a2'', a3]
      | cons b r => simp [decStep, a1, a2, a2', a2'', a3, hr b r rfl]
    · refine ⟨_, _, rfl, ?_⟩
      cases r with
      | nil => simp [decStep, a1, a2, a2', a2'', a3, a4]
      | cons b r => simp [decStep, a1, a2, a2', a2'', a3, a4, hr b r rfl]

theorem encChar_head (c : Char) {b : Nat} {t : List Nat} (h : encChar c = b :: t) : isCont b = false := by
  have hr := char_range c
  unfold encChar at h
  generalize c.toNat = n at *
  simp only at h
  split at h
  · simp at h; simp [isCont]; omega
  split at h
  · simp at h; simp [isCont]; omega
  split at h
  · simp at h; simp [isCont]; omega
  · simp at h; simp [isCont]; omega

theorem decReplaceAux_append (s : Str) (r : List Nat) (n : Nat) (hn : (utf8Encode s).length + r.length ≤ n) :
    ∃ m, r.length ≤ m ∧ decReplaceAux n ((utf8Encode s).map UInt8.toNat ++ r) = s ++ decReplaceAux m r := by
  induction s generalizing n with
  | nil => exact ⟨n, by simpa [utf8Encode] using hn, by simp [utf8Encode]⟩
  | cons c s ih =>
    obtain ⟨b, t, he, hd⟩ := decStep_encChar c ((utf8Encode s).map UInt8.toNat ++ r)
    rw [utf8Encode_cons] at hn ⊢
    rw [List.map_append, map_toNat_ofNat (encChar_lt c), List.append_assoc]
    rw [List.length_append, List.length_map] at hn
    rw [he] at hn ⊢
    cases n with
    | zero => simp at hn
    | succ n =>
      obtain ⟨m, h1, h2⟩ := ih n (by simp at hn; omega)
      refine ⟨m, h1, ?_⟩
      rw [List.cons_append, decReplaceAux, hd]
      simp only [List.drop_left, h2, List.cons_append]

/-- **C10**: in an escaped value, a character of which only the first bytes are there is replaced by one U+FFFD, and what
    is before and behind it stays as it is. -/
theorem C10_truncated (s t : Str) (c : Char) (k : Nat) (h0 : 0 < k) (h1 : k < (utf8Encode [c]).length) :
    utf8DecodeReplace (utf8Encode s ++ (utf8Encode [c]).take k ++ utf8Encode t) = s ++ '\uFFFD' :: t := by
  have e : (utf8Encode [c]) = (encChar c).map UInt8.ofNat := by simp [utf8Encode]
  rw [e] at h1 ⊢
  have hlt : ∀ b ∈ (encChar c).take k, b < 256 := fun b hb => encChar_lt c b (List.mem_of_mem_take hb)
  have hr : ∀ b r, (utf8Encode t).map UInt8.toNat = b :: r → isCont b = false := by
    intro b r h
    cases t with
    | nil => simp [utf8Encode] at h
    | cons d t =>
      rw [utf8Encode_cons, List.map_append, map_toNat_ofNat (encChar_lt d)] at h
      obtain ⟨b', t', he, -⟩ := decStep_encChar d []
      rw [he] at h
      simp at h
      rw [← h.1]
      exact encChar_head d he
  obtain ⟨b, x, hx, hd⟩ := decStep_truncated c k h0 (by simpa using h1) ((utf8Encode t).map UInt8.toNat) hr
  unfold utf8DecodeReplace
  rw [List.map_append, List.map_append, ← List.map_take, map_toNat_ofNat hlt, hx, List.append_assoc (List.map _ _)]
  obtain ⟨m, hm, hs⟩ := decReplaceAux_append s (b :: x ++ (utf8Encode t).map UInt8.toNat)
    (utf8Encode s ++ ((encChar c).take k).map UInt8.ofNat ++ utf8Encode t).length (by
      rw [hx]; simp)
  rw [hx] at hs
  rw [hs]
  cases m with
  | zero => simp at hm
  | succ m =>
    rw [List.cons_append, decReplaceAux, hd]
    simp only [List.drop_left]
    rw [decReplaceAux_encode t m (by simp at hm; omega)]

/-- **C10**: a byte that no character begins with (among them a continuation without beginning) is replaced by one U+FFFD. -/
theorem C10_bad_byte (s t : Str) (b : UInt8) (h : (0x80 ≤ b.toNat ∧ b.toNat < 0xC2) ∨ 0xF5 ≤ b.toNat) :
    utf8DecodeReplace (utf8Encode s ++ [b] ++ utf8Encode t) = s ++ '\uFFFD' :: t := by
  unfold utf8DecodeReplace
  rw [List.map_append, List.map_append, List.append_assoc (List.map _ _)]
  obtain ⟨m, hm, hs⟩ := decReplaceAux_append s ([b].map UInt8.toNat ++ (utf8Encode t).map UInt8.toNat)
    (utf8Encode s ++ [b] ++ utf8Encode t).length (by simp)
  rw [hs]
  have hd : decStep b.toNat ((utf8Encode t).map UInt8.toNat) = .inr 0 := by
    generalize b.toNat = n at *
    unfold decStep
    rw [if_neg (by omega), if_neg (by simp; omega), if_neg (by simp; omega), if_neg (by simp; omega)]
  cases m with
  | zero => simp at hm
  | succ m =>
    simp only [List.map_cons, List.map_nil, List.cons_append, List.nil_append]
    rw [decReplaceAux, hd]
    simp only [List.drop_zero]
    rw [decReplaceAux_encode t m (by simp at hm; omega)]

example : utf8DecodeReplace [97, 0xFF, 98] = cl!"a\uFFFDb" := C10_bad_byte cl!"a" cl!"b" 0xFF (by decide)
example : unquotePlus cl!"a%E2%82b%FFc" = cl!"a\uFFFDb\uFFFDc" := by decide +kernel
example : utf8DecodeReplace [97, 0xE2, 0x82, 98] = cl!"a\uFFFDb" :=
  C10_truncated cl!"a" cl!"b" '€' 2 (by decide) (by decide)

/-- `a` is the hexadecimal digit of value `i` -/
def HexIs (a : Char) (i : Nat) : Prop := (cl!"0123456789abcdef")[i]? = some a ∨ (cl!"0123456789ABCDEF")[i]? = some a

theorem hexVal_of {a : Char} {i : Nat} (h : HexIs a i) : hexVal a = some i := by
  have key : ∀ i : Fin 16, ∀ a, HexIs a i.val → hexVal a = some i.val := by
    have h1 : ∀ i : Fin 16, hexVal ((cl!"0123456789abcdef").getD i.val ' ') = some i.val := by decide
    have h2 : ∀ i : Fin 16, hexVal ((cl!"0123456789ABCDEF").getD i.val ' ') = some i.val := by decide
    rintro i a (h | h)
    · have := h1 i; rwa [List.getD_eq_getElem?_getD, h] at this
    · have := h2 i; rwa [List.getD_eq_getElem?_getD, h] at this
  have hi : i < 16 := by
    rcases h with h | h <;> exact (List.getElem?_eq_some_iff.1 h).1
  exact key ⟨i, hi⟩ a h

theorem hexIs_of {a : Char} {i : Nat} (h : hexVal a = some i) : HexIs a i := by
  have key : ∀ n : Fin 128, ∀ i, hexVal (Char.ofNat n.val) = some i →
      (cl!"0123456789abcdef")[i]? = some (Char.ofNat n.val) ∨ (cl!"0123456789ABCDEF")[i]? = some (Char.ofNat n.val) := by
    have : ∀ n : Fin 128, (hexVal (Char.ofNat n.val)).all fun i => (cl!"0123456789abcdef")[i]? = some (Char.ofNat n.val) ∨
        (cl!"0123456789ABCDEF")[i]? = some (Char.ofNat n.val) := by decide
    intro n i hi
    have h' := this n
    rw [hi] at h'
    simpa using h'
  have hn : a.toNat < 128 := by
    unfold hexVal at h
    simp only [Bool.and_eq_true, decide_eq_true_eq] at h
    split at h
    · omega
    · split at h
      · omega
      · split at h
        · omega
        · simp at h
  have := key ⟨a.toNat, hn⟩ i (by rw [Char.ofNat_toNat]; exact h)
  simpa [Char.ofNat_toNat, HexIs] using this

/-- **C10**: `%` and two hexadecimal digits, in capitals or not, are the byte of that number, ... -/
theorem C10_escape {a b : Char} {i j : Nat} (ha : HexIs a i) (hb : HexIs b j) (r : Str) :
    unquoteToBytes ('%' :: a :: b :: r) = UInt8.ofNat (16 * i + j) :: unquoteToBytes r := by
  rw [unquoteToBytes, hexVal_of ha, hexVal_of hb]

/-- ... and `%` followed by anything else is itself. -/
theorem C10_no_escape {a b : Char} (h : (∀ i, ¬ HexIs a i) ∨ ∀ j, ¬ HexIs b j) (r : Str) :
    unquoteToBytes ('%' :: a :: b :: r) = 37 :: unquoteToBytes (a :: b :: r) := by
  rw [unquoteToBytes]
  cases h1 : hexVal a with
  | none => rfl
  | some i =>
    cases h2 : hexVal b with
    | none => rfl
    | some j =>
      rcases h with h | h
      · exact absurd (hexIs_of h1) (h i)
      · exact absurd (hexIs_of h2) (h j)

example : HexIs 'f' 15 ∧ HexIs 'F' 15 ∧ ∀ i, ¬ HexIs 'g' i :=
  ⟨.inl rfl, .inr rfl, fun i h => absurd (hexVal_of h) (by simp [show hexVal 'g' = none from by decide])⟩
example : unquotePlus cl!"%c3%a4%g0" = cl!"ä%g0" := by decide +kernel

/-- **C11**: what is written as it is in an encoded query, ... -/
theorem C11_quote_plain {c : Char} (h : c ∈ cl!"ABCDEFGHIJKLMNOPQRSTUVWXYZabcdefghijklmnopqrstuvwxyz0123456789_.-~") : quotePlus [c] = [c] := by
  have : ∀ c ∈ cl!"ABCDEFGHIJKLMNOPQRSTUVWXYZabcdefghijklmnopqrstuvwxyz0123456789_.-~", quotePlus [c] = [c] := by decide +kernel
  exact this c h

theorem quoteByte_other : ∀ b : Fin 256, Char.ofNat b.val ∉ cl!"ABCDEFGHIJKLMNOPQRSTUVWXYZabcdefghijklmnopqrstuvwxyz0123456789_.-~ " →
    ∃ x y, quoteByte (UInt8.ofNat b.val) = ['%', x, y] ∧ (cl!"0123456789ABCDEF")[b.val / 16]? = some x ∧ (cl!"0123456789ABCDEF")[b.val % 16]? = some y := by
  have : ∀ b : Fin 256, Char.ofNat b.val ∉ cl!"ABCDEFGHIJKLMNOPQRSTUVWXYZabcdefghijklmnopqrstuvwxyz0123456789_.-~ " →
      quoteByte (UInt8.ofNat b.val) = ['%', (cl!"0123456789ABCDEF").getD (b.val / 16) ' ', (cl!"0123456789ABCDEF").getD (b.val % 16) ' '] := by
    decide +kernel
  intro b h
  refine ⟨_, _, this b h, ?_, ?_⟩
  · have : b.val / 16 < 16 := by omega
    rw [List.getD_eq_getElem?_getD, List.getElem?_eq_getElem (by simpa using this)]
    rfl
  · have : b.val % 16 < 16 := by omega
    rw [List.getD_eq_getElem?_getD, List.getElem?_eq_getElem (by simpa using this)]
    rfl

/-- ... and what is not: a space becomes `+`, every other ASCII character `%` and the two hexadecimal digits of its code. -/
theorem C11_quote_escaped {c : Char} (hc : c.toNat < 128)
    (h : c ∉ cl!"ABCDEFGHIJKLMNOPQRSTUVWXYZabcdefghijklmnopqrstuvwxyz0123456789_.-~") :
    (c = ' ' ∧ quotePlus [c] = cl!"+") ∨
      ∃ x y, quotePlus [c] = ['%', x, y] ∧ (cl!"0123456789ABCDEF")[c.toNat / 16]? = some x ∧ (cl!"0123456789ABCDEF")[c.toNat % 16]? = some y := by
  by_cases hs : c = ' '
  · subst hs
    exact .inl ⟨rfl, by decide +kernel⟩
  · right
    obtain ⟨x, y, h1, h2, h3⟩ := quoteByte_other ⟨c.toNat, by omega⟩ (by
      rw [Char.ofNat_toNat]
      intro hm
      rw [show cl!"ABCDEFGHIJKLMNOPQRSTUVWXYZabcdefghijklmnopqrstuvwxyz0123456789_.-~ " =
        cl!"ABCDEFGHIJKLMNOPQRSTUVWXYZabcdefghijklmnopqrstuvwxyz0123456789_.-~" ++ [' '] from rfl, List.mem_append] at hm
      rcases hm with hm | hm
      · exact h hm
      · exact hs (List.mem_singleton.1 hm))
    refine ⟨x, y, ?_, h2, h3⟩
    have e : encChar c = [c.toNat] := by unfold encChar; simp [show c.toNat < 0x80 from hc]
    simp only [quotePlus, utf8Encode, List.flatMap_cons, List.flatMap_nil, List.append_nil, e, List.map_cons, List.map_nil]
    exact h1

example : quotePlus cl!"{a b}/~" = cl!"%7Ba+b%7D%2F~" := by decide +kernel

/-! ## C73: joining nothing -/

/-- **C73**: `join()` without arguments is an IndexError. -/
theorem C73_join_nothing (u : Uri) : u.join [] = .error .indexError := by
  simp [Uri.join, Uri.joinPath]

end Verif.Props
