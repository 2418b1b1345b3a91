import Verif.Mem.Heap
/-!
# Path lookup implements `Goes`
-/
namespace Verif.Mem
open M Spec

/-- what the code makes of the outcome of a path (`throw` is its parameter of that name) -/
def outResult (w : World) (r : Nat) (throw : Bool) : Out → Except PyErr (Option Nat)
  | .found q => .ok (phys w r q)
  | .missing => if throw then .error (.os .ENOENT) else .ok none
  | .dangling => if throw then .error (.os .ENOENT) else .error .attributeError
  | .notDir => .error .attributeError
  | .badLink => .error .assertionError

theorem isDir_root {w : World} (hw : Inv w) {r : Nat} (hr : IsRoot w r) : (view w r).isDir [] := by
  obtain ⟨k, hk⟩ := hr
  have := (hw.root k r hk).2.1
  rw [isDir_of_phys (i := r) rfl]
  exact isDir_iff.1 this

theorem NS.isDir.notLink {ns : NS} {q : List Str} (h : ns.isDir q) : ∃ o, ns q = some o ∧ o.isLink = false := by
  obtain ⟨m, t, h⟩ := h; exact ⟨_, h, rfl⟩

/-- what a path leads to is never a link -/
theorem Goes.notLink {ns : NS} (hroot : ns.isDir []) {d : Nat} {q steps : List Str} {out : Out}
    (h : Goes ns d q steps out) : ∀ q', out = .found q' → (∃ o, ns q = some o ∧ o.isLink = false) →
      ∃ o, ns q' = some o ∧ o.isLink = false := by
  induction h with
  | done => intro q' h hq; cases h; exact hq
  | notDir => intro q' h; cases h
  | missing => intro q' h; cases h
  | step h1 h2 h3 _ ih => intro q' h _; exact ih q' h ⟨_, h2, h3⟩
  | link h1 h2 h3 h4 h5 ih1 ih2 =>
    intro q' h _
    exact ih2 q' h (ih1 _ rfl (NS.isDir.notLink hroot))
  | linkLost => intro q' h; cases h
  | linkLostMid => intro q' h; cases h
  | linkFail _ _ _ _ h => intro q' h'; subst h'; simp at h
  | badLink => intro q' h; cases h

theorem lookup_of_view {w : World} {r i : Nat} {q : List Str} {n : Str} {d : DirObj} {o : Obj}
    (hi : phys w r q = some i) (hd : w.node i = .dir d) (h : view w r (q ++ [n]) = some o) :
    ∃ j, d.files.lookup n = some j ∧ phys w r (q ++ [n]) = some j ∧ objOf (w.node j) = o := by
  obtain ⟨j, h1, h2⟩ := view_some h
  have := h1
  rw [phys_snoc, hi] at this
  simp only [Option.bind_some, entries_dir hd] at this
  exact ⟨j, this, h1, h2⟩

theorem lookup_none_of_view {w : World} {r i : Nat} {q : List Str} {n : Str} {d : DirObj}
    (hi : phys w r q = some i) (hd : w.node i = .dir d) (h : view w r (q ++ [n]) = none) :
    d.files.lookup n = none := by
  rw [view_snoc_none hi, entries_dir hd] at h; exact h

theorem objOf_notLink {n : Node} (h : (objOf n).isLink = false) : ∀ l, n ≠ .link l := by
  rintro l rfl; simp [objOf, Obj.isLink] at h

theorem objOf_notDir {n : Node} (h : (objOf n).isDir = false) : ∀ l, n ≠ .dir l := by
  rintro l rfl; simp [objOf, Obj.isDir] at h

theorem objOf_link {n : Node} {t : Uri} {m s : Int} (h : objOf n = .link t m s) :
    ∃ l, n = .link l ∧ l.target = t := by
  cases n with
  | link l => simp [objOf] at h; exact ⟨l, rfl, h.1⟩
  | file f => simp [objOf] at h
  | dir f => simp [objOf] at h

theorem dir_of_isDir {w : World} {r i : Nat} {q : List Str} (h : (view w r).isDir q)
    (hi : phys w r q = some i) : ∃ d, w.node i = .dir d := (isDir_of_phys hi).1 h

theorem prevLoop_cons_dir {w : World} {res : Uri → Except PyErr (Option Nat)} {follow throw : Bool}
    {last n : Str} {rest : List Str} {prev : Option Nat} {i : Nat} {d : DirObj} (hd : w.node i = .dir d) :
    prevLoop w res follow throw last (n :: rest) prev (some i) =
      if d.has n then
        match child w res i n (if n = last then follow else true) with
        | .error e => .error e
        | .ok nxt => prevLoop w res follow throw last rest (some i) nxt
      else if throw then .error (.os .ENOENT) else .ok (none, none) := by
  rw [prevLoop]; simp only [hd]; rfl

theorem child_plain {w : World} {res : Uri → Except PyErr (Option Nat)} {i j : Nat} {n : Str} {b : Bool}
    {d : DirObj} (hd : w.node i = .dir d) (hn : d.files.lookup n = some j) (hl : ∀ l, w.node j ≠ .link l) :
    child w res i n b = .ok (some j) := by
  unfold child
  simp only [hd, DirObj.get, hn]

theorem child_link {w : World} {res : Uri → Except PyErr (Option Nat)} {i j : Nat} {n : Str}
    {d : DirObj} {l : LinkObj} (hd : w.node i = .dir d) (hn : d.files.lookup n = some j)
    (hl : w.node j = .link l) :
    child w res i n true = (match res l.target with
      | .error e => .error e
      | .ok none => .ok none
      | .ok (some j) => match w.node j with
        | .link _ => .error .assertionError
        | _ => .ok (some j)) := by
  unfold child
  simp only [hd, DirObj.get, hn, hl, if_true]
  rfl

theorem nodeForPathWith_eq {w : World} {r : Nat} {res : Uri → Except PyErr (Option Nat)} {follow throw : Bool}
    {u : Uri} {ts : List Str} (h : stepsOf u = some ts) :
    nodeForPathWith w r res follow throw u =
      (prevLoop w res follow throw (ts.getLastD []) ts none (some r)).map Prod.snd := by
  unfold stepsOf at h
  split at h
  · rename_i p hp
    simp only [Option.some.injEq] at h
    unfold nodeForPathWith stripPath
    rw [hp]
    simp only
    by_cases hp0 : p = []
    · subst hp0
      simp only [if_true] at h
      subst h
      simp [prevLoop, Except.map]
    · rw [if_neg hp0] at h
      rw [if_pos hp0]
      unfold nodePrevWith
      rw [h]
      cases prevLoop w res follow throw (ts.getLastD []) ts none (some r) <;> rfl
  · simp at h

theorem nodeForPathWith_bad {w : World} {r : Nat} {res : Uri → Except PyErr (Option Nat)} {follow throw : Bool}
    {u : Uri} (h : stepsOf u = none) : nodeForPathWith w r res follow throw u = .error .assertionError := by
  unfold stepsOf at h
  unfold nodeForPathWith stripPath
  split at h
  · simp at h
  · rename_i hp
    split
    · rename_i e he
      split at he
      · rename_i p hp'; exact absurd hp' (hp p)
      · simp at he; rw [← he]
    · rename_i p he
      split at he
      · rename_i p hp'; exact absurd hp' (hp p)
      · simp at he

/-- Lookup computes what a path comes to. -/
theorem prevLoop_goes {w : World} {r : Nat} {throw : Bool} (hroot : (view w r).isDir []) {d : Nat}
    {q steps : List Str} {out : Out} (h : Goes (view w r) d q steps out) :
    ∀ i last prev, phys w r q = some i →
      (prevLoop w (resolveLink w r throw d) true throw last steps prev (some i)).map Prod.snd
        = outResult w r throw out := by
  induction h with
  | done => intro i last prev hi; simp [prevLoop, Except.map, outResult, hi]
  | @notDir d q o n rest h1 h2 =>
    intro i last prev hi
    rw [view_of_phys hi] at h1
    simp only [Option.some.injEq] at h1
    subst h1
    have := objOf_notDir h2
    rw [prevLoop]
    cases hn : w.node i with
    | dir d => exact absurd hn (this d)
    | file f => rfl
    | link f => rfl
  | @missing d q n rest h1 h2 =>
    intro i last prev hi
    obtain ⟨dd, hd⟩ := dir_of_isDir h1 hi
    rw [prevLoop_cons_dir hd]
    have := lookup_none_of_view hi hd h2
    simp only [DirObj.has, this]
    cases throw <;> rfl
  | @step d q o n rest out h1 h2 h3 _ ih =>
    intro i last prev hi
    obtain ⟨dd, hd⟩ := dir_of_isDir h1 hi
    obtain ⟨j, hj1, hj2, hj3⟩ := lookup_of_view hi hd h2
    rw [prevLoop_cons_dir hd, child_plain hd hj1 (objOf_notLink (by rw [hj3]; exact h3))]
    simp only [DirObj.has, hj1, Option.isSome_some, if_true]
    exact ih j last _ hj2
  | @link d q t m s n rest ts q' out h1 h2 h3 h4 h5 ih1 ih2 =>
    intro i last prev hi
    obtain ⟨dd, hd⟩ := dir_of_isDir h1 hi
    obtain ⟨j, hj1, hj2, hj3⟩ := lookup_of_view hi hd h2
    obtain ⟨l, hl, hlt⟩ := objOf_link hj3
    have hres : resolveLink w r throw (d + 1) l.target = .ok (phys w r q') := by
      rw [hlt, resolveLink, nodeForPathWith_eq h3, ih1 r _ _ rfl]; rfl
    obtain ⟨o, ho, hol⟩ := Goes.notLink hroot h4 q' rfl (NS.isDir.notLink hroot)
    obtain ⟨k, hk, hko⟩ := view_some ho
    have hkl := objOf_notLink (n := w.node k) (by rw [hko]; exact hol)
    have hc : child w (resolveLink w r throw (d + 1)) i n true = .ok (some k) := by
      rw [child_link hd hj1 hl, hres, hk]
      simp only
    rw [prevLoop_cons_dir hd]
    simp only [DirObj.has, hj1, Option.isSome_some, if_true, ite_self, hc]
    exact ih2 k last _ hk
  | @linkLost d q t m s n ts h1 h2 h3 h4 ih =>
    intro i last prev hi
    obtain ⟨dd, hd⟩ := dir_of_isDir h1 hi
    obtain ⟨j, hj1, hj2, hj3⟩ := lookup_of_view hi hd h2
    obtain ⟨l, hl, hlt⟩ := objOf_link hj3
    have hres : resolveLink w r throw (d + 1) l.target = outResult w r throw .missing := by
      rw [hlt, resolveLink, nodeForPathWith_eq h3, ih r _ _ rfl]
    rw [prevLoop_cons_dir hd]
    simp only [DirObj.has, hj1, Option.isSome_some, if_true, ite_self, child_link hd hj1 hl, hres]
    cases throw <;> rfl
  | @linkLostMid d q t m s n n' rest ts h1 h2 h3 h4 ih =>
    intro i last prev hi
    obtain ⟨dd, hd⟩ := dir_of_isDir h1 hi
    obtain ⟨j, hj1, hj2, hj3⟩ := lookup_of_view hi hd h2
    obtain ⟨l, hl, hlt⟩ := objOf_link hj3
    have hres : resolveLink w r throw (d + 1) l.target = outResult w r throw .missing := by
      rw [hlt, resolveLink, nodeForPathWith_eq h3, ih r _ _ rfl]
    rw [prevLoop_cons_dir hd]
    simp only [DirObj.has, hj1, Option.isSome_some, if_true, ite_self, child_link hd hj1 hl, hres]
    cases throw <;> rfl
  | @linkFail d q t m s n rest ts out h1 h2 h3 h4 ho ih =>
    intro i last prev hi
    obtain ⟨dd, hd⟩ := dir_of_isDir h1 hi
    obtain ⟨j, hj1, hj2, hj3⟩ := lookup_of_view hi hd h2
    obtain ⟨l, hl, hlt⟩ := objOf_link hj3
    have hres : resolveLink w r throw (d + 1) l.target = outResult w r throw out := by
      rw [hlt, resolveLink, nodeForPathWith_eq h3, ih r _ _ rfl]
    rw [prevLoop_cons_dir hd]
    simp only [DirObj.has, hj1, Option.isSome_some, if_true, ite_self, child_link hd hj1 hl, hres]
    rcases ho with rfl | rfl | rfl <;> cases throw <;> rfl
  | @badLink d q t m s n rest h1 h2 h3 =>
    intro i last prev hi
    obtain ⟨dd, hd⟩ := dir_of_isDir h1 hi
    obtain ⟨j, hj1, hj2, hj3⟩ := lookup_of_view hi hd h2
    obtain ⟨l, hl, hlt⟩ := objOf_link hj3
    have hres : resolveLink w r throw (d + 1) l.target = .error .assertionError := by
      rw [hlt, resolveLink, nodeForPathWith_bad h3]
    rw [prevLoop_cons_dir hd]
    simp only [DirObj.has, hj1, Option.isSome_some, if_true, ite_self, child_link hd hj1 hl, hres]
    rfl

/-- Either a path comes to something within the allowed link nesting, or lookup reports ELOOP. -/
theorem prevLoop_total {w : World} {r : Nat} {throw : Bool} (hroot : (view w r).isDir []) (d : Nat) :
    ∀ (steps q : List Str) (i : Nat) (last : Str) (prev : Option Nat), phys w r q = some i →
      (∃ out, Goes (view w r) d q steps out) ∨
      prevLoop w (resolveLink w r throw d) true throw last steps prev (some i) = .error (.os .ELOOP) := by
  induction d with
  | zero =>
    intro steps
    induction steps with
    | nil => intro q i last prev hi; exact .inl ⟨_, .done⟩
    | cons n rest ih =>
      intro q i last prev hi
      have hq := view_of_phys hi
      cases hn : w.node i with
      | file f => exact .inl ⟨_, .notDir hq (by rw [hn]; rfl)⟩
      | link f => exact .inl ⟨_, .notDir hq (by rw [hn]; rfl)⟩
      | dir dd =>
        have hdir : (view w r).isDir q := (isDir_of_phys hi).2 ⟨dd, hn⟩
        cases hv : view w r (q ++ [n]) with
        | none => exact .inl ⟨_, .missing hdir hv⟩
        | some o =>
          obtain ⟨j, hj1, hj2, hj3⟩ := lookup_of_view hi hn hv
          by_cases hol : o.isLink = false
          · rcases ih (q ++ [n]) j last (some i) hj2 with ⟨out, ho⟩ | h
            · exact .inl ⟨out, .step hdir hv hol ho⟩
            · right
              rw [prevLoop_cons_dir hn, child_plain hn hj1 (objOf_notLink (by rw [hj3]; exact hol))]
              simp only [DirObj.has, hj1, Option.isSome_some, if_true]
              exact h
          · right
            cases hnj : w.node j with
            | file f => rw [hnj] at hj3; subst hj3; exact absurd rfl hol
            | dir f => rw [hnj] at hj3; subst hj3; exact absurd rfl hol
            | link l =>
              rw [prevLoop_cons_dir hn]
              simp only [DirObj.has, hj1, Option.isSome_some, if_true, ite_self, child_link hn hj1 hnj,
                resolveLink]
  | succ d ihd =>
    intro steps
    induction steps with
    | nil => intro q i last prev hi; exact .inl ⟨_, .done⟩
    | cons n rest ih =>
      intro q i last prev hi
      have hq := view_of_phys hi
      cases hn : w.node i with
      | file f => exact .inl ⟨_, .notDir hq (by rw [hn]; rfl)⟩
      | link f => exact .inl ⟨_, .notDir hq (by rw [hn]; rfl)⟩
      | dir dd =>
        have hdir : (view w r).isDir q := (isDir_of_phys hi).2 ⟨dd, hn⟩
        cases hv : view w r (q ++ [n]) with
        | none => exact .inl ⟨_, .missing hdir hv⟩
        | some o =>
          obtain ⟨j, hj1, hj2, hj3⟩ := lookup_of_view hi hn hv
          by_cases hol : o.isLink = false
          · rcases ih (q ++ [n]) j last (some i) hj2 with ⟨out, ho⟩ | h
            · exact .inl ⟨out, .step hdir hv hol ho⟩
            · right
              rw [prevLoop_cons_dir hn, child_plain hn hj1 (objOf_notLink (by rw [hj3]; exact hol))]
              simp only [DirObj.has, hj1, Option.isSome_some, if_true]
              exact h
          · cases hnj : w.node j with
            | file f => rw [hnj] at hj3; subst hj3; exact absurd rfl hol
            | dir f => rw [hnj] at hj3; subst hj3; exact absurd rfl hol
            | link l =>
              have hv' : view w r (q ++ [n]) = some (.link l.target l.mode l.mtime) := by
                rw [hv, ← hj3, hnj]; rfl
              cases hst : stepsOf l.target with
              | none => exact .inl ⟨_, .badLink hdir hv' hst⟩
              | some ts =>
                have hpl := prevLoop_cons_dir (res := resolveLink w r throw (d + 1)) (follow := true)
                  (throw := throw) (last := last) (n := n) (rest := rest) (prev := prev) hn
                simp only [DirObj.has, hj1, Option.isSome_some, if_true, ite_self,
                  child_link hn hj1 hnj] at hpl
                have hrl : resolveLink w r throw (d + 1) l.target =
                    (prevLoop w (resolveLink w r throw d) true throw (ts.getLastD []) ts none (some r)).map
                      Prod.snd := by rw [resolveLink, nodeForPathWith_eq hst]
                rcases ihd ts [] r (ts.getLastD []) none rfl with ⟨out, ho⟩ | h
                · cases out with
                  | missing =>
                    cases rest with
                    | nil => exact .inl ⟨_, .linkLost hdir hv' hst ho⟩
                    | cons n' rest => exact .inl ⟨_, .linkLostMid hdir hv' hst ho⟩
                  | dangling => exact .inl ⟨_, .linkFail hdir hv' hst ho (by simp)⟩
                  | notDir => exact .inl ⟨_, .linkFail hdir hv' hst ho (by simp)⟩
                  | badLink => exact .inl ⟨_, .linkFail hdir hv' hst ho (by simp)⟩
                  | found q' =>
                    obtain ⟨o', ho', hol'⟩ := Goes.notLink hroot ho q' rfl (NS.isDir.notLink hroot)
                    obtain ⟨k, hk, hko⟩ := view_some ho'
                    rcases ih q' k last (some i) hk with ⟨out, h2⟩ | h
                    · exact .inl ⟨_, .link hdir hv' hst ho h2⟩
                    · right
                      rw [hpl, hrl, prevLoop_goes hroot ho r _ _ rfl]
                      simp only [outResult, hk]
                      have hkl := objOf_notLink (n := w.node k) (by rw [hko]; exact hol')
                      split
                      · rename_i e he
                        split at he
                        · rename_i l' hl'; exact absurd hl' (hkl l')
                        · simp at he
                      · rename_i nxt he
                        split at he
                        · rename_i l' hl'; exact absurd hl' (hkl l')
                        · simp at he; subst he; exact h
                · right
                  rw [hpl, hrl, h]; rfl

/-! ## The last step -/

theorem prevLoop_snoc {w : World} {res : Uri → Except PyErr (Option Nat)} {follow throw : Bool} {last n : Str}
    (xs : List Str) : ∀ (prev cur : Option Nat), (xs = [] → cur ≠ none) →
      prevLoop w res follow throw last (xs ++ [n]) prev cur =
        match prevLoop w res follow throw last xs prev cur with
        | .error e => .error e
        | .ok (p, some c) => prevLoop w res follow throw last [n] p (some c)
        | .ok (none, none) => .ok (none, none)
        | .ok (some _, none) => .error .attributeError := by
  induction xs with
  | nil =>
    intro prev cur h
    cases cur with
    | none => exact absurd rfl (h rfl)
    | some c => cases prev <;> rfl
  | cons x xs ih =>
    intro prev cur _
    cases cur with
    | none => rfl
    | some c =>
      rw [List.cons_append]
      cases hn : w.node c with
      | file f => rw [prevLoop, prevLoop]; simp only [hn]
      | link f => rw [prevLoop, prevLoop]; simp only [hn]
      | dir d =>
        rw [prevLoop_cons_dir hn, prevLoop_cons_dir hn]
        split
        · cases child w res c x (if x = last then follow else true) with
          | error e => rfl
          | ok nxt =>
            simp only
            by_cases hx : xs = [] ∧ nxt = none
            · obtain ⟨rfl, rfl⟩ := hx; rfl
            · rw [ih (some c) nxt (by intro h1 h2; exact hx ⟨h1, h2⟩)]
        · cases throw <;> rfl

theorem prevLoop_last {w : World} {res : Uri → Except PyErr (Option Nat)} {throw : Bool} {last last' : Str}
    (xs : List Str) : ∀ (prev cur : Option Nat),
      prevLoop w res true throw last xs prev cur = prevLoop w res true throw last' xs prev cur := by
  induction xs with
  | nil => intro prev cur; rfl
  | cons x xs ih =>
    intro prev cur
    cases cur with
    | none => rfl
    | some c =>
      rw [prevLoop, prevLoop]
      simp only [ite_self, ih (some c)]

theorem prevLoop_follow {w : World} {res : Uri → Except PyErr (Option Nat)} {follow throw : Bool} {last : Str}
    (xs : List Str) (h : last ∉ xs) : ∀ (prev cur : Option Nat),
      prevLoop w res follow throw last xs prev cur = prevLoop w res true throw last xs prev cur := by
  induction xs with
  | nil => intro prev cur; rfl
  | cons x xs ih =>
    intro prev cur
    have hx : x ≠ last := by rintro rfl; simp at h
    cases cur with
    | none => rfl
    | some c =>
      rw [prevLoop, prevLoop]
      simp only [if_neg hx, ih (fun h' => h (List.mem_cons_of_mem _ h'))]

/-- On a path of plain directories links play no role. -/
theorem prevLoop_dirs {w : World} {r : Nat} {res : Uri → Except PyErr (Option Nat)} {follow throw : Bool}
    {last : Str} (xs : List Str) : ∀ (q : List Str) (i : Nat) (prev : Option Nat), phys w r q = some i →
      (∀ a b, xs = a ++ b → (view w r).isDir (q ++ a)) →
      prevLoop w res follow throw last xs prev (some i) =
        prevLoop w res true throw last xs prev (some i) := by
  induction xs with
  | nil => intro q i prev _ _; rfl
  | cons x xs ih =>
    intro q i prev hi h
    have h0 : (view w r).isDir q := by simpa using h [] (x :: xs) rfl
    obtain ⟨d, hd⟩ := dir_of_isDir h0 hi
    have h1 : (view w r).isDir (q ++ [x]) := h [x] xs rfl
    obtain ⟨o, ho, hol⟩ := NS.isDir.notLink h1
    obtain ⟨j, hj1, hj2, hj3⟩ := lookup_of_view hi hd ho
    have hl := objOf_notLink (n := w.node j) (by rw [hj3]; exact hol)
    rw [prevLoop_cons_dir hd, prevLoop_cons_dir hd, child_plain hd hj1 hl, child_plain hd hj1 hl]
    simp only [ih (q ++ [x]) j (some i) hj2 (by intro a b hab; simpa using h (x :: a) b (by simp [hab]))]

/-- all directories: the path goes to itself -/
theorem goes_dirs {ns : NS} {d : Nat} (xs : List Str) : ∀ q : List Str, (∀ a b, xs = a ++ b → ns.isDir (q ++ a)) →
    Goes ns d q xs (.found (q ++ xs)) := by
  induction xs with
  | nil => intro q _; simpa using Goes.done
  | cons x xs ih =>
    intro q h
    have h0 : ns.isDir q := by simpa using h [] (x :: xs) rfl
    obtain ⟨o, ho, hol⟩ := NS.isDir.notLink (h [x] xs rfl)
    have := ih (q ++ [x]) (by intro a b hab; simpa using h (x :: a) b (by simp [hab]))
    rw [show q ++ x :: xs = q ++ [x] ++ xs by simp]
    exact .step h0 ho hol this

theorem Plain.dirs {ns : NS} {init : List Str} {n : Str} (h : Plain ns (init ++ [n])) :
    ∀ a b, init = a ++ b → ns.isDir a := by
  rintro a b rfl
  cases b with
  | nil => exact h a n [] (by simp)
  | cons x b => exact h a x (b ++ [n]) (by simp)

/-- a plain path leads to its own directory -/
theorem Plain.goes_init {ns : NS} {d : Nat} {init : List Str} {n : Str} (h : Plain ns (init ++ [n])) :
    Goes ns d [] init (.found init) := by
  simpa using goes_dirs init [] (by simpa using Plain.dirs h)

/-- a plain path to something that is not a link leads to its own location -/
theorem Plain.goes {ns : NS} {d : Nat} {cs : List Str} {o : Obj} (h : Plain ns cs) (ho : ns cs = some o)
    (hl : o.isLink = false) : Goes ns d [] cs (.found cs) := by
  rcases List.eq_nil_or_concat cs with rfl | ⟨init, n, rfl⟩
  · exact .done
  · rw [List.concat_eq_append] at *
    have key : ∀ (xs q : List Str), (∀ a b, xs = a ++ b → ns.isDir (q ++ a)) → ns (q ++ xs ++ [n]) = some o →
        Goes ns d q (xs ++ [n]) (.found (q ++ (xs ++ [n]))) := by
      intro xs
      induction xs with
      | nil =>
        intro q hq hn
        have h0 : ns.isDir q := by simpa using hq [] [] rfl
        exact .step h0 (by simpa using hn) hl .done
      | cons x xs ih =>
        intro q hq hn
        have h0 : ns.isDir q := by simpa using hq [] (x :: xs) rfl
        obtain ⟨o', ho', hol'⟩ := NS.isDir.notLink (hq [x] xs rfl)
        have := ih (q ++ [x]) (by intro a b hab; simpa using hq (x :: a) b (by simp [hab])) (by simpa using hn)
        rw [show q ++ (x :: xs ++ [n]) = q ++ [x] ++ (xs ++ [n]) by simp]
        exact .step h0 ho' hol' this
    simpa using key init [] (by simpa using Plain.dirs h) (by simpa using ho)

theorem Plain.goes_missing {ns : NS} {d : Nat} {init : List Str} {n : Str} (h : Plain ns (init ++ [n]))
    (ho : ns (init ++ [n]) = none) : Goes ns d [] (init ++ [n]) .missing := by
  have key : ∀ (xs q : List Str), (∀ a b, xs = a ++ b → ns.isDir (q ++ a)) → ns (q ++ xs ++ [n]) = none →
      Goes ns d q (xs ++ [n]) .missing := by
    intro xs
    induction xs with
    | nil =>
      intro q hq hn
      have h0 : ns.isDir q := by simpa using hq [] [] rfl
      exact .missing h0 (by simpa using hn)
    | cons x xs ih =>
      intro q hq hn
      have h0 : ns.isDir q := by simpa using hq [] (x :: xs) rfl
      obtain ⟨o', ho', hol'⟩ := NS.isDir.notLink (hq [x] xs rfl)
      have := ih (q ++ [x]) (by intro a b hab; simpa using hq (x :: a) b (by simp [hab])) (by simpa using hn)
      exact .step h0 ho' hol' this
  simpa using key init [] (by simpa using Plain.dirs h) (by simpa using ho)

/-! ## Lookup at link level 0 -/

section
variable {w : World} (hw : Inv w) {r : Nat} (hr : IsRoot w r)
include hw hr

theorem nodeForPath_goes {u : Uri} {ts : List Str} (hs : stepsOf u = some ts) {out : Out} {throw : Bool}
    (h : Goes (view w r) maxDepth [] ts out) : nodeForPath w r true throw u = outResult w r throw out := by
  rw [nodeForPath, nodeForPathWith_eq hs]
  exact prevLoop_goes (isDir_root hw hr) h r _ _ rfl

theorem nodeForPath_loop {u : Uri} {ts : List Str} (hs : stepsOf u = some ts) {throw : Bool}
    (h : ¬ ∃ out, Goes (view w r) maxDepth [] ts out) :
    nodeForPath w r true throw u = .error (.os .ELOOP) := by
  rw [nodeForPath, nodeForPathWith_eq hs]
  rcases prevLoop_total (throw := throw) (isDir_root hw hr) maxDepth ts [] r (ts.getLastD []) none rfl with h' | h'
  · exact absurd h' h
  · rw [maxDepth] at h'; rw [h']; rfl

theorem nodeForPath_some {u : Uri} {ts : List Str} (hs : stepsOf u = some ts) {throw : Bool} {i : Nat}
    (h : nodeForPath w r true throw u = .ok (some i)) :
    ∃ q, Goes (view w r) maxDepth [] ts (.found q) ∧ phys w r q = some i := by
  by_cases hg : ∃ out, Goes (view w r) maxDepth [] ts out
  · obtain ⟨out, ho⟩ := hg
    rw [nodeForPath_goes hw hr hs ho] at h
    cases out with
    | found q => simp only [outResult, Except.ok.injEq] at h; exact ⟨q, ho, h⟩
    | missing => cases throw <;> simp [outResult] at h
    | dangling => cases throw <;> simp [outResult] at h
    | notDir => simp [outResult] at h
    | badLink => simp [outResult] at h
  · rw [nodeForPath_loop hw hr hs hg] at h; simp at h

omit hw hr in
theorem nodeForPath_bad {u : Uri} (hs : stepsOf u = none) {follow throw : Bool} :
    nodeForPath w r follow throw u = .error .assertionError := by
  rw [nodeForPath, nodeForPathWith_bad hs]

theorem getNode_goes {ts : List Str} {out : Out} (h : Goes (view w r) maxDepth [] ts out) :
    getNode w r ts = outResult w r true out := by
  have := prevLoop_goes (throw := true) (isDir_root hw hr) h r (ts.getLastD []) none rfl
  rw [maxDepth] at this
  rw [← this, getNode, nodePrev, nodePrevWith]
  cases prevLoop w (resolveLink w r true 32) true true (ts.getLastD []) ts none (some r) <;> rfl

theorem getNode_loop {ts : List Str} (h : ¬ ∃ out, Goes (view w r) maxDepth [] ts out) :
    getNode w r ts = .error (.os .ELOOP) := by
  rcases prevLoop_total (throw := true) (isDir_root hw hr) maxDepth ts [] r (ts.getLastD []) none rfl with h' | h'
  · exact absurd h' h
  · rw [maxDepth] at h'; rw [getNode, nodePrev, nodePrevWith, h']

theorem getNode_some {ts : List Str} {i : Nat} (h : getNode w r ts = .ok (some i)) :
    ∃ q, Goes (view w r) maxDepth [] ts (.found q) ∧ phys w r q = some i := by
  by_cases hg : ∃ out, Goes (view w r) maxDepth [] ts out
  · obtain ⟨out, ho⟩ := hg
    rw [getNode_goes hw hr ho] at h
    cases out <;> simp [outResult] at h
    exact ⟨_, ho, h⟩
  · rw [getNode_loop hw hr hg] at h; simp at h

theorem getNode_none {ts : List Str} : getNode w r ts ≠ .ok none := by
  intro h
  by_cases hg : ∃ out, Goes (view w r) maxDepth [] ts out
  · obtain ⟨out, ho⟩ := hg
    rw [getNode_goes hw hr ho] at h
    cases out with
    | found q =>
      simp [outResult] at h
      obtain ⟨o, ho', -⟩ := Goes.notLink (isDir_root hw hr) ho q rfl (NS.isDir.notLink (isDir_root hw hr))
      obtain ⟨i, hi, -⟩ := view_some ho'
      rw [hi] at h; simp at h
    | missing => simp [outResult] at h
    | dangling => simp [outResult] at h
    | notDir => simp [outResult] at h
    | badLink => simp [outResult] at h
  · rw [getNode_loop hw hr hg] at h; simp at h

/-- The loop over all steps but the last, when it arrives. -/
theorem prevLoop_found {init : List Str} {q : List Str} {throw : Bool} {last : Str}
    (h : Goes (view w r) maxDepth [] init (.found q)) :
    ∃ p i, phys w r q = some i ∧
      prevLoop w (resolveLink w r throw 32) true throw last init none (some r) = .ok (p, some i) := by
  have h1 := prevLoop_goes (throw := throw) (isDir_root hw hr) h r last none rfl
  obtain ⟨o, ho, -⟩ := Goes.notLink (isDir_root hw hr) h q rfl (NS.isDir.notLink (isDir_root hw hr))
  obtain ⟨i, hi, -⟩ := view_some ho
  simp only [outResult, maxDepth, hi] at h1
  cases h2 : prevLoop w (resolveLink w r throw 32) true throw last init none (some r) with
  | error e => rw [h2] at h1; simp [Except.map] at h1
  | ok x =>
    rw [h2] at h1
    obtain ⟨p, c⟩ := x
    simp [Except.map] at h1
    subst h1
    exact ⟨p, i, hi, rfl⟩

/-- The last step, not following a link there. -/
theorem nodePrev_nofollow {init : List Str} {n : Str} {q : List Str} {throw : Bool}
    (h : Goes (view w r) maxDepth [] init (.found q)) (hd : (view w r).isDir q)
    (hn : n ∉ init ∨ Plain (view w r) (init ++ [n])) :
    ∃ i d, phys w r q = some i ∧ w.node i = .dir d ∧
      nodePrev w r false throw (init ++ [n]) =
        match d.files.lookup n with
        | some j => .ok (some i, some j)
        | none => if throw then .error (.os .ENOENT) else .ok (none, none) := by
  obtain ⟨p, i, hi, hp⟩ := prevLoop_found hw hr (throw := throw) (last := n) h
  obtain ⟨d, hdi⟩ := dir_of_isDir hd hi
  refine ⟨i, d, hi, hdi, ?_⟩
  rw [nodePrev, nodePrevWith]
  simp only [List.getLastD_eq_getLast?, List.getLast?_append, List.getLast?_singleton, Option.some_or, Option.getD_some]
  rw [prevLoop_snoc _ _ _ (by intro _; simp)]
  have heq : prevLoop w (resolveLink w r throw 32) false throw n init none (some r) =
      prevLoop w (resolveLink w r throw 32) true throw n init none (some r) := by
    rcases hn with hn | hn
    · exact prevLoop_follow init hn _ _
    · exact prevLoop_dirs init [] r none rfl (by simpa using Plain.dirs hn)
  rw [heq, hp]
  simp only
  rw [prevLoop_cons_dir hdi]
  cases hl : d.files.lookup n with
  | none => simp [DirObj.has, hl]
  | some j =>
    have : child w (resolveLink w r throw 32) i n false = .ok (some j) := by
      unfold child
      simp only [hdi, DirObj.get, hl]
      cases w.node j <;> rfl
    simp [DirObj.has, hl, this, prevLoop]

theorem nodeForPath_nofollow {u : Uri} {init : List Str} {n : Str} {q : List Str} {throw : Bool}
    (hs : stepsOf u = some (init ++ [n]))
    (h : Goes (view w r) maxDepth [] init (.found q)) (hd : (view w r).isDir q)
    (hn : n ∉ init ∨ Plain (view w r) (init ++ [n])) :
    nodeForPath w r false throw u =
      match phys w r (q ++ [n]) with
      | some j => .ok (some j)
      | none => if throw then .error (.os .ENOENT) else .ok none := by
  obtain ⟨i, d, hi, hdi, h1⟩ := nodePrev_nofollow hw hr (throw := throw) h hd hn
  rw [nodePrev, nodePrevWith] at h1
  rw [nodeForPath, nodeForPathWith_eq hs, h1, phys_snoc, hi]
  simp only [Option.bind_some, entries_dir hdi]
  cases d.files.lookup n with
  | none => cases throw <;> rfl
  | some j => rfl

/-- The last step, following a link there. -/
theorem nodePrev_follow {init : List Str} {n : Str} {q : List Str} {out : Out}
    (h : Goes (view w r) maxDepth [] init (.found q))
    (h' : Goes (view w r) maxDepth [] (init ++ [n]) out) :
    (∀ q', out = .found q' → ∃ i, phys w r q = some i ∧
      nodePrev w r true true (init ++ [n]) = .ok (some i, phys w r q')) ∧
    ((∀ q', out ≠ .found q') → ∃ e, nodePrev w r true true (init ++ [n]) = .error e ∧
      outResult w r true out = .error e) := by
  have h1 := prevLoop_goes (throw := true) (isDir_root hw hr) h' r n none rfl
  obtain ⟨p, i, hi, hp⟩ := prevLoop_found hw hr (throw := true) (last := n) h
  have h2 : nodePrev w r true true (init ++ [n]) =
      prevLoop w (resolveLink w r true 32) true true n (init ++ [n]) none (some r) := by
    rw [nodePrev, nodePrevWith]; exact prevLoop_last _ _ _
  rw [maxDepth, ← h2] at h1
  constructor
  · rintro q' rfl
    refine ⟨i, hi, ?_⟩
    rw [h2, prevLoop_snoc _ _ _ (by intro _; simp), hp] at h1
    rw [h2, prevLoop_snoc _ _ _ (by intro _; simp), hp]
    simp only [outResult] at h1 ⊢
    rw [prevLoop] at h1 ⊢
    cases hn : w.node i with
    | file f => rw [hn] at h1; simp [Except.map] at h1
    | link f => rw [hn] at h1; simp [Except.map] at h1
    | dir d =>
      rw [hn] at h1
      simp only [ite_self] at h1 ⊢
      split at h1
      · rename_i hh
        rw [if_pos hh]
        cases hc : child w (resolveLink w r true 32) i n true with
        | error e => rw [hc] at h1; simp [Except.map] at h1
        | ok nx =>
          rw [hc] at h1
          simp [Except.map, prevLoop] at h1
          simp [prevLoop, h1]
      · simp [Except.map] at h1
  · intro hne
    cases hr' : nodePrev w r true true (init ++ [n]) with
    | error e => exact ⟨e, rfl, by rw [← h1, hr']; rfl⟩
    | ok x =>
      rw [hr'] at h1
      cases out with
      | found q' => exact absurd rfl (hne q')
      | missing => simp [outResult, Except.map] at h1
      | dangling => simp [outResult, Except.map] at h1
      | notDir => simp [outResult, Except.map] at h1
      | badLink => simp [outResult, Except.map] at h1

end

end Verif.Mem
