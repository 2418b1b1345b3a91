import Verif.Mem.OpLemmas
import Verif.Py.SortLemmas
/-!
# Closed forms: listing, removing, opening, attributes
-/
namespace Verif.Mem
open M Spec

theorem filter_steps {u : Uri} {ts : List Str} (h : stepsOf u = some ts) :
    ∃ p, stripPath u = .ok p ∧ (splitC '/' p).filter (fun x => x ≠ []) = ts.filter (fun x => x ≠ []) := by
  obtain ⟨p, h1, h2⟩ := stepsOf_strip h
  refine ⟨p, h1, ?_⟩
  rcases h2 with ⟨rfl, rfl⟩ | ⟨-, h3⟩
  · rfl
  · rw [h3]

theorem filter_clean {ts : List Str} (h : [] ∉ ts) : ts.filter (fun x => x ≠ []) = ts := by
  rw [List.filter_eq_self]
  intro a ha
  simp only [ne_eq, decide_not, Bool.not_eq_eq_eq_not, Bool.not_true, decide_eq_false_iff_not]
  rintro rfl; exact h ha

/-! ## Bounds -/

theorem prevLoop_lt {w : World} (hw : Inv w) {res : Uri → Except PyErr (Option Nat)} {follow throw : Bool}
    {last : Str} (hres : ∀ t i, res t = .ok (some i) → i < w.next) (xs : List Str) :
    ∀ (prev cur p c : Option Nat), (∀ i, cur = some i → i < w.next) →
      prevLoop w res follow throw last xs prev cur = .ok (p, c) → ∀ i, c = some i → i < w.next := by
  induction xs with
  | nil =>
    intro prev cur p c hc h
    simp [prevLoop] at h
    rw [← h.2]; exact hc
  | cons x xs ih =>
    intro prev cur p c hc h
    cases cur with
    | none => simp [prevLoop] at h
    | some k =>
      cases hn : w.node k with
      | file f => rw [prevLoop] at h; simp [hn] at h
      | link f => rw [prevLoop] at h; simp [hn] at h
      | dir d =>
        rw [prevLoop_cons_dir hn] at h
        split at h
        · rename_i hh
          cases hch : child w res k x (if x = last then follow else true) with
          | error e => rw [hch] at h; simp at h
          | ok nxt =>
            rw [hch] at h
            simp only at h
            refine ih (some k) nxt p c ?_ h
            rintro j rfl
            unfold child at hch
            rw [hn] at hch
            simp only [DirObj.get] at hch
            cases hl : d.files.lookup x with
            | none => rw [hl] at hch; simp at hch
            | some m =>
              have hm := (hw.child k x m (by rw [entries_dir hn]; exact lookup_mem hl)).2
              rw [hl] at hch
              simp only at hch
              cases hnm : w.node m with
              | file f => rw [hnm] at hch; simp at hch; omega
              | dir f => rw [hnm] at hch; simp at hch; omega
              | link l =>
                rw [hnm] at hch
                simp only at hch
                generalize (if x = last then follow else true) = b at hch
                cases b with
                | false => simp at hch; omega
                | true =>
                  simp only [if_true] at hch
                  cases hrt : res l.target with
                  | error e => rw [hrt] at hch; simp at hch
                  | ok o =>
                    cases o with
                    | none => rw [hrt] at hch; simp at hch
                    | some j' =>
                      rw [hrt] at hch
                      simp only at hch
                      cases hj' : w.node j' with
                      | link l' => rw [hj'] at hch; simp at hch
                      | file l' => rw [hj'] at hch; simp at hch; subst hch; exact hres _ _ hrt
                      | dir l' => rw [hj'] at hch; simp at hch; subst hch; exact hres _ _ hrt
        · split at h
          · simp at h
          · simp at h; rintro i rfl; simp at h

theorem nodeForPathWith_lt {w : World} (hw : Inv w) {r : Nat} (hr : IsRoot w r)
    {res : Uri → Except PyErr (Option Nat)} {follow throw : Bool}
    (hres : ∀ t i, res t = .ok (some i) → i < w.next) {u : Uri} {i : Nat}
    (h : nodeForPathWith w r res follow throw u = .ok (some i)) : i < w.next := by
  have hr' : r < w.next := by obtain ⟨k, hk⟩ := hr; exact (hw.root k r hk).1
  cases hs : stepsOf u with
  | none => rw [nodeForPathWith_bad hs] at h; simp at h
  | some ts =>
    rw [nodeForPathWith_eq hs] at h
    cases hp : prevLoop w res follow throw (ts.getLastD []) ts none (some r) with
    | error e => rw [hp] at h; simp [Except.map] at h
    | ok x =>
      rw [hp] at h
      obtain ⟨p, c⟩ := x
      simp [Except.map] at h
      exact prevLoop_lt hw hres ts none (some r) p c (by rintro j ⟨rfl⟩; exact hr') hp i h

theorem resolveLink_lt {w : World} (hw : Inv w) {r : Nat} (hr : IsRoot w r) {throw : Bool} (k : Nat) :
    ∀ t i, resolveLink w r throw k t = .ok (some i) → i < w.next := by
  induction k with
  | zero => intro t i h; simp [resolveLink] at h
  | succ k ih => intro t i h; rw [resolveLink] at h; exact nodeForPathWith_lt hw hr ih h

theorem nodeForPath_lt {w : World} (hw : Inv w) {r : Nat} (hr : IsRoot w r) {follow throw : Bool} {u : Uri}
    {i : Nat} (h : nodeForPath w r follow throw u = .ok (some i)) : i < w.next :=
  nodeForPathWith_lt hw hr (resolveLink_lt hw hr 32) h

/-! ## listdir -/

section
variable {w : World} (hw : Inv w) {r : Nat} (hr : IsRoot w r)
include hw hr

theorem listdir_found {u : Uri} {ts q : List Str} {i : Nat} {d : DirObj} (hs : stepsOf u = some ts)
    (h : Goes (view w r) maxDepth [] (ts.filter fun x => x ≠ []) (.found q))
    (hi : phys w r q = some i) (hd : w.node i = .dir d) : listdir w r u = .ok (sortStr d.keys) := by
  obtain ⟨p, h1, h2⟩ := filter_steps hs
  unfold listdir
  simp only [h1, h2, getNode_goes hw hr h, outResult, hi, hd]

theorem listdir_fail {u : Uri} {ts : List Str} {out : Out} (hs : stepsOf u = some ts)
    (h : Goes (view w r) maxDepth [] (ts.filter fun x => x ≠ []) out)
    (hd : ∀ q, out = .found q → ¬ (view w r).isDir q) : listdir w r u = .error (lookupError out) := by
  obtain ⟨p, h1, h2⟩ := filter_steps hs
  unfold listdir
  simp only [h1, h2, getNode_goes hw hr h]
  cases out with
  | found q =>
    obtain ⟨i, hi, -, -⟩ := Goes.phys hw hr h
    simp only [outResult, hi]
    cases hn : w.node i with
    | dir d => exact absurd ((isDir_of_phys hi).2 ⟨d, hn⟩) (hd q rfl)
    | file f => rfl
    | link f => rfl
  | missing => rfl
  | dangling => rfl
  | notDir => rfl
  | badLink => rfl

theorem listdir_loop {u : Uri} {ts : List Str} (hs : stepsOf u = some ts)
    (h : ¬ ∃ out, Goes (view w r) maxDepth [] (ts.filter fun x => x ≠ []) out) :
    listdir w r u = .error (.os .ELOOP) := by
  obtain ⟨p, h1, h2⟩ := filter_steps hs
  unfold listdir
  simp only [h1, h2, getNode_loop hw hr h]

omit hr in
theorem keys_nodup {i : Nat} {d : DirObj} (hd : w.node i = .dir d) : d.keys.Nodup := by
  have := hw.nodup i
  rw [entries_dir hd] at this
  exact this

omit hw hr in
theorem mem_keys {q : List Str} {i : Nat} {d : DirObj} {n : Str} (hi : phys w r q = some i)
    (hd : w.node i = .dir d) : n ∈ d.keys ↔ view w r (q ++ [n]) ≠ none := by
  rw [ne_eq, view_snoc_none hi, entries_dir hd, lookup_none]
  simp [DirObj.keys]

/-! ## Attributes -/

theorem setInfo_found {u : Uri} {ts q : List Str} {s : SetInfo} (hs : stepsOf u = some ts)
    (h : Goes (view w r) maxDepth [] ts (.found q)) :
    ∃ i, phys w r q = some i ∧ setInfo r u s true w = (.ok (), w.setNode i ((w.node i).apply s)) := by
  obtain ⟨i, hi, -, -⟩ := Goes.phys hw hr h
  refine ⟨i, hi, ?_⟩
  unfold setInfo
  rw [nodeForPath_goes hw hr hs h]
  simp [outResult, hi]

theorem setInfo_nofollow {u : Uri} {init q : List Str} {n : Str} {o : Obj} {s : SetInfo}
    (hs : stepsOf u = some (init ++ [n]))
    (h : Goes (view w r) maxDepth [] init (.found q))
    (hn : n ∉ init ∨ Plain (view w r) (init ++ [n])) (ho : view w r (q ++ [n]) = some o) :
    ∃ i, phys w r (q ++ [n]) = some i ∧
      setInfo r u s false w = (.ok (), w.setNode i ((w.node i).apply s)) := by
  have hd := view_parent ho
  obtain ⟨j, hj, hjo⟩ := view_some ho
  refine ⟨j, hj, ?_⟩
  unfold setInfo
  rw [nodeForPath_nofollow hw hr (throw := true) hs h hd hn]
  simp [hj]

omit hw hr in
theorem setInfo_cases (u : Uri) (s : SetInfo) (f : Bool) :
    (∃ e, setInfo r u s f w = (.error e, w)) ∨
    ∃ i, nodeForPath w r f true u = .ok (some i) ∧
      setInfo r u s f w = (.ok (), w.setNode i ((w.node i).apply s)) := by
  unfold setInfo
  cases h : nodeForPath w r f true u with
  | error e => exact .inl ⟨e, rfl⟩
  | ok x =>
    cases x with
    | none => exact .inl ⟨_, rfl⟩
    | some i => exact .inr ⟨i, rfl, rfl⟩

/-- the state after `copystat` from object `s` to object `d` -/
def World.statFrom (w : World) (s d : Nat) : World :=
  (w.setNode d ((w.node d).setMtime (w.node s).info.mtime)).setNode d
    (((w.setNode d ((w.node d).setMtime (w.node s).info.mtime)).node d).setMode
      ((w.setNode d ((w.node d).setMtime (w.node s).info.mtime)).node s).info.mode)

omit hw hr in
theorem statFrom_eq (w : World) (s d : Nat) :
    w.statFrom s d = w.setNode d ((w.node d).apply ⟨some (w.node s).info.mode, some (w.node s).info.mtime⟩) := by
  unfold World.statFrom
  have h1 : ((w.setNode d ((w.node d).setMtime (w.node s).info.mtime)).node s).info.mode = (w.node s).info.mode := by
    by_cases hsd : s = d
    · subst hsd; simp only [World.setNode, if_true]; cases w.node s <;> rfl
    · simp only [World.setNode, if_neg hsd]
  rw [h1]
  have h2 : (w.setNode d ((w.node d).setMtime (w.node s).info.mtime)).node d =
      (w.node d).setMtime (w.node s).info.mtime := by simp [World.setNode]
  rw [h2]
  have h3 : ((w.node d).setMtime (w.node s).info.mtime).setMode (w.node s).info.mode =
      (w.node d).apply ⟨some (w.node s).info.mode, some (w.node s).info.mtime⟩ := by
    unfold Node.apply; cases w.node d <;> rfl
  rw [h3]
  unfold World.setNode
  congr 1
  funext j
  by_cases hj : j = d <;> simp [hj]

omit hw hr in
theorem copystat_cases (u v : Uri) :
    (∃ e, copystat r u v w = (.error e, w)) ∨
    ∃ s d, nodeForPath w r true true u = .ok (some s) ∧ nodeForPath w r true true v = .ok (some d) ∧
      copystat r u v w = (.ok (), w.statFrom s d) := by
  unfold copystat
  cases h : nodeForPath w r true true u with
  | error e => exact .inl ⟨e, rfl⟩
  | ok x =>
    cases x with
    | none =>
      left
      cases nodeForPath w r true true v with
      | error e => exact ⟨e, rfl⟩
      | ok y => exact ⟨_, rfl⟩
    | some i =>
      cases nodeForPath w r true true v with
      | error e => exact .inl ⟨e, rfl⟩
      | ok y =>
        cases y with
        | none => exact .inl ⟨_, rfl⟩
        | some j => exact .inr ⟨i, j, rfl, rfl, rfl⟩

theorem copystat_found {u v : Uri} {ts ts' q q' : List Str} (hs : stepsOf u = some ts) (hs' : stepsOf v = some ts')
    (h : Goes (view w r) maxDepth [] ts (.found q)) (h' : Goes (view w r) maxDepth [] ts' (.found q')) :
    ∃ s d, phys w r q = some s ∧ phys w r q' = some d ∧ copystat r u v w = (.ok (), w.statFrom s d) := by
  obtain ⟨s, hi, -, -⟩ := Goes.phys hw hr h
  obtain ⟨d, hi', -, -⟩ := Goes.phys hw hr h'
  refine ⟨s, d, hi, hi', ?_⟩
  unfold copystat
  rw [nodeForPath_goes hw hr hs h, nodeForPath_goes hw hr hs' h']
  simp [outResult, hi, hi', World.statFrom]

/-! ## Removing -/

omit hw hr in
theorem delChild_cases (i : Nat) (n : Str) :
    (∃ e, delChild i n w = (.error e, w)) ∨
    ∃ d c, w.node i = .dir d ∧ d.files.lookup n = some c ∧ delChild i n w = (.ok (), w.delEntry i d n) := by
  unfold delChild
  cases h : w.node i with
  | file f => exact .inl ⟨_, rfl⟩
  | link f => exact .inl ⟨_, rfl⟩
  | dir d =>
    cases hl : d.files.lookup n with
    | none => left; exact ⟨.keyError, by simp [DirObj.has, hl]⟩
    | some c => right; exact ⟨d, c, rfl, hl, by simp [DirObj.has, hl, World.delEntry]⟩

omit hw hr in
theorem delChild_some {i c : Nat} {d : DirObj} {n : Str} (hd : w.node i = .dir d) (h : d.files.lookup n = some c) :
    delChild i n w = (.ok (), w.delEntry i d n) := by
  simp [delChild, hd, DirObj.has, h, World.delEntry]

omit hw hr in
theorem removefile_cases (u : Uri) :
    (∃ e, removefile r u w = (.error e, w)) ∨ removefile r u w = (.ok (), w) ∨
    ∃ i d c, w.node i = .dir d ∧ d.files.lookup u.last = some c ∧
      removefile r u w = (.ok (), w.delEntry i d u.last) := by
  unfold removefile
  simp only [bind_apply, lift_apply, query_apply]
  cases stripPath u with
  | error e => exact .inl ⟨e, rfl⟩
  | ok p =>
    simp only
    cases nodePrev w r false true (List.filter (fun x => decide (x ≠ [])) (splitC '/' p)) with
    | error e => exact .inl ⟨e, rfl⟩
    | ok x =>
      obtain ⟨a, b⟩ := x
      cases a with
      | none => exact .inr (.inl rfl)
      | some i =>
        simp only
        rcases delChild_cases (w := w) i u.last with h | ⟨d, c, h1, h2, h3⟩
        · exact .inl h
        · exact .inr (.inr ⟨i, d, c, h1, h2, h3⟩)

theorem removefile_found {u : Uri} {ts init q : List Str} {n : Str} {o : Obj} (hs : stepsOf u = some ts)
    (hf : ts.filter (fun x => x ≠ []) = init ++ [n]) (hl : u.last = n)
    (h : Goes (view w r) maxDepth [] init (.found q))
    (hn : n ∉ init ∨ Plain (view w r) (init ++ [n])) (ho : view w r (q ++ [n]) = some o) :
    ∃ i d c, phys w r q = some i ∧ w.node i = .dir d ∧ d.files.lookup n = some c ∧
      removefile r u w = (.ok (), w.delEntry i d n) := by
  obtain ⟨p, h1, h2⟩ := filter_steps hs
  obtain ⟨i, d, hi, hd, h3⟩ := nodePrev_nofollow hw hr (throw := true) h (view_parent ho) hn
  obtain ⟨c, hc, -, -⟩ := lookup_of_view hi hd ho
  refine ⟨i, d, c, hi, hd, hc, ?_⟩
  unfold removefile
  simp only [bind_apply, lift_apply, query_apply, h1, h2, hf, h3, hc, hl, delChild_some hd hc]

theorem removefile_missing {u : Uri} {ts init q : List Str} {n : Str} (hs : stepsOf u = some ts)
    (hf : ts.filter (fun x => x ≠ []) = init ++ [n])
    (h : Goes (view w r) maxDepth [] init (.found q)) (hd : (view w r).isDir q)
    (hn : n ∉ init ∨ Plain (view w r) (init ++ [n])) (ho : view w r (q ++ [n]) = none) :
    removefile r u w = (.error (.os .ENOENT), w) := by
  obtain ⟨p, h1, h2⟩ := filter_steps hs
  obtain ⟨i, d, hi, hd, h3⟩ := nodePrev_nofollow hw hr (throw := true) h hd hn
  have hc := lookup_none_of_view hi hd ho
  unfold removefile
  simp only [bind_apply, lift_apply, query_apply, h1, h2, hf, h3, hc]
  rfl

omit hw hr in
theorem removedir_cases (u : Uri) :
    (∃ e, removedir r u w = (.error e, w)) ∨ removedir r u w = (.ok (), w) ∨
    ∃ i d c, w.node i = .dir d ∧ d.files.lookup u.last = some c ∧
      removedir r u w = (.ok (), w.delEntry i d u.last) := by
  unfold removedir
  simp only [bind_apply, lift_apply, query_apply]
  cases stripPath u with
  | error e => exact .inl ⟨e, rfl⟩
  | ok p =>
    simp only
    cases nodePrev w r true true (List.filter (fun x => decide (x ≠ [])) (splitC '/' p)) with
    | error e => exact .inl ⟨e, rfl⟩
    | ok x =>
      obtain ⟨a, b⟩ := x
      cases a with
      | none => exact .inr (.inl rfl)
      | some i =>
        simp only [bind_apply, query_apply]
        cases child w (resolveLink w r true 32) i u.last true with
        | error e => exact .inl ⟨e, rfl⟩
        | ok y =>
          cases y with
          | none => exact .inl ⟨_, rfl⟩
          | some k =>
            simp only
            cases w.node k with
            | file f => exact .inl ⟨_, rfl⟩
            | link f => exact .inl ⟨_, rfl⟩
            | dir dd =>
              simp only
              split
              · rcases delChild_cases (w := w) i u.last with h | ⟨d, c, h1, h2, h3⟩
                · exact .inl h
                · exact .inr (.inr ⟨i, d, c, h1, h2, h3⟩)
              · exact .inl ⟨_, rfl⟩

theorem removedir_found {u : Uri} {ts init q q' : List Str} {n : Str} (hs : stepsOf u = some ts)
    (hf : ts.filter (fun x => x ≠ []) = init ++ [n]) (hl : u.last = n)
    (h : Goes (view w r) maxDepth [] init (.found q)) (hd : (view w r).isDir q)
    (h' : Goes (view w r) maxDepth [] (init ++ [n]) (.found q')) :
    ∃ i d c k, phys w r q = some i ∧ w.node i = .dir d ∧ d.files.lookup n = some c ∧ phys w r q' = some k ∧
      removedir r u w = match w.node k with
        | .dir dd => if dd.files = [] then (.ok (), w.delEntry i d n) else (.error (.os .ENOTEMPTY), w)
        | _ => (.error .attributeError, w) := by
  obtain ⟨p, h1, h2⟩ := filter_steps hs
  obtain ⟨i, hi, h3⟩ := (nodePrev_follow hw hr h h').1 q' rfl
  obtain ⟨d, hd⟩ := dir_of_isDir hd hi
  obtain ⟨k, hk, -, -⟩ := Goes.phys hw hr h'
  have hc : ∃ c, d.files.lookup n = some c := by
    cases hc : d.files.lookup n with
    | some c => exact ⟨c, rfl⟩
    | none =>
      exfalso
      have hp := prevLoop_goes (throw := true) (isDir_root hw hr) h' r n none rfl
      obtain ⟨p', i', hi', hp'⟩ := prevLoop_found hw hr (throw := true) (last := n) h
      rw [hi] at hi'
      simp only [Option.some.injEq] at hi'
      subst hi'
      rw [maxDepth, prevLoop_snoc _ _ _ (by intro _; simp), hp'] at hp
      simp only at hp
      rw [prevLoop_cons_dir hd] at hp
      simp [DirObj.has, hc, Except.map, outResult] at hp
  obtain ⟨c, hc⟩ := hc
  refine ⟨i, d, c, k, hi, hd, hc, hk, ?_⟩
  have h4 := child_goes hw hr h hi hd hc h'
  unfold removedir
  simp only [bind_apply, lift_apply, query_apply, h1, h2, hf, h3, hl, h4, outResult, hk]
  cases w.node k with
  | file f => rfl
  | link f => rfl
  | dir dd => simp only [delChild_some hd hc]

/-! ## Opening -/

theorem openRead_found {u : Uri} {ts q : List Str} {b : Bool} (hs : stepsOf u = some ts)
    (h : Goes (view w r) maxDepth [] ts (.found q)) {i : Nat} {f : FileObj} (hi : phys w r q = some i)
    (hf : w.node i = .file f) :
    openRead r u b w = (.ok ⟨i, true, b⟩, w.setNode i (.file { f with pos := 0 })) ∧
    openAppend r u b w = (.ok ⟨i, false, b⟩, w.setNode i (.file { f with pos := f.len })) := by
  unfold openRead openAppend
  rw [nodeForPath_goes hw hr hs h]
  simp only [outResult, hi, hf]
  exact ⟨trivial, trivial⟩

theorem openRead_fail {u : Uri} {ts : List Str} {out : Out} {b : Bool} (hs : stepsOf u = some ts)
    (h : Goes (view w r) maxDepth [] ts out) (hd : ∀ q, out = .found q → ¬ (view w r).isFile q) :
    openRead r u b w = (.error (lookupError out), w) ∧ openAppend r u b w = (.error (lookupError out), w) := by
  unfold openRead openAppend
  rw [nodeForPath_goes hw hr hs h]
  cases out with
  | found q =>
    obtain ⟨i, hi, hv, -⟩ := Goes.phys hw hr h
    simp only [outResult, hi]
    cases hn : w.node i with
    | file d =>
      exact absurd ⟨_, _, _, by rw [hv, hn]; rfl⟩ (hd q rfl)
    | dir f => exact ⟨rfl, rfl⟩
    | link f => exact ⟨rfl, rfl⟩
  | missing => exact ⟨rfl, rfl⟩
  | dangling => exact ⟨rfl, rfl⟩
  | notDir => exact ⟨rfl, rfl⟩
  | badLink => exact ⟨rfl, rfl⟩

theorem openRead_loop {u : Uri} {ts : List Str} {b : Bool} (hs : stepsOf u = some ts)
    (h : ¬ ∃ out, Goes (view w r) maxDepth [] ts out) :
    openRead r u b w = (.error (.os .ELOOP), w) ∧ openAppend r u b w = (.error (.os .ELOOP), w) := by
  unfold openRead openAppend
  rw [nodeForPath_loop hw hr hs h]
  exact ⟨rfl, rfl⟩

omit hw hr in
theorem openRead_cases (u : Uri) (b : Bool) :
    (∃ e, openRead r u b w = (.error e, w)) ∨
    ∃ i f, w.node i = .file f ∧ nodeForPath w r true true u = .ok (some i) ∧
      openRead r u b w = (.ok ⟨i, true, b⟩, w.setNode i (.file { f with pos := 0 })) := by
  unfold openRead
  cases h : nodeForPath w r true true u with
  | error e => exact .inl ⟨e, rfl⟩
  | ok x =>
    cases x with
    | none => exact .inl ⟨_, rfl⟩
    | some i =>
      simp only
      cases hn : w.node i with
      | file f => exact .inr ⟨i, f, hn, rfl, rfl⟩
      | dir f => exact .inl ⟨_, rfl⟩
      | link f => exact .inl ⟨_, rfl⟩

omit hw hr in
theorem openAppend_cases (u : Uri) (b : Bool) :
    (∃ e, openAppend r u b w = (.error e, w)) ∨
    ∃ i f, w.node i = .file f ∧ nodeForPath w r true true u = .ok (some i) ∧
      openAppend r u b w = (.ok ⟨i, false, b⟩, w.setNode i (.file { f with pos := f.len })) := by
  unfold openAppend
  cases h : nodeForPath w r true true u with
  | error e => exact .inl ⟨e, rfl⟩
  | ok x =>
    cases x with
    | none => exact .inl ⟨_, rfl⟩
    | some i =>
      simp only
      cases hn : w.node i with
      | file f => exact .inr ⟨i, f, hn, rfl, rfl⟩
      | dir f => exact .inl ⟨_, rfl⟩
      | link f => exact .inl ⟨_, rfl⟩

/-- the state after truncating file object `i` -/
def World.resetAt (w : World) (i : Nat) (f : FileObj) : World :=
  { w.setNode i (.file { f with data := [], pos := 0, mtime := w.clock w.tick, ctime := w.clock w.tick,
                                mode := 0, lock := (w.gen, f.path) }) with tick := w.tick + 1 }

omit hw hr in
theorem openWrite_eq {u : Uri} {p : Str} {b : Bool} (h1 : stripPath u = .ok p) :
    openWrite r u b w = match parentOf w r p with
      | .error e => (.error e, w)
      | .ok (nd, name, taken) =>
        if taken then
          match child w (resolveLink w r true 32) nd name true with
          | .error e => (.error e, w)
          | .ok none => (.error .attributeError, w)
          | .ok (some c) =>
            match w.node c with
            | .dir _ => (.error (.os .EISDIR), w)
            | .file f => (.ok ⟨c, false, b⟩, w.resetAt c f)
            | .link _ => (.error .attributeError, w)
        else (do let i ← newFile p; createChild nd name i; pure ⟨i, false, b⟩ : M Handle) w := by
  unfold openWrite
  simp only [bind_apply, lift_apply, query_apply, h1]
  cases parentOf w r p with
  | error e => rfl
  | ok x =>
    obtain ⟨nd, name, taken⟩ := x
    cases taken with
    | false => rfl
    | true =>
      simp only [if_true, bind_apply, query_apply]
      cases child w (resolveLink w r true 32) nd name true with
      | error e => rfl
      | ok y =>
        cases y with
        | none => rfl
        | some c =>
          simp only
          cases w.node c with
          | dir d => rfl
          | link l => rfl
          | file f => rfl

theorem openWrite_new {u : Uri} {p : Str} {init q : List Str} {n : Str} {b : Bool} (h1 : stripPath u = .ok p)
    (hp : splitC '/' p = init ++ [n])
    (h : Goes (view w r) maxDepth [] init (.found q)) (hd : (view w r).isDir q)
    (hn : view w r (q ++ [n]) = none) :
    ∃ nd d, phys w r q = some nd ∧ w.node nd = .dir d ∧ d.files.lookup n = none ∧
      openWrite r u b w = (.ok ⟨w.next, false, b⟩, w.addChild nd d n (w.freshFile p)) := by
  obtain ⟨nd, d, a, b', c, e⟩ := parentOf_goes hw hr hp h hd
  have hl := lookup_none_of_view a b' hn
  refine ⟨nd, d, a, b', hl, ?_⟩
  rw [openWrite_eq h1, e]
  simp only [DirObj.has, hl, Option.isSome_none, Bool.false_eq_true, if_false]
  rw [bind_ok (newFile_eq w p), bind_ok (createChild_alloc b' c)]
  rfl

theorem openWrite_found {u : Uri} {p : Str} {init q q' : List Str} {n : Str} {b : Bool} {o : Obj}
    (h1 : stripPath u = .ok p) (hp : splitC '/' p = init ++ [n])
    (h : Goes (view w r) maxDepth [] init (.found q)) (hn : view w r (q ++ [n]) = some o)
    (h' : Goes (view w r) maxDepth [] (init ++ [n]) (.found q')) :
    ∃ i, phys w r q' = some i ∧ openWrite r u b w = match w.node i with
        | .file f => (.ok ⟨i, false, b⟩, w.resetAt i f)
        | _ => (.error (.os .EISDIR), w) := by
  obtain ⟨nd, d, a, b', c, e⟩ := parentOf_goes hw hr hp h (view_parent hn)
  obtain ⟨j, hj, -, -⟩ := lookup_of_view a b' hn
  obtain ⟨i, hi, -, hil⟩ := Goes.phys hw hr h'
  refine ⟨i, hi, ?_⟩
  rw [openWrite_eq h1, e]
  simp only [DirObj.has, hj, Option.isSome_some, if_true, child_goes hw hr h a b' hj h', outResult, hi]
  cases hni : w.node i with
  | file f => rfl
  | dir f => rfl
  | link f => exact absurd hni (hil f)

theorem openWrite_lost {u : Uri} {p : Str} {init q : List Str} {n : Str} {b : Bool} {o : Obj} {out : Out}
    (h1 : stripPath u = .ok p) (hp : splitC '/' p = init ++ [n])
    (h : Goes (view w r) maxDepth [] init (.found q)) (hn : view w r (q ++ [n]) = some o)
    (h' : Goes (view w r) maxDepth [] (init ++ [n]) out) (ho : ∀ q', out ≠ .found q') :
    openWrite r u b w = (.error (lookupError out), w) := by
  obtain ⟨nd, d, a, b', c, e⟩ := parentOf_goes hw hr hp h (view_parent hn)
  obtain ⟨j, hj, -, -⟩ := lookup_of_view a b' hn
  rw [openWrite_eq h1, e]
  simp only [DirObj.has, hj, Option.isSome_some, if_true, child_goes hw hr h a b' hj h']
  cases out with
  | found q' => exact absurd rfl (ho q')
  | missing => rfl
  | dangling => rfl
  | notDir => rfl
  | badLink => rfl

theorem openWrite_lost_loop {u : Uri} {p : Str} {init q : List Str} {n : Str} {b : Bool} {o : Obj}
    (h1 : stripPath u = .ok p) (hp : splitC '/' p = init ++ [n])
    (h : Goes (view w r) maxDepth [] init (.found q)) (hn : view w r (q ++ [n]) = some o)
    (h' : ¬ ∃ out, Goes (view w r) maxDepth [] (init ++ [n]) out) :
    openWrite r u b w = (.error (.os .ELOOP), w) := by
  obtain ⟨nd, d, a, b', c, e⟩ := parentOf_goes hw hr hp h (view_parent hn)
  obtain ⟨j, hj, -, -⟩ := lookup_of_view a b' hn
  rw [openWrite_eq h1, e]
  simp only [DirObj.has, hj, Option.isSome_some, if_true, child_loop hw hr h a b' hj h']

theorem openWrite_fail {u : Uri} {p : Str} {init : List Str} {n : Str} {b : Bool} {out : Out}
    (h1 : stripPath u = .ok p) (hp : splitC '/' p = init ++ [n])
    (h : Goes (view w r) maxDepth [] init out) (hd : ∀ q, out = .found q → ¬ (view w r).isDir q) :
    openWrite r u b w = (.error (lookupError out), w) := by
  rw [openWrite_eq h1, parentOf_fail hw hr hp h hd]

theorem openWrite_loop {u : Uri} {p : Str} {init : List Str} {n : Str} {b : Bool}
    (h1 : stripPath u = .ok p) (hp : splitC '/' p = init ++ [n])
    (h : ¬ ∃ out, Goes (view w r) maxDepth [] init out) :
    openWrite r u b w = (.error (.os .ELOOP), w) := by
  rw [openWrite_eq h1, parentOf_loop hw hr hp h]

/-- Everything `open(…, 'w')` can do. -/
theorem openWrite_cases (u : Uri) (b : Bool) :
    (∃ e, openWrite r u b w = (.error e, w)) ∨
    (∃ i f, w.node i = .file f ∧ openWrite r u b w = (.ok ⟨i, false, b⟩, w.resetAt i f)) ∨
    ∃ p init n q nd d, stripPath u = .ok p ∧ splitC '/' p = init ++ [n] ∧
      Goes (view w r) maxDepth [] init (.found q) ∧
      phys w r q = some nd ∧ w.node nd = .dir d ∧ nd < w.next ∧ d.files.lookup n = none ∧
      openWrite r u b w = (.ok ⟨w.next, false, b⟩, w.addChild nd d n (w.freshFile p)) := by
  cases h1 : stripPath u with
  | error e => left; exact ⟨e, by unfold openWrite; simp [bind_apply, h1]⟩
  | ok p =>
    obtain ⟨init, n, hp⟩ : ∃ init n, splitC '/' p = init ++ [n] := by
      rcases List.eq_nil_or_concat (splitC '/' p) with h | ⟨init, n, h⟩
      · exact absurd h splitC_ne_nil
      · exact ⟨init, n, by rw [h, List.concat_eq_append]⟩
    rcases parentOf_cases hw hr hp with ⟨e, he⟩ | ⟨q, nd, d, g, hd, a, b', c, e⟩
    · left; exact ⟨e, by rw [openWrite_eq h1, he]⟩
    · cases hl : d.files.lookup n with
      | none =>
        right; right
        refine ⟨p, init, n, q, nd, d, rfl, hp, g, a, b', c, hl, ?_⟩
        rw [openWrite_eq h1, e]
        simp only [DirObj.has, hl, Option.isSome_none, Bool.false_eq_true, if_false]
        rw [bind_ok (newFile_eq w p), bind_ok (createChild_alloc b' c)]
        rfl
      | some j =>
        rw [openWrite_eq h1, e]
        simp only [DirObj.has, hl, Option.isSome_some, if_true]
        cases child w (resolveLink w r true 32) nd n true with
        | error e => exact .inl ⟨e, rfl⟩
        | ok y =>
          cases y with
          | none => exact .inl ⟨_, rfl⟩
          | some k =>
            simp only
            cases hk : w.node k with
            | dir d => exact .inl ⟨_, rfl⟩
            | link l => exact .inl ⟨_, rfl⟩
            | file f => exact .inr (.inl ⟨k, f, hk, rfl⟩)

end

end Verif.Mem
