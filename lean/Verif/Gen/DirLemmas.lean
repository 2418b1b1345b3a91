import Verif.Gen.MemUri
import Verif.Gen.Tree
/-! # Queries and makedirs on the URIs of one memory file system -/
namespace Verif.Gen
open Verif.Spec Verif.Mem Verif.Mem.M

/-- the URIs `mem E cs` belong to the file system with root `r`, and no faults are injected there -/
structure Fs (w : World) (E : Dict) (r : Nat) : Prop where
  extras : E.any (fun kv => kv.1 ∈ reservedNames) = false
  conn : w.connOf (connKey (mem E [])) = some r
  hook : ∀ p cb m, (w.hooks r).lookup p = some (some cb) → cb m = none

theorem Fs.serves {w : World} {E : Dict} {r : Nat} (h : Fs w E r) (cs : List Str) : Serves w (mem E cs) r :=
  ⟨rfl, by rw [mem_allExtras]; exact h.extras, by rw [mem_key E cs []]; exact h.conn, fun p cb m _ => h.hook p cb m⟩

theorem Fs.isRoot {w : World} {E : Dict} {r : Nat} (h : Fs w E r) : IsRoot w r := (h.serves []).isRoot

theorem Fs.becomes {w w' : World} {E : Dict} {r r' : Nat} {ns : NS} (h : Fs w E r) (hb : Becomes w w' r' ns) :
    Fs w' E r :=
  ⟨h.extras, by unfold World.connOf; rw [hb.conns]; exact h.conn, by rw [hb.hooks]; exact h.hook⟩

/-- the answer of `isdir` for a path: `False` for links that go in circles -/
def dirAns (ns : NS) (ts : List Str) : Except PyErr Bool :=
  match follow ns maxDepth [] ts with
  | none => .ok false
  | some out => answer ns Obj.isDir out

theorem dirAns_goes {ns : NS} {ts : List Str} {out : Out} (h : Goes ns maxDepth [] ts out) :
    dirAns ns ts = answer ns Obj.isDir out := by
  unfold dirAns; rw [goes_iff.1 h]

theorem dirAns_true {ns : NS} {ts : List Str} (h : dirAns ns ts = .ok true) :
    ∃ q, Goes ns maxDepth [] ts (.found q) ∧ ns.isDir q := by
  unfold dirAns at h
  cases hf : follow ns maxDepth [] ts with
  | none => rw [hf] at h; simp at h
  | some out =>
    rw [hf] at h
    cases out with
    | found q => exact ⟨q, goes_iff.2 hf, any_isDir.1 (by simpa [answer] using h)⟩
    | _ => simp [answer] at h

theorem dirAns_dir {ns : NS} {ts q : List Str} (h : Goes ns maxDepth [] ts (.found q)) (hd : ns.isDir q) :
    dirAns ns ts = .ok true := by
  rw [dirAns_goes h, answer, any_isDir.2 hd]

theorem dirAns_notDir {ns : NS} {ts q : List Str} (h : Goes ns maxDepth [] ts (.found q)) (hd : ¬ ns.isDir q) :
    dirAns ns ts = .ok false := by
  rw [dirAns_goes h, answer]
  congr 1
  cases h' : (ns q).any Obj.isDir with
  | false => rfl
  | true => exact absurd (any_isDir.1 h') hd

theorem isdir_ans {w : World} (hw : Inv w) {r : Nat} (hr : IsRoot w r) {u : Uri} {ts : List Str}
    (hs : stepsOf u = some ts) : isdir w r u = dirAns (view w r) ts := by
  by_cases hg : ∃ out, Goes (view w r) maxDepth [] ts out
  · obtain ⟨out, hg⟩ := hg
    rw [isdir_goes hw hr hs hg, dirAns_goes hg]
  · rw [isdir_loop hw hr hs hg, dirAns, noGoes_iff.1 hg]

theorem uIsdir_ans {w : World} (hw : Inv w) {r : Nat} {u : Uri} (hu : Serves w u r) {ts : List Str}
    (hs : stepsOf u = some ts) : uIsdir u w = (dirAns (view w r) ts, w) := by
  unfold uIsdir; rw [withConn_serves hu hs, query_apply, isdir_ans hw hu.isRoot hs]

/-! ## makedirs -/

/-- below `q`, the directories along `rest` exist (created at the given times); nothing else changes -/
def _root_.Verif.Spec.NS.mkdirs (ns : NS) (q rest : List Str) (t : List Str → Int) : NS := fun p =>
  if q <+: p ∧ p ≠ q ∧ p <+: q ++ rest then some (.dir 0 (t p)) else ns p

theorem NS.mkdirs_nil (ns : NS) (q : List Str) (t : List Str → Int) : ns.mkdirs q [] t = ns := by
  funext p
  unfold NS.mkdirs
  rw [if_neg]
  rintro ⟨h1, h2, h3⟩
  exact h2 (List.IsPrefix.eq_of_length_le (by simpa using h3) h1.length_le)

theorem prefix_snoc_iff {p a : List Str} {n : Str} : p <+: a ++ [n] ↔ p <+: a ∨ p = a ++ [n] := by
  constructor
  · intro h
    obtain ⟨s, hs⟩ := h
    rcases List.eq_nil_or_concat s with rfl | ⟨s', x, rfl⟩
    · right; simpa using hs
    · left
      rw [List.concat_eq_append, ← List.append_assoc] at hs
      exact ⟨s', (List.append_inj' hs rfl).1⟩
  · rintro (h | rfl)
    · exact h.trans (List.prefix_append _ _)
    · exact List.prefix_refl _

theorem NS.mkdirs_snoc (ns : NS) (q rest : List Str) (n : Str) (t : List Str → Int) (x : Int) :
    (ns.mkdirs q rest t).set (q ++ rest ++ [n]) (.dir 0 x) =
      ns.mkdirs q (rest ++ [n]) (fun p => if p = q ++ rest ++ [n] then x else t p) := by
  funext p
  unfold NS.mkdirs NS.set
  by_cases hp : p = q ++ rest ++ [n]
  · subst hp; simp
  · rw [if_neg hp]
    have : p <+: q ++ (rest ++ [n]) ↔ p <+: q ++ rest := by
      rw [← List.append_assoc, prefix_snoc_iff, or_iff_left hp]
    simp only [this, if_neg hp]

section
variable {w : World} {E : Dict} {r : Nat}

/-- following a path whose next name is missing -/
theorem goes_missing {ns : NS} {pre q : List Str} {n : Str} {rest : List Str}
    (hg : Goes ns maxDepth [] pre (.found q)) (hd : ns.isDir q) (hn : ns (q ++ [n]) = none) :
    Goes ns maxDepth [] (pre ++ n :: rest) .missing := hg.append (.missing hd hn)

theorem goes_mkdirs {ns : NS} {pre q : List Str} {t : List Str → Int} {n : Str} {rest : List Str}
    (hg : Goes ns maxDepth [] pre (.found q)) (hd : ns.isDir q) (hn : ns (q ++ [n]) = none)
    (hb : ∀ t, ns (q ++ [n] ++ t) = none) :
    Goes (ns.mkdirs q (n :: rest) t) maxDepth [] (pre ++ n :: rest) (.found (q ++ n :: rest)) ∧
      (ns.mkdirs q (n :: rest) t).isDir (q ++ n :: rest) ∧ ns.Keeps (ns.mkdirs q (n :: rest) t) := by
  have hk : ns.Keeps (ns.mkdirs q (n :: rest) t) := by
    intro p o ho
    refine ⟨o, ?_, rfl⟩
    unfold NS.mkdirs
    rw [if_neg, ho]
    rintro ⟨⟨s, rfl⟩, h2, h3⟩
    rw [List.prefix_append_right_inj] at h3
    cases s with
    | nil => simp at h2
    | cons m s =>
      rw [List.cons_prefix_cons] at h3
      obtain ⟨rfl, h3⟩ := h3
      have := hb s
      simp at this
      rw [this] at ho; simp at ho
  have hdir : ∀ s, s <+: n :: rest → (ns.mkdirs q (n :: rest) t).isDir (q ++ s) := by
    intro s hs
    by_cases h : s = []
    · subst h; simpa using hk.isDir hd
    · refine ⟨0, t (q ++ s), ?_⟩
      unfold NS.mkdirs
      rw [if_pos]
      exact ⟨List.prefix_append _ _, by simpa using h, (List.prefix_append_right_inj _).2 hs⟩
  refine ⟨?_, hdir _ (List.prefix_refl _), hk⟩
  apply (hg.keeps hk).append
  have : ∀ b a, a ++ b = n :: rest →
      Goes (ns.mkdirs q (n :: rest) t) maxDepth (q ++ a) b (.found (q ++ n :: rest)) := by
    intro b
    induction b with
    | nil => intro a ha; rw [List.append_nil] at ha; rw [ha]; exact .done
    | cons m b ih =>
      intro a ha
      have h1 : a ++ [m] <+: n :: rest := ⟨b, by simpa using ha⟩
      obtain ⟨x, y, hxy⟩ := hdir _ h1
      have := ih (a ++ [m]) (by simpa using ha)
      exact .step (hdir a ⟨_, ha⟩) (by rw [List.append_assoc]; exact hxy) rfl (by rw [List.append_assoc]; exact this)
  simpa using this (n :: rest) [] rfl

/-- makedirs below an existing directory whose next name is missing -/
theorem makedirs_new (rest : List Str) : ∀ (depth : Nat) {n : Str} {pre q : List Str}, Inv w → Fs w E r →
    Ok (pre ++ n :: rest) → Goes (view w r) maxDepth [] pre (.found q) → (view w r).isDir q →
    view w r (q ++ [n]) = none → rest.length < depth →
    ∃ w' t, makedirs depth (mem E (pre ++ n :: rest)) w = (.ok (), w') ∧
      Becomes w w' r ((view w r).mkdirs q (n :: rest) t) := by
  induction rest using List.reverseRecOn with
  | nil =>
    intro depth n pre q hw hf hok hg hd hn hlen
    obtain ⟨depth, rfl⟩ : ∃ k, depth = k + 1 := ⟨depth - 1, by omega⟩
    have hpre := hok.of_prefix
    have hnn := hok.clean n (by simp)
    obtain ⟨w', h1, h2⟩ := uMkdir_new hw (hf.serves (pre ++ [n])) (stepsOf_mem hok E) hg hd hn
    refine ⟨w', fun _ => w.clock w.tick, ?_, h2.congr ?_⟩
    · have e1 := uIsdir_ans hw (hf.serves (pre ++ [n])) (stepsOf_mem hok E)
      rw [dirAns_goes (goes_missing hg hd hn)] at e1
      have e2 := uIsdir_ans hw (hf.serves pre) (stepsOf_mem hpre E)
      rw [dirAns_dir hg hd] at e2
      unfold makedirs
      rw [bind_ok e1]
      simp only [Bool.false_eq_true, if_false]
      rw [bind_lift (mem_split hpre.clean hnn E)]
      dsimp only
      rw [bind_ok e2]
      simp only [Bool.not_true, Bool.false_eq_true, if_false, if_pos hnn.ne]
      exact h1
    · have := NS.mkdirs_snoc (view w r) q [] n (fun _ => w.clock w.tick) (w.clock w.tick)
      rw [NS.mkdirs_nil] at this
      simpa using this
  | append_singleton rest x ih =>
    intro depth n pre q hw hf hok hg hd hn hlen
    obtain ⟨depth, rfl⟩ : ∃ k, depth = k + 1 := ⟨depth - 1, by omega⟩
    have e0 : pre ++ n :: (rest ++ [x]) = (pre ++ n :: rest) ++ [x] := by simp
    rw [e0] at hok ⊢
    have hpre := hok.of_prefix
    have hx := hok.clean x (by simp)
    obtain ⟨w1, t, h1, h2⟩ := ih depth hw hf hpre hg hd hn (by simp at hlen; omega)
    have hbelow : ∀ s, view w r (q ++ [n] ++ s) = none := by
      intro s
      cases hv : view w r (q ++ [n] ++ s) with
      | none => rfl
      | some o => obtain ⟨o', ho'⟩ := view_prefix hv; rw [hn] at ho'; simp at ho'
    obtain ⟨g1, g2, g3⟩ := goes_mkdirs (t := t) (rest := rest) hg hd hn hbelow
    rw [← h2.view] at g1 g2
    have hf1 := hf.becomes h2
    have hxn : view w1 r (q ++ n :: rest ++ [x]) = none := by
      rw [h2.view]
      unfold NS.mkdirs
      rw [if_neg]
      · have := hbelow (rest ++ [x]); simpa using this
      · rintro ⟨-, -, h⟩
        have := h.length_le
        simp at this; omega
    obtain ⟨w2, h3, h4⟩ := uMkdir_new h2.inv (hf1.serves _) (stepsOf_mem hok E) g1 g2 hxn
    refine ⟨w2, fun p => if p = q ++ (n :: rest) ++ [x] then w1.clock w1.tick else t p, ?_, ?_⟩
    · have e1 := uIsdir_ans hw (hf.serves _) (stepsOf_mem hok E)
      rw [← e0, dirAns_goes (goes_missing hg hd hn), e0] at e1
      have e2 := uIsdir_ans hw (hf.serves _) (stepsOf_mem hpre E)
      rw [dirAns_goes (goes_missing hg hd hn)] at e2
      unfold makedirs
      rw [bind_ok e1]
      simp only [Bool.false_eq_true, if_false]
      rw [bind_lift (mem_split hpre.clean hx E)]
      dsimp only
      rw [bind_ok e2]
      simp only [Bool.not_false, if_true, if_pos hx.ne]
      rw [bind_ok h1]
      exact h3
    · refine (h2.trans h4).congr ?_
      rw [h2.view, NS.mkdirs_snoc]
      simp

theorem makedirs_found {depth : Nat} {cs q : List Str} (hw : Inv w) (hf : Fs w E r) (hok : Ok cs)
    (hg : Goes (view w r) maxDepth [] cs (.found q)) (hd : (view w r).isDir q) :
    makedirs (depth + 1) (mem E cs) w = (.ok (), w) := by
  have e1 := uIsdir_ans hw (hf.serves cs) (stepsOf_mem hok E)
  rw [dirAns_dir hg hd] at e1
  unfold makedirs
  rw [bind_ok e1]
  rfl

/-- `q` is the directory that the longest existing part `pre` of the path denotes, `rest` is to be created -/
structure Splits (ns : NS) (cs pre rest q : List Str) : Prop where
  eq : cs = pre ++ rest
  goes : Goes ns maxDepth [] pre (.found q)
  dir : ns.isDir q
  fresh : ∀ n s, rest = n :: s → ns (q ++ [n]) = none

/-- makedirs either fails without any effect or creates exactly the missing directories -/
theorem makedirs_cases (depth : Nat) : ∀ {cs : List Str}, Inv w → Fs w E r → Ok cs →
    (∃ e, makedirs depth (mem E cs) w = (.error e, w)) ∨
    ∃ pre rest q w' t, Splits (view w r) cs pre rest q ∧ makedirs depth (mem E cs) w = (.ok (), w') ∧
      Becomes w w' r ((view w r).mkdirs q rest t) := by
  induction depth with
  | zero => intro cs _ _ _; exact .inl ⟨_, rfl⟩
  | succ depth ih =>
    intro cs hw hf hok
    have e1 := uIsdir_ans hw (hf.serves cs) (stepsOf_mem hok E)
    cases ha : dirAns (view w r) cs with
    | error e =>
      left
      rw [ha] at e1
      exact ⟨e, by unfold makedirs; rw [bind_error e1]⟩
    | ok b =>
      cases b with
      | true =>
        right
        obtain ⟨q, hg, hd⟩ := dirAns_true ha
        refine ⟨cs, [], q, w, fun _ => 0, ⟨by simp, hg, hd, by simp⟩, makedirs_found hw hf hok hg hd, ?_⟩
        rw [NS.mkdirs_nil]
        exact .refl hw r
      | false =>
        rw [ha] at e1
        rcases List.eq_nil_or_concat cs with rfl | ⟨init, n, rfl⟩
        · exfalso
          rw [dirAns_dir .done (isDir_root hw hf.isRoot)] at ha
          simp at ha
        · rw [List.concat_eq_append] at *
          have hi := hok.of_prefix
          have hn := hok.clean n (by simp)
          have e2 := uIsdir_ans hw (hf.serves init) (stepsOf_mem hi E)
          have step : makedirs (depth + 1) (mem E (init ++ [n])) w = (do
              let b ← uIsdir (mem E init)
              if !b then makedirs depth (mem E init)
              uMkdir (mem E (init ++ [n])) : M Unit) w := by
            conv => lhs; unfold makedirs
            rw [bind_ok e1]
            simp only [Bool.false_eq_true, if_false]
            rw [bind_lift (mem_split hi.clean hn E)]
            simp only [if_pos hn.ne]
          rw [step]
          cases hb : dirAns (view w r) init with
          | error e => rw [hb] at e2; left; exact ⟨e, by rw [bind_error e2]⟩
          | ok b =>
            rw [hb] at e2
            cases b with
            | true =>
              rw [bind_ok e2]
              simp only [Bool.not_true, Bool.false_eq_true, if_false]
              obtain ⟨q, hg, hd⟩ := dirAns_true hb
              cases hv : view w r (q ++ [n]) with
              | some o =>
                left
                refine ⟨.os .EEXIST, ?_⟩
                unfold uMkdir
                rw [withConn_serves (hf.serves _) (stepsOf_mem hok E)]
                exact (create_taken hw hf.isRoot (t := mem E []) (stepsOf_mem hok E) hg hv).1
              | none =>
                right
                obtain ⟨w', h1, h2⟩ := uMkdir_new hw (hf.serves (init ++ [n])) (stepsOf_mem hok E) hg hd hv
                refine ⟨init, [n], q, w', fun _ => w.clock w.tick, ⟨rfl, hg, hd, ?_⟩, h1, h2.congr ?_⟩
                · intro m s hm; simp at hm; rw [← hm.1]; exact hv
                · have := NS.mkdirs_snoc (view w r) q [] n (fun _ => w.clock w.tick) (w.clock w.tick)
                  rw [NS.mkdirs_nil] at this
                  simpa using this
            | false =>
              rcases ih hw hf hi with ⟨e, h1⟩ | ⟨pre, rest, q, w1, t, h1, h2, h3⟩
              · left
                refine ⟨e, ?_⟩
                rw [bind_ok e2]
                simp only [Bool.not_false, if_true]
                rw [bind_error h1]
              · right
                cases rest with
                | nil =>
                  exfalso
                  have := h1.eq
                  rw [List.append_nil] at this
                  subst this
                  rw [dirAns_dir h1.goes h1.dir] at hb
                  simp at hb
                | cons m rest =>
                  have hm := h1.fresh m rest rfl
                  have hbelow : ∀ s, view w r (q ++ [m] ++ s) = none := by
                    intro s
                    cases hv : view w r (q ++ [m] ++ s) with
                    | none => rfl
                    | some o => obtain ⟨o', ho'⟩ := view_prefix hv; rw [hm] at ho'; simp at ho'
                  obtain ⟨g1, g2, g3⟩ := goes_mkdirs (t := t) (rest := rest) h1.goes h1.dir hm hbelow
                  rw [← h3.view] at g1 g2
                  rw [← h1.eq] at g1
                  have hxn : view w1 r (q ++ m :: rest ++ [n]) = none := by
                    rw [h3.view]
                    unfold NS.mkdirs
                    rw [if_neg]
                    · have := hbelow (rest ++ [n]); simpa using this
                    · rintro ⟨-, -, h⟩
                      have := h.length_le
                      simp at this; omega
                  obtain ⟨w2, h4, h5⟩ := uMkdir_new h3.inv ((hf.becomes h3).serves _) (stepsOf_mem hok E) g1 g2 hxn
                  refine ⟨pre, m :: rest ++ [n], q, w2,
                    fun p => if p = q ++ (m :: rest) ++ [n] then w1.clock w1.tick else t p,
                    ⟨by rw [h1.eq]; simp, h1.goes, h1.dir, ?_⟩, ?_, (h3.trans h5).congr ?_⟩
                  · intro x s hx; simp at hx; rw [← hx.1]; exact hm
                  · rw [bind_ok e2]
                    simp only [Bool.not_false, if_true]
                    rw [bind_ok h2]
                    exact h4
                  · rw [h3.view, NS.mkdirs_snoc]
end
end Verif.Gen
