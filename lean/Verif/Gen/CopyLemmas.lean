import Verif.Gen.WalkLemmas
/-! # Copying one file or link -/
namespace Verif.Gen
open Verif.Spec Verif.Mem Verif.Mem.M

/-- the loop of `copyfileobj`: the rest of the source is appended to the destination -/
theorem copyFileObj_eq {i o : Handle} (h1 : i.readable = true) (h2 : i.binary = true) (hne : o.id ≠ i.id)
    {r : Nat} {qi qo : List Str} (n : Nat) : ∀ {w : World} {f g : FileObj}, Inv w → IsRoot w r →
    w.node i.id = .file f → w.node o.id = .file g → g.pos = g.data.length → phys w r qi = some i.id →
    phys w r qo = some o.id → f.data.length - f.pos < n →
    ∃ w' t, copyFileObj i o n w = (.ok (), w') ∧
      Becomes w w' r ((view w r).set qo (.file (g.data ++ f.data.drop f.pos) g.mode t)) := by
  induction n with
  | zero => intro w f g _ _ _ _ _ _ _ h; omega
  | succ n ih =>
    intro w f g hw hr hf hg hpos hqi hqo hlen
    have e : i.read 8192 w = (.ok (.bytes ((f.data.drop f.pos).take 8192)),
        w.put i.id { f with pos := f.pos + ((f.data.drop f.pos).take 8192).length } w.tick) := by
      have e := read_eq (n := 8192) h1 hf
      have e8 : BytesIO.read f.data f.pos 8192 =
        ((f.data.drop f.pos).take 8192, f.pos + ((f.data.drop f.pos).take 8192).length) := rfl
      rw [e8] at e
      have hdec : i.decode ((f.data.drop f.pos).take 8192) = .ok (.bytes ((f.data.drop f.pos).take 8192)) := by
        unfold Handle.decode; rw [if_pos h2]
      simp only [hdec] at e
      exact e
    have hvf : view w r qi = some (.file f.data f.mode f.mtime) := by rw [view_of_phys hqi, hf]; rfl
    have hvg : view w r qo = some (.file g.data g.mode g.mtime) := by rw [view_of_phys hqo, hg]; rfl
    have b1 : ∀ p, Becomes w (w.put i.id { f with pos := p } w.tick) r (view w r) := fun p =>
      (becomes_put hw hr (k := w.tick) (f' := { f with pos := p }) hqi hf).congr (NS.set_same hvf)
    by_cases hd : f.data.drop f.pos = []
    · refine ⟨_, g.mtime, ?_, (b1 (f.pos + ((f.data.drop f.pos).take 8192).length)).congr ?_⟩
      · unfold copyFileObj
        rw [bind_ok e]
        simp only [hd, List.take_nil, isEmptyData, List.isEmpty_nil, if_true]
        rfl
      · rw [hd, List.append_nil, NS.set_same hvg]
    · have hl : f.pos < f.data.length := by
        by_contra hc
        exact hd (List.drop_eq_nil_of_le (by omega))
      have hne' : ((f.data.drop f.pos).take 8192).isEmpty = false := by
        cases hx : (f.data.drop f.pos).take 8192 with
        | cons a b => rfl
        | nil =>
          have := congrArg List.length hx
          rw [List.length_take, List.length_drop, List.length_nil] at this
          omega
      generalize hw1 : w.put i.id { f with pos := f.pos + ((f.data.drop f.pos).take 8192).length } w.tick = w1 at e
      have b1' : Becomes w w1 r (view w r) := by rw [← hw1]; exact b1 _
      have hf1 : w1.node i.id = .file { f with pos := f.pos + ((f.data.drop f.pos).take 8192).length } := by
        rw [← hw1]; exact put_node _ _ _ _
      have hg1 : w1.node o.id = .file g := by rw [← hw1, put_node_ne _ _ _ hne]; exact hg
      have hqi1 : phys w1 r qi = some i.id := by rw [← hw1, phys_put hf]; exact hqi
      have hqo1 : phys w1 r qo = some o.id := by rw [← hw1, phys_put hf]; exact hqo
      have e2 := write_eq (h := o) (d := .bytes ((f.data.drop f.pos).take 8192)) rfl hg1
      rw [hpos, BytesIO.write_end] at e2
      obtain ⟨G, hG⟩ : ∃ G : FileObj, G = { g with data := g.data ++ (f.data.drop f.pos).take 8192,
                                                   pos := g.data.length + ((f.data.drop f.pos).take 8192).length,
                                                   mtime := w1.clock w1.tick } := ⟨_, rfl⟩
      rw [← hG] at e2
      generalize hw2 : w1.put o.id G (w1.tick + 1) = w2 at e2
      have b2 : Becomes w1 w2 r ((view w1 r).set qo (.file G.data G.mode G.mtime)) := by
        rw [← hw2]; exact becomes_put b1'.inv (b1'.isRoot hr) hqo1 hg1
      obtain ⟨w3, t, h3, h4⟩ := ih b2.inv (b2.isRoot (b1'.isRoot hr)) (w := w2)
        (f := { f with pos := f.pos + ((f.data.drop f.pos).take 8192).length }) (g := G)
        (by rw [← hw2, put_node_ne _ _ _ hne.symm]; exact hf1)
        (by rw [← hw2]; exact put_node _ _ _ _)
        (by rw [hG]; simp)
        (by rw [← hw2, phys_put hg1]; exact hqi1)
        (by rw [← hw2, phys_put hg1]; exact hqo1)
        (by simp only [List.length_take, List.length_drop]; omega)
      refine ⟨w3, t, ?_, (b1'.trans (b2.trans h4)).congr ?_⟩
      · unfold copyFileObj
        rw [bind_ok e]
        simp only [isEmptyData, hne', Bool.false_eq_true, if_false]
        rw [bind_ok e2]
        exact h3
      · rw [b2.view, b1'.view, NS.set_set]
        rw [hG]
        simp only [List.append_assoc]
        congr 3
        have : f.data.drop (f.pos + ((f.data.drop f.pos).take 8192).length) = (f.data.drop f.pos).drop 8192 := by
          rw [List.drop_drop]
          rw [List.length_take, List.length_drop]
          by_cases hc : 8192 ≤ f.data.length - f.pos
          · rw [Nat.min_eq_left hc]
          · rw [Nat.min_eq_right (by omega), List.drop_eq_nil_of_le (by omega), List.drop_eq_nil_of_le (by omega)]
        rw [this]
        exact List.take_append_drop _ _

/-- where writing to `init ++ [n]` puts the data: a new location or the file that is found -/
inductive Sink (ns : NS) (init : List Str) (n : Str) : List Str → Prop
  | new {q} : Goes ns maxDepth [] init (.found q) → ns.isDir q → ns (q ++ [n]) = none → Sink ns init n (q ++ [n])
  | old {q q' o} : Goes ns maxDepth [] init (.found q) → ns (q ++ [n]) = some o →
      Goes ns maxDepth [] (init ++ [n]) (.found q') → ns.isFile q' → Sink ns init n q'

theorem Sink.congr {ns ns' : NS} {init : List Str} {n : Str} {q : List Str} (h : Sink ns init n q) (e : ns' = ns) :
    Sink ns' init n q := e ▸ h

theorem Sink.dirAns {ns : NS} {init : List Str} {n : Str} {q : List Str} (h : Sink ns init n q) :
    dirAns ns (init ++ [n]) = .ok false := by
  cases h with
  | new h1 h2 h3 => rw [dirAns_goes (h1.snoc_missing h2 h3)]; rfl
  | old h1 h2 h3 h4 =>
    refine dirAns_notDir h3 ?_
    rintro ⟨m, t, e⟩
    obtain ⟨b, m', t', e'⟩ := h4
    rw [e] at e'; simp at e'

section
variable {w : World} (hw : Inv w) {r : Nat} {u v : Uri}
include hw

/-- opening the destination: an empty file, the source's object stays what and where it is -/
theorem openSink (hv : Serves w v r) {init : List Str} {n : Str} {qo qi : List Str} (hs : stepsOf v = some (init ++ [n]))
    (hk : Sink (view w r) init n qo) {i : Nat} {f : FileObj} (hqi : phys w r qi = some i) (hf : w.node i = .file f)
    (hne : qo ≠ qi) :
    ∃ w' o g, openWrite r v true w = (.ok ⟨o, false, true⟩, w') ∧ Opened w w' r o qo g ∧ g.mode = 0 ∧
      phys w' r qi = some i ∧ w'.node i = .file f ∧ o ≠ i ∧ Goes (view w' r) maxDepth [] (init ++ [n]) (.found qo) := by
  have hr := hv.isRoot
  obtain ⟨p, h1, -, h3⟩ := stepsOf_snoc hs
  cases hk with
  | @new q g1 g2 g3 =>
    obtain ⟨w', g, e, ho⟩ := openWrite_new' hw hv true hs g1 g2 g3
    obtain ⟨nd, d, a, b', c, e'⟩ := openWrite_new hw hr (b := true) h1 h3 g1 g2 g3
    rw [e] at e'
    simp only [Prod.mk.injEq, true_and] at e'
    have hlt := phys_lt hw hr hqi
    have hnd := phys_lt hw hr a
    have hin : i ≠ nd := by rintro rfl; rw [hf] at b'; simp at b'
    have hp : phys w' r qi = some i := by
      rw [e', phys_addChild hw hr a b' c (n := w.freshFile p) trivial r hr, if_neg]
      · exact hqi
      · rintro ⟨-, h⟩; exact hne h.symm
    have hk : (view w r).Keeps (view w' r) := by rw [ho.becomes.view]; exact NS.set_keeps_new g3
    refine ⟨w', _, g, e, ho, ?_, hp, ?_, by omega,
      (g1.keeps hk).snoc (hk.isDir g2) (by rw [ho.becomes.view, NS.set_get]) rfl⟩
    · have := view_of_phys ho.phys
      rw [ho.becomes.view, NS.set_get, ho.node] at this
      simp only [objOf, Option.some.injEq, Obj.file.injEq] at this
      exact this.2.1.symm
    · rw [e']
      simp only [World.addChild]
      rw [if_neg hin, if_neg (by omega)]
      exact hf
  | @old q q' ob g1 g2 g3 g4 =>
    obtain ⟨w', o, g, e, ho, hpo⟩ := openWrite_found' hw hv true hs g1 g2 g3 g4
    obtain ⟨o', a, e'⟩ := openWrite_found hw hr (b := true) h1 h3 g1 g2 g3
    have : o' = o := by rw [a] at hpo; simpa using hpo
    subst this
    obtain ⟨o2, fo, a2, hfo⟩ := isFile_view g4
    have : o2 = o' := by rw [a] at a2; simpa using a2.symm
    subst this
    rw [hfo] at e'
    have hne' : o2 ≠ i := by
      rintro rfl
      exact hne (phys_inj hw hr hr a hqi).2
    have e'' := e.symm.trans e'
    simp only [Prod.mk.injEq, true_and] at e''
    change w' = w.put o2 _ (w.tick + 1) at e''
    have hsk : (view w r).SameKinds (view w' r) := by
      rw [ho.becomes.view]
      obtain ⟨b', m', t', hb⟩ := g4
      exact NS.set_sameKinds hb rfl
    refine ⟨w', o2, g, e, ho, ?_, ?_, ?_, hne', g3.sameKinds hsk⟩
    · have := view_of_phys ho.phys
      rw [ho.becomes.view, NS.set_get, ho.node] at this
      simp only [objOf, Option.some.injEq, Obj.file.injEq] at this
      exact this.2.1.symm
    · rw [e'', phys_put hfo]; exact hqi
    · rw [e'', put_node_ne _ _ _ hne'.symm]; exact hf

/-- fs.py:926-927 -/
theorem copyContent_eq (hu : Serves w u r) (hv : Serves w v r) {ts qi init qo : List Str} {n : Str} {data : Bytes} {m t : Int}
    (hs : stepsOf u = some ts) (hg : Goes (view w r) maxDepth [] ts (.found qi)) (hf : view w r qi = some (.file data m t))
    (hs' : stepsOf v = some (init ++ [n])) (hk : Sink (view w r) init n qo) (hne : qo ≠ qi) :
    ∃ w' t', copyContent u v w = (.ok (), w') ∧ Becomes w w' r ((view w r).set qo (.file data 0 t')) ∧
      Goes (view w' r) maxDepth [] (init ++ [n]) (.found qo) ∧ Goes (view w' r) maxDepth [] ts (.found qi) := by
  have hr := hu.isRoot
  obtain ⟨i, f, hi, hif⟩ := isFile_view ⟨_, _, _, hf⟩
  have e := (openRead_found hw hr (b := true) hs hg hi hif).1
  rw [put_eq_setNode] at e
  have hd : f.data = data ∧ f.mode = m ∧ f.mtime = t := by
    have := view_of_phys hi
    rw [hif, hf] at this
    simp only [objOf, Option.some.injEq, Obj.file.injEq] at this
    exact ⟨this.1.symm, this.2.1.symm, this.2.2.symm⟩
  have b1 : Becomes w (w.put i { f with pos := 0 } w.tick) r (view w r) := by
    refine (becomes_put hw hr (k := w.tick) (f' := { f with pos := 0 }) hi hif).congr ?_
    rw [hd.1, hd.2.1, hd.2.2]; exact NS.set_same hf
  generalize hw1 : w.put i { f with pos := 0 } w.tick = w1 at *
  obtain ⟨w2, o, g, e2, ho, hm, hp2, hn2, hoi, hg2⟩ := openSink b1.inv (b1.serves hv) hs' (hk.congr b1.view)
    (qi := qi) (i := i) (f := { f with pos := 0 }) (by rw [← hw1, phys_put hif]; exact hi)
    (by rw [← hw1]; exact put_node _ _ _ _) hne
  obtain ⟨w3, t', h3, h4⟩ := copyFileObj_eq (i := ⟨i, true, true⟩) (o := ⟨o, false, true⟩) rfl rfl hoi (f.data.length + 1)
    ho.becomes.inv (ho.becomes.isRoot (b1.isRoot hr)) hn2 ho.node (by rw [ho.data, ho.pos]; rfl) hp2 ho.phys (by simp)
  have hkeep : ∀ {ts q}, Goes (view w2 r) maxDepth [] ts (.found q) → Goes (view w3 r) maxDepth [] ts (.found q) := by
    intro ts q hgo
    have hv2 : view w2 r qo = some (.file [] 0 g.mtime) := by rw [ho.becomes.view, NS.set_get]
    exact hgo.sameKinds (by rw [h4.view]; exact NS.set_sameKinds hv2 rfl)
  have hkeep1 : Goes (view w2 r) maxDepth [] ts (.found qi) := by
    rw [ho.becomes.view, b1.view]
    cases hk with
    | new g1 g2 g3 => exact hg.keeps (NS.set_keeps_new g3)
    | old g1 g2 g3 g4 =>
      obtain ⟨b', m', t'', hb⟩ := g4
      exact hg.sameKinds (NS.set_sameKinds (o' := .file [] 0 g.mtime) hb rfl)
  refine ⟨w3, t', ?_, (b1.trans (ho.becomes.trans h4)).congr ?_, hkeep hg2, hkeep hkeep1⟩
  · unfold copyContent
    have e' : uOpen u (some cl!"rb") w = (.ok ⟨i, true, true⟩, w1) := by
      rw [uOpen_r hu hs (by decide)]; exact e
    have e2' : uOpen v (some cl!"wb") w1 = (.ok ⟨o, false, true⟩, w2) := by
      rw [uOpen_w (b1.serves hv) hs' (by decide) (by decide)]; exact e2
    rw [bind_ok e', bind_ok e2', bind_ok (size_eq (h := ⟨i, true, true⟩) hn2)]
    exact h3
  · rw [ho.becomes.view, b1.view, NS.set_set, ho.data, hm]
    simp [hd.1]

/-- fs.py:925-929: the copy has the data, mode and mtime of the source -/
theorem copyFile_eq (hu : Serves w u r) (hv : Serves w v r) {ts qi init qo : List Str} {n : Str} {data : Bytes} {m t : Int}
    (hs : stepsOf u = some ts) (hg : Goes (view w r) maxDepth [] ts (.found qi)) (hf : view w r qi = some (.file data m t))
    (hs' : stepsOf v = some (init ++ [n])) (hk : Sink (view w r) init n qo) (hne : qo ≠ qi) :
    ∃ w', (do
        copyContent u v
        if u.scheme = v.scheme then copystat r u v : M Unit) w = (.ok (), w') ∧
      Becomes w w' r ((view w r).set qo (.file data m t)) := by
  obtain ⟨w1, t1, h1, h2, h3, h4⟩ := copyContent_eq hw hu hv hs hg hf hs' hk hne
  obtain ⟨w2, h5, h6⟩ := copystat_at h2.inv (h2.serves hu) hs hs' h4 h3 (o := .file data m t) (o' := .file data 0 t1)
    (by rw [h2.view, NS.set_ne _ _ hne.symm, hf]) (by rw [h2.view, NS.set_get])
  refine ⟨w2, ?_, (h2.trans h6).congr ?_⟩
  · rw [bind_ok h1, if_pos (hu.scheme.trans hv.scheme.symm)]; exact h5
  · rw [h2.view, NS.set_set]; rfl

end

/-! ## Links -/

section
variable {w : World} (hw : Inv w) {E : Dict} {r : Nat} (hf : Fs w E r)
include hw hf

theorem symlink_at (t : Uri) {q : List Str} {n : Str} (hok : Ok (q ++ [n])) (hd : (view w r).isDir q)
    (hn : view w r (q ++ [n]) = none) :
    ∃ w', symlink r t (mem E (q ++ [n])) w = (.ok (), w') ∧
      Becomes w w' r ((view w r).set (q ++ [n]) (.link t 0 (w.clock w.tick))) := by
  obtain ⟨nd, d, h1, h2, h3, h4⟩ := symlink_new hw hf.isRoot (t := t) (stepsOf_mem hok E) (isDir_goes hd) hd hn
  exact ⟨_, h4, becomes_addChild hw hf.isRoot h1 h2 h3 (n := w.freshLink t) trivial⟩

/-- fs.py:896-900 to a new place -/
theorem copyLink_new {q e : List Str} {n n' : Str} {t : Uri} {m s : Int} (hok : Ok (q ++ [n])) (hok' : Ok (e ++ [n']))
    (ho : view w r (q ++ [n]) = some (.link t m s)) (he : (view w r).isDir e) (hn : view w r (e ++ [n']) = none) :
    ∃ w' s', copyLink r (mem E (q ++ [n])) (mem E (e ++ [n'])) w = (.ok (), w') ∧
      Becomes w w' r ((view w r).set (e ++ [n']) (.link t 0 s')) := by
  have hq := view_parent ho
  obtain ⟨w', h1, h2⟩ := symlink_at hw hf t hok' he hn
  refine ⟨w', _, ?_, h2⟩
  have e1 := islink_at hw hf hok hq
  rw [ho] at e1
  have e2 : uIsfile (mem E (e ++ [n'])) w = (.ok false, w) := by
    rw [uIsfile_goes hw (hf.serves _) (stepsOf_mem hok' E) ((isDir_goes he).snoc_missing he hn)]; rfl
  have e3 := readlink_nofollow hw hf.isRoot (stepsOf_mem hok E) (isDir_goes hq) hq (.inr (plain_snoc hq n))
  rw [ho] at e3
  unfold copyLink
  rw [bind_query e1]
  simp only [Option.any_some, Obj.isLink, Bool.not_true, Bool.false_eq_true, if_false]
  rw [bind_ok e2]
  simp only [Bool.false_eq_true, if_false]
  rw [bind_query e3]
  exact h1

/-- fs.py:896-900 onto a file or a link leading to a file -/
theorem copyLink_old {q e qf : List Str} {n n' : Str} {t : Uri} {m s : Int} {o : Obj} (hok : Ok (q ++ [n])) (hok' : Ok (e ++ [n']))
    (ho : view w r (q ++ [n]) = some (.link t m s)) (hn : view w r (e ++ [n']) = some o)
    (hg : Goes (view w r) maxDepth [] (e ++ [n']) (.found qf)) (hqf : (view w r).isFile qf)
    (hne : q ++ [n] ≠ e ++ [n']) :
    ∃ w' s', copyLink r (mem E (q ++ [n])) (mem E (e ++ [n'])) w = (.ok (), w') ∧
      Becomes w w' r ((view w r).set (e ++ [n']) (.link t 0 s')) := by
  have hq := view_parent ho
  have he := view_parent hn
  have hod : o.isDir = false := by
    cases o with
    | dir m t =>
      have := isDir_goes (w := w) (r := r) ⟨_, _, hn⟩
      have := this.det hg
      simp only [Out.found.injEq] at this
      subst this
      obtain ⟨b, m', t', e'⟩ := hqf
      rw [hn] at e'; simp at e'
    | file => rfl
    | link => rfl
  obtain ⟨w1, k1, k2⟩ := removefile_at hw hf.isRoot (stepsOf_mem hok' E) (filter_clean hok'.nil_not_mem)
      (mem_last (hok'.clean n' (by simp)) E) (isDir_goes he) (.inr (plain_snoc he n')) hn
  have hnp : ¬ e ++ [n'] <+: q ++ [n] := by
    rintro ⟨x, hx⟩
    cases x with
    | nil => exact hne (by simpa using hx.symm)
    | cons a x =>
      have := notDir_leaf hn hod a
      rw [← hx] at ho
      obtain ⟨_, o', ho'⟩ := view_below ho
      rw [this] at ho'; simp at ho'
  have ho1 : view w1 r (q ++ [n]) = some (.link t m s) := by rw [k2.view, NS.del, if_neg hnp]; exact ho
  have hq1 := view_parent ho1
  have he1 : (view w1 r).isDir e := by
    obtain ⟨m', t', h'⟩ := he
    refine ⟨m', t', ?_⟩
    rw [k2.view, NS.del, if_neg, h']
    intro h
    have := h.length_le
    simp at this; omega
  obtain ⟨w', h1, h2⟩ := symlink_at k2.inv (hf.becomes k2) t hok' he1 (by rw [k2.view, NS.del, if_pos (List.prefix_refl _)])
  refine ⟨w', w1.clock w1.tick, ?_, (k2.trans h2).congr ?_⟩
  · have e1 := islink_at hw hf hok hq
    rw [ho] at e1
    have e2 : uIsfile (mem E (e ++ [n'])) w = (.ok true, w) := by
      rw [uIsfile_goes hw (hf.serves _) (stepsOf_mem hok' E) hg]
      obtain ⟨b, m', t', e'⟩ := hqf
      simp only [answer, e', Option.any_some, Obj.isFile]
    have e3 := readlink_nofollow k2.inv (hf.becomes k2).isRoot (stepsOf_mem hok E) (isDir_goes hq1) hq1 (.inr (plain_snoc hq1 n))
    rw [ho1] at e3
    unfold copyLink
    rw [bind_query e1]
    simp only [Option.any_some, Obj.isLink, Bool.not_true, Bool.false_eq_true, if_false]
    rw [bind_ok e2]
    simp only [if_true]
    rw [bind_ok k1, bind_query e3]
    exact h1
  · rw [k2.view, del_leaf (notDir_leaf hn hod)]
    funext p
    unfold NS.set NS.erase
    split <;> simp_all

end
/-- fs.py:923-924, 965-966 -/
theorem copyOne_link {w : World} (hw : Inv w) {E : Dict} {r : Nat} (hf : Fs w E r) {q : List Str} {n : Str} {t : Uri} {m s : Int}
    (hok : Ok (q ++ [n])) (ho : view w r (q ++ [n]) = some (.link t m s)) (v : Uri) :
    copyOne r (mem E (q ++ [n])) v false w = copyLink r (mem E (q ++ [n])) v w := by
  unfold copyOne
  have e := uIslink_at hw hf hok (view_parent ho)
  rw [ho] at e
  rw [bind_ok e]
  rfl

end Verif.Gen
