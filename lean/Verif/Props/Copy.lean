import Verif.Gen.CopyLemmas
import Verif.Props.Remove
/-!
# C47, C50, C52 copying one file or link, refusals; C51 for files

`Sink ns init n q`: the path `init ++ [n]` denotes the location `q` for writing, i.e. either `q` does not exist
but the directory it would be in does, or the path leads (perhaps through links) to the file `q`.
-/
namespace Verif.Props
open Verif.Spec Verif.Mem Verif.Gen

/-! ## C52 -/

/-- The source does not exist (or its links go in circles). -/
theorem C52_missing {w : World} (h : Reachable w) {u v : Uri} {r : Nat} {ts : List Str} (hu : Serves w u r)
    (hs : stepsOf u = some ts)
    (hg : Goes (view w r) maxDepth [] ts .missing ∨ ¬ ∃ out, Goes (view w r) maxDepth [] ts out)
    (depth : Nat) (rec fl : Bool) (ig : List Str) :
    uCopy depth u v rec ig fl w = (.error .fileDoesNotExist, w) := by
  have e : uExists u w = (.ok false, w) := by
    rcases hg with hg | hg
    · rw [uExists_goes h.inv hu hs hg]; rfl
    · unfold uExists; rw [withConn_serves hu hs, query_apply, exists_loop h.inv hu.isRoot hs hg]
  unfold uCopy
  rw [withConn_serves hu hs]
  unfold Gen.copy
  rw [bind_ok e]
  rfl

/-- A directory is not copied without `recursive`, and nothing but a directory with it. -/
theorem C52_wrong_kind {w : World} (h : Reachable w) {u v : Uri} {r : Nat} {ts q : List Str} (hu : Serves w u r)
    (hs : stepsOf u = some ts) (hg : Goes (view w r) maxDepth [] ts (.found q)) (hex : view w r q ≠ none) {rec : Bool}
    (hk : if rec then ¬ (view w r).isDir q else ¬ (view w r).isFile q)
    (depth : Nat) (fl : Bool) (ig : List Str) :
    uCopy depth u v rec ig fl w = (.error .assertionError, w) := by
  obtain ⟨o, ho⟩ := Option.ne_none_iff_exists'.1 hex
  have e := uExists_goes h.inv hu hs hg
  have e1 := uIsfile_goes h.inv hu hs hg
  have e2 := uIsdir_goes h.inv hu hs hg
  simp only [answer, ho, Option.any_some] at e e1 e2
  unfold uCopy
  rw [withConn_serves hu hs]
  unfold Gen.copy
  rw [bind_ok e]
  simp only [Bool.not_true, Bool.false_eq_true, if_false]
  cases rec with
  | true =>
    simp only [Bool.not_true, Bool.false_eq_true, if_false, if_true] at hk ⊢
    have : o.isDir = false := by
      cases o with
      | dir m t => exact absurd ⟨m, t, ho⟩ hk
      | file => rfl
      | link => rfl
    rw [this] at e2
    rw [bind_ok e2]
    rfl
  | false =>
    simp only [Bool.not_false, Bool.false_eq_true, if_false, if_true] at hk ⊢
    have : o.isFile = false := by
      cases o with
      | file b m t => exact absurd ⟨b, m, t, ho⟩ hk
      | dir => rfl
      | link => rfl
    rw [this] at e1
    rw [bind_ok e1]
    rfl

example : uCopy 100 (mu cl!"/nope") (mu cl!"/x") false [] true sample = (.error .fileDoesNotExist, sample) :=
  C52_missing (ts := [cl!"nope"]) (r := 0) sample_reachable (fs_sample.serves [cl!"nope"]) (by decide +kernel) (.inl (by decide +kernel)) _ _ _ _
example : uCopy 100 (mu cl!"/gone") (mu cl!"/x") true [] true sample = (.error .fileDoesNotExist, sample) :=
  C52_missing (ts := [cl!"gone"]) (r := 0) sample_reachable (fs_sample.serves [cl!"gone"]) (by decide +kernel) (.inl (by decide +kernel)) _ _ _ _
example : uCopy 100 (mu cl!"/l") (mu cl!"/x") false [] true sample = (.error .assertionError, sample) :=
  C52_wrong_kind (ts := [cl!"l"]) (q := [cl!"a"]) (r := 0) sample_reachable (fs_sample.serves [cl!"l"]) (by decide +kernel)
    (by decide +kernel) (by decide +kernel) (by decide +kernel) _ _ _
example : uCopy 100 (mu cl!"/m") (mu cl!"/x") true [] true sample = (.error .assertionError, sample) :=
  C52_wrong_kind (ts := [cl!"m"]) (q := [cl!"a", cl!"f"]) (r := 0) sample_reachable (fs_sample.serves [cl!"m"]) (by decide +kernel)
    (by decide +kernel) (by decide +kernel) (by decide +kernel) _ _ _

/-! ## C47 -/

/-- the source: a path `si ++ [sn]` leading to the file `qi`; without `followlinks` it is not itself a link -/
structure FileSource (ns : NS) (si : List Str) (sn : Str) (fl : Bool) (qi : List Str) (data : Bytes) (m t : Int) : Prop where
  parent : ∃ q, Goes ns maxDepth [] si (.found q) ∧ ns.isDir q ∧ (sn ∉ si ∨ Plain ns (si ++ [sn])) ∧
    (fl = true ∨ ¬ ns.isLink (q ++ [sn]))
  goes : Goes ns maxDepth [] (si ++ [sn]) (.found qi)
  file : ns qi = some (.file data m t)

theorem copyOne_file {w : World} (hw : Mem.Inv w) {u v : Uri} {r : Nat} (hu : Serves w u r) (hv : Serves w v r)
    {si di qi qo : List Str} {sn dn : Str} {fl : Bool} {data : Bytes} {m t : Int}
    (hs : stepsOf u = some (si ++ [sn])) (hs' : stepsOf v = some (di ++ [dn]))
    (hsrc : FileSource (view w r) si sn fl qi data m t) (hk : Sink (view w r) di dn qo) (hne : qo ≠ qi) :
    ∃ w', copyOne r u v fl w = (.ok (), w') ∧ Becomes w w' r ((view w r).set qo (.file data m t)) := by
  obtain ⟨⟨q, g1, g2, g3, g4⟩, g5, g6⟩ := hsrc
  have e1 := uIslink_nofollow hw hu hs g1 g2 g3
  obtain ⟨w', h1, h2⟩ := copyFile_eq hw hu hv hs g5 g6 hs' hk hne
  refine ⟨w', ?_, h2⟩
  unfold copyOne
  rw [bind_ok e1]
  have : ((view w r (q ++ [sn])).any Obj.isLink && !fl) = false := by
    rcases g4 with rfl | g4
    · simp
    · cases hx : (view w r (q ++ [sn])).any Obj.isLink with
      | false => rfl
      | true => exact absurd (any_isLink.1 hx) g4
  rw [this]
  exact h1

theorem copy_start {w : World} (hw : Mem.Inv w) {u v : Uri} {r : Nat} (hu : Serves w u r) {ts qi : List Str} {data : Bytes} {m t : Int}
    (hs : stepsOf u = some ts) (hg : Goes (view w r) maxDepth [] ts (.found qi)) (hf : view w r qi = some (.file data m t))
    (depth : Nat) (fl : Bool) (ig : List Str) :
    uCopy depth u v false ig fl w = (do
      let dest ← if ← uIsdir v then M.lift (v.div u.last) else pure v
      copyOne r u dest fl : M Unit) w := by
  have e := uExists_goes hw hu hs hg
  have e1 := uIsfile_goes hw hu hs hg
  simp only [answer, hf, Option.any_some, Obj.isFile] at e e1
  unfold uCopy
  rw [withConn_serves hu hs]
  unfold Gen.copy
  rw [bind_ok e]
  simp only [Bool.not_true, Bool.not_false, Bool.false_eq_true, if_false, if_true]
  rw [bind_ok e1]
  rfl

/-- Copying a file: the destination becomes a file with the same bytes, mode and mtime; no other location of
    this or of any other file system changes. -/
theorem C47_copy {w : World} (h : Reachable w) {u v : Uri} {r : Nat} (hu : Serves w u r) (hv : Serves w v r)
    {si di qi qo : List Str} {sn dn : Str} {fl : Bool} {data : Bytes} {m t : Int}
    (hs : stepsOf u = some (si ++ [sn])) (hs' : stepsOf v = some (di ++ [dn]))
    (hsrc : FileSource (view w r) si sn fl qi data m t) (hk : Sink (view w r) di dn qo) (hne : qo ≠ qi)
    (depth : Nat) (ig : List Str) :
    ∃ w', uCopy depth u v false ig fl w = (.ok (), w') ∧ Becomes w w' r ((view w r).set qo (.file data m t)) := by
  obtain ⟨w', h1, h2⟩ := copyOne_file h.inv hu hv hs hs' hsrc hk hne
  refine ⟨w', ?_, h2⟩
  rw [copy_start h.inv hu hs hsrc.goes hsrc.file]
  have e : uIsdir v w = (.ok false, w) := by rw [uIsdir_ans h.inv hv hs', hk.dirAns]
  rw [bind_ok e]
  exact h1

/-- When the destination is a directory, the copy is put into it under the source's last name. -/
theorem C47_into {w : World} (h : Reachable w) {u v v' : Uri} {r : Nat} (hu : Serves w u r) (hv : Serves w v r) (hv' : Serves w v' r)
    {si ds di qd qi qo : List Str} {sn dn : Str} {fl : Bool} {data : Bytes} {m t : Int}
    (hs : stepsOf u = some (si ++ [sn])) (hsv : stepsOf v = some ds) (hgd : Goes (view w r) maxDepth [] ds (.found qd))
    (hqd : (view w r).isDir qd) (hj : v.div u.last = .ok v') (hs' : stepsOf v' = some (di ++ [dn]))
    (hsrc : FileSource (view w r) si sn fl qi data m t) (hk : Sink (view w r) di dn qo) (hne : qo ≠ qi)
    (depth : Nat) (ig : List Str) :
    ∃ w', uCopy depth u v false ig fl w = (.ok (), w') ∧ Becomes w w' r ((view w r).set qo (.file data m t)) := by
  obtain ⟨w', h1, h2⟩ := copyOne_file h.inv hu hv' hs hs' hsrc hk hne
  refine ⟨w', ?_, h2⟩
  rw [copy_start h.inv hu hs hsrc.goes hsrc.file]
  have e : uIsdir v w = (.ok true, w) := by rw [uIsdir_ans h.inv hv hsv, dirAns_dir hgd hqd]
  rw [bind_ok e]
  simp only [if_true]
  rw [bind_lift hj]
  exact h1

/-- For paths within one file system: the destination is then `dest/last`. -/
theorem C47_into_name {w : World} (h : Reachable w) {E : Dict} {r : Nat} (hf : Fs w E r)
    {si ds qd qi qo : List Str} {sn : Str} {fl : Bool} {data : Bytes} {m t : Int}
    (hs : Ok (si ++ [sn])) (hds : Ok (ds ++ [sn])) (hgd : Goes (view w r) maxDepth [] ds (.found qd))
    (hqd : (view w r).isDir qd) (hsrc : FileSource (view w r) si sn fl qi data m t) (hk : Sink (view w r) ds sn qo) (hne : qo ≠ qi)
    (depth : Nat) (ig : List Str) :
    ∃ w', uCopy depth (mem E (si ++ [sn])) (mem E ds) false ig fl w = (.ok (), w') ∧
      Becomes w w' r ((view w r).set qo (.file data m t)) := by
  have hsn := hs.clean sn (by simp)
  refine C47_into h (hf.serves _) (hf.serves _) (hf.serves (ds ++ [sn])) (stepsOf_mem hs E) (stepsOf_mem hds.of_prefix E) hgd hqd ?_
    (stepsOf_mem hds E) hsrc hk hne depth ig
  rw [mem_last hsn, mem_div hds.of_prefix.clean hsn]

/-- /m → /l/f → /a/f copied (followed) to the new /a/b/g, and to /a/b (a directory) under the name m -/
example : ∃ w', uCopy 100 (mem [] [cl!"m"]) (mem [] [cl!"a", cl!"b", cl!"g"]) false [] true sample = (.ok (), w') ∧
    Becomes sample w' 0 ((view sample 0).set [cl!"a", cl!"b", cl!"g"] (.file [104, 105] 0 4)) :=
  C47_copy (si := []) (sn := cl!"m") (di := [cl!"a", cl!"b"]) (qi := [cl!"a", cl!"f"]) sample_reachable (fs_sample.serves _) (fs_sample.serves _)
    (by decide +kernel) (by decide +kernel)
    ⟨⟨[], .done, by decide +kernel, .inl (by simp), .inl rfl⟩, by decide +kernel, by decide +kernel⟩
    (.new (q := [cl!"a", cl!"b"]) (by decide +kernel) (by decide +kernel) (by decide +kernel)) (by decide) 100 []
example : ∃ w', uCopy 100 (mem [] [cl!"m"]) (mem [] [cl!"a", cl!"b"]) false [] true sample = (.ok (), w') ∧
    Becomes sample w' 0 ((view sample 0).set [cl!"a", cl!"b", cl!"m"] (.file [104, 105] 0 4)) :=
  C47_into_name (si := []) (ds := [cl!"a", cl!"b"]) (qi := [cl!"a", cl!"f"]) sample_reachable fs_sample
    (by decide +kernel) (by decide +kernel) (qd := [cl!"a", cl!"b"]) (by decide +kernel) (by decide +kernel)
    ⟨⟨[], .done, by decide +kernel, .inl (by simp), .inl rfl⟩, by decide +kernel, by decide +kernel⟩
    (.new (q := [cl!"a", cl!"b"]) (by decide +kernel) (by decide +kernel) (by decide +kernel)) (by decide) 100 []

/-- The condition on source and destination is needed: a file copied onto itself loses its content. -/
theorem C47_onto_itself_refuted : ∃ w, Reachable w ∧ view w 0 [cl!"a", cl!"f"] = some (.file [104, 105] 0 4) ∧
    (uCopy 100 (mem [] [cl!"a", cl!"f"]) (mem [] [cl!"a", cl!"f"]) false [] true w).1 = .ok () ∧
    view (uCopy 100 (mem [] [cl!"a", cl!"f"]) (mem [] [cl!"a", cl!"f"]) false [] true w).2 0 [cl!"a", cl!"f"] = some (.file [] 0 9) :=
  ⟨sample, sample_reachable, by decide +kernel, by decide +kernel, by decide +kernel⟩

/-- So is the same file system: between two memory file systems the data is copied, but then `copystat` looks
    for the destination in the source's file system and fails. -/
theorem C47_other_file_system_refuted : ∃ w, Reachable w ∧
    (uCopy 100 (mem [] [cl!"a", cl!"f"]) (mem [(cl!"k", cl!"v")] [cl!"g"]) false [] true w).1 = .error (.os .ENOENT) :=
  ⟨sample, sample_reachable, by decide +kernel⟩

/-! ## C50 -/

/-- the destination `e ++ [n']`: nothing there yet, or a file, or a link leading to a file -/
def LinkSink (ns : NS) (e : List Str) (n' : Str) : Prop :=
  (ns.isDir e ∧ ns (e ++ [n']) = none) ∨
  ∃ o qf, ns (e ++ [n']) = some o ∧ Goes ns maxDepth [] (e ++ [n']) (.found qf) ∧ ns.isFile qf

theorem linkSink_dirAns {ns : NS} {e : List Str} {n' : Str} (hg : Goes ns maxDepth [] e (.found e)) (h : LinkSink ns e n') :
    dirAns ns (e ++ [n']) = .ok false := by
  rcases h with ⟨h1, h2⟩ | ⟨o, qf, h1, h2, h3⟩
  · exact (Sink.new hg h1 h2).dirAns
  · exact (Sink.old hg h1 h2 h3).dirAns

theorem linkSink_parent {w : World} {r : Nat} {e : List Str} {n' : Str} (h : LinkSink (view w r) e n') : (view w r).isDir e := by
  rcases h with ⟨h1, h2⟩ | ⟨o, qf, h1, h2, h3⟩
  · exact h1
  · exact view_parent h1

theorem copyLink_any {w : World} (hw : Mem.Inv w) {E : Dict} {r : Nat} (hf : Fs w E r) {q e : List Str} {n n' : Str} {t : Uri} {m s : Int}
    (hok : Ok (q ++ [n])) (hok' : Ok (e ++ [n'])) (ho : view w r (q ++ [n]) = some (.link t m s))
    (hk : LinkSink (view w r) e n') (hne : q ++ [n] ≠ e ++ [n']) :
    ∃ w' s', copyLink r (mem E (q ++ [n])) (mem E (e ++ [n'])) w = (.ok (), w') ∧
      Becomes w w' r ((view w r).set (e ++ [n']) (.link t 0 s')) := by
  rcases hk with ⟨h1, h2⟩ | ⟨o, qf, h1, h2, h3⟩
  · exact copyLink_new hw hf hok hok' ho h1 h2
  · exact copyLink_old hw hf hok hok' ho h1 h2 h3 hne

/-- Copying a link that leads to a file, without following it: the destination becomes a link with the same
    target.  A file or link that was there is replaced; what that link led to is untouched, like everything else. -/
theorem C50_file_link {w : World} (h : Reachable w) {E : Dict} {r : Nat} (hf : Fs w E r) {q e qi : List Str} {n n' : Str} {t : Uri} {m s : Int}
    (hok : Ok (q ++ [n])) (hok' : Ok (e ++ [n'])) (ho : view w r (q ++ [n]) = some (.link t m s))
    (hg : Goes (view w r) maxDepth [] (q ++ [n]) (.found qi)) (hfi : (view w r).isFile qi)
    (hk : LinkSink (view w r) e n') (hne : q ++ [n] ≠ e ++ [n']) (depth : Nat) (ig : List Str) :
    ∃ w' s', uCopy depth (mem E (q ++ [n])) (mem E (e ++ [n'])) false ig false w = (.ok (), w') ∧
      Becomes w w' r ((view w r).set (e ++ [n']) (.link t 0 s')) := by
  obtain ⟨b, m', t', hb⟩ := hfi
  obtain ⟨w', s', h1, h2⟩ := copyLink_any h.inv hf hok hok' ho hk hne
  refine ⟨w', s', ?_, h2⟩
  rw [copy_start h.inv (hf.serves _) (stepsOf_mem hok E) hg hb]
  have e : uIsdir (mem E (e ++ [n'])) w = (.ok false, w) := by
    rw [uIsdir_ans h.inv (hf.serves _) (stepsOf_mem hok' E), linkSink_dirAns (isDir_goes (linkSink_parent hk)) hk]
  rw [bind_ok e]
  exact (copyOne_link h.inv hf hok ho _).trans h1

/-- The same for a link that leads to a directory (`recursive=True`). -/
theorem C50_dir_link {w : World} (h : Reachable w) {E : Dict} {r : Nat} (hf : Fs w E r) {q e qi : List Str} {n n' : Str} {t : Uri} {m s : Int}
    (hok : Ok (q ++ [n])) (hok' : Ok (e ++ [n'])) (ho : view w r (q ++ [n]) = some (.link t m s))
    (hg : Goes (view w r) maxDepth [] (q ++ [n]) (.found qi)) (hfi : (view w r).isDir qi)
    (hk : LinkSink (view w r) e n') (hne : q ++ [n] ≠ e ++ [n']) (depth : Nat) (ig : List Str) :
    ∃ w' s', uCopy depth (mem E (q ++ [n])) (mem E (e ++ [n'])) true ig false w = (.ok (), w') ∧
      Becomes w w' r ((view w r).set (e ++ [n']) (.link t 0 s')) := by
  obtain ⟨m', t', hb⟩ := hfi
  obtain ⟨w', s', h1, h2⟩ := copyLink_any h.inv hf hok hok' ho hk hne
  refine ⟨w', s', ?_, h2⟩
  have e0 := uExists_goes h.inv (hf.serves _) (stepsOf_mem hok E) hg
  have e1 := uIsdir_goes h.inv (hf.serves _) (stepsOf_mem hok E) hg
  simp only [answer, hb, Option.any_some, Obj.isDir] at e0 e1
  have e : uIsdir (mem E (e ++ [n'])) w = (.ok false, w) := by
    rw [uIsdir_ans h.inv (hf.serves _) (stepsOf_mem hok' E), linkSink_dirAns (isDir_goes (linkSink_parent hk)) hk]
  have e2 := uIslink_at h.inv hf hok (view_parent ho)
  rw [ho] at e2
  unfold uCopy
  rw [withConn_serves (hf.serves _) (stepsOf_mem hok E)]
  unfold Gen.copy
  rw [bind_ok e0]
  simp only [Bool.not_true, Bool.false_eq_true, if_false]
  rw [bind_ok e1]
  simp only [Bool.not_true, Bool.false_eq_true, if_false]
  rw [bind_ok e]
  simp only [Bool.false_eq_true, if_false]
  refine (bind_ok e2).trans ?_
  exact h1

/-- /m (→ /l/f) copied onto the file /a/f: /a/f becomes a link to /l/f (which now goes in circles) -/
example : ∃ w' s', uCopy 100 (mem [] [cl!"m"]) (mem [] [cl!"a", cl!"f"]) false [] false sample = (.ok (), w') ∧
    Becomes sample w' 0 ((view sample 0).set ([cl!"a"] ++ [cl!"f"]) (.link (mu cl!"/l/f") 0 s')) :=
  C50_file_link (q := []) (e := [cl!"a"]) (n' := cl!"f") (qi := [cl!"a", cl!"f"]) (m := 0) (s := 6) sample_reachable fs_sample (by decide +kernel) (by decide +kernel)
    (by decide +kernel) (by decide +kernel) (by decide +kernel)
    (.inr ⟨.file [104, 105] 0 4, [cl!"a", cl!"f"], by decide +kernel, by decide +kernel, by decide +kernel⟩) (by decide) 100 []
example : ∃ w' s', uCopy 100 (mem [] [cl!"l"]) (mem [] [cl!"a", cl!"k"]) true [] false sample = (.ok (), w') ∧
    Becomes sample w' 0 ((view sample 0).set ([cl!"a"] ++ [cl!"k"]) (.link (mu cl!"/a") 0 s')) :=
  C50_dir_link (q := []) (e := [cl!"a"]) (n' := cl!"k") (qi := [cl!"a"]) (m := 0) (s := 5) sample_reachable fs_sample (by decide +kernel) (by decide +kernel)
    (by decide +kernel) (by decide +kernel) (by decide +kernel)
    (.inl ⟨by decide +kernel, by decide +kernel⟩) (by decide) 100 []

/-! ## C51 for files -/

/-- Moving a file: the destination has the source's content, the source is gone, nothing else changes. -/
theorem C51_file {w : World} (h : Reachable w) {u v : Uri} {r : Nat} (hu : Serves w u r) (hv : Serves w v r)
    {si di q qo : List Str} {sn dn : Str} {data : Bytes} {m t : Int}
    (hs : stepsOf u = some (si ++ [sn])) (hc : [] ∉ si ++ [sn]) (hl : u.last = sn) (hs' : stepsOf v = some (di ++ [dn]))
    (hg : Goes (view w r) maxDepth [] si (.found q)) (hp : Plain (view w r) (si ++ [sn]))
    (hf : view w r (q ++ [sn]) = some (.file data m t)) (hk : Sink (view w r) di dn qo) (hne : qo ≠ q ++ [sn]) (depth : Nat) :
    ∃ w', uMove depth u v w = (.ok (), w') ∧
      Becomes w w' r (((view w r).set qo (.file data m t)).erase (q ++ [sn])) := by
  have hqd := view_parent hf
  have hgf := hg.snoc hqd hf rfl
  obtain ⟨w1, h1, h2⟩ := C47_copy h hu hv hs hs' (fl := true) (qi := q ++ [sn])
    ⟨⟨q, hg, hqd, .inr hp, .inl rfl⟩, hgf, hf⟩ hk hne depth []
  have hkeep : (view w r).Keeps (view w1 r) := by
    rw [h2.view]
    cases hk with
    | new g1 g2 g3 => exact NS.set_keeps_new g3
    | old g1 g2 g3 g4 =>
      obtain ⟨b', m', t'', hb⟩ := g4
      exact (NS.set_sameKinds (o' := .file data m t) hb rfl).keeps
  obtain ⟨w2, h3, h4⟩ := uRemove_leaf h2.inv (h2.serves hu) depth false hs hc hl (hg.keeps hkeep)
    (.inr (fun a b c e => hkeep.isDir (hp a b c e)))
    (by rw [h2.view, NS.set_ne _ _ hne.symm]; exact hf) rfl
  refine ⟨w2, ?_, (h2.trans h4).congr (by rw [h2.view])⟩
  unfold uMove
  rw [withConn_serves hu hs]
  unfold Gen.move
  have e1 := uIsfile_goes h.inv hu hs hgf
  simp only [answer, hf, Option.any_some, Obj.isFile] at e1
  rw [bind_ok e1]
  simp only [if_true]
  rw [bind_ok h1]
  exact h3

example : ∃ w', uMove 100 (mem [] [cl!"a", cl!"f"]) (mem [] [cl!"l", cl!"b", cl!"g"]) sample = (.ok (), w') ∧
    Becomes sample w' 0 (((view sample 0).set ([cl!"a", cl!"b"] ++ [cl!"g"]) (.file [104, 105] 0 4)).erase ([cl!"a"] ++ [cl!"f"])) :=
  C51_file (si := [cl!"a"]) (di := [cl!"l", cl!"b"]) (dn := cl!"g") sample_reachable (fs_sample.serves _) (fs_sample.serves _) (by decide +kernel)
    (by decide) (by decide +kernel) (by decide +kernel) (by decide +kernel) (plain_snoc (by decide +kernel) _) (by decide +kernel)
    (.new (q := [cl!"a", cl!"b"]) (by decide +kernel) (by decide +kernel) (by decide +kernel)) (by decide) 100

/-- A file moved onto itself is lost. -/
theorem C51_onto_itself_refuted : ∃ w, Reachable w ∧ (view w 0).isFile [cl!"a", cl!"f"] ∧
    (uMove 100 (mem [] [cl!"a", cl!"f"]) (mem [] [cl!"a", cl!"f"]) w).1 = .ok () ∧
    view (uMove 100 (mem [] [cl!"a", cl!"f"]) (mem [] [cl!"a", cl!"f"]) w).2 0 [cl!"a", cl!"f"] = none :=
  ⟨sample, sample_reachable, by decide +kernel, by decide +kernel, by decide +kernel⟩

end Verif.Props
