import Verif.Props.MemData
import Verif.Props.MemLookup
import Verif.Py.DictLemmas
/-!
# C58: the content of a memory file system lives as long as its connection

`Op.forget rs` is what a registry clean-up does to the memory connections (Verif/Reg: it drops some of
them).  Which ones it drops depends on the clock; here it is any.
-/
namespace Verif.Props
open Verif.Mem Verif.Spec M

/-- a clean-up that drops the connections with roots `rs` -/
def forget (rs : List Nat) (w : World) : World := (Op.forget rs).run w

theorem view_forget (rs : List Nat) (w : World) (r : Nat) : view (forget rs w) r = view w r := by
  have hp : ∀ i q, phys (forget rs w) i q = phys w i q := fun i q => phys_congr (w := w) (w' := forget rs w) (fun _ => rfl) i q
  funext q
  unfold view
  rw [hp]
  rfl

theorem connOf_forget {w : World} {k : ConnKey} {r : Nat} (h : w.connOf k = some r) {rs : List Nat} (hr : r ∉ rs) :
    (forget rs w).connOf k = some r := by
  unfold World.connOf at h ⊢
  rw [Option.map_eq_some_iff] at h ⊢
  obtain ⟨⟨k', r'⟩, h1, h2⟩ := h
  simp only at h2
  subst h2
  refine ⟨(k', r'), ?_, rfl⟩
  show (w.conns.filter fun c => decide (c.2 ∉ rs)).find? _ = _
  generalize w.conns = l at h1
  induction l with
  | nil => simp at h1
  | cons c l ih =>
    rw [List.find?_cons] at h1
    split at h1
    · cases h1
      rw [List.filter_cons_of_pos (by simpa using hr), List.find?_cons]
      rename_i hc; rw [hc]
    · rename_i hc
      by_cases hm : c.2 ∈ rs
      · rw [List.filter_cons_of_neg (by simpa using hm)]; exact ih h1
      · rw [List.filter_cons_of_pos (by simpa using hm), List.find?_cons, hc]; exact ih h1

/-- C58: a clean-up that does not drop the connection changes nothing about the file system: the URI still belongs
    to it, and every object is as before. -/
theorem C58_kept {w : World} {u : Uri} {r : Nat} (hu : Serves w u r) {rs : List Nat} (hr : r ∉ rs) :
    Serves (forget rs w) u r ∧ view (forget rs w) r = view w r :=
  ⟨⟨hu.scheme, hu.extras, connOf_forget hu.conn hr, hu.hook⟩, view_forget rs w r⟩

/-- C58: in every history, the connection of a key stays the same until a clean-up drops it. -/
theorem C58_connection {w : World} (h : Reachable w) {k : ConnKey} {r : Nat} (hk : w.connOf k = some r) {ops : List Op}
    (ho : ∀ rs, .forget rs ∈ ops → r ∉ rs) : (runAll ops w).connOf k = some r := by
  have hw := h.inv
  clear h
  induction ops generalizing w with
  | nil => exact hk
  | cons o ops ih =>
    refine ih ?_ (fun rs h => ho rs (List.mem_cons_of_mem _ h)) (o.inv hw)
    cases hf : o.isForget with
    | false =>
      have h1 := (o.ext hw hf).2.conns
      unfold World.connOf at hk ⊢
      rw [Option.map_eq_some_iff] at hk ⊢
      obtain ⟨a, h3, h4⟩ := hk
      exact ⟨a, find_prefix h1 h3, h4⟩
    | true =>
      cases o with
      | forget rs => exact connOf_forget hk (ho rs List.mem_cons_self)
      | _ => simp [Op.isForget] at hf

/-- C58: what was written can be read after clean-ups that kept the connection (any number of them). -/
theorem C58_read {w : World} (h : Reachable w) {u : Uri} {r : Nat} {ts q : List Str} {data : Bytes} {m t : Int}
    (hu : Serves w u r) (hs : stepsOf u = some ts) (hg : Goes (view w r) maxDepth [] ts (.found q))
    (hf : view w r q = some (.file data m t)) {rss : List (List Nat)} (hr : ∀ rs ∈ rss, r ∉ rs) :
    ∃ hd w1, uOpen u (some cl!"rb") (runAll (rss.map .forget) w) = (.ok hd, w1) ∧
      (hd.read (-1) w1).1 = .ok (.bytes data) := by
  have key : ∀ (rss : List (List Nat)) (w : World), (∀ rs ∈ rss, r ∉ rs) → Serves w u r →
      Serves (runAll (rss.map Op.forget) w) u r ∧ view (runAll (rss.map .forget) w) r = view w r := by
    intro rss
    induction rss with
    | nil => intro w _ hu; exact ⟨hu, rfl⟩
    | cons rs rss ih =>
      intro w hr hu
      have h1 := C58_kept hu (hr rs List.mem_cons_self)
      have h2 := ih (forget rs w) (fun x hx => hr x (List.mem_cons_of_mem _ hx)) h1.1
      exact ⟨h2.1, h2.2.trans h1.2⟩
  obtain ⟨h1, h2⟩ := key rss w hr hu
  obtain ⟨hd, w1, e1, -, e2, -⟩ := readback (inv_runAll h.inv _) h1 hs (o := cl!"rb") (by decide) (by rw [h2]; exact hg)
    (by rw [h2]; exact hf)
  refine ⟨hd, w1, e1, ?_⟩
  rw [e2]; rfl

/-! ## First use -/

/-- `u` is a memory URI for which there is no connection (yet, or any more); the ways to fail to connect are excluded -/
structure Unconnected (w : World) (u : Uri) : Prop where
  scheme : u.scheme = some cl!"memory"
  extras : u.allExtras.any (fun kv => kv.1 ∈ reservedNames) = false
  wf : u.allExtras.WF
  host : ¬ truthy u.key.hostname = true
  conn : w.connOf (connKey u) = none

theorem Unconnected.get {w : World} {u : Uri} (h : Unconnected w u) :
    getConnection u w = (.ok w.next, w.connect (connKey u)) := by
  unfold getConnection
  rw [h.extras, if_pos h.scheme, h.conn]
  simp only [Bool.false_eq_true, if_false]
  exact createConn_eq h.host

theorem same_self {k : ConnKey} (h : k.extras.WF) : k.same k = true := by
  unfold ConnKey.same
  rw [Bool.and_eq_true, decide_eq_true_iff]
  exact ⟨rfl, (Dict.eq_iff h h).2 fun _ => rfl⟩

theorem Unconnected.serves {w : World} {u : Uri} (h : Unconnected w u) :
    Serves (w.connect (connKey u)) u w.next := by
  refine ⟨h.scheme, h.extras, ?_, ?_⟩
  · have := h.conn
    unfold World.connOf at this ⊢
    rw [Option.map_eq_none_iff] at this
    show Option.map Prod.snd ((w.conns ++ [(connKey u, w.next)]).find? _) = _
    rw [List.find?_append, this, Option.none_or, List.find?_cons, same_self (k := connKey u) h.wf]
    rfl
  · intro p cb m _ hl
    simp [World.connect] at hl

/-- The first use of a URI creates its file system and then does what it does on that file system: so all
    theorems about connected URIs (`Serves`) say what a first use does. -/
theorem Unconnected.withConn {α : Type} {w : World} {u : Uri} (h : Unconnected w u) (m : Meth) (body : Nat → M α) :
    withConn u m body w = withConn u m body (w.connect (connKey u)) := by
  unfold Mem.withConn
  rw [bind_ok h.get, bind_ok (getConnection_serves h.serves)]

theorem Unconnected.reachable {w : World} {u : Uri} (hw : Reachable w) (h : Unconnected w u) :
    Reachable (w.connect (connKey u)) := by
  have h1 := hw.step (.exists_ u)
  have : (uExists u w).2 = w.connect (connKey u) := by
    unfold uExists
    rw [h.withConn]
    cases hs : stepsOf u with
    | none => rw [withConn_bad h.serves hs]
    | some ts => rw [withConn_serves h.serves hs]; rfl
  rw [← this]; exact h1

/-- the new file system has a root directory and nothing else -/
theorem view_connect {w : World} (k : ConnKey) (q : List Str) :
    view (w.connect k) w.next q = if q = [] then some (.dir 0 (w.clock w.tick)) else none := by
  have hn : (w.connect k).node w.next = .dir ⟨[], w.clock w.tick, w.clock w.tick, 0⟩ := by
    simp [World.connect, World.alloc]
  cases q with
  | nil => simp [view, phys, hn, objOf]
  | cons n q => simp [view, phys, hn]

/-- C58: once its connection is dropped, a memory file system is empty: the next use of the URI makes a new root
    directory, in which nothing exists. -/
theorem C58_gone {w : World} (h : Reachable w) {u : Uri} {n : Str} {ts : List Str} (hu : Unconnected w u)
    (hs : stepsOf u = some (n :: ts)) :
    (uExists u w).1 = .ok false ∧ (uIsfile u w).1 = .ok false ∧ (uIsdir u w).1 = .ok false ∧
    (uOpen u (some cl!"rb") w).1 = .error (.os .ENOENT) ∧ (uInfo u true w).1 = .error (.os .ENOENT) := by
  have hr := hu.reachable h
  have hg : Goes (view (w.connect (connKey u)) w.next) maxDepth [] (n :: ts) .missing :=
    .missing ⟨0, w.clock w.tick, by rw [view_connect]; rfl⟩ (by rw [view_connect]; simp)
  obtain ⟨a, b, c⟩ := C23_missing hr hu.serves hs hg
  refine ⟨?_, ?_, ?_, ?_, ?_⟩
  · have : uExists u w = uExists u (w.connect (connKey u)) := hu.withConn _ _
    rw [this, a]
  · have : uIsfile u w = uIsfile u (w.connect (connKey u)) := hu.withConn _ _
    rw [this, b]
  · have : uIsdir u w = uIsdir u (w.connect (connKey u)) := hu.withConn _ _
    rw [this, c]
  · have : uOpen u (some cl!"rb") w = uOpen u (some cl!"rb") (w.connect (connKey u)) := hu.withConn _ _
    have e : uOpen u (some cl!"rb") (w.connect (connKey u)) = (.error (.os .ENOENT), w.connect (connKey u)) := by
      rw [uOpen_r hu.serves hs (by decide)]
      exact (openRead_fail hr.inv hu.serves.isRoot hs hg (by simp)).1
    rw [this, e]
  · have : uInfo u true w = uInfo u true (w.connect (connKey u)) := hu.withConn _ _
    rw [this]
    unfold uInfo
    rw [withConn_serves hu.serves hs]
    simp [info, nodeForPath_goes hr.inv hu.serves.isRoot hs hg, outResult]

/-- C58: a forced clean-up (fs.py:134-143 with `force`, or `shutdown`) drops all connections: afterwards every memory
    URI is unconnected. -/
theorem C58_forced {w : World} {u : Uri} {r : Nat} (hu : Serves w u r) (hwf : u.allExtras.WF)
    (hh : ¬ truthy u.key.hostname = true) : Unconnected (forget (w.conns.map Prod.snd) w) u := by
  refine ⟨hu.scheme, hu.extras, hwf, hh, ?_⟩
  have : (forget (w.conns.map Prod.snd) w).conns = [] := by
    show w.conns.filter _ = []
    rw [List.filter_eq_nil_iff]
    rintro ⟨k, r⟩ hc
    simp only [decide_eq_true_eq, not_not]
    exact List.mem_map.2 ⟨_, hc, rfl⟩
  unfold World.connOf
  rw [this]; rfl

/-- the sample file system, a clean-up that drops another connection, and one that drops this one -/
example : Serves sample (mu cl!"/a/f") 0 ∧ (0 : Nat) ∉ [7] ∧ Unconnected (forget [0] sample) (mu cl!"/a/f") ∧
    stepsOf (mu cl!"/a/f") = some [cl!"a", cl!"f"] :=
  ⟨sample_serves _, by decide, ⟨by decide +kernel, by decide +kernel, by decide +kernel, by decide +kernel,
    by decide +kernel⟩, by decide +kernel⟩
example : (uExists (mu cl!"/a/f") sample).1 = .ok true ∧ (uExists (mu cl!"/a/f") (forget [7] sample)).1 = .ok true ∧
    (uExists (mu cl!"/a/f") (forget [0] sample)).1 = .ok false := by decide +kernel

/-- Handles keep working after their file system is gone: what they refer to is not closed. -/
theorem C58_handles (rs : List Nat) (w : World) (h : Handle) (n : Int) (d : PyData) :
    (h.read n (forget rs w)).1 = (h.read n w).1 ∧ (h.write d (forget rs w)).1 = (h.write d w).1 := by
  have hn : (forget rs w).node h.id = w.node h.id := rfl
  refine ⟨?_, ?_⟩
  · cases hx : w.node h.id with
    | file f => cases hb : h.readable <;> cases h.decode (BytesIO.read f.data f.pos n).1 <;>
        simp [Handle.read, Bind.bind, bnd, withFile, hn, hx, hb, setNode, lift, Pure.pure, ret, raise]
    | _ => cases hb : h.readable <;> simp [Handle.read, Bind.bind, bnd, withFile, hn, hx, hb, raise]
  · cases hx : w.node h.id with
    | file f => cases he : h.encode d <;>
        simp [Handle.write, Bind.bind, bnd, withFile, hn, hx, he, setNode, now, lift]
    | _ => cases he : h.encode d <;> simp [Handle.write, Bind.bind, bnd, withFile, hn, hx, he, lift]

end Verif.Props
