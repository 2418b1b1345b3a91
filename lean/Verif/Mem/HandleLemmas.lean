import Verif.Mem.Reach
import Verif.Spec.Shape
import Verif.Py.BytesLemmas
import Verif.Py.Utf8Lemmas
/-!
# File handles: closed forms
-/
namespace Verif.Mem
open M Spec

theorem setNode_self (w : World) (i : Nat) : w.setNode i (w.node i) = w := by
  cases w
  simp only [World.setNode, World.mk.injEq, and_true]
  funext j
  split
  · rename_i h; rw [h]
  · rfl

theorem setNode_setNode (w : World) (i : Nat) (a b : Node) : (w.setNode i a).setNode i b = w.setNode i b := by
  simp only [World.setNode, World.mk.injEq, and_true]
  funext j
  split <;> rfl

theorem setNode_node (w : World) (i : Nat) (a : Node) : (w.setNode i a).node i = a := by simp [World.setNode]

/-- the file object `i` becomes `f`, and the clock has been read up to `k` -/
def World.put (w : World) (i : Nat) (f : FileObj) (k : Nat) : World := { w.setNode i (.file f) with tick := k }

theorem put_node (w : World) (i : Nat) (f : FileObj) (k : Nat) : (w.put i f k).node i = .file f := by
  simp [World.put, World.setNode]

theorem put_node_ne (w : World) {i j : Nat} (f : FileObj) (k : Nat) (h : j ≠ i) : (w.put i f k).node j = w.node j := by
  simp [World.put, World.setNode, h]

theorem put_put (w : World) (i : Nat) (f f' : FileObj) (k k' : Nat) : (w.put i f k).put i f' k' = w.put i f' k' := by
  simp only [World.put, World.setNode, World.mk.injEq, and_true]
  funext j
  split <;> rfl

theorem put_self {w : World} {i : Nat} {f : FileObj} (h : w.node i = .file f) : w.put i f w.tick = w := by
  unfold World.put
  rw [← h, setNode_self]

theorem put_eq_setNode (w : World) (i : Nat) (f : FileObj) : w.setNode i (.file f) = w.put i f w.tick := rfl

theorem Ext.put {w : World} {i : Nat} {f f' : FileObj} {k : Nat} (h : w.node i = .file f)
    (hp : SameType w.gen w.gen (.file f) (.file f')) : Ext w (w.put i f' k) :=
  (Ext.setFile h hp).tick k

theorem Inv.put {w : World} (hw : Inv w) {i : Nat} {f f' : FileObj} {k : Nat} (h : w.node i = .file f) :
    Inv (w.put i f' k) := (hw.setFile h (f' := f')).congr rfl rfl rfl

theorem Serves.put {w : World} {u : Uri} {r i k : Nat} {f : FileObj} (h : Serves w u r) : Serves (w.put i f k) u r :=
  h.congr (List.prefix_refl _) rfl

/-- only the location of the file sees the change -/
theorem view_put {w : World} {i k : Nat} {f f' : FileObj} (h : w.node i = .file f) (r : Nat) (q : List Str) :
    view (w.put i f' k) r q = if phys w r q = some i then some (objOf (.file f')) else view w r q := by
  have : view (w.put i f' k) r = view (w.setNode i (.file f')) r := view_congr (w := w.setNode i (.file f')) (w' := w.put i f' k) rfl r
  rw [this]
  exact view_setNode (by rw [h]; trivial) r q

theorem phys_put {w : World} {i k : Nat} {f f' : FileObj} (h : w.node i = .file f) (r : Nat) (q : List Str) :
    phys (w.put i f' k) r q = phys w r q := by
  have : phys (w.put i f' k) r q = phys (w.setNode i (.file f')) r q :=
    phys_congr (w := w.setNode i (.file f')) (w' := w.put i f' k) (fun _ => rfl) r q
  rw [this]
  exact phys_congr (entries_setNode (by rw [h]; trivial)) r q

theorem put_sameKinds {w : World} {i k : Nat} {f f' : FileObj} (h : w.node i = .file f) (r : Nat) :
    (view w r).SameKinds (view (w.put i f' k) r) := by
  intro q
  rw [view_put h]
  split
  · rename_i hq; rw [view_of_phys hq, h]; rfl
  · rfl

/-- the file is at `q` in file system `r`: that location changes, nothing else -/
theorem view_put_at {w : World} (hw : Inv w) {i k r : Nat} {f f' : FileObj} {q : List Str} (hr : IsRoot w r)
    (h : w.node i = .file f) (hq : phys w r q = some i) :
    view (w.put i f' k) r = (view w r).set q (.file f'.data f'.mode f'.mtime) ∧
    ∀ r', IsRoot w r' → r' ≠ r → view (w.put i f' k) r' = view w r' := by
  constructor
  · funext p
    rw [view_put h]
    unfold NS.set
    by_cases hp : p = q
    · subst hp; simp [hq, objOf]
    · rw [if_neg hp, if_neg]
      intro h'
      exact hp (phys_inj hw hr hr h' hq).2
  · intro r' hr' hne
    funext p
    rw [view_put h, if_neg]
    intro h'
    exact hne (phys_inj hw hr' hr h' hq).1

/-! ## Operations -/

theorem write_eq {h : Handle} {d : PyData} {b : Bytes} {w : World} {f : FileObj} (hb : h.encode d = .ok b)
    (hf : w.node h.id = .file f) :
    h.write d w = (.ok (), w.put h.id { f with data := (BytesIO.write f.data f.pos b).1,
                                               pos := (BytesIO.write f.data f.pos b).2,
                                               mtime := w.clock w.tick } (w.tick + 1)) := by
  unfold Handle.write
  rw [bind_ok (by rw [lift_apply, hb])]
  unfold withFile
  rw [hf]
  rfl

theorem write_bad {h : Handle} {d : PyData} {e : PyErr} {w : World} (hb : h.encode d = .error e) :
    h.write d w = (.error e, w) := by
  unfold Handle.write
  rw [bind_error (by rw [lift_apply, hb])]

theorem read_eq {h : Handle} {n : Int} {w : World} {f : FileObj} (hr : h.readable = true)
    (hf : w.node h.id = .file f) :
    h.read n w = (h.decode (BytesIO.read f.data f.pos n).1,
      w.put h.id { f with pos := (BytesIO.read f.data f.pos n).2 } w.tick) := by
  unfold Handle.read
  rw [if_pos hr]
  have : (withFile h.id fun f => do
      let r := BytesIO.read f.data f.pos n
      setNode h.id (.file { f with pos := r.2 })
      pure r.1) w = (.ok (BytesIO.read f.data f.pos n).1,
        w.put h.id { f with pos := (BytesIO.read f.data f.pos n).2 } w.tick) := by
    unfold withFile; rw [hf]; rfl
  rw [bind_ok this]
  rfl

theorem read_unreadable {h : Handle} {n : Int} {w : World} (hr : h.readable = false) :
    h.read n w = (.error (.os .EBADF), w) := by
  unfold Handle.read; rw [hr]; rfl

theorem seek_eq {h : Handle} {t wh : Int} {w : World} {f : FileObj} (hf : w.node h.id = .file f) :
    h.seek t wh w = match BytesIO.seek f.data f.pos t wh with
      | .ok p => (.ok (), w.put h.id { f with pos := p } w.tick)
      | .error e => (.error e, w) := by
  unfold Handle.seek withFile
  rw [hf]
  simp only [bind_apply, lift_apply]
  cases BytesIO.seek f.data f.pos t wh <;> rfl

theorem tell_eq {h : Handle} {w : World} {f : FileObj} (hf : w.node h.id = .file f) :
    h.tell w = (.ok f.pos, w) := by unfold Handle.tell withFile; rw [hf]; rfl

theorem size_eq {h : Handle} {w : World} {f : FileObj} (hf : w.node h.id = .file f) :
    h.size w = (.ok f.data.length, w) := by unfold Handle.size withFile; rw [hf]; rfl

theorem truncate_eq {h : Handle} {n : Option Int} {w : World} {f : FileObj} (hf : w.node h.id = .file f) :
    h.truncate n w = match BytesIO.truncate f.data f.pos n with
      | .ok p => (.ok p.2, w.put h.id { f with data := p.1 } w.tick)
      | .error e => (.error e, w) := by
  unfold Handle.truncate withFile
  rw [hf]
  simp only [bind_apply, lift_apply]
  cases BytesIO.truncate f.data f.pos n <;> rfl

theorem close_eq {h : Handle} {w : World} {f : FileObj} (hf : w.node h.id = .file f) :
    h.close w = (.ok (), w.put h.id { f with pos := 0 } w.tick) := by unfold Handle.close withFile; rw [hf]; rfl

theorem next_eq {h : Handle} {w : World} {f : FileObj} (hf : w.node h.id = .file f) :
    h.next w = (if (BytesIO.readline f.data f.pos).1 = [] then .ok none
        else (h.decode (BytesIO.readline f.data f.pos).1).map some,
      w.put h.id { f with pos := (BytesIO.readline f.data f.pos).2 } w.tick) := by
  unfold Handle.next
  have : (withFile h.id fun f => do
      let r := BytesIO.readline f.data f.pos
      setNode h.id (.file { f with pos := r.2 })
      pure r.1) w = (.ok (BytesIO.readline f.data f.pos).1,
        w.put h.id { f with pos := (BytesIO.readline f.data f.pos).2 } w.tick) := by
    unfold withFile; rw [hf]; rfl
  rw [bind_ok this]
  split
  · rfl
  · rw [bind_apply, lift_apply]
    cases h.decode (BytesIO.readline f.data f.pos).1 <;> rfl

/-- a sequence of writes at the end of a file appends -/
theorem writes_eq {h : Handle} (l : List PyData) (bs : List Bytes) (w : World) (f : FileObj)
    (hl : l.map h.encode = bs.map Except.ok) (hf : w.node h.id = .file f) (hp : f.pos = f.data.length) :
    ∃ t k, l.forM h.write w = (.ok (), w.put h.id
      { f with data := f.data ++ bs.flatten, pos := (f.data ++ bs.flatten).length, mtime := t } k) ∧ (l = [] → t = f.mtime ∧ k = w.tick) := by
  induction l generalizing bs w f with
  | nil =>
    cases bs with
    | cons b bs => simp at hl
    | nil =>
      refine ⟨f.mtime, w.tick, ?_, by simp⟩
      simp only [List.flatten_nil, List.append_nil, ← hp]
      rw [put_self hf]
      rfl
  | cons d l ih =>
    cases bs with
    | nil => simp at hl
    | cons b bs =>
      simp only [List.map_cons, List.cons.injEq] at hl
      have h1 := write_eq hl.1 hf
      rw [hp, BytesIO.write_end] at h1
      obtain ⟨t, k, h2, -⟩ := ih bs (w.put h.id { f with data := f.data ++ b, pos := f.data.length + b.length, mtime := w.clock w.tick } (w.tick + 1))
        { f with data := f.data ++ b, pos := f.data.length + b.length, mtime := w.clock w.tick } hl.2
        (put_node _ _ _ _) (by simp)
      refine ⟨t, k, ?_, by simp⟩
      show (h.write d >>= fun _ => l.forM h.write) w = _
      rw [bind_ok h1, h2, put_put]
      simp

end Verif.Mem
