import Verif.Props.MemOps
/-!
# Properties of the memory file system: file contents and handles (C26, C27, C29, C38-C41)
-/
namespace Verif.Props
open Mem Spec

/-! ## C26, C27 What is written is what is read -/

/-- common part: the encoded chunks end up in the file, in order -/
theorem written {w w1 : World} (h : Reachable w) {u : Uri} {r : Nat} {init : List Str} {n o : Str} {hd : Handle}
    {l : List PyData} {bs : List Bytes}
    (hu : Serves w u r) (hs : stepsOf u = some (init ++ [n])) (ho : o.contains 'r' = false)
    (ho' : o.contains 'w' = true) (hopen : uOpen u (some o) w = (.ok hd, w1)) (hl : l.map hd.encode = bs.map Except.ok) :
    ∃ w2 q t, l.forM hd.write w1 = (.ok (), w2) ∧ Goes (view w2 r) maxDepth [] (init ++ [n]) (.found q) ∧
      Becomes w w2 r ((view w r).set q (.file bs.flatten 0 t)) ∧ hd.size w2 = (.ok bs.flatten.length, w2) := by
  rw [uOpen_w hu hs ho ho'] at hopen
  obtain ⟨q, f, h1, h2, -, h4⟩ := openWrite_inv h.inv hu hs hopen
  obtain ⟨w2, f', a1, a2, a3, a4, -, -, a7⟩ := writes_at h2.becomes.inv (h2.becomes.serves hu) (f := f) hl h2.node
    (by rw [h2.pos, h2.data]; rfl) h2.phys
  rw [h2.data, List.nil_append] at a3 a7
  have hm : f.mode = 0 := by
    have := view_of_phys h2.phys
    rw [h2.becomes.view, NS.set_get, h2.node] at this
    simp only [objOf, Option.some.injEq, Obj.file.injEq] at this
    exact this.2.1.symm
  have hk : (view w1 r).SameKinds (view w2 r) := by
    rw [a7.view]
    exact NS.set_sameKinds (o := .file [] 0 f.mtime) (by rw [h2.becomes.view, NS.set_get]) rfl
  refine ⟨w2, q, f'.mtime, a1, h4.sameKinds hk, ?_, ?_⟩
  · have := h2.becomes.trans a7
    rw [h2.becomes.view, NS.set_set, hm] at this
    exact this
  · rw [size_eq a2, a3]

/-- reading a whole file through any path that leads to it -/
theorem readback {w : World} (hw : Mem.Inv w) {v : Uri} {r : Nat} {ts q : List Str} {o : Str} {data : Bytes} {m t : Int}
    (hv : Serves w v r) (hs : stepsOf v = some ts) (ho : o.contains 'r' = true)
    (hg : Goes (view w r) maxDepth [] ts (.found q)) (hf : view w r q = some (.file data m t)) :
    ∃ hd w1, uOpen v (some o) w = (.ok hd, w1) ∧ Becomes w w1 r (view w r) ∧
      (hd.read (-1) w1).1 = (⟨hd.id, true, o.contains 'b'⟩ : Handle).decode data ∧ hd.binary = o.contains 'b' ∧
      Becomes w1 (hd.read (-1) w1).2 r (view w r) := by
  obtain ⟨i, f, hi, hif⟩ := isFile_view ⟨_, _, _, hf⟩
  have e := (openRead_found hw hv.isRoot (b := o.contains 'b') hs hg hi hif).1
  have hd : f.data = data ∧ f.mode = m ∧ f.mtime = t := by
    have := view_of_phys hi
    rw [hif, hf] at this
    simp only [objOf, Option.some.injEq, Obj.file.injEq] at this
    exact ⟨this.1.symm, this.2.1.symm, this.2.2.symm⟩
  refine ⟨_, _, by rw [uOpen_r hv hs ho, e], ?_, ?_, rfl, ?_⟩
  · have := becomes_put hw hv.isRoot (k := w.tick) (f' := { f with pos := 0 }) hi hif
    refine this.congr ?_
    simp only [hd.1, hd.2.1, hd.2.2]
    exact NS.set_same hf
  · rw [read_eq rfl (setNode_node _ _ _)]
    simp only [BytesIO.read_all, hd.1, List.drop_zero]
  · rw [read_eq rfl (setNode_node _ _ _)]
    have b1 := becomes_put hw hv.isRoot (k := w.tick) (f' := { f with pos := 0 }) hi hif
    have hv1 : view (w.put i { f with pos := 0 } w.tick) r = view w r := by
      rw [b1.view]; simp only [hd.1, hd.2.1, hd.2.2]; exact NS.set_same hf
    have hp : phys (w.put i { f with pos := 0 } w.tick) r q = some i := by rw [phys_put hif]; exact hi
    have b2 := becomes_put b1.inv (b1.serves hv).isRoot (k := w.tick)
      (f' := { f with pos := (BytesIO.read f.data 0 (-1)).2 }) hp (put_node _ _ _ _)
    refine b2.congr ?_
    rw [hv1]
    simp only [hd.1, hd.2.1, hd.2.2]
    exact NS.set_same hf

/-- Bytes: a file opened 'wb' (or with any other binary write mode) and written in any number of chunks reads
    back as their concatenation through every path leading to it; nothing but that file has changed. -/
theorem C26_bytes {w w1 : World} (h : Reachable w) {u : Uri} {r : Nat} {init : List Str} {n o : Str} {hd : Handle}
    (chunks : List Bytes)
    (hu : Serves w u r) (hs : stepsOf u = some (init ++ [n])) (ho : o.contains 'r' = false)
    (ho' : o.contains 'w' = true) (hopen : uOpen u (some o) w = (.ok hd, w1)) :
    ∃ w2 q t, (chunks.map PyData.bytes).forM hd.write w1 = (.ok (), w2) ∧
      Goes (view w2 r) maxDepth [] (init ++ [n]) (.found q) ∧
      Becomes w w2 r ((view w r).set q (.file chunks.flatten 0 t)) ∧
      hd.size w2 = (.ok chunks.flatten.length, w2) ∧
      ∀ v ts, Serves w v r → stepsOf v = some ts → Goes (view w2 r) maxDepth [] ts (.found q) →
        ∃ h' w3, uOpen v (some cl!"rb") w2 = (.ok h', w3) ∧ (h'.read (-1) w3).1 = .ok (.bytes chunks.flatten) := by
  obtain ⟨w2, q, t, h1, h2, h3, h4⟩ := written h (l := chunks.map PyData.bytes) (bs := chunks) hu hs ho ho' hopen
    (by simp [Handle.encode])
  refine ⟨w2, q, t, h1, h2, h3, h4, ?_⟩
  intro v ts hv hvs hg
  obtain ⟨h', w3, a1, -, a3, -, -⟩ := readback h3.inv (h3.serves hv) hvs (o := cl!"rb") (by decide) hg
    (by rw [h3.view, NS.set_get])
  refine ⟨h', w3, a1, ?_⟩
  rw [a3]
  rfl

/-- in particular through the path it was written to -/
theorem C26_same_path {w w1 w2 : World} (h : Reachable w) {u : Uri} {r : Nat} {init : List Str} {n : Str} {hd : Handle}
    (chunks : List Bytes) (hu : Serves w u r) (hs : stepsOf u = some (init ++ [n]))
    (hopen : uOpen u (some cl!"wb") w = (.ok hd, w1)) (hw : (chunks.map PyData.bytes).forM hd.write w1 = (.ok (), w2)) :
    ∃ h' w3, uOpen u (some cl!"rb") w2 = (.ok h', w3) ∧ (h'.read (-1) w3).1 = .ok (.bytes chunks.flatten) := by
  obtain ⟨w2', q, t, h1, h2, -, -, h5⟩ := C26_bytes h chunks hu hs (by decide) (by decide) hopen
  rw [hw] at h1
  obtain rfl := (Prod.mk.inj h1).2
  exact h5 u _ hu hs h2

/-- Text: written in mode 'w', read in mode 'r'; read in mode 'rb' it is the UTF-8 encoding. -/
theorem C27_text {w w1 : World} (h : Reachable w) {u : Uri} {r : Nat} {init : List Str} {n : Str} {hd : Handle}
    (chunks : List Str) (hu : Serves w u r) (hs : stepsOf u = some (init ++ [n]))
    (hopen : uOpen u (some cl!"w") w = (.ok hd, w1)) :
    ∃ w2 q t, (chunks.map PyData.str).forM hd.write w1 = (.ok (), w2) ∧
      Goes (view w2 r) maxDepth [] (init ++ [n]) (.found q) ∧
      Becomes w w2 r ((view w r).set q (.file (utf8Encode chunks.flatten) 0 t)) ∧
      ∀ v ts, Serves w v r → stepsOf v = some ts → Goes (view w2 r) maxDepth [] ts (.found q) →
        (∃ h' w3, uOpen v (some cl!"r") w2 = (.ok h', w3) ∧ (h'.read (-1) w3).1 = .ok (.str chunks.flatten)) ∧
        ∃ h' w3, uOpen v (some cl!"rb") w2 = (.ok h', w3) ∧
          (h'.read (-1) w3).1 = .ok (.bytes (utf8Encode chunks.flatten)) := by
  have hb : hd.binary = false := by
    have hopen' := hopen
    rw [uOpen_w hu hs (by decide) (by decide)] at hopen'
    obtain ⟨q, f, h1, -⟩ := openWrite_inv h.inv hu hs hopen'
    rw [h1]; rfl
  obtain ⟨w2, q, t, h1, h2, h3, h4⟩ := written h (l := chunks.map PyData.str) (bs := chunks.map utf8Encode) hu hs
    (by decide) (by decide) hopen (by simp [Handle.encode, hb])
  have hfl : (chunks.map utf8Encode).flatten = utf8Encode chunks.flatten := by
    clear h1 h3 h4
    induction chunks with
    | nil => rfl
    | cons c cs ih => simp [utf8Encode_append, ih]
  rw [hfl] at h3
  refine ⟨w2, q, t, h1, h2, h3, ?_⟩
  intro v ts hv hvs hg
  constructor
  · obtain ⟨h', w3, a1, -, a3, -, -⟩ := readback h3.inv (h3.serves hv) hvs (o := cl!"r") (by decide) hg
      (by rw [h3.view, NS.set_get])
    refine ⟨h', w3, a1, ?_⟩
    rw [a3]
    have : (List.contains cl!"r" 'b') = false := by decide
    simp only [Handle.decode, this, Bool.false_eq_true, if_false, utf8Decode_encode]
  · obtain ⟨h', w3, a1, -, a3, -, -⟩ := readback h3.inv (h3.serves hv) hvs (o := cl!"rb") (by decide) hg
      (by rw [h3.view, NS.set_get])
    exact ⟨h', w3, a1, by rw [a3]; rfl⟩

/-- text written to a binary handle is refused -/
theorem C27_binary_refuses {h : Handle} (hb : h.binary = true) (s : Str) (w : World) :
    h.write (.str s) w = (.error .typeError, w) := write_bad (by simp [Handle.encode, hb])

/-- reading bytes that are no UTF-8 as text raises -/
theorem C27_bad_utf8 {w : World} {h : Handle} {f : FileObj} (hb : h.binary = false) (hr : h.readable = true)
    (hf : w.node h.id = .file f) (hd : ∀ s, f.data.drop f.pos ≠ utf8Encode s) :
    (h.read (-1) w).1 = .error .unicodeDecode := by
  have hd := utf8Decode_none.2 hd
  rw [read_eq hr hf]
  simp [BytesIO.read_all, Handle.decode, hb, hd]

example : (uOpen (mu cl!"/l/new") (some cl!"wb") sample).1 = .ok ⟨8, false, true⟩ ∧
    (uOpen (mu cl!"/m") (some cl!"w") sample).1 = .ok ⟨3, false, false⟩ := by decide +kernel
/-- written through the link /m, read through /l/f -/
example : ((do
      let h ← uOpen (mu cl!"/m") (some cl!"wb")
      [PyData.bytes [1, 2], .bytes [], .bytes [255]].forM h.write
      let g ← uOpen (mu cl!"/l/f") (some cl!"rb")
      g.read : M PyData) sample).1 = .ok (.bytes [1, 2, 255]) := by decide +kernel
example : ((do
      let h ← uOpen (mu cl!"/m") (some cl!"w")
      [PyData.str cl!"äx", .str cl!"€"].forM h.write
      let g ← uOpen (mu cl!"/a/f") (some cl!"r")
      g.read : M PyData) sample).1 = .ok (.str cl!"äx€") := by decide +kernel

/-! ## C29 Appending -/

/-- The full statement "`open(p,'a')` then `write(d)` makes the content old+d" holds for files that are not empty
    (missing: empty files, see `C29_empty_refuted`). -/
theorem C29_append_partial {w : World} (h : Reachable w) {u : Uri} {r : Nat} {ts q : List Str} {o : Str} {old : Bytes}
    {m t : Int} (chunks : List Bytes) (hu : Serves w u r) (hs : stepsOf u = some ts)
    (ho : o.contains 'r' = false) (ho1 : o.contains 'w' = false) (ho2 : o.contains 'a' = true)
    (hg : Goes (view w r) maxDepth [] ts (.found q)) (hf : view w r q = some (.file old m t)) (hne : old ≠ []) :
    ∃ hd w1 w2 t', uOpen u (some o) w = (.ok hd, w1) ∧ (chunks.map PyData.bytes).forM hd.write w1 = (.ok (), w2) ∧
      Becomes w w2 r ((view w r).set q (.file (old ++ chunks.flatten) m t')) := by
  obtain ⟨i, f, hi, hif⟩ := isFile_view ⟨_, _, _, hf⟩
  have e := (openRead_found h.inv hu.isRoot (b := o.contains 'b') hs hg hi hif).2
  have hd : f.data = old ∧ f.mode = m ∧ f.mtime = t := by
    have := view_of_phys hi
    rw [hif, hf] at this
    simp only [objOf, Option.some.injEq, Obj.file.injEq] at this
    exact ⟨this.1.symm, this.2.1.symm, this.2.2.symm⟩
  have hlen : f.len = f.data.length := by
    unfold FileObj.len
    have : 0 < f.data.length := List.length_pos_of_ne_nil (by rw [hd.1]; exact hne)
    omega
  have b1 := becomes_put h.inv hu.isRoot (k := w.tick) (f' := { f with pos := f.len }) hi hif
  obtain ⟨w2, f', a1, -, -, -, -, -, a7⟩ := writes_at (h := ⟨i, false, o.contains 'b'⟩) (l := chunks.map PyData.bytes) (bs := chunks)
    b1.inv (b1.serves hu) (by simp [Handle.encode]) (put_node _ _ _ _) hlen (by rw [phys_put hif]; exact hi)
  refine ⟨_, _, w2, f'.mtime, by rw [uOpen_a hu hs ho ho1 ho2, e]; rfl, a1, ?_⟩
  have := b1.trans a7
  rw [b1.view, NS.set_set, hd.1, hd.2.1] at this
  exact this

/-- what really happens with an empty file: `len` counts it as one byte long (memory.py:47-52), so that the first
    write leaves a zero byte in front -/
theorem C29_empty {w : World} (h : Reachable w) {u : Uri} {r : Nat} {ts q : List Str} {o : Str}
    {m t : Int} {d : Bytes} (hu : Serves w u r) (hs : stepsOf u = some ts)
    (ho : o.contains 'r' = false) (ho1 : o.contains 'w' = false) (ho2 : o.contains 'a' = true)
    (hg : Goes (view w r) maxDepth [] ts (.found q)) (hf : view w r q = some (.file [] m t)) (hd : d ≠ []) :
    ∃ hd w1 w2 t', uOpen u (some o) w = (.ok hd, w1) ∧ hd.write (.bytes d) w1 = (.ok (), w2) ∧
      Becomes w w2 r ((view w r).set q (.file (0 :: d) m t')) := by
  obtain ⟨i, f, hi, hif⟩ := isFile_view ⟨_, _, _, hf⟩
  have e := (openRead_found h.inv hu.isRoot (b := o.contains 'b') hs hg hi hif).2
  have hdd : f.data = [] ∧ f.mode = m ∧ f.mtime = t := by
    have := view_of_phys hi
    rw [hif, hf] at this
    simp only [objOf, Option.some.injEq, Obj.file.injEq] at this
    exact ⟨this.1.symm, this.2.1.symm, this.2.2.symm⟩
  have hlen : f.len = 1 := by simp [FileObj.len, hdd.1]
  have b1 := becomes_put h.inv hu.isRoot (k := w.tick) (f' := { f with pos := f.len }) hi hif
  have hn : (w.put i { f with pos := f.len } w.tick).node (⟨i, false, o.contains 'b'⟩ : Handle).id = .file { f with pos := f.len } :=
    put_node _ _ _ _
  have a1 := write_eq (h := ⟨i, false, o.contains 'b'⟩) (d := .bytes d) (b := d) rfl hn
  have b2 := becomes_put b1.inv (b1.serves hu).isRoot (k := w.tick + 1)
    (f' := { f with data := 0 :: d, pos := 1 + d.length, mtime := w.clock w.tick }) (q := q)
    (by rw [phys_put hif]; exact hi) hn
  refine ⟨_, _, _, w.clock w.tick, by rw [uOpen_a hu hs ho ho1 ho2, e]; rfl, a1, ?_⟩
  have := b1.trans b2
  rw [b1.view, NS.set_set] at this
  have hw : BytesIO.write f.data f.len d = (0 :: d, 1 + d.length) := by
    simp [BytesIO.write, hd, hdd.1, hlen]
  simp only [hw]
  rw [← hdd.2.1]
  exact this

/-- The property fails for the empty file: the content is not old+d. -/
theorem C29_empty_refuted : ∃ w u, Reachable w ∧ view w 0 [cl!"e"] = some (.file [] 0 1) ∧
    stepsOf u = some [cl!"e"] ∧
    ((do let h ← uOpen u (some cl!"a"); h.write (.bytes [120]); let g ← uOpen u (some cl!"rb"); g.read : M PyData) w).1
      = .ok (.bytes [0, 120]) :=
  ⟨runAll [.open_ (mu cl!"/e") (some cl!"w")] (World.init fun n => n), mu cl!"/e", ⟨_, _, rfl⟩,
    by decide +kernel, by decide +kernel, by decide +kernel⟩

/-- a missing file is not created by 'a' -/
theorem C29_missing {w : World} (h : Reachable w) {u : Uri} {r : Nat} {ts : List Str} {o : Str}
    (hu : Serves w u r) (hs : stepsOf u = some ts)
    (ho : o.contains 'r' = false) (ho1 : o.contains 'w' = false) (ho2 : o.contains 'a' = true)
    (hg : Goes (view w r) maxDepth [] ts .missing) : uOpen u (some o) w = (.error (.os .ENOENT), w) := by
  rw [uOpen_a hu hs ho ho1 ho2]
  exact (openRead_fail h.inv hu.isRoot hs hg (by simp)).2

example : ((do
      let h ← uOpen (mu cl!"/m") (some cl!"ab")
      h.write (.bytes [33])
      let g ← uOpen (mu cl!"/a/f") (some cl!"r")
      g.read : M PyData) sample).1 = .ok (.str cl!"hi!") := by decide +kernel

/-! ## C38 Handles of removed files -/

/-- a change of one file object, if any -/
def TouchesOnly (i : Nat) (w w' : World) : Prop := w' = w ∨ ∃ f f' k, w.node i = .file f ∧ w' = w.put i f' k

/-- the operations of one handle -/
inductive OfHandle (h : Handle) : Op → Prop
  | write d : OfHandle h (.write h d)
  | read n : OfHandle h (.read h n)
  | seek t wh : OfHandle h (.seek h t wh)
  | tell : OfHandle h (.tell h)
  | size : OfHandle h (.size h)
  | truncate n : OfHandle h (.truncate h n)
  | close : OfHandle h (.close h)
  | readline : OfHandle h (.readline h)
  | next : OfHandle h (.next h)

theorem touches_withFile {α : Type} {i : Nat} {g : FileObj → M α} {w : World}
    (hg : ∀ f, w.node i = .file f → TouchesOnly i w (g f w).2) : TouchesOnly i w (withFile i g w).2 := by
  unfold withFile
  split
  · rename_i f hf; exact hg f hf
  · exact .inl rfl

theorem touches_op {h : Handle} {o : Op} (ho : OfHandle h o) (w : World) : TouchesOnly h.id w (o.run w) := by
  have put : ∀ f f' : FileObj, w.node h.id = .file f → TouchesOnly h.id w (w.setNode h.id (.file f')) :=
    fun f f' hf => .inr ⟨f, f', w.tick, hf, rfl⟩
  cases ho with
  | write d =>
    show TouchesOnly h.id w (h.write d w).2
    cases he : h.encode d with
    | error e => rw [write_bad he]; exact .inl rfl
    | ok b =>
      unfold Handle.write
      rw [bind_lift he]
      exact touches_withFile fun f hf => .inr ⟨f, _, w.tick + 1, hf, rfl⟩
  | read n =>
    show TouchesOnly h.id w (h.read n w).2
    cases hr : h.readable with
    | false => rw [read_unreadable hr]; exact .inl rfl
    | true =>
      unfold Handle.read
      rw [if_pos hr, bind_apply]
      have := touches_withFile (i := h.id) (w := w) (g := fun f => do
        let r := BytesIO.read f.data f.pos n
        setNode h.id (.file { f with pos := r.2 })
        pure r.1) (fun f hf => put f _ hf)
      revert this
      cases withFile h.id _ w with
      | mk x w' => cases x <;> exact id
  | seek t wh =>
    refine touches_withFile fun f hf => ?_
    rw [bind_apply, lift_apply]
    cases BytesIO.seek f.data f.pos t wh with
    | error e => exact .inl rfl
    | ok p => exact put f _ hf
  | tell => exact touches_withFile fun f hf => .inl rfl
  | size => exact touches_withFile fun f hf => .inl rfl
  | truncate n =>
    refine touches_withFile fun f hf => ?_
    rw [bind_apply, lift_apply]
    cases BytesIO.truncate f.data f.pos n with
    | error e => exact .inl rfl
    | ok p => exact put f _ hf
  | close => exact touches_withFile fun f hf => put f _ hf
  | readline =>
    show TouchesOnly h.id w (h.readline w).2
    unfold Handle.readline
    rw [bind_apply]
    have := touches_withFile (i := h.id) (w := w) (g := fun f => do
      let r := BytesIO.readline f.data f.pos
      setNode h.id (.file { f with pos := r.2 })
      pure r.1) (fun f hf => put f _ hf)
    revert this
    cases withFile h.id _ w with
    | mk x w' => cases x <;> exact id
  | next =>
    show TouchesOnly h.id w (h.next w).2
    unfold Handle.next
    rw [bind_apply]
    have := touches_withFile (i := h.id) (w := w) (g := fun f => do
      let r := BytesIO.readline f.data f.pos
      setNode h.id (.file { f with pos := r.2 })
      pure r.1) (fun f hf => put f _ hf)
    revert this
    cases withFile h.id _ w with
    | mk x w' =>
      cases x with
      | error e => exact id
      | ok b =>
        intro h1
        simp only
        split
        · exact h1
        · rw [bind_apply, lift_apply]
          cases h.decode b <;> exact h1

/-- Whatever is done through a handle whose file is at no location of any file system, no file system changes. -/
theorem C38_unreachable {h : Handle} {ops : List Op} (ho : ∀ o ∈ ops, OfHandle h o) {w : World}
    (hl : ∀ r, IsRoot w r → ∀ q, phys w r q ≠ some h.id) :
    ∀ r, IsRoot w r → view (runAll ops w) r = view w r := by
  induction ops generalizing w with
  | nil => intro r _; rfl
  | cons o ops ih =>
    intro r hr
    have h1 := touches_op (ho o (by simp)) w
    show view (runAll ops (o.run w)) r = view w r
    rcases h1 with h1 | ⟨f, f', k, h2, h3⟩
    · rw [h1]; exact ih (fun o ho' => ho o (by simp [ho'])) hl r hr
    · have hl' : ∀ r, IsRoot (o.run w) r → ∀ q, phys (o.run w) r q ≠ some h.id := by
        intro r hr q
        rw [h3, phys_put h2]
        exact hl r (by rw [h3] at hr; exact hr) q
      rw [ih (fun o ho' => ho o (by simp [ho'])) hl' r (by rw [h3]; exact hr), h3]
      exact view_put_lost h2 (hl r hr)

/-- After `remove` of a file its handle is of that kind: nothing done through it changes any file system, and
    the content can still be read through it. -/
theorem C38_removed {w : World} (h : Reachable w) {u : Uri} {r : Nat} {init q : List Str} {n : Str} {b : Bytes} {m t : Int}
    {hd : Handle} (depth : Nat) (rec : Bool) (hu : Serves w u r)
    (hs : stepsOf u = some (init ++ [n])) (hne : [] ∉ init ++ [n]) (hl : u.last = n)
    (hg : Goes (view w r) maxDepth [] init (.found q)) (hn : n ∉ init ∨ Plain (view w r) (init ++ [n]))
    (ho : view w r (q ++ [n]) = some (.file b m t)) (hh : phys w r (q ++ [n]) = some hd.id) :
    ∃ w', Gen.uRemove depth u rec w = (.ok (), w') ∧ view w' r (q ++ [n]) = none ∧
      (∀ ops, (∀ o ∈ ops, OfHandle hd o) → ∀ r', IsRoot w r' → view (runAll ops w') r' = view w' r') ∧
      (hd.readable = true → ∀ f, w.node hd.id = .file f → f.pos = 0 → (hd.read (-1) w').1 = hd.decode b) := by
  obtain ⟨i, d, c, h1, h2, h3, h4⟩ := uRemove_leaf' h.inv hu depth rec hs hne hl hg hn ho rfl
  refine ⟨_, h4, ?_, ?_, ?_⟩
  · rw [(becomes_delEntry h.inv hu.isRoot h1 h2).view]; simp [NS.del]
  · intro ops hops r' hr'
    refine C38_unreachable hops ?_ r' hr'
    intro r'' hr'' p hp
    rw [phys_delEntry h.inv hu.isRoot h1 h2 r'' hr''] at hp
    split at hp
    · simp at hp
    · rename_i hne'
      obtain ⟨rfl, rfl⟩ := phys_inj h.inv hr'' hu.isRoot hp hh
      simp at hne'
  · intro hr f hf hpos
    have hni : hd.id ≠ i := by intro e; rw [e, h2] at hf; simp at hf
    have hf' : (w.delEntry i d n).node hd.id = .file f := by simp [World.delEntry, World.setNode, hni, hf]
    rw [read_eq hr hf']
    have : f.data = b := by
      have := view_of_phys hh
      rw [hf, ho] at this
      simp only [objOf, Option.some.injEq, Obj.file.injEq] at this
      exact this.1.symm
    simp [BytesIO.read_all, hpos, this]

/-- Once the file is at no location it will never be at one again, whatever calls are made (including the creation
    of a file of the same name, and `move`). -/
theorem C38_never_again {w : World} (h : Reachable w) {i : Nat} (hi : i < w.next)
    (hl : ∀ r, IsRoot w r → ∀ q, phys w r q ≠ some i) (ops : List Op) :
    ∀ r, IsRoot (runAll ops w) r → ∀ q, phys (runAll ops w) r q ≠ some i := by
  intro r ⟨k, hr⟩ q hp
  have hst := stays_runAll h.inv ops
  rcases hst.roots k r hr with h1 | h1
  · exact hl r ⟨k, h1⟩ q (hst.phys h.inv hp hi)
  · have := phys_ge (inv_runAll h.inv ops) hp
    omega

/-- So, after whatever calls, an operation on the handle of a file that was removed changes no file system. -/
theorem C38_history {w : World} (h : Reachable w) {hd : Handle} (hi : hd.id < w.next)
    (hl : ∀ r, IsRoot w r → ∀ q, phys w r q ≠ some hd.id) (ops : List Op) {o : Op} (ho : OfHandle hd o) :
    ∀ r, IsRoot (runAll ops w) r → view (o.run (runAll ops w)) r = view (runAll ops w) r :=
  C38_unreachable (ops := [o]) (by simpa using ho) (C38_never_again h hi hl ops)

/-- The handle of a file remains the handle of a file for ever. -/
theorem C38_still_file {w : World} (h : Reachable w) {i : Nat} (hi : i < w.next) {f : FileObj} (hf : w.node i = .file f)
    (ops : List Op) : ∃ f', (runAll ops w).node i = .file f' := by
  have := (stays_runAll h.inv ops).type i hi
  rw [hf] at this
  cases hn : (runAll ops w).node i with
  | file f' => exact ⟨f', rfl⟩
  | dir d => rw [hn] at this; exact this.elim
  | link l => rw [hn] at this; exact this.elim

example : ((do
      let h ← uOpen (mu cl!"/a/f") (some cl!"r")
      Gen.uRemove 9 (mu cl!"/a/f") false
      h.write (.bytes [63])
      let e ← uExists (mu cl!"/a/f")
      h.seek 0
      let d ← h.read
      pure (e, d) : M (Bool × PyData)) sample).1 = .ok (false, .str cl!"?i") := by decide +kernel

/-! ## C39 Byte buffer semantics of handles -/

/-- `write` overwrites from the position on, extends the file if need be and fills a gap with zeros -/
theorem C39_write {w : World} {h : Handle} {f : FileObj} {d : Bytes} (hf : w.node h.id = .file f) (hd : d ≠ []) :
    ∃ f', h.write (.bytes d) w = (.ok (), w.put h.id f' (w.tick + 1)) ∧ f'.pos = f.pos + d.length ∧
      f'.data.length = max f.data.length (f.pos + d.length) ∧ f'.mode = f.mode ∧
      ∀ k, f'.data[k]? =
        if k < f.pos then (if k < f.data.length then f.data[k]? else some 0)
        else if k < f.pos + d.length then d[k - f.pos]? else f.data[k]? := by
  refine ⟨_, write_eq (b := d) rfl hf, ?_, ?_, rfl, ?_⟩
  · simp [BytesIO.write, hd]
  · exact BytesIO.write_length _ _ _ hd
  · exact BytesIO.write_get _ _ _ hd

/-- writing nothing changes nothing but the modification time -/
theorem C39_write_nothing {w : World} {h : Handle} {f : FileObj} (hf : w.node h.id = .file f) :
    h.write (.bytes []) w = (.ok (), w.put h.id { f with mtime := w.clock w.tick } (w.tick + 1)) :=
  write_eq (b := []) rfl hf

/-- `read(n)`: the next n bytes, or what is left; the position advances by as many -/
theorem C39_read {w : World} {h : Handle} {f : FileObj} (n : Nat) (hf : w.node h.id = .file f) (hr : h.readable = true)
    (hb : h.binary = true) :
    h.read n w = (.ok (.bytes ((f.data.drop f.pos).take n)),
      w.put h.id { f with pos := f.pos + min n (f.data.length - f.pos) } w.tick) := by
  rw [read_eq hr hf, BytesIO.read_some]; simp [Handle.decode, hb]

/-- `read()`: everything from the position on -/
theorem C39_read_all {w : World} {h : Handle} {f : FileObj} (hf : w.node h.id = .file f) (hr : h.readable = true)
    (hb : h.binary = true) {n : Int} (hn : n < 0) :
    h.read n w = (.ok (.bytes (f.data.drop f.pos)), w.put h.id { f with pos := f.pos + (f.data.length - f.pos) } w.tick) := by
  rw [read_eq hr hf]; simp [BytesIO.read, hn, Handle.decode, hb]

/-- in text mode the next n *bytes* are read and decoded; if they end within a character, UnicodeDecodeError is raised,
    the position having advanced all the same -/
theorem C39_read_text {w : World} {h : Handle} {f : FileObj} (n : Nat) (hf : w.node h.id = .file f) (hr : h.readable = true)
    (hb : h.binary = false) :
    h.read n w = (match utf8Decode ((f.data.drop f.pos).take n) with
        | some s => .ok (.str s)
        | none => .error .unicodeDecode,
      w.put h.id { f with pos := f.pos + min n (f.data.length - f.pos) } w.tick) := by
  rw [read_eq hr hf, BytesIO.read_some]; simp only [Handle.decode, hb]; rfl

/-- so it returns a text if the bytes encode it, and raises if they encode none -/
theorem C39_read_text_iff {w : World} {h : Handle} {f : FileObj} (n : Nat) (hf : w.node h.id = .file f)
    (hr : h.readable = true) (hb : h.binary = false) :
    (∀ s, (h.read n w).1 = .ok (.str s) ↔ (f.data.drop f.pos).take n = utf8Encode s) ∧
    ((h.read n w).1 = .error .unicodeDecode ↔ ∀ s, (f.data.drop f.pos).take n ≠ utf8Encode s) := by
  rw [C39_read_text n hf hr hb]
  cases hd : utf8Decode ((f.data.drop f.pos).take n) with
  | none => simpa using utf8Decode_none.1 hd
  | some s =>
    have e := utf8Decode_inv hd
    refine ⟨fun t => ⟨?_, ?_⟩, ?_⟩
    · intro h; cases h; exact e
    · intro h; rw [h, utf8Decode_encode] at hd; rw [Option.some.inj hd]
    · simpa using ⟨s, e⟩

/-- so `read(n)` need not return n characters, nor return at all -/
theorem C39_read_text_refuted : ∃ (w : World) (h : Handle) (s : Str), h.readable = true ∧ h.binary = false ∧
    (∃ f, w.node h.id = .file f ∧ f.data = utf8Encode s ∧ f.pos = 0) ∧
    (h.read 2 w).1 = .ok (.str (s.take 1)) ∧ s.length = 3 ∧ (h.read 1 w).1 = .error .unicodeDecode := by
  refine ⟨{ sample with node := fun _ => .file ⟨utf8Encode cl!"äbc", 0, 0, 0, 0, [], (0, [])⟩ }, ⟨0, true, false⟩, cl!"äbc", rfl, rfl,
    ⟨_, rfl, rfl, rfl⟩, ?_, rfl, ?_⟩ <;> decide +kernel

/-- a handle opened for writing or appending cannot be read -/
theorem C39_read_refused {w : World} {h : Handle} (hr : h.readable = false) (n : Int) :
    h.read n w = (.error (.os .EBADF), w) := read_unreadable hr

/-- `seek` then `tell` -/
theorem C39_seek_tell {w : World} {h : Handle} {f : FileObj} (hf : w.node h.id = .file f) (t : Int) :
    (0 ≤ t → ∃ w', h.seek t 0 w = (.ok (), w') ∧ h.tell w' = (.ok t.toNat, w')) ∧
    (t < 0 → h.seek t 0 w = (.error .valueError, w)) ∧
    (∃ w', h.seek t 1 w = (.ok (), w') ∧ h.tell w' = (.ok (f.pos + t).toNat, w')) ∧
    (∃ w', h.seek t 2 w = (.ok (), w') ∧ h.tell w' = (.ok (f.data.length + t).toNat, w')) ∧
    (∀ k : Int, k ≠ 0 → k ≠ 1 → k ≠ 2 → h.seek t k w = (.error .valueError, w)) := by
  refine ⟨?_, ?_, ?_, ?_, ?_⟩
  · intro ht
    have : ¬ t < 0 := by omega
    refine ⟨_, by rw [seek_eq hf]; simp only [BytesIO.seek, if_true, if_neg this]; rfl, ?_⟩
    rw [tell_eq (put_node _ _ _ _)]
  · intro ht
    rw [seek_eq hf]; simp [BytesIO.seek, ht]
  · refine ⟨_, by rw [seek_eq hf]; simp only [BytesIO.seek, show ¬ (1 : Int) = 0 by omega, if_false, if_true]; rfl, ?_⟩
    rw [tell_eq (put_node _ _ _ _)]
  · refine ⟨_, by rw [seek_eq hf]; simp only [BytesIO.seek, show ¬ (2 : Int) = 0 by omega, show ¬ (2 : Int) = 1 by omega, if_false, if_true]; rfl, ?_⟩
    rw [tell_eq (put_node _ _ _ _)]
  · intro k h0 h1 h2
    rw [seek_eq hf]; simp [BytesIO.seek, h0, h1, h2]

/-- `truncate(n)` keeps the first n bytes and the position; it never extends -/
theorem C39_truncate {w : World} {h : Handle} {f : FileObj} (hf : w.node h.id = .file f) (n : Nat) :
    h.truncate (some n) w = (.ok n, w.put h.id { f with data := f.data.take n } w.tick) ∧
    h.truncate none w = (.ok f.pos, w.put h.id { f with data := f.data.take f.pos } w.tick) ∧
    h.truncate (some (-(n : Int) - 1)) w = (.error .valueError, w) := by
  have h1 : ¬ ((n : Int) < 0) := by omega
  have h2 : ¬ ((f.pos : Int) < 0) := by omega
  have h3 : (-(n : Int) - 1) < 0 := by omega
  refine ⟨?_, ?_, ?_⟩ <;> rw [truncate_eq hf] <;> simp [BytesIO.truncate, h1, h2, h3]

/-- one step of iteration over a binary handle -/
theorem next_binary {w : World} {h : Handle} {f : FileObj} (hf : w.node h.id = .file f) (hb : h.binary = true) :
    h.next w = (if f.data.drop f.pos = [] then .ok none else .ok (some (.bytes (BytesIO.firstLine (f.data.drop f.pos)))),
      w.put h.id { f with pos := f.pos + (BytesIO.firstLine (f.data.drop f.pos)).length } w.tick) := by
  rw [next_eq hf]
  have : BytesIO.firstLine (f.data.drop f.pos) = [] ↔ f.data.drop f.pos = [] := by
    constructor
    · intro h'; by_contra hc; exact BytesIO.firstLine_ne_nil hc h'
    · intro h'; rw [h']; rfl
  simp only [BytesIO.readline, this, Handle.decode, hb, if_true]
  rfl

/-- Iterating over the lines: the pieces concatenate to the rest of the content; every piece is non-empty, has no
    newline but at its end, and ends in a newline unless it is the last. -/
theorem C39_lines {h : Handle} (hb : h.binary = true) (n : Nat) : ∀ {w : World} {f : FileObj},
    w.node h.id = .file f → f.data.length - f.pos < n →
    ∃ ls : List Bytes, (h.lines n w).1 = .ok (ls.map PyData.bytes) ∧ ls.flatten = f.data.drop f.pos ∧
      (∀ l ∈ ls, l ≠ [] ∧ ∀ a b, l = a ++ 10 :: b → b = []) ∧ ∀ l ∈ ls.dropLast, l.getLast? = some 10 := by
  induction n with
  | zero => intro w f _ hn; omega
  | succ n ih =>
    intro w f hf hn
    have e := next_binary hf hb
    by_cases hd : f.data.drop f.pos = []
    · rw [if_pos hd] at e
      refine ⟨[], ?_, by simp [hd], by simp, by simp⟩
      unfold Handle.lines
      rw [bind_ok e]
      rfl
    · rw [if_neg hd] at e
      obtain ⟨rest, hr⟩ := BytesIO.firstLine_append (f.data.drop f.pos)
      have hne := BytesIO.firstLine_ne_nil hd
      have hrest : f.data.drop (f.pos + (BytesIO.firstLine (f.data.drop f.pos)).length) = rest := by
        rw [← List.drop_drop]
        conv_lhs => rw [hr]
        have : BytesIO.firstLine (BytesIO.firstLine (f.data.drop f.pos) ++ rest) = BytesIO.firstLine (f.data.drop f.pos) := by rw [← hr]
        rw [this]
        simp
      have hlen : 0 < (BytesIO.firstLine (f.data.drop f.pos)).length := List.length_pos_of_ne_nil hne
      have hpos : f.pos < f.data.length := by
        by_contra hc
        exact hd (List.drop_eq_nil_of_le (by omega))
      obtain ⟨ls, h1, h2, h3, h4⟩ := ih
        (w := w.put h.id { f with pos := f.pos + (BytesIO.firstLine (f.data.drop f.pos)).length } w.tick)
        (f := { f with pos := f.pos + (BytesIO.firstLine (f.data.drop f.pos)).length }) (put_node _ _ _ _)
        (by simp only; omega)
      refine ⟨BytesIO.firstLine (f.data.drop f.pos) :: ls, ?_, ?_, ?_, ?_⟩
      · unfold Handle.lines
        rw [bind_ok e]
        simp only
        rw [bind_apply]
        revert h1
        cases h.lines n _ with
        | mk x w' => intro h1; simp only at h1; subst h1; rfl
      · simp only [List.flatten_cons, h2]
        simp only [hrest]
        exact hr.symm
      · intro l hl
        rcases List.mem_cons.1 hl with rfl | hl
        · exact ⟨hne, BytesIO.firstLine_newline⟩
        · exact h3 l hl
      · intro l hl
        cases ls with
        | nil => simp at hl
        | cons l' ls =>
          simp only [List.dropLast_cons_cons, List.mem_cons] at hl
          rcases hl with rfl | hl
          · by_contra hc
            have := BytesIO.firstLine_eq hc
            rw [this] at hr
            have hrn : rest = [] := by
              have := congrArg List.length hr
              simp only [List.length_append] at this
              exact List.eq_nil_of_length_eq_zero (by omega)
            rw [← hrest] at hrn
            simp only at h2
            rw [hrn] at h2
            have := (h3 l' (by simp)).1
            simp at h2
            exact this h2.1
          · exact h4 l hl

/-- All handles of one file share its position: reading through one moves the other. -/
theorem C39_shared_position : ((do
      let h ← uOpen (mu cl!"/a/f") (some cl!"r")
      let g ← uOpen (mu cl!"/m") (some cl!"r")
      let a ← h.read 1
      let b ← g.read
      pure (a, b) : M (PyData × PyData)) sample).1 = .ok (.str cl!"h", .str cl!"i") := by decide +kernel

example : ∃ f, sample.node 3 = .file f ∧ f.data = [104, 105] ∧ f.pos = 2 := ⟨_, rfl, by decide +kernel, by decide +kernel⟩
example : ((do
      let h ← uOpen (mu cl!"/a/f") (some cl!"w")
      h.seek 3
      h.write (.bytes [10, 97])
      let g ← uOpen (mu cl!"/a/f") (some cl!"rb")
      g.lines 9 : M (List PyData)) sample).1 = .ok [.bytes [0, 0, 0, 10], .bytes [97]] := by decide +kernel

/-! ## C40 md5 -/

theorem md5Loop_eq {h : Handle} (hb : h.binary = true) (hr : h.readable = true) (n : Nat) : ∀ {w : World} {f : FileObj},
    w.node h.id = .file f → f.data.length - f.pos < n →
    ∃ (ls : List Bytes) (p : Nat), Gen.md5Loop h n w = (.ok ls, w.put h.id { f with pos := p } w.tick) ∧
      ls.flatten = f.data.drop f.pos ∧
      (∀ l ∈ ls, l ≠ [] ∧ l.length ≤ 4096) ∧ ∀ l ∈ ls.dropLast, l.length = 4096 := by
  induction n with
  | zero => intro w f _ hn; omega
  | succ n ih =>
    intro w f hf hn
    have e := C39_read 4096 hf hr hb
    by_cases hd : f.data.drop f.pos = []
    · refine ⟨[], f.pos + min 4096 (f.data.length - f.pos), ?_, by simp [hd], by simp, by simp⟩
      unfold Gen.md5Loop
      show (h.read ((4096 : Nat) : Int) >>= _) w = _
      rw [bind_ok e]
      simp only [hd, List.take_nil, if_true]
      rfl
    · have hpos : f.pos < f.data.length := by
        by_contra hc
        exact hd (List.drop_eq_nil_of_le (by omega))
      have hne : (f.data.drop f.pos).take 4096 ≠ [] := by
        intro h'
        have := congrArg List.length h'
        rw [List.length_take, List.length_drop, List.length_nil] at this
        omega
      obtain ⟨ls, p, h1, h2, h3, h4⟩ := ih
        (w := w.put h.id { f with pos := f.pos + min 4096 (f.data.length - f.pos) } w.tick)
        (f := { f with pos := f.pos + min 4096 (f.data.length - f.pos) }) (put_node _ _ _ _)
        (by simp only; omega)
      have hrest : (f.data.drop f.pos).drop 4096 = f.data.drop (f.pos + min 4096 (f.data.length - f.pos)) := by
        rw [List.drop_drop]
        by_cases hc : 4096 ≤ f.data.length - f.pos
        · rw [Nat.min_eq_left hc]
        · rw [Nat.min_eq_right (by omega), List.drop_eq_nil_of_le (by omega), List.drop_eq_nil_of_le (by omega)]
      refine ⟨(f.data.drop f.pos).take 4096 :: ls, p, ?_, ?_, ?_, ?_⟩
      · unfold Gen.md5Loop
        show (h.read ((4096 : Nat) : Int) >>= _) w = _
        rw [bind_ok e]
        simp only [hne, if_false]
        rw [bind_ok h1, put_put]
        rfl
      · rw [List.flatten_cons, h2]
        simp only [← hrest]
        exact List.take_append_drop _ _
      · intro l hl
        rcases List.mem_cons.1 hl with rfl | hl
        · exact ⟨hne, by rw [List.length_take]; omega⟩
        · exact h3 l hl
      · intro l hl
        cases ls with
        | nil => simp at hl
        | cons l' ls =>
          simp only [List.dropLast_cons_cons, List.mem_cons] at hl
          rcases hl with rfl | hl
          · by_contra hc
            have h5 := (h3 l' (by simp)).1
            rw [List.flatten_cons] at h2
            simp only at h2
            have : f.data.drop (f.pos + min 4096 (f.data.length - f.pos)) = [] := by
              rw [← hrest]
              apply List.drop_eq_nil_of_le
              rw [List.length_take] at hc
              omega
            rw [this] at h2
            simp at h2
            exact h5 h2.1
          · exact h4 l hl

/-- `md5()` updates the hash with the blocks of the content in order; no file system changes. -/
theorem C40_md5 {w : World} (h : Reachable w) {u : Uri} {r : Nat} {ts q : List Str} {data : Bytes} {m t : Int}
    (hu : Serves w u r) (hs : stepsOf u = some ts) (hg : Goes (view w r) maxDepth [] ts (.found q))
    (hf : view w r q = some (.file data m t)) :
    ∃ blocks w', Gen.uMd5 u w = (.ok blocks, w') ∧ blocks.flatten = data ∧
      (∀ b ∈ blocks, b ≠ [] ∧ b.length ≤ 4096) ∧ (∀ b ∈ blocks.dropLast, b.length = 4096) ∧
      Becomes w w' r (view w r) := by
  obtain ⟨i, f, hi, hif⟩ := isFile_view ⟨_, _, _, hf⟩
  have e := (openRead_found h.inv hu.isRoot (b := true) hs hg hi hif).1
  have hd : f.data = data ∧ f.mode = m ∧ f.mtime = t := by
    have := view_of_phys hi
    rw [hif, hf] at this
    simp only [objOf, Option.some.injEq, Obj.file.injEq] at this
    exact ⟨this.1.symm, this.2.1.symm, this.2.2.symm⟩
  have hn : (w.put i { f with pos := 0 } w.tick).node (⟨i, true, true⟩ : Handle).id = .file { f with pos := 0 } :=
    put_node _ _ _ _
  have es := size_eq hn
  obtain ⟨ls, p, h1, h2, h3, h4⟩ := md5Loop_eq (h := ⟨i, true, true⟩) rfl rfl (f.data.length + 1) hn (by simp)
  rw [put_put] at h1
  refine ⟨ls, w.put i { f with pos := p } w.tick, ?_, by simpa [hd.1] using h2, h3, h4, ?_⟩
  · unfold Gen.uMd5
    rw [withConn_serves hu hs]
    have e' : uOpen u (some cl!"rb") w = (.ok ⟨i, true, true⟩, w.put i { f with pos := 0 } w.tick) := by
      rw [uOpen_r hu hs (by decide)]; exact e
    rw [bind_ok e', bind_ok es]
    exact h1
  · have b1 := becomes_put h.inv hu.isRoot (k := w.tick) (f' := { f with pos := p }) hi hif
    refine b1.congr ?_
    simp only [hd.1, hd.2.1, hd.2.2]
    exact NS.set_same hf

example : (Gen.uMd5 (mu cl!"/m") sample).1 = .ok [[104, 105]] := by decide +kernel

/-! ## C41 Injected faults -/

theorem manipulate_callback {w : World} {r : Nat} {u : Uri} {p : Str} {cb : Option Callback} (hp : stripPath u = .ok p) :
    manipulate r u { callback := some cb } w =
      (.ok (), { w with hooks := fun j => if j = r then setHook (w.hooks r) p cb else w.hooks j }) := by
  exact bind_lift hp

/-- Installing a callback succeeds and changes no file system. -/
theorem C41_install {w : World} {u : Uri} {r : Nat} {ts : List Str} (cb : Callback)
    (hu : Serves w u r) (hs : stepsOf u = some ts) :
    ∃ w', uManipulate u { callback := some (some cb) } w = (.ok (), w') ∧ (∀ r', view w' r' = view w r') ∧
      w'.conns = w.conns ∧ ∃ p, stripPath u = .ok p ∧ (w'.hooks r).lookup p = some (some cb) ∧
      ∀ p', p' ≠ p → (w'.hooks r).lookup p' = (w.hooks r).lookup p' := by
  obtain ⟨p, hp, -⟩ := stepsOf_strip hs
  refine ⟨{ w with hooks := fun j => if j = r then setHook (w.hooks r) p (some cb) else w.hooks j }, ?_, ?_, rfl, p, hp, ?_, ?_⟩
  · unfold uManipulate
    rw [withConn_serves hu hs]
    exact manipulate_callback hp
  · intro r'; exact view_congr (w := w) (w' := { w with hooks := fun j => if j = r then setHook (w.hooks r) p (some cb) else w.hooks j }) rfl r'
  · simp [setHook]
  · intro p' hne
    have hb : (p' == p) = false := by simpa using hne
    simp only [if_true, setHook, List.lookup_cons, hb]
    induction w.hooks r with
    | nil => rfl
    | cons x l ih =>
      obtain ⟨k, v⟩ := x
      by_cases hk : k = p
      · subst hk
        rw [List.filter_cons]
        simp only [ne_eq, decide_not, decide_true, Bool.not_true, Bool.false_eq_true, if_false, List.lookup_cons, hb]
        simpa using ih
      · rw [List.filter_cons]
        simp only [ne_eq, decide_not, hk, decide_false, Bool.not_false, if_true, List.lookup_cons]
        cases p' == k with
        | true => rfl
        | false => simpa using ih

/-- With a callback that raises `e` for method `m`, every call of `m` on the path raises `e` before anything else
    happens: whatever the method's body is, the state stays the same. -/
theorem C41_fires {α : Type} {w : World} {u : Uri} {r : Nat} {p : Str} {m : Meth} {e : PyErr} {cb : Callback}
    (body : Nat → M α) (h1 : u.scheme = some cl!"memory")
    (h2 : u.allExtras.any (fun kv => kv.1 ∈ reservedNames) = false) (h3 : w.connOf (connKey u) = some r)
    (hp : stripPath u = .ok p) (hh : (w.hooks r).lookup p = some (some cb)) (hc : cb m = some e) :
    withConn u m body w = (.error e, w) := by
  unfold withConn
  have hg : getConnection u w = (.ok r, w) := by
    unfold getConnection
    rw [h2, h3, if_pos h1]
    simp
  rw [bind_ok hg, bind_error]
  unfold preCallHook
  rw [bind_lift hp]
  simp only [M.query, hh, hc]

/-- hence for all the methods -/
theorem C41_methods {w : World} {u : Uri} {r : Nat} {p : Str} {e : PyErr} {cb : Callback}
    (h1 : u.scheme = some cl!"memory")
    (h2 : u.allExtras.any (fun kv => kv.1 ∈ reservedNames) = false) (h3 : w.connOf (connKey u) = some r)
    (hp : stripPath u = .ok p) (hh : (w.hooks r).lookup p = some (some cb)) (hc : ∀ m, cb m = some e)
    (v : Uri) (o : Option Str) (n : Nat) (b b' : Bool) (s : SetInfo) (ig : List Str) (mt : Str → Bool) (k : Int) (a : Manip) :
    uExists u w = (.error e, w) ∧ uIsfile u w = (.error e, w) ∧ uIsdir u w = (.error e, w) ∧
    uIslink u w = (.error e, w) ∧ uReadlink u w = (.error e, w) ∧ uListdir u w = (.error e, w) ∧
    uInfo u b w = (.error e, w) ∧ uSetInfo u s b w = (.error e, w) ∧ uMtime u w = (.error e, w) ∧
    uIsexec u k w = (.error e, w) ∧ uSetExec u k w = (.error e, w) ∧ uSymlink u v w = (.error e, w) ∧
    uCopystat u v w = (.error e, w) ∧ uOpen u o w = (.error e, w) ∧ uMkdir u w = (.error e, w) ∧
    uManipulate u a w = (.error e, w) ∧ Gen.uMakedirs n u w = (.error e, w) ∧ Gen.uWalk n u b b' w = (.error e, w) ∧
    Gen.uGlob u mt w = (.error e, w) ∧ Gen.uRemove n u b w = (.error e, w) ∧ Gen.uCopy n u v b ig b' w = (.error e, w) ∧
    Gen.uMove n u v w = (.error e, w) ∧ Gen.uMd5 u w = (.error e, w) ∧ Gen.uLockEnter u b b' w = (.error e, w) := by
  have key : ∀ {α : Type} (m : Meth) (body : Nat → M α), withConn u m body w = (.error e, w) :=
    fun m body => C41_fires body h1 h2 h3 hp hh (hc m)
  exact ⟨key _ _, key _ _, key _ _, key _ _, key _ _, key _ _, key _ _, key _ _, key _ _, key _ _, key _ _, key _ _,
    key _ _, key _ _, key _ _, key _ _, key _ _, key _ _, key _ _, key _ _, key _ _, key _ _, key _ _, key _ _⟩

/-- other paths are served as before -/
theorem C41_others {w w' : World} {u v : Uri} {r r' : Nat} {ts : List Str} {cb : Callback}
    (hu : Serves w u r) (hs : stepsOf u = some ts) (hm : uManipulate u { callback := some (some cb) } w = (.ok (), w'))
    (hv : Serves w v r') (hne : stripPath v ≠ stripPath u) : Serves w' v r' := by
  obtain ⟨w'', h1, -, h3, p, h4, h5, h6⟩ := C41_install cb hu hs
  rw [hm] at h1
  obtain rfl := (Prod.mk.inj h1).2
  refine ⟨hv.scheme, hv.extras, ?_, ?_⟩
  · have := hv.conn; unfold World.connOf at this ⊢; rw [h3]; exact this
  · intro p' cb' m hp' hl
    have hpp : p' ≠ p := by rintro rfl; exact hne (hp'.trans h4.symm)
    by_cases hr : r' = r
    · subst hr
      rw [h6 p' hpp] at hl
      exact hv.hook p' cb' m hp' hl
    · have : w'.hooks r' = w.hooks r' := by
        unfold uManipulate at hm
        rw [withConn_serves hu hs] at hm
        rw [manipulate_callback h4] at hm
        obtain rfl := (Prod.mk.inj hm).2
        simp [hr]
      rw [this] at hl
      exact hv.hook p' cb' m hp' hl

/-- Removing an injected fault by `_manipulate(next_op_callback=None)` is itself subject to the fault. -/
theorem C41_removal_blocked : ((do
      uManipulate (mu cl!"/a/f") { callback := some (some fun _ => some .valueError) }
      uManipulate (mu cl!"/a/f") { callback := some none } : M Unit) sample).1 = .error .valueError := by decide +kernel

example : ((do
      uManipulate (mu cl!"/a/f") { callback := some (some fun m => if m = .open_ then some .valueError else none) }
      let e ← uExists (mu cl!"/a/f")
      let o ← fun w => (.ok (uOpen (mu cl!"/a/f") none w).1, w)
      let o' ← fun w => (.ok (uOpen (mu cl!"/m") none w).1, w)
      pure (e, o, o') : M _) sample).1 = .ok (true, .error .valueError, .ok ⟨3, true, false⟩) := by decide +kernel

end Verif.Props
