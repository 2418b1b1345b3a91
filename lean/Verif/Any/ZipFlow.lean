import Verif.Any.ZysLemmas
import Verif.Props.Zip
/-!
# Reading trees out of archives

What an archive has is given by the names of its entries; a connection that was used shows it as a tree.
-/
namespace Verif.Any
open Verif.Spec Verif.Gen

/-! ## The tree of an archive -/

/-- something lies below the path -/
def Below (es : List Zip.Entry) (p : List Str) : Prop := ∃ e ∈ es, ∃ rest, e.name = slash p ++ '/' :: rest

instance (es : List Zip.Entry) (p : List Str) : Decidable (Below es p) :=
  decidable_of_iff (∃ e ∈ es, slash p ++ ['/'] <+: e.name) <| by
    unfold Below
    constructor
    · rintro ⟨e, he, t, ht⟩; exact ⟨e, he, t, by rw [← ht]; simp⟩
    · rintro ⟨e, he, t, ht⟩; exact ⟨e, he, t, by rw [ht]; simp⟩

/-- What an archive has at a path: the data of the last entry of that name; or a directory, if some entry lies below it. -/
def zipTree (es : List Zip.Entry) (p : List Str) : Option Ent :=
  if p = [] then some .dir
  else if Nm p then
    match es.reverse.find? fun e => e.name = slash p with
    | some e => some (.file e.data)
    | none => if Below es p then some .dir else none
  else none

/-- The entries below `src` have proper names, with or without '/' at the end, and none of them is both a file and a directory.
    Of the root, all names begin with '/'. -/
structure Tidy (es : List Zip.Entry) (src : List Str) : Prop where
  names : ∀ e ∈ es, ∀ rest, e.name = slash src ++ '/' :: rest →
    ∃ cs, Nm (src ++ cs) ∧ (cs ≠ [] ∧ e.name = slash (src ++ cs) ∨ e.name = slash (src ++ cs) ++ cl!"/")
  single : ∀ cs, cs ≠ [] → Nm (src ++ cs) → (∃ e ∈ es, e.name = slash (src ++ cs)) → ¬ Below es (src ++ cs)
  root : src = [] → ∀ e ∈ es, ∃ r, e.name = '/' :: r

theorem head_or {t : Str} {c : Str} (h : '/' ∉ c) (ht : t = [] ∨ ∃ r, t = '/' :: r) : (c ++ t).takeWhile (fun x => x ≠ '/') = c := by
  refine takeWhile_stop (fun x hx => by simpa using fun e : x = '/' => h (e ▸ hx)) ?_
  rcases ht with rfl | ⟨r, rfl⟩ <;> simp

/-- whole components -/
theorem slash_le : ∀ {l m : List Str} {t u : Str}, (∀ c ∈ l, c ≠ [] ∧ '/' ∉ c) → (∀ c ∈ m, '/' ∉ c) → (t = [] ∨ ∃ r, t = '/' :: r) →
    (u = [] ∨ u = cl!"/") → slash l ++ t = slash m ++ u → l <+: m
  | [], _, _, _, _, _, _, _, _ => List.nil_prefix
  | c :: l, [], t, u, hl, _, _, hu, h => by
    have := (hl c (by simp)).1
    rcases hu with rfl | rfl
    · simp [slash] at h
    · rw [slash_cons] at h
      simp [slash] at h
      exact absurd h.1 this
  | c :: l, c' :: m, t, u, hl, hm, ht, hu, h => by
    rw [slash_cons, slash_cons] at h
    simp only [List.cons_append, List.cons.injEq, true_and, List.append_assoc] at h
    have e1 : c = c' := by
      have a := head_or (t := slash l ++ t) (hl c (by simp)).2 (by
        cases l with
        | nil => simpa [slash] using ht
        | cons x l => exact .inr ⟨_, by rw [slash_cons]; rfl⟩)
      have b := head_or (t := slash m ++ u) (hm c' (by simp)) (by
        cases m with
        | nil => rcases hu with rfl | rfl <;> simp [slash]
        | cons x m => exact .inr ⟨_, by rw [slash_cons]; rfl⟩)
      rw [← a, h, b]
    subst e1
    rw [List.cons_prefix_cons]
    exact ⟨rfl, slash_le (fun x hx => hl x (by simp [hx])) (fun x hx => hm x (by simp [hx])) ht hu (List.append_cancel_left h)⟩

theorem Nm.noSlash {cs : List Str} (h : Nm cs) : ∀ c ∈ cs, c ≠ [] ∧ '/' ∉ c :=
  fun c hc => ⟨(h.ok.clean c hc).ne, (h.ok.clean c hc).chars.not_mem (by simp)⟩

theorem Nm.pathOf_ne_root {cs : List Str} (h : Nm cs) (hn : cs ≠ []) : pathOf cs ≠ ['/'] := by
  rw [pathOf_ne hn]
  cases cs with
  | nil => exact absurd rfl hn
  | cons c cs =>
    have := (h.noSlash c (by simp)).1
    rw [slash_cons]
    simp only [ne_eq, List.cons.injEq, true_and, List.append_eq_nil_iff, not_and]
    exact fun e => absurd e this

section
variable {es : List Zip.Entry} {src : List Str}

theorem zipTree_nil : zipTree es [] = some .dir := by simp [zipTree]

theorem zipTree_nm {p : List Str} (h : zipTree es p ≠ none) : Nm p := by
  unfold zipTree at h
  split at h
  · rename_i hp; subst hp; exact .nil
  · split at h
    · assumption
    · exact absurd rfl h

theorem zipTree_file {p : List Str} {d : Bytes} (h : zipTree es p = some (.file d)) :
    p ≠ [] ∧ Nm p ∧ ∃ e, Zip.getinfo es (slash p) = some e ∧ e.data = d := by
  have hn : Nm p := zipTree_nm (by rw [h]; simp)
  unfold zipTree at h
  split at h
  · simp at h
  · rename_i hp
    split at h
    · rename_i e he
      refine ⟨hp, hn, e, he, ?_⟩
      simpa using h
    · split at h <;> simp at h

theorem zipTree_dir {p : List Str} (hp : p ≠ []) (h : zipTree es p = some .dir) :
    Nm p ∧ Below es p ∧ ¬ ∃ e ∈ es, e.name = slash p := by
  have hn : Nm p := zipTree_nm (by rw [h]; simp)
  unfold zipTree at h
  rw [if_neg hp, if_pos hn] at h
  split at h
  · simp at h
  · rename_i hv
    split at h
    · rename_i hb
      refine ⟨hn, hb, ?_⟩
      rintro ⟨e, he, hc⟩
      rw [List.find?_eq_none] at hv
      exact hv e (by simpa using he) (by simpa using hc)
    · simp at h

theorem zipTree_link {p : List Str} {t : Str} : zipTree es p ≠ some (.link t) := by
  unfold zipTree
  split
  · simp
  · split
    · split
      · simp
      · split <;> simp
    · simp

theorem getinfo_mem {n : Str} {e : Zip.Entry} (h : Zip.getinfo es n = some e) : e ∈ es ∧ e.name = n := by
  unfold Zip.getinfo at h
  exact ⟨by simpa using List.mem_of_find?_eq_some h, by simpa using List.find?_some h⟩

/-- what is there, is there because of an entry -/
theorem zipTree_entry {p : List Str} (hp : p ≠ []) (h : zipTree es p ≠ none) :
    ∃ e ∈ es, ∃ t, e.name = slash p ++ t ∧ (t = [] ∨ ∃ r, t = '/' :: r) := by
  obtain ⟨o, ho⟩ := Option.ne_none_iff_exists'.1 h
  cases o with
  | dir =>
    obtain ⟨-, ⟨e, he, r, hr⟩, -⟩ := zipTree_dir hp ho
    exact ⟨e, he, _, hr, .inr ⟨r, rfl⟩⟩
  | file d =>
    obtain ⟨-, -, e, he, -⟩ := zipTree_file ho
    exact ⟨e, (getinfo_mem he).1, [], by simp [(getinfo_mem he).2], .inl rfl⟩
  | link t => exact absurd ho zipTree_link

theorem zipTree_of_entry {p : List Str} (hn : Nm p) {e : Zip.Entry} (he : e ∈ es) {t : Str} (hv : e.name = slash p ++ t)
    (ht : t = [] ∨ ∃ r, t = '/' :: r) : zipTree es p ≠ none := by
  unfold zipTree
  split
  · simp
  · split
    · simp
    · rename_i hf
      rcases ht with rfl | ⟨r, rfl⟩
      · rw [List.find?_eq_none] at hf
        exact absurd (by simpa using hv) (hf e (by simpa using he))
      · rw [if_pos ⟨e, he, r, hv⟩]; simp

theorem zipTree_below (ht : Tidy es src) {x : List Str} (hx : x ≠ []) (hn : Nm (src ++ x)) (hb : Below es (src ++ x)) :
    zipTree es (src ++ x) = some .dir := by
  unfold zipTree
  rw [if_neg (by simp [hx]), if_pos hn]
  split
  · rename_i e he
    exact absurd hb (ht.single x hx hn ⟨e, getinfo_mem he⟩)
  · rw [if_pos hb]

/-- the names in a directory of an archive -/
def zipNames (es : List Zip.Entry) (p : List Str) : List Str :=
  sortStr ((es.map fun e => Zip.contentItem (pathOf p) e.name).filter fun c => c ≠ []).dedup

theorem mem_zipNames (ht : Tidy es src) {x : List Str} (hn : Nm (src ++ x)) {n : Str} :
    n ∈ zipNames es (src ++ x) ↔ zipTree es (src ++ (x ++ [n])) ≠ none := by
  have hroot : pathOf (src ++ x) = ['/'] → ∀ e ∈ es, ∃ r, e.name = '/' :: r := by
    intro hp
    have : src ++ x = [] := by
      by_contra hc
      exact hn.pathOf_ne_root hc hp
    exact ht.root (List.append_eq_nil_iff.1 this).1
  have hbase : (if pathOf (src ++ x) = ['/'] then [] else pathOf (src ++ x)) = slash (src ++ x) := by
    by_cases hc : src ++ x = []
    · rw [hc]; rfl
    · rw [if_neg (hn.pathOf_ne_root hc), pathOf_ne hc]
  unfold zipNames
  rw [mem_sortStr, List.mem_dedup, List.mem_filter, List.mem_map]
  constructor
  · rintro ⟨⟨e, he, hc⟩, h6⟩
    have h6 : n ≠ [] := by simpa using h6
    obtain ⟨h7, t, h8, h9⟩ := (Zip.contentItem_iff h6 (fun h7 => hroot h7 e he)).mp hc
    rw [hbase] at h8
    have hs : e.name = slash (src ++ (x ++ [n])) ++ t := by
      rw [h8, ← List.append_assoc, slash_append (src ++ x)]; simp [slash]
    obtain ⟨cs, g1, g2⟩ := ht.names e he (slash x ++ '/' :: (n ++ t)|>.drop 1) (by
      rw [h8, slash_append]
      cases x with
      | nil => simp [slash]
      | cons c x => simp [slash_cons])
    have hle : src ++ (x ++ [n]) <+: src ++ cs := by
      refine slash_le (t := t) (u := if e.name = slash (src ++ cs) then [] else cl!"/") ?_ (fun c hc => (g1.noSlash c hc).2) h9 (by split <;> simp) ?_
      · intro c hc
        rw [← List.append_assoc] at hc
        rcases List.mem_append.1 hc with hc | hc
        · exact hn.noSlash c hc
        · rw [List.mem_singleton.1 hc]; exact ⟨h6, h7⟩
      · rw [← hs]
        rcases g2 with ⟨-, g2⟩ | g2
        · rw [if_pos g2, List.append_nil]; exact g2
        · rw [if_neg (by rw [g2]; simp)]; exact g2
    obtain ⟨ds, hds⟩ := hle
    have hnm : Nm (src ++ (x ++ [n])) := by rw [← hds] at g1; exact g1.of_prefix
    exact zipTree_of_entry hnm he hs h9
  · intro h
    obtain ⟨e, he, t, h1, h2⟩ := zipTree_entry (by simp) h
    have hnm := zipTree_nm h
    have h3 := hnm.noSlash n (by simp)
    refine ⟨⟨e, he, (Zip.contentItem_iff h3.1 (fun h9 => hroot h9 e he)).mpr ⟨h3.2, t, ?_, h2⟩⟩, by simpa using h3.1⟩
    rw [hbase, h1, ← List.append_assoc, slash_append (src ++ x)]; simp [slash]

theorem zipTree_parent (ht : Tidy es src) {x : List Str} {n : Str} (h : zipTree es (src ++ (x ++ [n])) ≠ none) (hx : x ≠ []) :
    zipTree es (src ++ x) = some .dir := by
  obtain ⟨e, he, t, h1, h2⟩ := zipTree_entry (by simp) h
  have hn := zipTree_nm h
  rw [← List.append_assoc] at hn h1
  exact zipTree_below ht hx hn.of_prefix ⟨e, he, n ++ t, by rw [h1, slash_append (src ++ x)]; simp [slash]⟩

end

/-! ## Connections that were used -/

/-- the archive has the entries `es`, and its connection has been used since it was made -/
def Opened (z : Zys) (X : Str) (es : List Zip.Entry) : Prop :=
  z.file X = .archive es ∧ ∃ h, z.handle (zkey X) = some h ∧ h.entries = es ∧ h.dirty = false

/-- in every state that calls of the connection lead to -/
theorem opened_of {z : Zys} {X : Str} {es : List Zip.Entry} (h : Zip.Reachable (z.st (zkey X))) (hh : z.handle (zkey X) ≠ none)
    (hf : z.file X = .archive es) : Opened z X es := by
  obtain ⟨g, hg⟩ := Option.ne_none_iff_exists'.1 hh
  refine ⟨hf, g, hg, ?_⟩
  rcases h.ok g hg with ⟨h1, h2⟩ | ⟨-, -, -, -, h2⟩
  · have h2 : z.file X = _ := h2
    rw [hf] at h2
    exact ⟨by simpa using h2.symm, h1⟩
  · have h2 : z.file X = _ := h2
    rw [hf] at h2
    simp at h2

section
variable {z : Zys} {X : Str} {es : List Zip.Entry}

theorem opened_ispart (ho : Opened z X es) {p : List Str} (hn : Nm p) (hp : p ≠ []) (ex : List Zip.Cmp) :
    onZip (zkey X) (Zip.ispart (zat X p).path ex) z = (.ok (es.any fun e => Zip.comparePathStrings (slash p) e.name ∈ ex), z) := by
  obtain ⟨-, h, h1, rfl, -⟩ := ho
  rw [zat_path hn]
  have := hn.pathOf_ne_root hp
  rw [pathOf_ne hp] at this ⊢
  exact onZip_ask (Zip.ispart_of_handle h1 this)

theorem opened_isdir (ho : Opened z X es) {p : List Str} (hn : Nm p) (hp : p ≠ []) :
    zysOps.isdir (.zip (zkey X)) (zat X p) z = (.ok (decide (Below es p)), z) := by
  refine (opened_ispart ho hn hp _).trans ?_
  congr 2
  rw [Bool.eq_iff_iff, decide_eq_true_eq]
  simp [Zip.comparePathStrings_isdir, Below]

theorem opened_exists (ho : Opened z X es) {p : List Str} (hn : Nm p) (hp : p ≠ [])
    (hv : (∃ e ∈ es, e.name = slash p) ∨ Below es p) : zysOps.exists_ (.zip (zkey X)) (zat X p) z = (.ok true, z) := by
  refine (opened_ispart ho hn hp _).trans ?_
  congr 2
  simp only [List.any_eq_true, List.mem_cons, List.not_mem_nil, or_false, decide_eq_true_eq, Zip.comparePathStrings_isfile,
    Zip.comparePathStrings_isdir]
  rcases hv with ⟨e, he, h⟩ | ⟨e, he, h⟩
  · exact ⟨e, he, .inr h⟩
  · exact ⟨e, he, .inl h⟩

theorem opened_isfile (ho : Opened z X es) {p : List Str} (hn : Nm p) (hp : p ≠ []) (hv : ∃ e ∈ es, e.name = slash p) :
    zysOps.isfile (.zip (zkey X)) (zat X p) z = (.ok true, z) := by
  refine (opened_ispart ho hn hp _).trans ?_
  congr 2
  obtain ⟨e, he, h⟩ := hv
  simp only [List.any_eq_true, List.mem_cons, List.not_mem_nil, or_false, decide_eq_true_eq, Zip.comparePathStrings_isfile]
  exact ⟨e, he, h⟩

theorem opened_listdir (ho : Opened z X es) {p : List Str} (hn : Nm p) (hd : p = [] ∨ Below es p) :
    zysOps.listdir (.zip (zkey X)) (zat X p) z = (.ok (zipNames es p), z) := by
  obtain ⟨h0, h, h1, rfl, -⟩ := ho
  have : Zip.listdir (pathOf p) (z.st (zkey X)) = (.ok (zipNames h.entries p), z.st (zkey X)) := by
    unfold Zip.listdir
    have hf : (z.st (zkey X)).file = .archive h.entries := h0
    rw [if_neg (by rw [hf]; simp)]
    have hh : (z.st (zkey X)).handle = some h := h1
    rw [hh]
    refine Zip.listdirOpen_of hh ?_
    rcases hd with rfl | hd
    · exact .inl rfl
    · by_cases hp : p = []
      · subst hp; exact .inl rfl
      · rw [pathOf_ne hp]; exact .inr hd
  show onZip _ (Zip.listdir (zat X p).path) z = _
  rw [zat_path hn]
  exact onZip_ask this

/-- opening a member for reading opens the archive again -/
theorem opened_openR (ho : Opened z X es) {p : List Str} (hn : Nm p) (hp : p ≠ []) {e : Zip.Entry} (he : Zip.getinfo es (slash p) = some e) :
    zysOps.openR (.zip (zkey X)) (zat X p) z =
      (.ok (.zipR (zkey X) e.data), { z with handle := fun k => if k = zkey X then some ⟨.r, es, false, false⟩ else z.handle k }) := by
  obtain ⟨h0, h, h1, rfl, h3⟩ := ho
  have hf : (z.st (zkey X)).file = .archive h.entries := h0
  have hh : (z.st (zkey X)).handle = some h := h1
  have hc : (Zip.closeZip (z.st (zkey X))).file = .archive h.entries := by
    unfold Zip.closeZip
    rw [hh]
    simp only
    split
    · exact hf
    · rw [h3]; exact hf
  have hr : (Option.all (fun o => o.contains 'r') (some cl!"rb")) = true := by decide +kernel
  have hr' : ((some cl!"rb").getD cl!"r").contains 'r' = true := by decide +kernel
  have h4 : Zip.open_ (slash p) (some cl!"rb") (z.st (zkey X)) = (.ok (.file e.data), ⟨.archive h.entries, some ⟨.r, h.entries, false, false⟩⟩) := by
    unfold Zip.open_ Zip.openZip
    simp only [hr, if_true, hc, hr', Zip.openForReading, he]
  have h5 : onZip (zkey X) (Zip.open_ (slash p) (some cl!"rb")) z = (.ok (.file e.data),
      { z with handle := fun k => if k = zkey X then some ⟨.r, h.entries, false, false⟩ else z.handle k }) := by
    unfold onZip
    rw [h4]
    congr 1
    unfold Zys.putSt
    congr 1
    funext c
    split
    · rename_i hc'; rw [hc']; exact h0.symm
    · rfl
  have h6 : (zat X p).path = slash p := by rw [zat_path hn, pathOf_ne hp]
  have : (onZip (zkey X) (Zip.open_ (zat X p).path (some cl!"rb")) >>= fun o => (match o with
      | .file d => pure (.zipR (zkey X) d)
      | .statement => pure (.zipW (zkey X) (zat X p).path) : OM Zys ZHd)) z =
      (.ok (.zipR (zkey X) e.data), { z with handle := fun k => if k = zkey X then some ⟨.r, h.entries, false, false⟩ else z.handle k }) := by
    rw [h6]
    exact bind_ok h5
  exact this

end

/-! ## Reading -/

section
variable {X : Str} {es : List Zip.Entry} {src : List Str} {fl : Bool}

/-- the tree at `src`, which is the place that is read -/
def zipPart (es : List Zip.Entry) (src x : List Str) : Option Ent := if x = [] then some .dir else zipTree es (src ++ x)

/-- an archive that was used can be read, `src` being a directory in it -/
def zipSource (fl : Bool) (hX : ConnOk X) (J : Zys → Prop) (hJ : ∀ {z}, J z → Opened z X es) (ht : Tidy es src) (hn : Nm src)
    (hroot : src = [] ∨ Below es src) : Source zysOps fl where
  c := .zip (zkey X)
  J := J
  T := zipPart es src
  src x := zat X (src ++ x)
  ld _ := false
  names x := if zipPart es src x = some .dir then zipNames es (src ++ x) else []
  parent {x n} h := by
    unfold zipPart at h ⊢
    rw [if_neg (by simp)] at h
    split
    · rfl
    · rename_i hx; exact zipTree_parent ht h hx
  sorted {x} := by
    split
    · exact pairwise_sortStr (List.nodup_dedup _)
    · exact .nil
  mem_names {x n} := by
    have e : zipPart es src (x ++ [n]) = zipTree es (src ++ (x ++ [n])) := if_neg (by simp)
    rw [e]
    split
    · rename_i hd
      refine mem_zipNames ht ?_
      unfold zipPart at hd
      split at hd
      · rename_i hx; rw [hx, List.append_nil]; exact hn
      · exact zipTree_nm (by rw [hd]; simp)
    · rename_i hd
      simp only [List.not_mem_nil, false_iff, not_not]
      by_contra hc
      refine hd ?_
      unfold zipPart
      split
      · rfl
      · rename_i hx; exact zipTree_parent ht hc hx
  listdir {z x} h hd := by
    refine ⟨_, opened_listdir (hJ h) (p := src ++ x) ?_ ?_, ?_⟩
    · unfold zipPart at hd
      split at hd
      · rename_i hx; rw [hx, List.append_nil]; exact hn
      · exact zipTree_nm (by rw [hd]; simp)
    · unfold zipPart at hd
      split at hd
      · rename_i hx; rw [hx, List.append_nil]; exact hroot
      · rename_i hx; exact .inr (zipTree_dir (by simp [hx]) hd).2.1
    · rw [if_pos hd]
      exact sortStr_of_pairwise (pairwise_sortStr (List.nodup_dedup _))
  div {x n} h := by
    have e : zipPart es src (x ++ [n]) = zipTree es (src ++ (x ++ [n])) := if_neg (by simp)
    rw [e] at h
    have hn' := zipTree_nm h
    rw [← List.append_assoc] at hn' ⊢
    exact zat_div hX hn'
  isdir {z x n o} h ho := by
    have e : zipPart es src (x ++ [n]) = zipTree es (src ++ (x ++ [n])) := if_neg (by simp)
    rw [e] at ho
    have hn' : Nm (src ++ (x ++ [n])) := zipTree_nm (by rw [ho]; simp)
    rw [opened_isdir (hJ h) hn' (by simp)]
    cases o with
    | dir => rw [decide_eq_true (zipTree_dir (by simp) ho).2.1]
    | file d =>
      obtain ⟨-, -, e, he, -⟩ := zipTree_file ho
      rw [decide_eq_false (ht.single (x ++ [n]) (by simp) hn' ⟨e, getinfo_mem he⟩)]
    | link t => exact absurd ho zipTree_link
  islink {z x n o} h ho := by
    have e : zipPart es src (x ++ [n]) = zipTree es (src ++ (x ++ [n])) := if_neg (by simp)
    rw [e] at ho
    refine ⟨false, (zys_withConn X _ _ _ z).trans rfl, ?_⟩
    cases o with
    | dir => rfl
    | file d => rfl
    | link t => exact absurd ho zipTree_link

end

/-! ## Copying out of an archive -/

section
variable {ι : Type} {E : ι → Dict} {r : ι → Nat}

/-- While something is written to the new name `e` at the place `k'`, out of the archive `X`: no archive changes, and only its
    own connection does something. -/
structure ZHeld (E : ι → Dict) (r : ι → Nat) (X : Str) (es : List Zip.Entry) (k' : Option ι) (e : List Str) (z0 z : Zys) : Prop where
  held : Held E r k' e z0.sys z.sys
  file : z.file = z0.file
  rest : ∀ k, k ≠ zkey X → z.handle k = z0.handle k
  opened : Opened z X es

/-- fs.py:945-950 where the contents of a directory of an archive go -/
theorem zip_dbase {X : Str} {q t d : List Str} {k' : Option ι} {z : Zys} (hn : Nm (q ++ t)) (hq : q ≠ []) (hd : Nm (d ++ t)) (ht : ∀ n ∈ t, Trimmed n) :
    (if stripW ((zat X (q ++ t)).path.drop ((zat X q).path.length + 1)) ≠ [] then
        OM.lift ((siteAt E k' d).div (stripW ((zat X (q ++ t)).path.drop ((zat X q).path.length + 1)))) else pure (siteAt E k' d) : OM Zys Uri) z
      = (.ok (siteAt E k' (d ++ t)), z) := by
  have e1 : pathOf (q ++ t) = slash q ++ slash t := by rw [pathOf_ne (by simp [hq]), slash_append]
  rw [zat_path hn, zat_path hn.of_prefix, e1, pathOf_ne hq]
  by_cases h : t = []
  · subst h
    have : stripW ((slash q ++ slash []).drop ((slash q).length + 1)) = [] := by
      rw [List.drop_eq_nil_of_le (by simp [slash])]; rfl
    rw [this]
    simp
  · obtain ⟨p, h1, h2, h3⟩ := slash_trimmed h (fun n hn' => ⟨(hn.ok.clean n (by simp [hn'])).ne, ht n hn'⟩)
    have : (slash q ++ slash t).drop ((slash q).length + 1) = p := by
      rw [h1, show slash q ++ '/' :: p = (slash q ++ ['/']) ++ p by simp, List.drop_left' (by simp)]
    rw [this, h3, if_pos h2, site_div hd h h1]
    rfl

theorem site_scheme {k : Option ι} {cs : List Str} : (siteAt E k cs).scheme ≠ some cl!"zip" := by
  cases k with
  | none => simp [siteAt]
  | some i => simp [siteAt, Gen.mem, Uri.scheme]

/-- the bytes of a member are copied; the file may have been there -/
theorem zip_content {X : Str} {es : List Zip.Entry} {z : Zys} (h : SysOk E r z.sys) (hr : Function.Injective r) (ho : Opened z X es) {k' : Option ι}
    {p a : List Str} {n : Str} {d : Bytes} (hv : zipTree es p = some (.file d)) (he : Nm (a ++ [n])) (hp : siteV r z.sys k' a = some .dir)
    (hfree : siteV r z.sys k' (a ++ [n]) = none ∨ isF (siteV r z.sys k' (a ++ [n])) = true) :
    ∃ s', copyContent zysOps (zat X p) (siteAt E k' (a ++ [n])) z =
        (.ok (), ⟨s', z.file, fun k => if k = zkey X then some ⟨.r, es, false, false⟩ else z.handle k⟩) ∧
      SysOk E r s' ∧ siteV r s' = upd (siteV r z.sys) k' (a ++ [n]) (some (.file d)) ∧ LinksStay z.sys s' := by
  obtain ⟨hp0, hn, e, he1, rfl⟩ := zipTree_file hv
  have c1 : uOpenR zysOps (zat X p) z = _ := (zys_withConn X _ _ _ z).trans (opened_openR ho hn hp0 he1)
  obtain ⟨s2, outf, e2, ok2, v2, wr2, -⟩ := site_openW (E := E) h hr he hp hfree
  have l2 : LinksStay z.sys s2 := by
    have := links_openW (siteC r k') (siteAt E k' (a ++ [n])) z.sys
    rwa [e2] at this
  let z1 : Zys := { z with handle := fun k => if k = zkey X then some ⟨.r, es, false, false⟩ else z.handle k }
  have c2 : uOpenW zysOps (siteAt E k' (a ++ [n])) z1 = (.ok (.sys outf), z1.withSys s2) :=
    (zsite_withConn (z := z1) h he _ _).trans (zsite_openW (z := z1) e2)
  obtain ⟨s3, e3, ok3, l3, v3⟩ := writeBlocks_eq hr (blocksOf 8192 e.data.length e.data) (z := z1.withSys s2) ok2 wr2
    (by show siteV r s2 k' _ = _; rw [v2, upd_same])
  refine ⟨s3, ?_, ok3, ?_, l2.trans l3⟩
  · unfold copyContent
    rw [bind_ok c1, bind_ok c2]
    exact e3
  · rw [v3]
    show upd (siteV r s2) k' _ _ = _
    rw [v2, upd_upd, List.nil_append, blocksOf_flatten (by decide) _ _ (Nat.le_refl _)]

variable {X : Str} {es : List Zip.Entry} {k' : Option ι} {e : List Str} {z0 : Zys}

/-- a tree of an archive can be written to a new name -/
def zipSink {src : List Str} {fl : Bool} (hX : ConnOk X) (ht : Tidy es src) (hn : Nm src) (hb : Below es src) (hsrc : src ≠ [])
    (htrim : ∀ {x n}, zipTree es (src ++ (x ++ [n])) = some .dir → Trimmed n) (hr : Function.Injective r) (he : Nm e) (he0 : e ≠ [])
    (hnew : ∀ x, siteV r z0.sys k' (e ++ x) = none) {depth : Nat} (hdep : 0 < depth) :
    Sink (zipSource fl hX (ZHeld E r X es k' e z0) (fun h => h.opened) ht hn (.inr hb)) depth where
  D z x := siteE r z.sys k' (e ++ x)
  dst x := siteAt E k' (e ++ x)
  div {x n} hx := by
    have hx' : zipTree es (src ++ (x ++ [n])) ≠ none := by
      have : zipPart es src (x ++ [n]) ≠ none := hx
      unfold zipPart at this
      rwa [if_neg (by simp)] at this
    have := site_div (E := E) (k := k') (cs := e ++ x) (ns := [n]) (p := n) (by
      rw [List.append_assoc]; exact he.append he0 (zipTree_nm hx')) (by simp) (by simp [slash])
    rw [List.append_assoc] at this
    exact this
  base {z x} hx := by
    have hx : zipPart es src x = some .dir := hx
    have hnm : Nm (src ++ x) := by
      unfold zipPart at hx
      split at hx
      · rename_i hx0; rw [hx0, List.append_nil]; exact hn
      · exact zipTree_nm (by rw [hx]; simp)
    have htr : ∀ n ∈ x, Trimmed n := by
      intro n hn'
      obtain ⟨a, b, rfl⟩ := List.append_of_mem hn'
      refine htrim (x := a) ?_
      by_contra hc
      let S := zipSource fl hX (ZHeld E r X es k' e z0) (fun h => h.opened) ht hn (.inr hb)
      have hc' : S.T (a ++ [n]) ≠ some .dir := by
        show zipPart es src _ ≠ _
        unfold zipPart; rw [if_neg (by simp)]; exact hc
      by_cases hb0 : b = []
      · subst hb0; exact hc' hx
      · have := S.below hc' hb0
        simp only [List.append_assoc, List.singleton_append] at this
        rw [show S.T (a ++ n :: b) = some .dir from hx] at this; simp at this
    have := zip_dbase (E := E) (X := X) (k' := k') (z := z) hnm hsrc (he.append he0 hnm) htr
    show (if stripW ((zat X (src ++ x)).path.drop ((zat X (src ++ [])).path.length + 1)) ≠ [] then
        OM.lift ((siteAt E k' (e ++ [])).div (stripW ((zat X (src ++ x)).path.drop ((zat X (src ++ [])).path.length + 1)))) else pure (siteAt E k' (e ++ [])) : OM Zys Uri) z
      = (.ok (siteAt E k' (e ++ x)), z)
    rw [List.append_nil, List.append_nil]
    exact this
  mkdir {z x n} h ht' hd hv := by
    have ht1 : zipTree es (src ++ (x ++ [n])) = some .dir := by
      have : zipPart es src (x ++ [n]) = some .dir := ht'
      unfold zipPart at this
      rwa [if_neg (by simp)] at this
    have hn' : Nm (e ++ x ++ [n]) := by
      rw [List.append_assoc]; exact he.append he0 (zipTree_nm (by rw [ht1]; simp))
    have hv' : siteV r z.sys k' (e ++ x ++ [n]) = none := by rw [List.append_assoc]; exact siteE_none.1 hv
    obtain ⟨z', h1, ⟨h2, h4⟩, h3⟩ := (zysLaws E r hr (fun f g => f = z.file ∧ g = z.handle)).uMakedirs1 (k := k') (s := z) hdep
      ⟨h.held.ok, rfl, rfl⟩ hn' (siteE_dir.1 hd) hv'
    have hl : LinksStay z.sys z'.sys := by
      have := KeepsL.uMakedirs depth (siteAt E k' (e ++ x ++ [n])) z
      rwa [show Any.uMakedirs zysOps depth (siteAt E k' (e ++ x ++ [n])) z = _ from h1] at this
    change siteV r z'.sys = upd (siteV r z.sys) k' (e ++ x ++ [n]) (some .dir) at h3
    rw [List.append_assoc] at h1 h3
    refine ⟨z', h1, ⟨h.held.step hnew h2 hl (by simp) h3, h4.1.trans h.file, fun k hk => by rw [h4.2]; exact h.rest k hk, ?_⟩, funext fun p => ?_⟩
    · unfold Opened; rw [h4.1, h4.2]; exact h.opened
    by_cases hp : p = x ++ [n]
    · subst hp; rw [put_same]; exact siteE_dir.2 (by rw [h3, upd_same])
    · rw [put_ne hp]; exact siteE_upd hl h3 _ (by simpa using hp)
  file {z x n d} h ht' hd hv := by
    have ht1 : zipTree es (src ++ (x ++ [n])) = some (.file d) := by
      have : zipPart es src (x ++ [n]) = some (.file d) := ht'
      unfold zipPart at this
      rwa [if_neg (by simp)] at this
    have hn' : Nm (e ++ x ++ [n]) := by
      rw [List.append_assoc]; exact he.append he0 (zipTree_nm (by rw [ht1]; simp))
    have hv' : siteV r z.sys k' (e ++ x ++ [n]) = none := by rw [List.append_assoc]; exact siteE_none.1 hv
    obtain ⟨s', h1, h2, h3, hl⟩ := zip_content h.held.ok hr h.opened ht1 hn' (siteE_dir.1 hd) (.inl hv')
    rw [List.append_assoc] at h1 h3
    refine ⟨⟨s', z.file, fun k => if k = zkey X then some ⟨.r, es, false, false⟩ else z.handle k⟩, ?_,
      ⟨h.held.step hnew h2 hl (x := x ++ [n]) (by simp) h3, h.file, fun k hk => ?_, ?_⟩, funext fun p => ?_⟩
    · refine (bind_ok h1).trans ?_
      rw [if_neg (fun hs => site_scheme (E := E) (k := k') (cs := e ++ (x ++ [n])) (by rw [← zat_scheme X (src ++ (x ++ [n]))]; exact hs.symm))]
      rfl
    · show (if k = zkey X then _ else z.handle k) = _
      rw [if_neg hk]; exact h.rest k hk
    · exact ⟨h.opened.1, _, if_pos rfl, rfl, rfl⟩
    by_cases hp : p = x ++ [n]
    · subst hp; rw [put_same]; exact siteE_file.2 (by rw [h3, upd_same])
    · rw [put_ne hp]; exact siteE_upd hl h3 _ (by simpa using hp)
  link {z x n t} h ht' hd hv := by
    have ht1 : zipTree es (src ++ (x ++ [n])) = some (.link t) := by
      have : zipPart es src (x ++ [n]) = some (.link t) := ht'
      unfold zipPart at this
      rwa [if_neg (by simp)] at this
    exact absurd ht1 zipTree_link


theorem opened_uIslink {X : Str} {p : List Str} {z : Zys} : uIslink zysOps (zat X p) z = (.ok false, z) :=
  (zys_withConn X _ _ _ z).trans rfl

/-- copying a tree out of an archive to a new name -/
theorem zip_copy {init : List Str} {n : Str} (fl : Bool) (hX : ConnOk X) (ho : Opened z0 X es) (ht : Tidy es (init ++ [n])) (hn : Nm (init ++ [n]))
    (hb : Below es (init ++ [n])) (htrim : ∀ {x m}, zipTree es (init ++ [n] ++ (x ++ [m])) = some .dir → Trimmed m)
    (h : SysOk E r z0.sys) (hr : Function.Injective r) {ds ig : List Str} {depth : Nat} (hds : Nm ds) (he : Nm e)
    (htg : Target (siteV r z0.sys k') ds n e) (hclear : ∀ p, p <+: e → siteV r z0.sys k' p = some .dir ∨ siteV r z0.sys k' p = none)
    (hnew : siteV r z0.sys k' e = none) (hl : e.length < depth) (hh : ∀ x, zipPart es (init ++ [n]) x = some .dir → x.length < depth) :
    ∃ z', uCopy zysOps depth (zat X (init ++ [n])) (siteAt E k' ds) true ig fl z0 = (.ok (), z') ∧ ZHeld E r X es k' e z0 z' ∧
      siteV r z'.sys k' e = some .dir ∧
      ∀ x, x ≠ [] → siteE r z'.sys k' (e ++ x) =
        (zipSource fl hX (ZHeld E r X es k' e z0) (fun h => h.opened) ht hn (.inr hb)).kept ig x := by
  let L := zysLaws E r hr (fun f g => f = z0.file ∧ g = z0.handle)
  have hI : SysOk E r z0.sys ∧ z0.file = z0.file ∧ z0.handle = z0.handle := ⟨h, rfl, rfl⟩
  have he0 : e ≠ [] := by rintro rfl; rw [site_root h] at hnew; simp at hnew
  have hnone : ∀ x, siteV r z0.sys k' (e ++ x) = none := fun x => L.none_below (k := k') (s := z0) hI hnew
  have hcds : Clear (siteV r z0.sys k') ds := by
    cases htg with
    | into hd => exact L.clear_dir (k := k') (s := z0) hI hd
    | new hd => exact ⟨fun p hp _ => hclear p hp, by rw [hd]; simp⟩
  have hdep : 0 < depth := Nat.zero_lt_of_lt hl
  obtain ⟨z1, a1, ⟨a2, a4, a5⟩, a3⟩ := L.uMakedirs (k := k') (s := z0) hI he hclear hl
  change siteV r z1.sys = mkdirs (siteV r z0.sys) k' e at a3
  have hl1 : LinksStay z0.sys z1.sys := by
    have := KeepsL.uMakedirs depth (siteAt E k' e) z0
    rwa [show Any.uMakedirs zysOps depth (siteAt E k' e) z0 = _ from a1] at this
  have h1 : ZHeld E r X es k' e z0 z1 := by
    refine ⟨⟨a2, hl1, fun j p hp => ?_, fun j p hp => ?_, fun p hp => .inl (by rw [a3]; simp [mkdirs, hp])⟩, a4, fun k _ => by rw [a5], ?_⟩
    · rw [a3]; unfold mkdirs; split
      · rename_i hc
        obtain ⟨rfl, hc⟩ := hc
        rcases hclear p hc with h | h
        · exact h.symm
        · exact absurd h hp
      · rfl
    · rw [a3]; unfold mkdirs; rw [if_neg]; rintro ⟨rfl, hc⟩; exact hp ⟨rfl, .inr hc⟩
    · unfold Opened; rw [a4, a5]; exact ho
  let S := zipSource fl hX (ZHeld E r X es k' e z0) (fun h => h.opened) ht hn (.inr hb)
  let K : Sink S depth := zipSink (fl := fl) hX ht hn hb (by simp) htrim hr he he0 hnone hdep
  have hroot : S.T [] = some .dir := rfl
  obtain ⟨z2, b1, b2, b3⟩ := K.walk (ig := ig) depth [] h1 hroot S.cut_nil (by
      show siteE r z1.sys k' (e ++ []) = some .dir
      rw [List.append_nil, siteE_dir, a3]; simp [mkdirs]) (by
      intro y hy
      show siteE r z1.sys k' (e ++ ([] ++ y)) = none
      rw [List.nil_append, siteE_none, a3]
      unfold mkdirs
      rw [if_neg, hnone]
      rintro ⟨-, hc⟩
      have := hc.length_le
      have h2 : 0 < y.length := List.length_pos_iff.2 hy
      simp only [List.length_append] at this
      omega) (fun y hy => hh y (by rw [List.nil_append] at hy; exact hy))
  have e1 : uExists zysOps (zat X (init ++ [n])) z0 = (.ok true, z0) :=
    (zys_withConn X _ _ _ z0).trans (opened_exists ho hn (by simp) (.inr hb))
  have e2 : Any.uIsdir zysOps (zat X (init ++ [n])) z0 = (.ok true, z0) :=
    (zys_withConn X _ _ _ z0).trans ((opened_isdir ho hn (by simp)).trans (by rw [decide_eq_true hb]))
  have fin : (do
      if (← Any.uIslink zysOps (zat X (init ++ [n]))) && !fl then copyLink zysOps (.zip (zkey X)) (zat X (init ++ [n])) (siteAt E k' e)
      else
        Any.uMakedirs zysOps depth (siteAt E k' e)
        copyWalk zysOps depth (.zip (zkey X)) ig fl (zat X (init ++ [n])) (siteAt E k' e) : OM Zys Unit) z0 = (.ok (), z2) := by
    refine (bind_ok opened_uIslink).trans ?_
    rw [Bool.false_and, if_neg Bool.false_ne_true]
    refine (bind_ok a1).trans ?_
    refine (zys_withConn X _ _ _ z1).trans ?_
    have b1' := b1
    unfold Sink.copier at b1'
    have c1 : S.src [] = zat X (init ++ [n]) := by show zat X (init ++ [n] ++ []) = _; rw [List.append_nil]
    have c2 : K.dst [] = siteAt E k' e := by show siteAt E k' (e ++ []) = _; rw [List.append_nil]
    rw [c1, c2] at b1'
    exact b1'
  have hD : ∀ p, siteE r z2.sys k' (e ++ p) = if [] <+: p ∧ p ≠ [] then S.kept ig p else siteE r z1.sys k' (e ++ p) := b3
  refine ⟨z2, ?_, b2, ?_, fun x hx => ?_⟩
  · refine (zys_withConn X _ _ _ z0).trans ?_
    unfold Any.copy
    refine (bind_ok e1).trans ?_
    rw [Bool.not_true, if_neg Bool.false_ne_true]
    refine (bind_ok e2).trans ?_
    rw [Bool.not_true, if_neg Bool.false_ne_true]
    refine (bind_ok (L.uIsdir (k := k') (s := z0) hI hds hcds)).trans ?_
    cases htg with
    | into hd =>
      have : isD (L.V z0 k' ds) = true := by rw [show L.V z0 k' ds = _ from hd]; rfl
      rw [this, if_pos rfl, zat_last hn]
      have : (siteAt E k' ds).div n = .ok (siteAt E k' (ds ++ [n])) := site_div he (by simp) (by simp [slash])
      rw [this]
      exact fin
    | new hd =>
      have : isD (L.V z0 k' e) = false := by rw [show L.V z0 k' e = _ from hd]; rfl
      rw [this, if_neg Bool.false_ne_true]
      exact fin
  · have := hD []
    rw [if_neg (by simp), List.append_nil] at this
    refine siteE_dir.1 (this.trans (siteE_dir.2 ?_))
    rw [a3]; simp [mkdirs]
  · rw [hD, if_pos ⟨List.nil_prefix, hx⟩]

end
end Verif.Any
