import Verif.Uri.Lemmas
import Verif.Py.QuoteLemmas
/-! # Query strings: parsing what `urlencode` wrote -/
namespace Verif
open Spec

theorem not_space_of_quoteSafe {c : Char} (h : quoteSafe c = true) : pyIsSpace c = false := by
  cases hs : pyIsSpace c with
  | false => rfl
  | true =>
    exfalso
    have h1 := quoteSafe_lt h
    simp [pyIsSpace] at hs
    have h2 : c.toNat ≤ 32 := by omega
    have hc : c = Char.ofNat c.toNat := (Char.ofNat_toNat c).symm
    have : ∀ n : Fin 33, quoteSafe (Char.ofNat n) = false := by decide
    have := this ⟨c.toNat, by omega⟩
    simp only [Char.ofNat_toNat] at this
    rw [h] at this; simp at this

theorem stripW_quotePlus (s : Str) : stripW (quotePlus s) = quotePlus s :=
  stripW_of_no_space fun c hc => not_space_of_quoteSafe (quotePlus_safe s c hc)

theorem parseItem_encoded (k v : Str) :
    parseItem (quotePlus k ++ cl!"=" ++ quotePlus v) = .ok (quotePlus k, v) := by
  have h1 : '=' ∉ quotePlus k := quotePlus_not_mem (by decide)
  have h2 : '=' ∉ quotePlus v := quotePlus_not_mem (by decide)
  simp only [parseItem, List.append_assoc, List.cons_append, List.nil_append, splitC_append h1,
    splitC_of_not_mem h2, stripW_quotePlus, unquotePlus_quotePlus]

theorem parseItems_encoded (d e : Dict) :
    parseItems d (e.map fun kv => quotePlus kv.1 ++ cl!"=" ++ quotePlus kv.2)
      = .ok (d.update (e.map fun kv => (quotePlus kv.1, kv.2))) := by
  induction e generalizing d with
  | nil => simp [parseItems, Dict.update]
  | cons kv e ih =>
    rw [List.map_cons, parseItems, parseItem_encoded]
    simp only [ih]
    simp [Dict.update]

theorem parseQueryString_urlencode {e : Dict} (he : e ≠ []) :
    parseQueryString (urlencode e) = .ok (Dict.update [] (e.map fun kv => (quotePlus kv.1, kv.2))) := by
  rw [parseQueryString, urlencode, splitC_joinS (by simpa using he), parseItems_encoded]
  intro s hs
  simp only [List.mem_map] at hs
  obtain ⟨kv, -, rfl⟩ := hs
  have h1 : '&' ∉ quotePlus kv.1 := quotePlus_not_mem (by decide)
  have h2 : '&' ∉ quotePlus kv.2 := quotePlus_not_mem (by decide)
  simp [h1, h2]

theorem joinS_chars {p : Char → Prop} {sep : Str} {l : List Str} (hs : ∀ c ∈ sep, p c)
    (hl : ∀ s ∈ l, ∀ c ∈ s, p c) : ∀ c ∈ joinS sep l, p c := by
  induction l with
  | nil => simp [joinS]
  | cons x r ih =>
    cases r with
    | nil => simpa [joinS] using hl x (by simp)
    | cons y r =>
      intro c hc
      rw [joinS, List.mem_append, List.mem_append] at hc
      rcases hc with (h | h) | h
      · exact hl x (by simp) c h
      · exact hs c h
      · exact ih (fun s hs' => hl s (by simp [hs'])) c h

theorem urlencode_chars (d : Dict) :
    ∀ c ∈ urlencode d, quoteSafe c = true ∨ c = '=' ∨ c = '&' := by
  apply joinS_chars
  · simp
  · intro s hs c hc
    simp only [List.mem_map] at hs
    obtain ⟨kv, -, rfl⟩ := hs
    simp only [List.append_assoc, List.mem_append, List.mem_cons, List.not_mem_nil, or_false] at hc
    rcases hc with h | h | h
    · exact .inl (quotePlus_safe _ c h)
    · exact .inr (.inl h)
    · exact .inl (quotePlus_safe _ c h)

theorem urlencode_not_mem {d : Dict} {c : Char} (h : quoteSafe c = false) (h1 : c ≠ '=')
    (h2 : c ≠ '&') : c ∉ urlencode d := by
  intro hc
  rcases urlencode_chars d c hc with h' | h' | h'
  · rw [h] at h'; simp at h'
  · exact h1 h'
  · exact h2 h'

theorem urlencode_ne_nil {d : Dict} (h : d ≠ []) : urlencode d ≠ [] := by
  cases d with
  | nil => exact absurd rfl h
  | cons kv d => cases d <;> simp [urlencode, joinS]

theorem quotePlus_unreserved {k : Str} (h : ∀ c ∈ k, unreserved c = true) : quotePlus k = k := by
  induction k with
  | nil => rfl
  | cons c k ih =>
    have hc := h c (by simp)
    have hlt := unreserved_lt hc
    have ih' := ih (fun x hx => h x (by simp [hx]))
    rw [quotePlus] at ih' ⊢
    rw [utf8Encode_cons, List.flatMap_append, ih']
    have he : encChar c = [c.toNat] := by simp [encChar, hlt]
    have hb : (UInt8.ofNat c.toNat).toNat = c.toNat := by simp; omega
    simp [he, quoteByte, hb, Char.ofNat_toNat, hc]

theorem Dict.set_of_not_mem {d : Dict} {k v : Str} (h : k ∉ d.map Prod.fst) :
    d.set k v = d ++ [(k, v)] := by
  induction d with
  | nil => rfl
  | cons kv d ih =>
    obtain ⟨k', v'⟩ := kv
    simp at h
    simp only [Dict.set, if_neg h.1]
    rw [ih (by simpa using h.2)]
    rfl

theorem Dict.update_of_disjoint {d e : Dict} (he : Dict.WF (d ++ e)) : d.update e = d ++ e := by
  induction e generalizing d with
  | nil => simp [Dict.update]
  | cons kv e ih =>
    have hk : kv.1 ∉ d.map Prod.fst := by
      simp only [Dict.WF, List.map_append, List.map_cons] at he
      have := (List.nodup_append.1 he).2.2
      intro hm; exact this _ hm _ (by simp) rfl
    have e1 : d.update (kv :: e) = (d.set kv.1 kv.2).update e := by simp [Dict.update]
    rw [e1, Dict.set_of_not_mem hk, ih (by simpa using he)]
    simp

/-- Encoding and parsing a mapping with unreserved keys gives the mapping back. -/
theorem parseQueryString_urlencode_self {e : Dict} (he : e ≠ []) (hw : e.WF)
    (hk : ∀ kv ∈ e, ∀ c ∈ kv.1, unreserved c = true) :
    parseQueryString (urlencode e) = .ok e := by
  rw [parseQueryString_urlencode he]
  have : (e.map fun kv => (quotePlus kv.1, kv.2)) = e := by
    conv => rhs; rw [← List.map_id e]
    apply List.map_congr_left
    intro kv hkv
    simp [quotePlus_unreserved (hk kv hkv)]
  rw [this, Dict.update_of_disjoint (by simpa using hw)]
  simp

end Verif
