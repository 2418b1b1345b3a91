import Verif.Uri.Splitext
import Verif.Props.UriJoin
import Verif.Props.UriEdges
/-!
# C103: the extension of a name, and the port
-/
namespace Verif.Props
open Verif.Spec

/-- `n` has the extension `.e` after `r`: `e` is what follows the last dot, and not only dots are before that -/
def HasExt (n r e : Str) : Prop := n = r ++ '.' :: e ∧ '.' ∉ e ∧ ∃ c ∈ r, c ≠ '.'

/-- Where `os.path.splitext` splits a name. -/
theorem C103_name {n : Str} (hn : '/' ∉ n) :
    (∀ r e, HasExt n r e → osSplitext n = (r, '.' :: e)) ∧ ((¬ ∃ r e, HasExt n r e) → osSplitext n = (n, [])) := by
  have whole : ∀ (c : Char) (l : Str), c ∉ l → l.takeWhile (· ≠ c) = l := by
    intro c l h
    have := takeWhile_stop (p := (· ≠ c)) (a := l) (b := []) (fun x hx => by simpa using fun e : x = c => h (e ▸ hx)) (by simp)
    rwa [List.append_nil] at this
  have h1 : n.reverse.takeWhile (· ≠ '/') = n.reverse := whole _ _ (by simpa using hn)
  have key : ∀ r e, n = r ++ '.' :: e → '.' ∉ e → osSplitext n = if r.any (· ≠ '.') then (r, '.' :: e) else (n, []) := by
    intro r e h he
    have h2 : n.reverse.takeWhile (· ≠ '.') = e.reverse := by
      rw [h, List.reverse_append, List.reverse_cons, List.append_assoc, List.takeWhile_append_of_pos, List.singleton_append,
        List.takeWhile_cons_of_neg (by simp), List.append_nil]
      intro x hx
      simpa using fun h : x = '.' => he (h ▸ List.mem_reverse.1 hx)
    have h3 : n.take (n.length - e.length) = r ++ ['.'] := by
      rw [h, show r ++ '.' :: e = (r ++ ['.']) ++ e by simp]
      rw [List.length_append, Nat.add_sub_cancel, List.take_left]
    unfold osSplitext
    simp only [h1, List.reverse_reverse, h2, h3, Nat.sub_self, List.take_zero, List.nil_append, List.reverse_append,
      List.reverse_singleton, List.singleton_append, List.any_reverse]
  refine ⟨fun r e ⟨h, he, c, hc, hc'⟩ => ?_, fun h => ?_⟩
  · rw [key r e h he, if_pos (List.any_eq_true.2 ⟨c, hc, by simpa using hc'⟩)]
  · by_cases hd : '.' ∈ n
    · obtain ⟨e', r', h2, h3⟩ := List.eq_append_cons_of_mem (List.mem_reverse.2 hd)
      have hn' : n = r'.reverse ++ '.' :: e'.reverse := by
        have := congrArg List.reverse h2
        simpa using this
      have he' : '.' ∉ e'.reverse := by simpa using h3
      rw [key _ _ hn' he', if_neg]
      intro ha
      obtain ⟨c, hc, hc'⟩ := List.any_eq_true.1 ha
      exact h ⟨_, _, hn', he', c, hc, by simpa using hc'⟩
    · have h2 : n.reverse.takeWhile (· ≠ '.') = n.reverse := whole _ _ (by simpa using hd)
      unfold osSplitext
      simp only [h1, List.reverse_reverse, h2, Nat.sub_self, List.take_zero, List.reverse_nil]

/-- `splitext` of a URI: its last name in two pieces. -/
theorem C103_splitext {u : Uri} {b : Base} {cs : List Str} {n : Str} {q : Option Str} (hb : b.Ok)
    (hc : ∀ c ∈ cs, CleanName c) (hn : CleanName n) (hf : FileOk b (cs ++ [n])) (hr : cs ≠ [] ∨ b.netloc.str = [])
    (hu : u.uri = b.str ++ pathOf (cs ++ [n]) ++ qs q) (hq : '/' ∉ qs q) :
    ∃ r e, u.splitext = .ok (r, e) ∧ r ++ e = n ∧ (∀ r' e', HasExt n r' e' → r = r' ∧ e = '.' :: e') ∧
      ((¬ ∃ r' e', HasExt n r' e') → e = []) := by
  obtain ⟨w, h1, -⟩ := split_at hb hc hn hf hr hu hq
  have h2 : u.splitext = .ok (osSplitext n) := by
    unfold Uri.splitext
    rw [basename_of_split h1]
  obtain ⟨h3, h4⟩ := C103_name (hn.chars.not_mem (by simp) : '/' ∉ n)
  refine ⟨(osSplitext n).1, (osSplitext n).2, h2, ?_, fun r' e' h => ?_, fun h => congrArg Prod.snd (h4 h)⟩
  · by_cases h : ∃ r e, HasExt n r e
    · obtain ⟨r, e, h⟩ := h
      rw [h3 r e h]
      exact h.1.symm
    · rw [h4 h]
      exact List.append_nil n
  · have := h3 r' e' h
    exact ⟨congrArg Prod.fst this, congrArg Prod.snd this⟩

example : ∃ u, URI cl!"memory:///a.b/.x.tar.gz" = .ok u ∧ u.splitext = .ok (cl!".x.tar", cl!".gz") := by
  obtain ⟨u, h1, -, h2, -⟩ := URI_at (cs := [cl!"a.b", cl!".x.tar.gz"]) (q := none)
    (Q := []) memB_ok (by decide) (by intro h; exact absurd h (by decide)) (by simp) (by decide) []
  refine ⟨u, h1, ?_⟩
  obtain ⟨r, e, h3, -, h4, -⟩ := C103_splitext (u := u) (cs := [cl!"a.b"]) (n := cl!".x.tar.gz") (q := none) memB_ok
    (by decide) (by decide) (by intro h; exact absurd h (by decide)) (.inr (by decide)) h2 (by simp [qs])
  obtain ⟨rfl, rfl⟩ := h4 cl!".x.tar" cl!"gz" ⟨by decide, by decide, 'x', by decide, by decide⟩
  exact h3

/-- a name that begins with its only dot has no extension -/
example : osSplitext cl!".profile" = (cl!".profile", []) ∧ osSplitext cl!"..x" = (cl!"..x", []) ∧ osSplitext cl!"a." = (cl!"a", cl!".") := by decide

/-- The port of a URI and of everything below it is the number after the host, or 0. -/
theorem C103_port {u : Uri} {b : Base} {cs : List Str} {n a : Str} {Q : Dict} (hb : b.Ok) (ha : b.netloc = .plain a) (ha0 : a ≠ [])
    (hu : At u b (pathOf cs) Q) (hs : u.sep = '/') (hc : ∀ c ∈ cs, CleanName c) (hn : CleanName n) (hf : FileOk b (cs ++ [n])) :
    ∃ v, u.div n = .ok v ∧ v.port = u.port ∧
      (∀ p k, (splitAuthority a).port = some p → PortText p k → u.port = some k) ∧
      ((splitAuthority a).port = none ∨ (splitAuthority a).port = some [] → u.port = some 0) := by
  have hall : ∀ c ∈ cs ++ [n], CleanName c := by
    intro c h; simp at h; rcases h with h | rfl; exacts [hc c h, hn]
  obtain ⟨v, h1, h2, -⟩ := join_at hb hu (joinPath_clean hs hc hu.path (by simp) (ns := [n]) (by simpa using hn)) (fits_encQ hall hf)
  have hf1 := hu.fields
  have hf2 := h2.fields
  rw [hf1] at hf2
  simp only [Except.ok.injEq, Prod.mk.injEq] at hf2
  obtain ⟨p1, p2, -⟩ := C13_port ha0
  rw [ha] at hf1
  simp only [Netloc.auth] at hf1
  refine ⟨v, h1, by unfold Uri.port; rw [hf2.2.2.2], fun p k hp hk => ?_, fun h => ?_⟩
  · rw [p1 p k hp hk] at hf1
    simp only [Except.ok.injEq, Prod.mk.injEq] at hf1
    unfold Uri.port
    rw [hf1.2.2.2]
  · rw [p2 h] at hf1
    simp only [Except.ok.injEq, Prod.mk.injEq] at hf1
    unfold Uri.port
    rw [hf1.2.2.2]

example : ∃ u v, URI cl!"http://joe:pw@host:80/a" = .ok u ∧ u.div cl!"b" = .ok v ∧ u.port = some 80 ∧ v.port = some 80 := by
  obtain ⟨u, h1, h2, -, h4⟩ := URI_at (cs := [cl!"a"]) (q := none)
    (Q := []) httpB_ok (by decide) (by intro h; exact absurd h (by decide)) (by simp) (by decide) []
  obtain ⟨v, g1, g2, g3, -⟩ := C103_port (n := cl!"b") (a := cl!"joe:pw@host:80") httpB_ok rfl (by simp) h2 h4 (by decide) (by decide)
    (by intro h; exact absurd h (by decide))
  have g4 := g3 cl!"80" 80 (by decide) (pyInt_iff.1 (by decide))
  exact ⟨u, v, h1, g1, g4, g2.trans g4⟩

end Verif.Props
