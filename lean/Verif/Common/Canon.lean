import Mathlib.Data.List.Basic
import Mathlib.Tactic.Ring
import Mathlib.Tactic.Linarith

/-!
# Canonical prefix codes

The code both JPEG (T.81, Annex C) and DEFLATE (RFC 1951, 3.2.2) build from the number of codes of
each length: codes of one length are consecutive numbers, and the first code of length `l + 1` is
twice the number following the last code of length `l`.
-/

namespace Zune.Canon

/-- First code of length `l`, when `cnt l` codes have length `l` (RFC 1951, 3.2.2, step 2). -/
def first (cnt : Nat → Nat) : Nat → Nat
  | 0 => 0
  | l + 1 => 2 * (first cnt l + cnt l)

/-- Number of codes shorter than `l`. -/
def before (cnt : Nat → Nat) : Nat → Nat
  | 0 => 0
  | l + 1 => before cnt l + cnt l

/-- The first `l` of the `N` bits of `w` are a code of length `l`. -/
def Match (cnt : Nat → Nat) (N w l : Nat) : Prop :=
  first cnt l ≤ w / 2 ^ (N - l) ∧ w / 2 ^ (N - l) < first cnt l + cnt l

variable {cnt : Nat → Nat}

theorem limit_eq {N l : Nat} (h : l < N) :
    (first cnt l + cnt l) * 2 ^ (N - l) = first cnt (l + 1) * 2 ^ (N - (l + 1)) := by
  have : N - l = (N - (l + 1)) + 1 := by omega
  rw [this, pow_succ, first]; ring

theorem start_le {N l : Nat} (m : Nat) (h : l < m) (hm : m ≤ N) :
    (first cnt l + cnt l) * 2 ^ (N - l) ≤ first cnt m * 2 ^ (N - m) := by
  induction m with
  | zero => omega
  | succ m ih =>
    rcases Nat.lt_or_ge l m with h1 | h1
    · refine le_trans (ih h1 (by omega)) ?_
      rw [← limit_eq (by omega)]
      exact Nat.mul_le_mul_right _ (by omega)
    · obtain rfl : m = l := by omega
      rw [limit_eq (by omega)]

theorem match_iff {N w l : Nat} :
    Match cnt N w l ↔ first cnt l * 2 ^ (N - l) ≤ w ∧ w < (first cnt l + cnt l) * 2 ^ (N - l) := by
  unfold Match
  have hp : 0 < 2 ^ (N - l) := Nat.two_pow_pos _
  rw [Nat.le_div_iff_mul_le hp, Nat.div_lt_iff_lt_mul hp]

theorem match_pos {N w l : Nat} (h : Match cnt N w l) : cnt l ≠ 0 := by
  have := h.1; have := h.2; omega

theorem match_unique {N w l m : Nat} (hl : l ≤ N) (hm : m ≤ N) (h1 : Match cnt N w l)
    (h2 : Match cnt N w m) : l = m := by
  rw [match_iff] at h1 h2
  rcases Nat.lt_trichotomy l m with h | h | h
  · have := start_le (cnt := cnt) m h hm; omega
  · exact h
  · have := start_le (cnt := cnt) l h hl; omega

theorem match_cover {N w : Nat} (L : Nat) (hL : L ≤ N)
    (h : w < (first cnt L + cnt L) * 2 ^ (N - L)) : ∃ l ≤ L, Match cnt N w l := by
  induction L with
  | zero => exact ⟨0, le_refl _, match_iff.2 ⟨by simp [first], h⟩⟩
  | succ L ih =>
    rcases Nat.lt_or_ge w ((first cnt L + cnt L) * 2 ^ (N - L)) with h1 | h1
    · obtain ⟨l, hl, hm⟩ := ih (by omega) h1
      exact ⟨l, by omega, hm⟩
    · rw [limit_eq (by omega)] at h1
      exact ⟨L + 1, le_refl _, match_iff.2 ⟨h1, h⟩⟩

/-- A window cut to fewer bits still starts with the same short code. -/
theorem match_cut {N M w l : Nat} (hM : M ≤ N) (hl : l ≤ M) :
    Match cnt M (w / 2 ^ (N - M)) l ↔ Match cnt N w l := by
  unfold Match
  rw [Nat.div_div_eq_div_mul, ← pow_add, show N - M + (M - l) = N - l by omega]

theorem before_mono {l m : Nat} (h : l ≤ m) : before cnt l ≤ before cnt m := by
  induction m with
  | zero => simp_all
  | succ m ih =>
    rcases Nat.lt_or_ge l (m + 1) with h1 | h1
    · have := ih (by omega); simp only [before]; omega
    · obtain rfl : l = m + 1 := by omega
      exact le_refl _

theorem before_lt {l m : Nat} (h : l < m) : before cnt l + cnt l ≤ before cnt m :=
  before_mono (cnt := cnt) (l := l + 1) h

theorem first_zero {l : Nat} (h : ∀ k < l, cnt k = 0) : first cnt l = 0 := by
  induction l with
  | zero => rfl
  | succ l ih => simp [first, ih (fun k hk => h k (by omega)), h l (by omega)]

theorem before_zero {l : Nat} (h : ∀ k < l, cnt k = 0) : before cnt l = 0 := by
  induction l with
  | zero => rfl
  | succ l ih => simp [before, ih (fun k hk => h k (by omega)), h l (by omega)]

/-- Entries of a table that lists, length by length, one entry for each code. -/
theorem flat_getElem? {α} (f : Nat → List α) (hf : ∀ l, (f l).length = cnt l) (n s l k : Nat)
    (hs : s ≤ l) (hl : l < s + n) (hk : k < cnt l) :
    ((List.range' s n).flatMap f)[before cnt l - before cnt s + k]? = (f l)[k]? := by
  induction n generalizing s with
  | zero => omega
  | succ n ih =>
    rw [List.range'_succ, List.flatMap_cons]
    rcases Nat.lt_or_ge s l with h1 | h1
    · have hb := before_lt (cnt := cnt) h1
      rw [List.getElem?_append_right (by rw [hf]; omega), hf]
      have := ih (s + 1) (by omega) (by omega)
      rw [← this, before]
      congr 1; omega
    · obtain rfl : s = l := by omega
      rw [List.getElem?_append_left (by rw [hf]; omega)]
      congr 1; omega

theorem flat_length {α} (f : Nat → List α) (hf : ∀ l, (f l).length = cnt l) (n s : Nat) :
    ((List.range' s n).flatMap f).length = before cnt (s + n) - before cnt s := by
  induction n generalizing s with
  | zero => simp
  | succ n ih =>
    rw [List.range'_succ, List.flatMap_cons, List.length_append, ih, hf]
    have h1 := before_mono (cnt := cnt) (l := s + 1) (m := s + (n + 1)) (by omega)
    have h2 : before cnt (s + 1) = before cnt s + cnt s := rfl
    rw [show s + 1 + n = s + (n + 1) by omega]
    omega

/-- Which length an index of the table belongs to. -/
theorem index_length {s n p : Nat} (h1 : before cnt s ≤ p) (h2 : p < before cnt (s + n)) :
    ∃ l, s ≤ l ∧ l < s + n ∧ before cnt l ≤ p ∧ p < before cnt l + cnt l := by
  induction n with
  | zero => simp at h2; omega
  | succ n ih =>
    rcases Nat.lt_or_ge p (before cnt (s + n)) with h | h
    · obtain ⟨l, a, b, c⟩ := ih h
      exact ⟨l, a, by omega, c⟩
    · exact ⟨s + n, by omega, by omega, h, h2⟩

/-- The table of code lengths: entry `p` is the length of the code of symbol `p`. -/
theorem sizes_getElem? (s n p l : Nat) (hs : before cnt s = 0) :
    ((List.range' s n).flatMap fun l => List.replicate (cnt l) l)[p]? = some l ↔
      s ≤ l ∧ l < s + n ∧ before cnt l ≤ p ∧ p < before cnt l + cnt l := by
  constructor
  · intro h
    obtain ⟨hp, _⟩ := List.getElem?_eq_some_iff.1 h
    rw [flat_length (cnt := cnt) _ (fun l => by simp)] at hp
    obtain ⟨m, h1, h2, h3, h4⟩ := index_length (cnt := cnt) (s := s) (n := n) (p := p)
      (by omega) (by omega)
    have := flat_getElem? (cnt := cnt) (fun l => List.replicate (cnt l) l) (fun l => by simp)
      n s m (p - before cnt m) h1 h2 (by omega)
    rw [hs, show before cnt m - 0 + (p - before cnt m) = p by omega, h,
      List.getElem?_replicate_of_lt (by omega)] at this
    obtain rfl : l = m := by simpa using this
    exact ⟨h1, h2, h3, h4⟩
  · rintro ⟨h1, h2, h3, h4⟩
    have := flat_getElem? (cnt := cnt) (fun l => List.replicate (cnt l) l) (fun l => by simp)
      n s l (p - before cnt l) h1 h2 (by omega)
    rw [hs, show before cnt l - 0 + (p - before cnt l) = p by omega,
      List.getElem?_replicate_of_lt (by omega)] at this
    exact this

end Zune.Canon
