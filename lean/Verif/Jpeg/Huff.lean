import Verif.Jpeg.HuffModel
import Verif.Common.Canon
import Mathlib.Tactic.IntervalCases

/-!
# zune-jpeg: the Huffman tables hold the canonical code (lemmas)
-/

namespace Zune.Jpeg

open Zune.Canon

/-- Sizes from `s` to 16. -/
abbrev sizesFrom (cnt : Nat → Nat) (s n : Nat) : List Nat :=
  (List.range' s n).flatMap fun l => List.replicate (cnt l) l

theorem sizesFrom_succ (cnt : Nat → Nat) (s n : Nat) :
    sizesFrom cnt s (n + 1) = List.replicate (cnt s) s ++ sizesFrom cnt (s + 1) n := by
  simp [sizesFrom, List.range'_succ]

theorem sizesFrom_ge (cnt : Nat → Nat) (s n x : Nat) (h : x ∈ sizesFrom cnt s n) : s ≤ x := by
  simp only [sizesFrom, List.mem_flatMap, List.mem_range', List.mem_replicate] at h
  obtain ⟨a, ⟨i, _, rfl⟩, _, rfl⟩ := h
  omega

theorem takeWhile_sizes (cnt : Nat → Nat) (s n : Nat) :
    ((sizesFrom cnt s (n + 1)).takeWhile (· == s)).length = cnt s ∧
      (sizesFrom cnt s (n + 1)).drop (cnt s) = sizesFrom cnt (s + 1) n := by
  rw [sizesFrom_succ]
  constructor
  · rw [List.takeWhile_append_of_pos (by simp)]
    have : (sizesFrom cnt (s + 1) n).takeWhile (· == s) = [] := by
      cases h : sizesFrom cnt (s + 1) n with
      | nil => rfl
      | cons a t =>
        have := sizesFrom_ge cnt (s + 1) n a (by simp [h])
        rw [List.takeWhile_cons_of_neg]
        simp; omega
    simp [this]
  · rw [List.drop_append_of_le_length (by simp)]
    simp

/-- Codes from `s` on. -/
abbrev codesFrom (cnt : Nat → Nat) (s n : Nat) : List Nat :=
  (List.range' s n).flatMap fun l => List.range' (first cnt l) (cnt l)

theorem codesFrom_succ (cnt : Nat → Nat) (s n : Nat) :
    codesFrom cnt s (n + 1) = List.range' (first cnt s) (cnt s) ++ codesFrom cnt (s + 1) n := by
  simp [codesFrom, List.range'_succ]

theorem codesFrom_nil (cnt : Nat → Nat) (s n : Nat) (h : sizesFrom cnt s n = []) :
    codesFrom cnt s n = [] ∧ ∀ l, s ≤ l → l < s + n → cnt l = 0 := by
  simp only [sizesFrom, List.flatMap_eq_nil_iff, List.mem_range'] at h
  have hz : ∀ l, s ≤ l → l < s + n → cnt l = 0 := by
    intro l h1 h2
    have := h l ⟨l - s, by omega, by omega⟩
    simpa using this
  refine ⟨?_, hz⟩
  simp only [codesFrom, List.flatMap_eq_nil_iff, List.mem_range']
  rintro l ⟨i, hi, rfl⟩
  rw [hz _ (by omega) (by omega)]; rfl

theorem gen_ok (cnt : Nat → Nat) (n fuel s : Nat) (hf : n ≤ fuel) (hs : s + n = 17)
    (hv : ∀ l, s ≤ l → l ≤ 16 → first cnt l + cnt l < 2 ^ l) :
    ∃ mc, genCodes fuel s (first cnt s) (sizesFrom cnt s n) = some (codesFrom cnt s n, mc) ∧
      ∀ l, s ≤ l → l ≤ 16 → cnt l ≠ 0 → mc l = ((first cnt l + cnt l) * 2 ^ (16 - l) : Nat) := by
  induction n generalizing fuel s with
  | zero => exact ⟨fun _ => 0, by simp [genCodes, sizesFrom, codesFrom], fun l _ _ => by omega⟩
  | succ n ih =>
    obtain ⟨f, rfl⟩ : ∃ f, fuel = f + 1 := ⟨fuel - 1, by omega⟩
    obtain ⟨h1, h2⟩ := takeWhile_sizes cnt s n
    cases hl : sizesFrom cnt s (n + 1) with
    | nil =>
      obtain ⟨h3, h4⟩ := codesFrom_nil cnt s (n + 1) hl
      exact ⟨fun _ => 0, by simp [genCodes, h3], fun l a b c => absurd (h4 l a (by omega)) c⟩
    | cons a t =>
      obtain ⟨mc, h3, h4⟩ := ih f (s + 1) (by omega) (by omega)
        (fun l a b => hv l (by omega) b)
      rw [hl] at h1 h2
      have hb := hv s (le_refl _) (by omega)
      refine ⟨fun l => if l = s then ((first cnt s + cnt s) * 2 ^ (16 - s) : Nat) else mc l, ?_, ?_⟩
      · simp only [genCodes, h1, h2, if_neg (show ¬ 2 ^ s ≤ first cnt s + cnt s by omega)]
        have : 2 * (first cnt s + cnt s) = first cnt (s + 1) := rfl
        rw [this, h3, codesFrom_succ]
        rfl
      · intro l a b c
        by_cases hls : l = s
        · simp [hls]
        · simp only [hls, if_false]
          exact h4 l (by omega) b c

theorem gen_bad (cnt : Nat → Nat) (n fuel s : Nat) (hs : s + n = 17) (h0 : first cnt s < 2 ^ s)
    (l : Nat) (h1 : s ≤ l) (h2 : l ≤ 16) (hl : 2 ^ l ≤ first cnt l + cnt l) :
    genCodes fuel s (first cnt s) (sizesFrom cnt s n) = none := by
  induction n generalizing fuel s with
  | zero => omega
  | succ n ih =>
    obtain ⟨h3, h4⟩ := takeWhile_sizes cnt s n
    cases hlist : sizesFrom cnt s (n + 1) with
    | nil =>
      exfalso
      have hz := (codesFrom_nil cnt s (n + 1) hlist).2
      have : ∀ m, s ≤ m → m ≤ 16 → first cnt m + cnt m < 2 ^ m := by
        intro m hm hm'
        induction m with
        | zero =>
          obtain rfl : s = 0 := by omega
          rw [hz 0 hm (by omega)]; omega
        | succ m ihm =>
          rcases Nat.lt_or_ge s (m + 1) with h | h
          · have := ihm (by omega) (by omega)
            rw [hz (m + 1) hm (by omega), first, pow_succ]; omega
          · obtain rfl : s = m + 1 := by omega
            rw [hz _ hm (by omega)]; omega
      have := this l h1 h2
      omega
    | cons a t =>
      cases fuel with
      | zero => rfl
      | succ f =>
        rw [hlist] at h3 h4
        simp only [genCodes, h3, h4]
        split
        · rfl
        · rename_i hb
          have h5 : first cnt (s + 1) < 2 ^ (s + 1) := by rw [first, pow_succ]; omega
          have hne : s ≠ l := by rintro rfl; omega
          have : 2 * (first cnt s + cnt s) = first cnt (s + 1) := rfl
          rw [this, ih f (s + 1) (by omega) h5 (by omega)]
          rfl

theorem head_sizes (cnt : Nat → Nat) (n s : Nat) (h : sizesFrom cnt s n ≠ []) :
    ∃ k, s ≤ k ∧ k < s + n ∧ (sizesFrom cnt s n).headD 0 = k ∧
      sizesFrom cnt s n = sizesFrom cnt k (s + n - k) ∧
      codesFrom cnt s n = codesFrom cnt k (s + n - k) ∧ ∀ l, s ≤ l → l < k → cnt l = 0 := by
  induction n generalizing s with
  | zero => simp [sizesFrom] at h
  | succ n ih =>
    by_cases hc : cnt s = 0
    · have e1 : sizesFrom cnt s (n + 1) = sizesFrom cnt (s + 1) n := by
        rw [sizesFrom_succ, hc]; rfl
      have e2 : codesFrom cnt s (n + 1) = codesFrom cnt (s + 1) n := by
        rw [codesFrom_succ, hc]; rfl
      rw [e1] at h ⊢
      obtain ⟨k, a, b, c, d, e, f⟩ := ih (s + 1) h
      refine ⟨k, by omega, by omega, c, ?_, ?_, fun l h1 h2 => ?_⟩
      · rw [d, show s + 1 + n - k = s + (n + 1) - k by omega]
      · rw [e2, e, show s + 1 + n - k = s + (n + 1) - k by omega]
      · rcases Nat.lt_or_ge s l with h3 | h3
        · exact f l h3 h2
        · rw [show l = s by omega]; exact hc
    · refine ⟨s, le_refl _, by omega, ?_, by rw [show s + (n + 1) - s = n + 1 by omega],
        by rw [show s + (n + 1) - s = n + 1 by omega], fun l h1 h2 => by omega⟩
      rw [sizesFrom_succ]
      obtain ⟨m, hm⟩ : ∃ m, cnt s = m + 1 := ⟨cnt s - 1, by omega⟩
      simp [hm, List.replicate_succ]

/-- The counts make a code: at every length the codes stay below the all-ones word. -/
def Legal (cnt : Nat → Nat) : Prop := ∀ l, 1 ≤ l → l ≤ 16 → first cnt l + cnt l < 2 ^ l

theorem gen_top (cnt : Nat → Nat) (h0 : cnt 0 = 0) :
    (Legal cnt → ∃ mc, genCodes 16 ((huffSize cnt).headD 0) 0 (huffSize cnt) =
        some (codesFrom cnt 1 16, mc) ∧
      ∀ l, 1 ≤ l → l ≤ 16 → cnt l ≠ 0 → mc l = ((first cnt l + cnt l) * 2 ^ (16 - l) : Nat)) ∧
    (¬ Legal cnt → genCodes 16 ((huffSize cnt).headD 0) 0 (huffSize cnt) = none) := by
  have hh : huffSize cnt = sizesFrom cnt 1 16 := rfl
  rw [hh]
  by_cases hn : sizesFrom cnt 1 16 = []
  · obtain ⟨h1, h2⟩ := codesFrom_nil cnt 1 16 hn
    have hL : Legal cnt := by
      intro l a b
      rw [h2 l a (by omega), first_zero (cnt := cnt) (fun k hk => ?_)]
      · exact Nat.two_pow_pos _
      · rcases Nat.eq_zero_or_pos k with rfl | hk0
        · exact h0
        · exact h2 k hk0 (by omega)
    refine ⟨fun _ => ⟨fun _ => 0, ?_, fun l a b c => absurd (h2 l a (by omega)) c⟩,
      fun h => absurd hL h⟩
    rw [hn, h1]; rfl
  · obtain ⟨k, a, b, c, d, e, f⟩ := head_sizes cnt 16 1 hn
    have hz : ∀ l < k, cnt l = 0 := by
      intro l hl
      rcases Nat.eq_zero_or_pos l with rfl | hk0
      · exact h0
      · exact f l hk0 hl
    have hfz : first cnt k = 0 := first_zero hz
    rw [c, d, e]
    constructor
    · intro hL
      obtain ⟨mc, h1, h2⟩ := gen_ok cnt (1 + 16 - k) 16 k (by omega) (by omega)
        (fun l h1 h2 => hL l (by omega) h2)
      rw [hfz] at h1
      refine ⟨mc, h1, fun l h3 h4 h5 => ?_⟩
      exact h2 l (by by_contra h6; exact h5 (hz l (by omega))) h4 h5
    · intro hL
      unfold Legal at hL
      push Not at hL
      obtain ⟨l, h1, h2, h3⟩ := hL
      have hkl : k ≤ l := by
        by_contra h6
        rw [hz l (by omega), first_zero (fun j hj => hz j (by omega))] at h3
        have := Nat.two_pow_pos l
        omega
      have := gen_bad cnt (1 + 16 - k) 16 k (by omega) (by rw [hfz]; exact Nat.two_pow_pos _) l
        hkl h2 h3
      rw [hfz] at this
      exact this

/-- The codes of the table. -/
theorem code_at (cnt : Nat → Nat) (h0 : cnt 0 = 0) (l k : Nat) (h1 : 1 ≤ l) (h2 : l ≤ 16)
    (hk : k < cnt l) : (codesFrom cnt 1 16)[before cnt l + k]? = some (first cnt l + k) := by
  have := flat_getElem? (cnt := cnt) (fun l => List.range' (first cnt l) (cnt l))
    (fun l => by simp) 16 1 l k h1 (by omega) hk
  have hb : before cnt 1 = 0 := by simp [before, h0]
  rw [hb, Nat.sub_zero] at this
  rw [this, List.getElem?_range' hk, Nat.one_mul]

theorem size_at (cnt : Nat → Nat) (h0 : cnt 0 = 0) (p l : Nat) :
    (huffSize cnt)[p]? = some l ↔
      1 ≤ l ∧ l < 17 ∧ before cnt l ≤ p ∧ p < before cnt l + cnt l :=
  sizes_getElem? 1 16 p l (by simp [before, h0])

theorem offsets_spec (cnt : Nat → Nat) (h0 : cnt 0 = 0) (fuel l p : Nat) (hf : l + fuel = 17)
    (hp : p = before cnt l) (mc off : Nat → Int) :
    let r := offsets cnt (codesFrom cnt 1 16) fuel l p (mc, off)
    ∀ j, (j < l → r.1 j = mc j ∧ r.2 j = off j) ∧
      (l ≤ j → j < 17 → r.1 j = (if cnt j = 0 then -1 else mc j) ∧
        (cnt j ≠ 0 → r.2 j = (before cnt j : Int) - first cnt j)) := by
  induction fuel generalizing l p mc off with
  | zero => exact fun j => ⟨fun _ => ⟨rfl, rfl⟩, fun a b => by omega⟩
  | succ fuel ih =>
    intro r j
    by_cases hz : cnt l = 0
    · have hr : r = offsets cnt (codesFrom cnt 1 16) fuel (l + 1) p
          (fun j => if j = l then -1 else mc j, off) := by
        simp only [r, offsets, hz, if_true]
      obtain ⟨i1, i2⟩ := ih (l + 1) p (by omega) (by rw [hp, before, hz]; rfl)
        (fun j => if j = l then -1 else mc j) off j
      rw [← hr] at i1 i2
      constructor
      · intro hj
        obtain ⟨a, b⟩ := i1 (by omega)
        rw [if_neg (by omega)] at a
        exact ⟨a, b⟩
      · intro h1 h2
        rcases Nat.lt_or_ge l j with h | h
        · obtain ⟨a, b⟩ := i2 (by omega) h2
          rw [if_neg (show ¬ j = l by omega)] at a
          exact ⟨a, b⟩
        · obtain rfl : j = l := by omega
          obtain ⟨a, b⟩ := i1 (by omega)
          exact ⟨by rw [a, if_pos rfl, if_pos hz], fun h => absurd hz h⟩
    · have hr : r = offsets cnt (codesFrom cnt 1 16) fuel (l + 1) (p + cnt l)
          (mc, fun j => if j = l then (p : Int) - ((codesFrom cnt 1 16 ++ [0]).getD p 0 : Nat)
            else off j) := by
        simp only [r, offsets, hz, if_false]
      have hl1 : 1 ≤ l := by
        rcases Nat.eq_zero_or_pos l with rfl | h
        · exact absurd h0 hz
        · exact h
      have hc := code_at cnt h0 l 0 hl1 (by omega) (by omega)
      have hcp : (codesFrom cnt 1 16 ++ [0]).getD p 0 = first cnt l := by
        rw [Nat.add_zero] at hc
        rw [List.getD_eq_getElem?_getD, hp, List.getElem?_append_left
          (List.getElem?_eq_some_iff.1 hc).1, hc]
        rfl
      obtain ⟨i1, i2⟩ := ih (l + 1) (p + cnt l) (by omega) (by rw [hp, before]) mc
        (fun j => if j = l then (p : Int) - ((codesFrom cnt 1 16 ++ [0]).getD p 0 : Nat)
            else off j) j
      rw [← hr] at i1 i2
      constructor
      · intro hj
        obtain ⟨a, b⟩ := i1 (by omega)
        rw [if_neg (by omega)] at b
        exact ⟨a, b⟩
      · intro h1 h2
        rcases Nat.lt_or_ge l j with h | h
        · exact i2 (by omega) h2
        · obtain rfl : j = l := by omega
          obtain ⟨a, b⟩ := i1 (by omega)
          refine ⟨by rw [a, if_neg hz], fun _ => ?_⟩
          rw [b, if_pos rfl, hcp, hp]

/-- Filling a 512-entry table from a list of (length, index) pairs. -/
def fillAll {α} (c : Nat → Nat) (v : Nat × Nat → α) : List (Nat × Nat) → (Nat → α) →
    Option (Nat → α)
  | [], t => some t
  | e :: ss, t => (putRange t (c e.2 * 2 ^ (9 - e.1)) (2 ^ (9 - e.1)) (v e)).bind (fillAll c v ss)

theorem fillLookup_eq (codes : List Nat) (values : Nat → Nat) (ss : List (Nat × Nat))
    (t : Nat → Nat) : fillLookup codes values ss t =
      fillAll (fun p => codes.getD p 0) (fun e => e.1 * 512 + values e.2) ss t := by
  induction ss generalizing t with
  | nil => rfl
  | cons e ss ih =>
    simp only [fillLookup, fillAll]
    congr 1; funext t'; exact ih t'

theorem fillFast_eq (codes : List Nat) (ss : List (Nat × Nat))
    (t : Nat → Nat) : fillFast codes ss t =
      fillAll (fun p => codes.getD p 0) (fun e => e.2) (ss.filter (·.1 ≤ 9)) t := by
  induction ss generalizing t with
  | nil => rfl
  | cons e ss ih =>
    simp only [fillFast]
    split
    · rename_i h
      rw [List.filter_cons_of_pos (by simpa using h)]
      simp only [fillAll]
      congr 1; funext t'; exact ih t'
    · rename_i h
      rw [List.filter_cons_of_neg (by simpa using h)]
      exact ih t

theorem fillAll_spec {α} (c : Nat → Nat) (v : Nat × Nat → α) (ss : List (Nat × Nat))
    (hb : ∀ e ∈ ss, (c e.2 + 1) * 2 ^ (9 - e.1) ≤ 512) (t : Nat → α) :
    ∃ T, fillAll c v ss t = some T ∧ ∀ i,
      ((∀ e ∈ ss, i / 2 ^ (9 - e.1) ≠ c e.2) → T i = t i) ∧
      (∀ e ∈ ss, i / 2 ^ (9 - e.1) = c e.2 →
        (∀ e' ∈ ss, i / 2 ^ (9 - e'.1) = c e'.2 → e' = e) → T i = v e) := by
  induction ss generalizing t with
  | nil => exact ⟨t, rfl, fun i => ⟨fun _ => rfl, fun e he => absurd he (by simp)⟩⟩
  | cons e ss ih =>
    have h1 := hb e (by simp)
    obtain ⟨T, h2, h3⟩ := ih (fun e' h => hb e' (by simp [h]))
      (fun i => if c e.2 * 2 ^ (9 - e.1) ≤ i ∧ i < c e.2 * 2 ^ (9 - e.1) + 2 ^ (9 - e.1)
        then v e else t i)
    have hp : 0 < 2 ^ (9 - e.1) := Nat.two_pow_pos _
    have hin : ∀ i, (c e.2 * 2 ^ (9 - e.1) ≤ i ∧ i < c e.2 * 2 ^ (9 - e.1) + 2 ^ (9 - e.1)) ↔
        i / 2 ^ (9 - e.1) = c e.2 := by
      intro i
      rw [Nat.div_eq_iff hp]
      constructor
      · rintro ⟨a, b⟩; constructor <;> omega
      · rintro ⟨a, b⟩; constructor <;> omega
    refine ⟨T, ?_, fun i => ⟨fun hno => ?_, fun e' he' hm hu => ?_⟩⟩
    · simp only [fillAll, putRange]
      rw [if_pos (by rw [Nat.add_mul, Nat.one_mul] at h1; exact h1)]
      exact h2
    · rw [(h3 i).1 (fun e' he' => hno e' (by simp [he']))]
      rw [if_neg (by rw [hin]; exact hno e (by simp))]
    · by_cases hs : ∃ e'' ∈ ss, i / 2 ^ (9 - e''.1) = c e''.2
      · obtain ⟨e'', a, b⟩ := hs
        obtain rfl := hu e'' (by simp [a]) b
        exact (h3 i).2 e'' a b (fun x hx => hu x (by simp [hx]))
      · push Not at hs
        rw [(h3 i).1 hs]
        rcases List.mem_cons.1 he' with rfl | h
        · rw [if_pos ((hin i).2 hm)]
        · exact absurd hm (hs e' h)

/-- What a table built from legal counts contains. -/
structure Good (cnt values : Nat → Nat) (t : Huff) : Prop where
  zero : cnt 0 = 0
  legal : Legal cnt
  small : before cnt 17 ≤ 256
  vals : t.values = values
  look : ∀ i l, 1 ≤ l → l ≤ 9 → Match cnt 9 i l →
    t.lookup i = l * 512 + values (before cnt l + (i / 2 ^ (9 - l) - first cnt l))
  long : ∀ i, (∀ l, 1 ≤ l → l ≤ 9 → ¬ Match cnt 9 i l) → t.lookup i = 5120
  maxc : ∀ l, 1 ≤ l → l ≤ 16 → t.maxcode l =
    if cnt l = 0 then (-1 : Int) else ((first cnt l + cnt l) * 2 ^ (16 - l) : Nat)
  offs : ∀ l, 1 ≤ l → l ≤ 16 → cnt l ≠ 0 → t.offset l = (before cnt l : Int) - first cnt l

/-- Entry of the AC table for the 9 bit window `i` starting with the code of length `l` of symbol
number `p`. -/
def acEntry (values : Nat → Nat) (i l p : Nat) : Int :=
  let mag := values p % 16
  if p < 255 ∧ mag ≠ 0 ∧ l + mag ≤ 9 ∧ -128 ≤ fastValue i l mag ∧ fastValue i l mag ≤ 127 then
    fastValue i l mag * 256 + (values p / 16 % 16 : Nat) * 16 + (l + mag : Nat)
  else 0

/-- What the AC part of a table contains. -/
structure GoodAc (cnt values : Nat → Nat) (f : Nat → Int) : Prop where
  hit : ∀ i l, 1 ≤ l → l ≤ 9 → Match cnt 9 i l →
    f i = acEntry values i l (before cnt l + (i / 2 ^ (9 - l) - first cnt l))
  miss : ∀ i, (∀ l, 1 ≤ l → l ≤ 9 → ¬ Match cnt 9 i l) → f i = 0

theorem codes_getD (cnt : Nat → Nat) (h0 : cnt 0 = 0) (p l : Nat) (h1 : 1 ≤ l) (h2 : l < 17)
    (h3 : before cnt l ≤ p) (h4 : p < before cnt l + cnt l) :
    (codesFrom cnt 1 16).getD p 0 = first cnt l + (p - before cnt l) := by
  have := code_at cnt h0 l (p - before cnt l) h1 (by omega) (by omega)
  rw [show before cnt l + (p - before cnt l) = p by omega] at this
  rw [List.getD_eq_getElem?_getD, this]; rfl

/-- The pairs a table is filled from. -/
theorem short_fill {α} (cnt : Nat → Nat) (h0 : cnt 0 = 0) (hL : Legal cnt)
    (v : Nat × Nat → α) (ss : List (Nat × Nat)) (t : Nat → α)
    (hss : ∀ l p, (l, p) ∈ ss ↔ 1 ≤ l ∧ l ≤ 9 ∧ before cnt l ≤ p ∧ p < before cnt l + cnt l) :
    ∃ T, fillAll (fun p => (codesFrom cnt 1 16).getD p 0) v ss t = some T ∧
      (∀ i l, 1 ≤ l → l ≤ 9 → Match cnt 9 i l →
        T i = v (l, before cnt l + (i / 2 ^ (9 - l) - first cnt l))) ∧
      (∀ i, (∀ l, 1 ≤ l → l ≤ 9 → ¬ Match cnt 9 i l) → T i = t i) := by
  have hcode : ∀ l p, (l, p) ∈ ss →
      (codesFrom cnt 1 16).getD p 0 = first cnt l + (p - before cnt l) := by
    intro l p h
    obtain ⟨a, b, c, d⟩ := (hss l p).1 h
    exact codes_getD cnt h0 p l a (by omega) c d
  have hmatch : ∀ i l p, (l, p) ∈ ss → i / 2 ^ (9 - l) = (codesFrom cnt 1 16).getD p 0 →
      Match cnt 9 i l ∧ p = before cnt l + (i / 2 ^ (9 - l) - first cnt l) := by
    intro i l p h he
    obtain ⟨a, b, c, d⟩ := (hss l p).1 h
    rw [hcode l p h] at he
    refine ⟨⟨by omega, by omega⟩, by omega⟩
  obtain ⟨T, h1, h2⟩ := fillAll_spec (fun p => (codesFrom cnt 1 16).getD p 0) v ss
    (by
      rintro ⟨l, p⟩ he
      obtain ⟨a, b, c, d⟩ := (hss l p).1 he
      have hl := hL l a (by omega)
      simp only [hcode l p he]
      calc (first cnt l + (p - before cnt l) + 1) * 2 ^ (9 - l)
          ≤ 2 ^ l * 2 ^ (9 - l) := Nat.mul_le_mul_right _ (by omega)
        _ = 512 := by rw [← pow_add, show l + (9 - l) = 9 by omega]; norm_num) t
  refine ⟨T, h1, fun i l a b hm => ?_, fun i hno => ?_⟩
  · have hmem : (l, before cnt l + (i / 2 ^ (9 - l) - first cnt l)) ∈ ss := by
      rw [hss]; have := hm.1; have := hm.2
      exact ⟨a, b, by omega, by omega⟩
    refine (h2 i).2 _ hmem ?_ ?_
    · simp only [hcode _ _ hmem]
      have := hm.1
      omega
    · rintro ⟨l', p'⟩ he' hq
      obtain ⟨hm', hp'⟩ := hmatch i l' p' he' hq
      obtain rfl := match_unique (cnt := cnt) (by have := (hss _ _).1 he'; omega) (by omega) hm' hm
      rw [hp']
  · refine (h2 i).1 ?_
    rintro ⟨l, p⟩ he hq
    have hd := (hss l p).1 he
    exact hno l hd.1 hd.2.1 (hmatch i l p he hq).1

theorem mem_short (cnt : Nat → Nat) (h0 : cnt 0 = 0) (l p : Nat) :
    (l, p) ∈ shortSyms cnt ↔ 1 ≤ l ∧ l ≤ 9 ∧ before cnt l ≤ p ∧ p < before cnt l + cnt l := by
  rw [shortSyms, List.mem_zipIdx_iff_getElem?, sizes_getElem? 1 9 p l (by simp [before, h0])]
  constructor
  · rintro ⟨a, b, c, d⟩; exact ⟨a, by omega, c, d⟩
  · rintro ⟨a, b, c, d⟩; exact ⟨a, by omega, c, d⟩

theorem mem_filter (cnt : Nat → Nat) (h0 : cnt 0 = 0) (l p : Nat) :
    (l, p) ∈ (huffSize cnt).zipIdx.filter (·.1 ≤ 9) ↔
      1 ≤ l ∧ l ≤ 9 ∧ before cnt l ≤ p ∧ p < before cnt l + cnt l := by
  rw [List.mem_filter, List.mem_zipIdx_iff_getElem?, size_at cnt h0]
  simp only [decide_eq_true_eq]
  constructor
  · rintro ⟨⟨a, b, c, d⟩, e⟩; exact ⟨a, e, c, d⟩
  · rintro ⟨a, b, c, d⟩; exact ⟨⟨a, by omega, c, d⟩, b⟩

theorem size_length (cnt : Nat → Nat) (h0 : cnt 0 = 0) :
    (huffSize cnt).length = before cnt 17 := by
  have := flat_length (cnt := cnt) (fun l => List.replicate (cnt l) l) (fun l => by simp) 16 1
  have hb : before cnt 1 = 0 := by simp [before, h0]
  rw [hb] at this
  simpa [huffSize] using this

theorem fastEntry_eq (cnt values fast : Nat → Nat) (h0 : cnt 0 = 0) (i l p : Nat) (h1 : 1 ≤ l)
    (h2 : l ≤ 9) (h3 : before cnt l ≤ p) (h4 : p < before cnt l + cnt l) (hf : fast i = p) :
    fastEntry (huffSize cnt) values fast i = acEntry values i l p := by
  have hs : (huffSize cnt).getD p 0 = l := by
    rw [List.getD_eq_getElem?_getD, (size_at cnt h0 p l).2 ⟨h1, by omega, h3, h4⟩]; rfl
  simp only [fastEntry, acEntry, hf, hs]
  by_cases ha : p < 255
  · by_cases hb : values p % 16 ≠ 0 ∧ l + values p % 16 ≤ 9
    · by_cases hc : -128 ≤ fastValue i l (values p % 16) ∧ fastValue i l (values p % 16) ≤ 127
      · rw [if_pos ha, if_pos hb, if_pos hc, if_pos ⟨ha, hb.1, hb.2, hc.1, hc.2⟩]
      · rw [if_pos ha, if_pos hb, if_neg hc, if_neg (fun h => hc ⟨h.2.2.2.1, h.2.2.2.2⟩)]
    · rw [if_pos ha, if_neg hb, if_neg (fun h => hb ⟨h.2.1, h.2.2.1⟩)]
  · rw [if_neg ha, if_neg (fun h => ha h.1)]

theorem new_good (bits values : Nat → Nat) (isDc : Bool) (h0 : bits 0 = 0) (hL : Legal bits)
    (hn : before bits 17 ≤ 256) (hdc : isDc = true → ∀ i < before bits 17, values i ≤ 15) :
    ∃ t, Huff.new bits values isDc = .ok t ∧ Good bits values t ∧
      (isDc = false → ∃ f, t.acLookup = some f ∧ GoodAc bits values f) := by
  obtain ⟨mc, hg, hmc⟩ := (gen_top bits h0).1 hL
  obtain ⟨T, hT, hT1, hT2⟩ := short_fill bits h0 hL (fun e => e.1 * 512 + values e.2)
    (shortSyms bits) (fun _ => (9 + 1) * 512) (fun l p => mem_short bits h0 l p)
  obtain ⟨F, hF, hF1, hF2⟩ := short_fill bits h0 hL (fun e => e.2)
    ((huffSize bits).zipIdx.filter (·.1 ≤ 9)) (fun _ => 255) (fun l p => mem_filter bits h0 l p)
  have hos := offsets_spec bits h0 17 0 0 (by omega) rfl mc (fun _ => 0)
  rw [← fillLookup_eq] at hT
  rw [← fillFast_eq] at hF
  have hlen := size_length bits h0
  generalize hoff : offsets bits (codesFrom bits 1 16) 17 0 0 (mc, fun _ => 0) = r at hos
  have hchk : ¬ (isDc = true ∧ ∃ i < (huffSize bits).length, 15 < values i) := by
    rintro ⟨a, i, b, c⟩
    have := hdc a i (by omega)
    omega
  have main : ∀ ac, (if isDc then some none else
        (fillFast (codesFrom bits 1 16) (huffSize bits).zipIdx (fun _ => 255)).map fun f =>
            some (fastEntry (huffSize bits) values f)) = some ac →
      ∃ t, Huff.new bits values isDc = .ok t ∧ Good bits values t ∧ t.acLookup = ac := by
    intro ac hac
    refine ⟨{ maxcode := fun l => if l = 17 then 0xFFFFF else r.1 l,
              offset := fun l => if l = 17 then 0 else r.2 l,
              lookup := T, acLookup := ac, values := values }, ?_, ?_, rfl⟩
    · unfold Huff.new
      simp only [hlen, if_neg (show ¬ 256 < before bits 17 by omega), hg, hoff, hT, hac]
      rw [← hlen, if_neg hchk]
    · refine ⟨h0, hL, hn, rfl, hT1, fun i h => hT2 i h, fun l a b => ?_, fun l a b c => ?_⟩
      · obtain ⟨x, y⟩ := (hos l).2 (by omega) (by omega)
        simp only [if_neg (show ¬ l = 17 by omega), x]
        split
        · rfl
        · rename_i hc; exact hmc l a b hc
      · obtain ⟨x, y⟩ := (hos l).2 (by omega) (by omega)
        simp only [if_neg (show ¬ l = 17 by omega)]
        exact y c
  cases isDc with
  | true =>
    obtain ⟨t, a, b, c⟩ := main none rfl
    exact ⟨t, a, b, fun h => by simp at h⟩
  | false =>
    obtain ⟨t, a, b, c⟩ := main (some (fastEntry (huffSize bits) values F)) (by simp [hF])
    refine ⟨t, a, b, fun _ => ⟨_, c, ?_, ?_⟩⟩
    · intro i l h1 h2 hm
      refine fastEntry_eq bits values F h0 i l _ h1 h2 (by omega) ?_ (hF1 i l h1 h2 hm)
      have := hm.1; have := hm.2; omega
    · intro i h
      simp [fastEntry, hF2 i h]

theorem new_err (bits values : Nat → Nat) (isDc : Bool) (h0 : bits 0 = 0)
    (h : ¬ (Legal bits ∧ before bits 17 ≤ 256 ∧
      (isDc = true → ∀ i < before bits 17, values i ≤ 15))) :
    ∃ e, Huff.new bits values isDc = .error e ∧ (before bits 17 ≤ 256 → e = .bad) := by
  have hlen := size_length bits h0
  by_cases hn : before bits 17 ≤ 256
  · by_cases hL : Legal bits
    · have hdc : isDc = true ∧ ∃ i < before bits 17, 15 < values i := by
        by_contra hc
        refine h ⟨hL, hn, fun a i hi => ?_⟩
        by_contra hv
        exact hc ⟨a, i, hi, by omega⟩
      obtain ⟨mc, hg, hmc⟩ := (gen_top bits h0).1 hL
      obtain ⟨T, hT, hT1, hT2⟩ := short_fill bits h0 hL (fun e => e.1 * 512 + values e.2)
        (shortSyms bits) (fun _ => (9 + 1) * 512) (fun l p => mem_short bits h0 l p)
      rw [← fillLookup_eq] at hT
      refine ⟨.bad, ?_, fun _ => rfl⟩
      unfold Huff.new
      simp only [hlen, if_neg (show ¬ 256 < before bits 17 by omega), hg, hT, hdc.1, if_true]
      rw [if_pos ⟨trivial, hdc.2⟩]
    · refine ⟨.bad, ?_, fun _ => rfl⟩
      unfold Huff.new
      simp only [hlen, if_neg (show ¬ 256 < before bits 17 by omega), (gen_top bits h0).2 hL]
  · refine ⟨.panic, ?_, fun q => absurd q hn⟩
    unfold Huff.new
    simp only [hlen, if_pos (show 256 < before bits 17 by omega)]

theorem new_bad (bits values : Nat → Nat) (isDc : Bool) (h0 : bits 0 = 0)
    (h : ¬ (Legal bits ∧ before bits 17 ≤ 256 ∧
      (isDc = true → ∀ i < before bits 17, values i ≤ 15))) :
    ∃ e, Huff.new bits values isDc = .error e := by
  obtain ⟨e, a, _⟩ := new_err bits values isDc h0 h
  exact ⟨e, a⟩

/-! ## Decoding -/

theorem searchLen_spec (mc : Nat → Int) (w : Nat) (fuel l : Nat) (m : Nat) (h1 : l ≤ m)
    (h2 : m < l + fuel) (h3 : (w : Int) < mc m) (h4 : ∀ j, l ≤ j → j < m → ¬ (w : Int) < mc j) :
    searchLen mc w fuel l = m := by
  induction fuel generalizing l with
  | zero => omega
  | succ fuel ih =>
    rcases Nat.lt_or_ge l m with h | h
    · rw [searchLen, if_neg (h4 l (le_refl _) h)]
      exact ih (l + 1) (by omega) (by omega) (fun j a b => h4 j (by omega) b)
    · obtain rfl : l = m := by omega
      rw [searchLen, if_pos h3]

theorem searchLen_none (mc : Nat → Int) (w : Nat) (fuel l : Nat)
    (h4 : ∀ j, l ≤ j → j < l + fuel → ¬ (w : Int) < mc j) :
    searchLen mc w fuel l = l + fuel := by
  induction fuel generalizing l with
  | zero => rfl
  | succ fuel ih =>
    rw [searchLen, if_neg (h4 l (le_refl _) (by omega)), ih (l + 1)
      (fun j a b => h4 j (by omega) (by omega))]
    omega

theorem maxc_lt {cnt values : Nat → Nat} {t : Huff} (g : Good cnt values t) (w l : Nat)
    (h1 : 1 ≤ l) (h2 : l ≤ 16) :
    (w : Int) < t.maxcode l ↔ cnt l ≠ 0 ∧ w < (first cnt l + cnt l) * 2 ^ (16 - l) := by
  rw [g.maxc l h1 h2]
  split
  · rename_i h; constructor
    · intro h'; omega
    · rintro ⟨h', _⟩; exact absurd h h'
  · rename_i h; constructor
    · intro h'; exact ⟨h, by exact_mod_cast h'⟩
    · rintro ⟨_, h'⟩; exact_mod_cast h'

theorem no_short {cnt : Nat → Nat} (w l : Nat) (h1 : 9 < l) (h2 : l ≤ 16) (hm : Match cnt 16 w l)
    (m : Nat) (h4 : m ≤ 9) : ¬ Match cnt 9 (w / 2 ^ 7) m := by
  intro h
  have := (match_cut (cnt := cnt) (N := 16) (M := 9) (w := w) (l := m) (by omega) h4).1 h
  have := match_unique (by omega) (by omega) this hm
  omega

theorem decode_match {cnt values : Nat → Nat} {t : Huff} (g : Good cnt values t)
    (hv : ∀ p, values p < 256) (w l : Nat) (h1 : 1 ≤ l) (h2 : l ≤ 16) (hm : Match cnt 16 w l) :
    t.decode w = some (values (before cnt l + (w / 2 ^ (16 - l) - first cnt l)), l) := by
  rcases Nat.lt_or_ge 9 l with h | h
  · have hlong := g.long (w / 2 ^ 7) (fun m _ b => no_short w l h h2 hm m b)
    have hs : searchLen t.maxcode w 7 10 = l := by
      refine searchLen_spec _ _ _ _ _ (by omega) (by omega) ?_ ?_
      · rw [maxc_lt g w l h1 h2]
        exact ⟨match_pos hm, (match_iff.1 hm).2⟩
      · intro j a b
        rw [maxc_lt g w j (by omega) (by omega)]
        rintro ⟨_, c⟩
        have := start_le (cnt := cnt) (N := 16) l b h2
        have := (match_iff.1 hm).1
        omega
    unfold Huff.decode
    simp only [hlong, show (5120 : Nat) / 512 = 10 from rfl, show (9 : Nat) < 10 by omega, if_true,
      show 17 - 10 = 7 from rfl, hs, if_neg (show ¬ l = 17 by omega), g.vals,
      g.offs l h1 h2 (match_pos hm)]
    have ha := hm.1
    have hb := hm.2
    have hc := before_mono (cnt := cnt) (l := l + 1) (m := 17) (by omega)
    have hd := g.small
    rw [show before cnt (l + 1) = before cnt l + cnt l from rfl] at hc
    have : (((w / 2 ^ (16 - l) : Nat) : Int) + ((before cnt l : Int) - first cnt l)) % 256 =
        ((before cnt l + (w / 2 ^ (16 - l) - first cnt l) : Nat) : Int) := by
      generalize w / 2 ^ (16 - l) = q at *
      omega
    rw [this]
    rfl
  · have hm9 : Match cnt 9 (w / 2 ^ 7) l :=
      (match_cut (cnt := cnt) (N := 16) (M := 9) (w := w) (by omega) h).2 hm
    have hl := g.look (w / 2 ^ 7) l h1 h hm9
    rw [Nat.div_div_eq_div_mul, ← pow_add, show 7 + (9 - l) = 16 - l by omega] at hl
    have hvp := hv (before cnt l + (w / 2 ^ (16 - l) - first cnt l))
    unfold Huff.decode
    simp only [hl]
    generalize values (before cnt l + (w / 2 ^ (16 - l) - first cnt l)) = v at *
    rw [show (l * 512 + v) / 512 = l by omega, show (l * 512 + v) % 512 = v by omega,
      if_neg (by omega)]

theorem decode_none {cnt values : Nat → Nat} {t : Huff} (g : Good cnt values t) (w : Nat)
    (hno : ∀ l, 1 ≤ l → l ≤ 16 → ¬ Match cnt 16 w l) : t.decode w = none := by
  have hlong := g.long (w / 2 ^ 7) (fun m a b h => hno m a (by omega)
    ((match_cut (cnt := cnt) (N := 16) (M := 9) (w := w) (by omega) b).1 h))
  have hs : searchLen t.maxcode w 7 10 = 17 := by
    refine searchLen_none _ _ _ _ ?_
    intro j a b
    rw [maxc_lt g w j (by omega) (by omega)]
    rintro ⟨_, c⟩
    obtain ⟨l, hl, hm⟩ := match_cover (cnt := cnt) (N := 16) j (by omega) c
    rcases Nat.eq_zero_or_pos l with rfl | h
    · exact match_pos hm g.zero
    · exact hno l h (by omega) hm
  unfold Huff.decode
  simp only [hlong, show (5120 : Nat) / 512 = 10 from rfl, show (9 : Nat) < 10 by omega, if_true,
      show 17 - 10 = 7 from rfl, hs]

/-! ## Extra bits -/

/-- EXTEND of the JPEG standard (T.81, Figure F.12): the number coded by the `t` extra bits `v`. -/
def extend (v t : Nat) : Int := if v < 2 ^ (t - 1) then (v : Int) - 2 ^ t + 1 else v

theorem fastValue_eq (i l m : Nat) (h : l + m ≤ 9) :
    fastValue i l m = extend (i / 2 ^ (9 - l - m) % 2 ^ m) m := by
  have hk : (i * 2 ^ l) % 512 / 2 ^ (9 - m) = i / 2 ^ (9 - l - m) % 2 ^ m := by
    have e1 : (512 : Nat) = 2 ^ l * 2 ^ (9 - l) := by
      rw [← pow_add, show l + (9 - l) = 9 by omega]; norm_num
    have e2 : 2 ^ (9 - m) = 2 ^ l * 2 ^ (9 - l - m) := by
      rw [← pow_add]; congr 1; omega
    have e3 : 2 ^ (9 - l) = 2 ^ (9 - l - m) * 2 ^ m := by
      rw [← pow_add]; congr 1; omega
    rw [e1, e2, Nat.mul_comm i, Nat.mul_mod_mul_left, Nat.mul_div_mul_left _ _ (Nat.two_pow_pos _),
      e3, Nat.mod_mul_right_div_self]
  simp only [fastValue, extend, hk]
  split
  · push_cast; ring
  · rfl

theorem sign_spread (x p : Nat) (hx : x < 65536) (hp : p < 65536) :
    (BitVec.ofNat 32 x - BitVec.ofNat 32 p).sshiftRight 31 =
      if x < p then BitVec.allOnes 32 else 0#32 := by
  have hd : (BitVec.ofNat 32 x - BitVec.ofNat 32 p).toInt = (x : Int) - p := by
    rw [BitVec.toInt_sub, BitVec.toInt_ofNat', BitVec.toInt_ofNat']
    rw [Int.bmod_eq_of_le (n := (x : Int)) (by omega) (by omega),
      Int.bmod_eq_of_le (n := (p : Int)) (by omega) (by omega),
      Int.bmod_eq_of_le (by omega) (by omega)]
  apply BitVec.eq_of_toInt_eq
  rw [BitVec.toInt_sshiftRight, hd, Int.shiftRight_eq_div_pow]
  split
  · rename_i h
    rw [BitVec.toInt_allOnes]
    simp only [show (0 : Nat) < 32 by omega, if_true]
    omega
  · rename_i h
    simp only [BitVec.toInt_zero]
    omega

theorem huffExtend_core (x p q : Nat) (hx : x < 65536) (hp : p < 65536) (hq : q ≤ 65536)
    (a b : BitVec 32) (ha : a = BitVec.ofNat 32 p) (hb : b.toInt = 1 - (q : Int)) :
    (BitVec.ofNat 32 x + ((BitVec.ofNat 32 x - a).sshiftRight 31 &&& b)).toInt =
      if x < p then (x : Int) - q + 1 else x := by
  have h1 : (BitVec.ofNat 32 x).toInt = x := by
    rw [BitVec.toInt_ofNat', Int.bmod_eq_of_le (by omega) (by omega)]
  rw [ha, sign_spread x p hx hp]
  split
  · rw [BitVec.allOnes_and, BitVec.toInt_add, h1, hb, Int.bmod_eq_of_le (by omega) (by omega)]
    omega
  · rw [BitVec.zero_and, BitVec.add_zero, h1]

end Zune.Jpeg
