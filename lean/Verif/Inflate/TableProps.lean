/-
C13: the decode tables of inflate decode the canonical code of RFC 1951 section 3.2.2 (`Prefix.word`), and the construction accepts exactly
the complete codes, the code with one codeword of one bit, and the empty code.
-/
import Verif.Inflate.TableTotal

namespace Zune.Inflate

open Prefix (cnt rank code msb word Used weight)

/-- Reading one symbol from the stream value `v`, as the loops do (decoder.rs:1002-1016; the pointer flag is `0x4000`): the entry found and
    the number of bits dropped before its own bits are. -/
def lookup (tb : List Nat) (T v : Nat) : Option (Nat × Nat) :=
  tb[v % 2 ^ T]?.bind fun e =>
    if e.testBit 14 then tb[(e >>> 16) + v / 2 ^ T % 2 ^ ((e >>> 8) &&& 0x3f)]?.map (·, T) else some (e, 0)

/-- Static parts of entries that leave the length bits and the pointer flag alone. -/
def Plain (r : Nat) : Prop := r.testBit 14 = false ∧ r % 2 ^ 14 ≤ 0x2000

instance (r : Nat) : Decidable (Plain r) := inferInstanceAs (Decidable (_ ∧ _))

theorem plain_add {r k : Nat} (h : Plain r) (hk : k ≤ 15) : (r + 257 * k).testBit 14 = false := by
  obtain ⟨h1, h2⟩ := h
  rw [Nat.testBit_eq_decide_div_mod_eq] at h1 ⊢
  simp only [decide_eq_false_iff_not] at h1 ⊢
  obtain ⟨q, x, rfl, hx⟩ : ∃ q x, r = 32768 * q + x ∧ x ≤ 8192 := ⟨r / 32768, r % 32768, by omega, by omega⟩
  have h3 : (32768 * q + x + 257 * k) / 2 ^ 14 = 2 * q := by omega
  omega

theorem tableEntry_eq {results : List Nat} {s k r : Nat} (h : results[s]? = some r) : tableEntry results s k = some (r + 257 * k) := by
  rw [tableEntry, h, Option.map_some, Nat.shiftLeft_eq]
  congr 1
  omega

theorem pointer_fields {start bits T : Nat} (hb : bits < 64) (hT : T < 256) :
    (pointer start bits T).testBit 14 = true ∧ pointer start bits T >>> 16 = start ∧ (pointer start bits T >>> 8) &&& 0x3f = bits := by
  have hT' : ∀ i, 8 ≤ i → T.testBit i = false := fun i hi =>
    Nat.testBit_lt_two_pow (lt_of_lt_of_le hT (by rw [show (256 : Nat) = 2 ^ 8 by rfl]; exact Nat.pow_le_pow_right (by decide) hi))
  have hy' : ∀ i, 6 ≤ i → bits.testBit i = false := fun i hi =>
    Nat.testBit_lt_two_pow (lt_of_lt_of_le hb (by rw [show (64 : Nat) = 2 ^ 6 by rfl]; exact Nat.pow_le_pow_right (by decide) hi))
  rw [pointer, show (0x8000 : Nat) = 2 ^ 15 by rfl, show (0x4000 : Nat) = 2 ^ 14 by rfl, show (0x3f : Nat) = 2 ^ 6 - 1 by rfl]
  refine ⟨?_, ?_, ?_⟩
  · simp only [Nat.testBit_or, Nat.testBit_shiftLeft, Nat.testBit_two_pow]
    simp
  · apply Nat.eq_of_testBit_eq
    intro i
    simp only [Nat.testBit_shiftRight, Nat.testBit_or, Nat.testBit_shiftLeft, Nat.testBit_two_pow]
    simp [hT' (16 + i) (by omega), hy' (16 + i - 8) (by omega), show ¬ 15 = 16 + i by omega, show ¬ 14 = 16 + i by omega]
  · apply Nat.eq_of_testBit_eq
    intro i
    simp only [Nat.testBit_and, Nat.testBit_two_pow_sub_one, Nat.testBit_shiftRight, Nat.testBit_or, Nat.testBit_shiftLeft, Nat.testBit_two_pow]
    by_cases hi : i < 6
    · simp [hi, hT' (8 + i) (by omega), show ¬ 16 ≤ 8 + i by omega, show ¬ 15 = 8 + i by omega, show ¬ 14 = 8 + i by omega]
    · simp [hi, hy' i (by omega)]

theorem lookup_of {lens results tb : List Nat} {T s v r : Nat} (hT : T ≤ 15) (hl : Lookup lens results tb T s) (hr : results[s]? = some r)
    (hp : Plain r) (h15 : lens.getD s 0 ≤ 15) (hv : lsb (lens.getD s 0) v = word lens s) :
    lookup tb T v = some (r + 257 * (lens.getD s 0 - if lens.getD s 0 ≤ T then 0 else T), if lens.getD s 0 ≤ T then 0 else T) := by
  rw [lookup]
  by_cases h : lens.getD s 0 ≤ T
  · have h1 := hl.1 h (v % 2 ^ T) (Nat.mod_lt _ (Nat.two_pow_pos _)) (by rw [lsb_mod_le h]; exact hv)
    rw [h1, tableEntry_eq hr, if_pos h, Nat.sub_zero]
    simp only [Option.bind_some]
    rw [plain_add hp h15]
    rfl
  · obtain ⟨st, bt, hs⟩ := hl.2 (by omega)
    have hlen := hs.len
    have hhi := hs.hi
    have hsplit := lsb_prefix (m := T) (n := lens.getD s 0) (by omega) v
    rw [hv] at hsplit
    have hslot : v % 2 ^ T = slot lens T s := by
      rw [slot, hsplit, List.take_left' (by simp), lval_lsb]
    have hdrop : (word lens s).drop T = lsb (lens.getD s 0 - T) (v / 2 ^ T) := by
      rw [hsplit, List.drop_left' (by simp)]
    obtain ⟨p1, p2, p3⟩ := pointer_fields (start := st) (bits := bt) (T := T) (by omega) (by omega)
    rw [hslot, hs.ptr, if_neg h]
    simp only [Option.bind_some]
    rw [p1, p2, p3, hs.ent _ (Nat.mod_lt _ (Nat.two_pow_pos _)) (by rw [lsb_mod_le (by omega), hdrop]), tableEntry_eq hr]
    rfl

/-- What a table must do for the code with the given lengths: the codeword of any symbol, followed by anything, leads to the entry of that
    symbol; the bits dropped and the length bits of the entry add up to the length of the codeword. -/
def Decodes (lens results tb : List Nat) (T : Nat) : Prop :=
  ∀ s, Used lens s → ∀ v, lsb (lens.getD s 0) v = word lens s →
    ∃ r base k, results[s]? = some r ∧ lookup tb T v = some (r + 257 * k, base) ∧ base + k = lens.getD s 0 ∧ (base = 0 ∨ base = T) ∧ k ≤ 15

theorem buildTable_decodes {lens results tb : List Nat} {size T : Nat} (hk : Complete lens) (hn : lens.length ≤ 288) (hr : lens.length ≤ results.length)
    (hp : ∀ r ∈ results, Plain r) (hT : T ≤ 15) (h : buildTable lens results size T = .ok tb) : Decodes lens results tb T := by
  intro s hs v hv
  have hlt := Prefix.used_lt hs
  have h15 := hk.le _ (getD_mem hlt)
  have hres : results[s]? = some (results[s]'(by omega)) := List.getElem?_eq_getElem _
  refine ⟨_, _, _, hres, lookup_of hT (buildTable_lookup hk hn h s hs) hres (hp _ (List.getElem_mem _)) h15 hv, ?_, ?_, ?_⟩
  · split <;> omega
  · split
    · exact Or.inl rfl
    · exact Or.inr rfl
  · omega

theorem litlen_plain : litlenResults.length = 288 ∧ ∀ r ∈ litlenResults, Plain r := by decide +kernel

theorem offset_plain : offsetResults.length = 32 ∧ ∀ r ∈ offsetResults, Plain r := by decide +kernel

theorem precode_plain : precodeResults.length = 19 ∧ ∀ r ∈ precodeResults, Plain r := by decide +kernel

/-- **C13** (literal/length code): for every complete code of at most 288 symbols and 15 bits the table is built within its 2342 entries, and it
    decodes every codeword. -/
theorem c13_litlen {lens : List Nat} (hk : Complete lens) (hn : lens.length ≤ 288) :
    ∃ tb, buildTable lens litlenResults 2342 11 = .ok tb ∧ Decodes lens litlenResults tb 11 := by
  obtain ⟨tb, h⟩ := litlen_total hk hn (results := litlenResults) (by rw [litlen_plain.1]; exact hn)
  exact ⟨tb, h, buildTable_decodes hk hn (by rw [litlen_plain.1]; exact hn) litlen_plain.2 (by decide) h⟩

/-- **C13** (offset code): for every complete code of at most 32 symbols and 15 bits the table is built within its 512 entries, and it decodes
    every codeword. -/
theorem c13_offset {lens : List Nat} (hk : Complete lens) (hn : lens.length ≤ 32) :
    ∃ tb, buildTable lens offsetResults 512 8 = .ok tb ∧ Decodes lens offsetResults tb 8 := by
  obtain ⟨tb, h⟩ := offset_total hk hn (results := offsetResults) (by rw [offset_plain.1]; exact hn)
  exact ⟨tb, h, buildTable_decodes hk (by omega) (by rw [offset_plain.1]; exact hn) offset_plain.2 (by decide) h⟩

/-- **C13** (precode): for every complete code of at most 19 symbols and 7 bits the table is built within its 128 entries, and it decodes every
    codeword. -/
theorem c13_precode {lens : List Nat} (hk : Complete lens) (h7 : ∀ l ∈ lens, l ≤ 7) (hn : lens.length ≤ 19) :
    ∃ tb, buildTable lens precodeResults 128 7 = .ok tb ∧ Decodes lens precodeResults tb 7 := by
  obtain ⟨tb, h⟩ := precode_total hk h7 hn (results := precodeResults) (by rw [precode_plain.1]; exact hn)
  exact ⟨tb, h, buildTable_decodes hk (by omega) (by rw [precode_plain.1]; exact hn) precode_plain.2 (by decide) h⟩

/-- The lengths of the static code of RFC 1951 section 3.2.6. -/
def staticLens : List Nat := List.replicate 144 8 ++ List.replicate 112 9 ++ List.replicate 24 7 ++ List.replicate 8 8

theorem static_complete : Complete staticLens := ⟨by decide +kernel, by decide +kernel⟩

/-- A code with words of 1 to 15 bits, two of them of 15 bits, so that a subtable is needed. -/
example : Complete [1, 2, 3, 4, 5, 6, 7, 8, 9, 10, 11, 12, 13, 14, 15, 15] ∧ Used [1, 2, 3, 4, 5, 6, 7, 8, 9, 10, 11, 12, 13, 14, 15, 15] 14 ∧
    lsb 15 0x3fff = word [1, 2, 3, 4, 5, 6, 7, 8, 9, 10, 11, 12, 13, 14, 15, 15] 14 := ⟨⟨by decide, by decide⟩, by unfold Used; decide, by decide⟩

example : Complete staticLens ∧ staticLens.length ≤ 288 ∧ Used staticLens 65 ∧ lsb 8 0x8e = word staticLens 65 :=
  ⟨static_complete, by decide +kernel, by unfold Used; decide +kernel, by decide +kernel⟩

/-! ### Which codes are accepted -/

/-- One codeword, of one bit. -/
def Single (lens : List Nat) (s : Nat) : Prop := lens.getD s 0 = 1 ∧ ∀ t, Used lens t → t = s

theorem maxLen_scale {lens : List Nat} (h15 : ∀ l ∈ lens, l ≤ 15) :
    weight 15 lens = codespace lens (maxLen lens 15) * 2 ^ (15 - maxLen lens 15) ∧ (2 : Nat) ^ 15 = 2 ^ maxLen lens 15 * 2 ^ (15 - maxLen lens 15) := by
  obtain ⟨c1, c2⟩ := codespace_weight h15
  have hm := (maxLen_le lens 15).1
  refine ⟨?_, by rw [← pow_add]; congr 1; omega⟩
  rw [c1]
  have := Prefix.weight_scale c2 (15 - maxLen lens 15)
  rwa [show maxLen lens 15 + (15 - maxLen lens 15) = 15 by omega] at this

theorem weight_zero {N : Nat} {lens : List Nat} : weight N lens = 0 ↔ ∀ l ∈ lens, l = 0 := by
  induction lens with
  | nil => simp [weight]
  | cons l lens ih =>
    rw [Prefix.weight_cons, Nat.add_eq_zero_iff, ih]
    have hp := Nat.two_pow_pos (N - l)
    simp only [List.mem_cons, forall_eq_or_imp]
    constructor
    · rintro ⟨a, b⟩
      refine ⟨?_, b⟩
      split at a
      · assumption
      · omega
    · rintro ⟨rfl, b⟩
      exact ⟨by simp, b⟩

/-- An overfull code is refused. -/
theorem c13_overfull {lens results : List Nat} {size T : Nat} (h15 : ∀ l ∈ lens, l ≤ 15) (hn : lens.length ≤ 288) (h : 2 ^ 15 < weight 15 lens) :
    buildTable lens results size T = .error .generic := by
  obtain ⟨offs, sorted, e1, e2, e3, e4⟩ := sorted_spec h15 hn
  obtain ⟨w1, w2⟩ := maxLen_scale h15
  rw [w1, w2] at h
  rw [buildTable]
  simp only [e1, Nat.one_shiftLeft]
  rw [if_pos (Nat.lt_of_mul_lt_mul_right h)]

/-- The empty code: every stream leads to the first symbol. -/
theorem c13_empty {lens results : List Nat} {size T r : Nat} (hn : lens.length ≤ 288) (h : ∀ l ∈ lens, l = 0) (hr : results[0]? = some r) :
    buildTable lens results size T = .ok (List.replicate size (r + 257)) := by
  have h15 : ∀ l ∈ lens, l ≤ 15 := fun l hl => by rw [h l hl]; omega
  obtain ⟨offs, sorted, e1, e2, e3, e4⟩ := sorted_spec h15 hn
  obtain ⟨w1, w2⟩ := maxLen_scale h15
  have hz : codespace lens (maxLen lens 15) = 0 := by
    rw [weight_zero.2 h] at w1
    have := Nat.two_pow_pos (15 - maxLen lens 15)
    rcases Nat.mul_eq_zero.1 w1.symm with h | h
    · exact h
    · omega
  rw [buildTable]
  have hp := Nat.two_pow_pos (maxLen lens 15)
  simp only [e1, Nat.one_shiftLeft, hz]
  rw [if_neg (by omega), if_pos hp, if_pos trivial, tableEntry_eq hr]

theorem single_facts {lens : List Nat} {s : Nat} (h : Single lens s) : s < lens.length ∧ rank lens s = 0 ∧ lens.count 1 = 1 ∧ (∀ N, 1 ≤ N → weight N lens = 2 ^ (N - 1)) ∧
    ∀ l ∈ lens, l ≤ 1 := by
  obtain ⟨h1, h2⟩ := h
  have hs : Used lens s := by rw [Used, h1]; omega
  have hlt := Prefix.used_lt hs
  have hsplit : lens = lens.take s ++ lens[s] :: lens.drop (s + 1) := by
    rw [← List.drop_eq_getElem_cons hlt, List.take_append_drop]
  have hsv : lens[s] = 1 := by simpa [List.getD_eq_getElem?_getD, hlt] using h1
  have ha : ∀ l ∈ lens.take s, l = 0 := by
    intro l hl
    obtain ⟨i, hi, rfl⟩ := List.getElem_of_mem hl
    by_contra hne
    rw [List.length_take] at hi
    have := h2 i (by rw [Used]; simpa [List.getD_eq_getElem?_getD, show i < lens.length by omega] using hne)
    omega
  have hb : ∀ l ∈ lens.drop (s + 1), l = 0 := by
    intro l hl
    obtain ⟨i, hi, rfl⟩ := List.getElem_of_mem hl
    by_contra hne
    rw [List.length_drop] at hi
    have := h2 (s + 1 + i) (by rw [Used]; simpa [List.getD_eq_getElem?_getD, show s + 1 + i < lens.length by omega] using hne)
    omega
  refine ⟨hlt, ?_, ?_, ?_, ?_⟩
  · rw [rank, h1, List.count_eq_zero]
    intro hm
    have := ha 1 hm
    omega
  · rw [hsplit, hsv, List.count_append, List.count_cons_self, List.count_eq_zero.2 (fun hm => by have := ha 1 hm; omega),
      List.count_eq_zero.2 (fun hm => by have := hb 1 hm; omega)]
  · intro N hN
    rw [hsplit, hsv, Prefix.weight_append, Prefix.weight_cons, weight_zero.2 ha, weight_zero.2 hb]
    simp
  · rw [hsplit, hsv]
    intro l hl
    rcases List.mem_append.1 hl with h | h
    · rw [ha l h]; omega
    · rcases List.mem_cons.1 h with h | h
      · omega
      · rw [hb l h]; omega

/-- One codeword of one bit: every stream leads to its symbol, with length 1. -/
theorem c13_single {lens results : List Nat} {size T s r : Nat} (hn : lens.length ≤ 288) (h : Single lens s) (hr : results[s]? = some r) :
    buildTable lens results size T = .ok (List.replicate size (r + 257)) := by
  obtain ⟨f1, f2, f3, f4, f5⟩ := single_facts h
  have h15 : ∀ l ∈ lens, l ≤ 15 := fun l hl => by have := f5 l hl; omega
  obtain ⟨offs, sorted, e1, e2, e3, e4⟩ := sorted_spec h15 hn
  obtain ⟨c1, c2⟩ := codespace_weight h15
  have hm := (maxLen_le lens 15).2 (by decide)
  have hp := Nat.two_pow_pos (maxLen lens 15 - 1)
  have hpow : 2 ^ maxLen lens 15 = 2 ^ (maxLen lens 15 - 1) * 2 := by rw [← pow_succ]; congr 1; omega
  have hi := e4 s f1
  rw [f2, h.1] at hi
  rw [buildTable]
  simp only [e1, Nat.one_shiftLeft, c1, f4 _ hm]
  rw [if_neg (by omega), if_pos (by omega), if_neg (by omega), if_neg (by simp [f3]), e2, show lens.count 0 = startOf lens 1 + 0 from rfl, hi]
  simp only [Option.bind_some]
  rw [tableEntry_eq hr]

/-- Every other code is refused. -/
theorem c13_refused {lens results : List Nat} {size T : Nat} (h15 : ∀ l ∈ lens, l ≤ 15) (hn : lens.length ≤ 288) (h1 : ¬ Complete lens)
    (h2 : ¬ ∃ s, Single lens s) (h3 : ∃ l ∈ lens, l ≠ 0) : buildTable lens results size T = .error .generic := by
  rcases Nat.lt_trichotomy (weight 15 lens) (2 ^ 15) with h | h | h
  · obtain ⟨offs, sorted, e1, e2, e3, e4⟩ := sorted_spec h15 hn
    obtain ⟨w1, w2⟩ := maxLen_scale h15
    have hm := (maxLen_le lens 15).2 (by decide)
    have hlt : codespace lens (maxLen lens 15) < 2 ^ maxLen lens 15 := by
      rw [w1, w2] at h
      exact Nat.lt_of_mul_lt_mul_right h
    have hne : codespace lens (maxLen lens 15) ≠ 0 := by
      intro h0
      rw [h0, Nat.zero_mul, weight_zero] at w1
      obtain ⟨l, a, b⟩ := h3
      exact b (w1 l a)
    have hcond : codespace lens (maxLen lens 15) ≠ 2 ^ (maxLen lens 15 - 1) ∨ lens.count 1 ≠ 1 := by
      by_contra hc
      push Not at hc
      obtain ⟨a, b⟩ := hc
      apply h2
      obtain ⟨s, s1, s2, s3⟩ := exists_rank (l := 1) lens 0 (by omega)
      refine ⟨s, s2, ?_⟩
      have hw : weight 15 lens = 2 ^ 14 := by
        rw [w1, a, ← pow_add]
        congr 1
        have := (maxLen_le lens 15).1
        omega
      have hsplit : lens = lens.take s ++ lens[s] :: lens.drop (s + 1) := by
        rw [← List.drop_eq_getElem_cons s1, List.take_append_drop]
      have hsv : lens[s] = 1 := by simpa [List.getD_eq_getElem?_getD, s1] using s2
      rw [hsplit, hsv, Prefix.weight_append, Prefix.weight_cons] at hw
      norm_num at hw
      obtain ⟨wa, wb⟩ : weight 15 (lens.take s) = 0 ∧ weight 15 (lens.drop (s + 1)) = 0 := by omega
      rw [weight_zero] at wa wb
      intro t ht
      have htl := Prefix.used_lt ht
      by_contra hts
      apply ht
      rw [List.getD_eq_getElem?_getD]
      rcases Nat.lt_or_gt_of_ne hts with h | h
      · have := wa (lens[t]) (by
          rw [List.mem_take_iff_getElem]
          exact ⟨t, by omega, rfl⟩)
        simp [htl, this]
      · have := wb (lens[t]) (by
          rw [List.mem_drop_iff_getElem]
          exact ⟨t - (s + 1), by omega, by congr 1; omega⟩)
        simp [htl, this]
    rw [buildTable]
    simp only [e1, Nat.one_shiftLeft]
    rw [if_neg (by omega), if_pos hlt, if_neg hne, if_pos hcond]
  · exact absurd ⟨h15, h⟩ h1
  · exact c13_overfull h15 hn h

example : Single [0, 0, 1, 0] 2 := ⟨rfl, by
  intro t ht
  have := Prefix.used_lt ht
  simp at this
  have h : t = 0 ∨ t = 1 ∨ t = 2 ∨ t = 3 := by omega
  rcases h with rfl | rfl | rfl | rfl
  · exact absurd ht (by unfold Used; decide)
  · exact absurd ht (by unfold Used; decide)
  · rfl
  · exact absurd ht (by unfold Used; decide)⟩

example : 2 ^ 15 < weight 15 [1, 1, 2] ∧ ¬ Complete [1, 2] ∧ ∃ l ∈ [1, 2], l ≠ 0 :=
  ⟨by decide, fun h => absurd h.full (by decide), 1, by decide, by decide⟩

end Zune.Inflate
