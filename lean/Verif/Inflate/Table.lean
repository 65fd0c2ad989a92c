/-
Correctness of the construction of Huffman decode tables, towards C13.
-/
import Verif.Inflate.TableModel
import Verif.Common.Prefix

namespace Zune.Inflate

open Prefix (cnt rank code msb word Used weight)

/-! ### Bits -/

theorem lsb_getElem? (n v i : Nat) (h : i < n) : (lsb n v)[i]? = some (v.testBit i) := by
  induction n generalizing v i with
  | zero => omega
  | succ n ih =>
    cases i with
    | zero => simp [lsb, Nat.testBit_zero, BEq.beq]
    | succ i => simp [lsb, ih (v / 2) i (by omega), Nat.testBit_succ]

theorem lsb_eq_msb {n a b : Nat} : lsb n a = msb n b ↔ ∀ i < n, a.testBit i = b.testBit (n - 1 - i) := by
  constructor
  · intro h i hi
    have h1 := congrArg (·[i]?) h
    simp only [lsb_getElem? n a i hi] at h1
    rw [msb, List.getElem?_reverse (by simpa using hi), lsb_length, lsb_getElem? n b _ (by omega)] at h1
    simpa using h1
  · intro h
    apply List.ext_getElem?
    intro i
    by_cases hi : i < n
    · rw [lsb_getElem? n a i hi, msb, List.getElem?_reverse (by simpa using hi), lsb_length, lsb_getElem? n b _ (by omega), h i hi]
    · rw [List.getElem?_eq_none (by simpa using hi), List.getElem?_eq_none (by simpa using hi)]

theorem testBit_add_one {c a : Nat} (h0 : c.testBit a = false) (h1 : ∀ j < a, c.testBit j = true) (j : Nat) :
    (c + 1).testBit j = if j < a then false else if j = a then true else c.testBit j := by
  have hm : c % 2 ^ (a + 1) = 2 ^ a - 1 := by
    apply Nat.eq_of_testBit_eq
    intro i
    rw [Nat.testBit_mod_two_pow, Nat.testBit_two_pow_sub_one]
    by_cases hi : i < a
    · simp [hi, h1 i hi, show i < a + 1 by omega]
    · by_cases hia : i = a
      · subst hia; simp [h0]
      · simp [hi, show ¬ i < a + 1 by omega]
  have hp := Nat.two_pow_pos a
  have hc : c + 1 = 2 ^ (a + 1) * (c / 2 ^ (a + 1)) + 2 ^ a := by
    have := Nat.div_add_mod c (2 ^ (a + 1))
    omega
  rw [hc, Nat.testBit_two_pow_mul_add _ (by rw [pow_succ]; omega)]
  by_cases hj : j < a
  · rw [if_pos (by omega), if_pos hj, Nat.testBit_two_pow]; simp; omega
  · by_cases hja : j = a
    · subst hja; simp
    · rw [if_neg (by omega), if_neg hj, if_neg hja, Nat.testBit_div_two_pow]
      congr 1; omega

theorem nextWord_spec {len cw c : Nat} (hcw : cw < 2 ^ len) (h : lsb len cw = msb len c) (hc : cw ≠ 2 ^ len - 1) :
    nextWord cw (2 ^ len) < 2 ^ len ∧ lsb len (nextWord cw (2 ^ len)) = msb len (c + 1) := by
  rw [lsb_eq_msb] at h
  have hx : cw ^^^ (2 ^ len - 1) ≠ 0 := by
    intro h0
    apply hc
    apply Nat.eq_of_testBit_eq
    intro i
    have := congrArg (·.testBit i) h0
    simpa [Nat.testBit_xor] using this
  have hxlt : cw ^^^ (2 ^ len - 1) < 2 ^ len := Nat.xor_lt_two_pow hcw (by have := Nat.two_pow_pos len; omega)
  generalize hk : (cw ^^^ (2 ^ len - 1)).log2 = k
  have hklt : k < len := by rw [← hk]; exact (Nat.log2_lt hx).2 hxlt
  have hbit : ∀ i < len, (cw ^^^ (2 ^ len - 1)).testBit i = !cw.testBit i := by
    intro i hi
    rw [Nat.testBit_xor, Nat.testBit_two_pow_sub_one]
    simp [hi]
  have hk0 : cw.testBit k = false := by
    have h1 : (cw ^^^ (2 ^ len - 1)).testBit k = true := by
      rw [← hk]; exact Nat.testBit_log2 hx
    rw [hbit k hklt] at h1
    simpa using h1
  have hk1 : ∀ i, k < i → i < len → cw.testBit i = true := by
    intro i h1 h2
    have h3 : (cw ^^^ (2 ^ len - 1)).testBit i = false := by
      apply Nat.testBit_lt_two_pow
      exact (Nat.log2_lt hx).1 (by omega)
    rw [hbit i h2] at h3
    simpa using h3
  have hn : ∀ i, (nextWord cw (2 ^ len)).testBit i = if i < k then cw.testBit i else decide (i = k) := by
    intro i
    simp only [nextWord]
    rw [hk, Nat.one_shiftLeft, Nat.testBit_or, Nat.testBit_and, Nat.testBit_two_pow_sub_one, Nat.testBit_two_pow]
    by_cases h1 : i < k
    · simp [h1, show ¬ k = i by omega]
    · simp [h1, eq_comm]
  refine ⟨?_, ?_⟩
  · apply Nat.lt_pow_two_of_testBit
    intro j hj
    rw [hn, if_neg (by omega)]
    simp; omega
  · rw [lsb_eq_msb]
    intro i hi
    have ha : c.testBit (len - 1 - k) = false := by rw [← h k hklt]; exact hk0
    have hb : ∀ j < len - 1 - k, c.testBit j = true := by
      intro j hj
      have := h (len - 1 - j) (by omega)
      rw [show len - 1 - (len - 1 - j) = j by omega] at this
      rw [← this]
      exact hk1 _ (by omega) (by omega)
    rw [hn, testBit_add_one ha hb]
    by_cases h1 : i < k
    · rw [if_pos h1, if_neg (by omega), if_neg (by omega)]; exact h i hi
    · rw [if_neg h1]
      by_cases h2 : i = k
      · subst h2; simp
      · rw [if_pos (by omega)]; simpa using h2

theorem all_ones {len cw c : Nat} (hcw : cw < 2 ^ len) (hc : c < 2 ^ len) (h : lsb len cw = msb len c) : cw = 2 ^ len - 1 ↔ c = 2 ^ len - 1 := by
  rw [lsb_eq_msb] at h
  have key : ∀ {a b : Nat}, a < 2 ^ len → b < 2 ^ len → (∀ i < len, a.testBit i = b.testBit (len - 1 - i)) → a = 2 ^ len - 1 → b = 2 ^ len - 1 := by
    intro a b ha hb h e
    apply Nat.eq_of_testBit_eq
    intro i
    rw [Nat.testBit_two_pow_sub_one]
    by_cases hi : i < len
    · have := h (len - 1 - i) (by omega)
      rw [show len - 1 - (len - 1 - i) = i by omega, e, Nat.testBit_two_pow_sub_one] at this
      rw [← this]; simp; omega
    · rw [Nat.testBit_lt_two_pow (lt_of_lt_of_le hb (Nat.pow_le_pow_right (by decide) (by omega)))]
      simp [hi]
  constructor
  · exact key hcw hc h
  · exact key hc hcw (fun i hi => by rw [h _ (by omega)]; congr 1; omega)

/-! ### Sorting -/

theorem sortSyms_spec : ∀ (t : List Nat) (sym : Nat) (offs : Nat → Nat) (sorted : List Nat),
    (∀ l, 0 < t.count l → offs l + t.count l ≤ sorted.length) →
    (∀ l l', l ≠ l' → ∀ a < t.count l, ∀ b < t.count l', offs l + a ≠ offs l' + b) →
    ∃ offs' sorted', sortSyms t sym offs sorted = some (offs', sorted') ∧ (∀ l, offs' l = offs l + t.count l) ∧ sorted'.length = sorted.length ∧
      (∀ s < t.length, sorted'[offs (t.getD s 0) + (t.take s).count (t.getD s 0)]? = some (sym + s)) ∧
      (∀ x, (∀ l, ∀ a < t.count l, x ≠ offs l + a) → sorted'[x]? = sorted[x]?) := by
  intro t
  induction t with
  | nil => intro sym offs sorted _ _; exact ⟨offs, sorted, rfl, by simp, rfl, by simp, by simp⟩
  | cons l t ih =>
    intro sym offs sorted hb hd
    have h1 : offs l < sorted.length := by
      have := hb l (by simp)
      simp at this
      omega
    rw [sortSyms, if_pos h1]
    obtain ⟨offs', sorted', e1, e2, e3, e4, e5⟩ := ih (sym + 1) (fun k => if k = l then offs l + 1 else offs k) (sorted.set (offs l) sym)
      (by
        intro k hk
        by_cases hkl : k = l
        · subst hkl
          have := hb k (by simp)
          simp at this ⊢
          omega
        · have := hb k (by rw [List.count_cons_of_ne (Ne.symm hkl)]; exact hk)
          simp [Ne.symm hkl] at this
          simp [hkl]
          omega)
      (by
        intro a b hab x hx y hy
        by_cases h1 : a = l
        · subst h1
          have := hd a b hab (x + 1) (by simp; omega) y (by simp [hab]; omega)
          simp [Ne.symm hab]; omega
        · by_cases h2 : b = l
          · subst h2
            have := hd a b hab x (by simp [Ne.symm h1]; omega) (y + 1) (by simp; omega)
            simp [h1]; omega
          · have := hd a b hab x (by simp [Ne.symm h1]; omega) y (by simp [Ne.symm h2]; omega)
            simp [h1, h2]; omega)
    refine ⟨offs', sorted', e1, ?_, by simpa using e3, ?_, ?_⟩
    · intro k
      rw [e2]
      by_cases hkl : k = l
      · subst hkl; simp; omega
      · simp [hkl, Ne.symm hkl]
    · intro s hs
      cases s with
      | zero =>
        simp only [List.getD_cons_zero, List.take_zero, List.count_nil, Nat.add_zero]
        rw [e5]
        · simp [h1]
        · intro k a ha
          by_cases hkl : k = l
          · subst hkl; simp; omega
          · have := hd l k (Ne.symm hkl) 0 (by simp) a (by simp [Ne.symm hkl]; omega)
            simp [hkl]; omega
      | succ s =>
        have := e4 s (by simpa using hs)
        simp only [List.getD_cons_succ, List.take_succ_cons]
        by_cases hkl : t.getD s 0 = l
        · simp only [hkl, if_true] at this ⊢
          rw [List.count_cons_self, show offs l + ((t.take s).count l + 1) = offs l + 1 + (t.take s).count l by omega, this]
          congr 1; omega
        · simp only [hkl, if_false] at this
          rw [List.count_cons_of_ne (Ne.symm hkl), this]
          congr 1; omega
    · intro x hx
      rw [e5]
      · rw [List.getElem?_set_ne]
        have := hx l 0 (by simp)
        omega
      · intro k a ha
        by_cases hkl : k = l
        · subst hkl
          have := hx k (a + 1) (by simp; omega)
          simp; omega
        · have := hx k a (by simp [Ne.symm hkl]; omega)
          simp [hkl]; omega

theorem startOf_succ (lens : List Nat) (l : Nat) : startOf lens (l + 1) = startOf lens l + lens.count l := by
  cases l with
  | zero => simp [startOf]
  | succ l => rfl

theorem startOf_mono (lens : List Nat) {l l' : Nat} (h : l < l') : startOf lens l + lens.count l ≤ startOf lens l' := by
  induction l' with
  | zero => omega
  | succ k ih =>
    rw [startOf_succ]
    rcases Nat.lt_or_ge l k with h1 | h1
    · have := ih h1; omega
    · obtain rfl : l = k := by omega
      omega

theorem startOf_eq (lens : List Nat) (l : Nat) : startOf lens l = lens.countP (· < l) := by
  induction l with
  | zero => simp [startOf]
  | succ l ih =>
    rw [startOf_succ, ih]
    clear ih
    induction lens with
    | nil => rfl
    | cons x t ih =>
      simp only [List.countP_cons, List.count_cons]
      by_cases h1 : x < l
      · simp [h1, show x < l + 1 by omega, show x ≠ l by omega]; omega
      · by_cases h2 : x = l
        · subst h2; simp; omega
        · simp [h1, h2, show ¬ x < l + 1 by omega]; omega

theorem startOf_le (lens : List Nat) (l : Nat) : startOf lens l ≤ lens.length := by
  rw [startOf_eq]; exact List.countP_le_length

theorem maxLen_spec (lens : List Nat) (m : Nat) : ∀ l, maxLen lens m < l → l ≤ m → lens.count l = 0 := by
  induction m with
  | zero => intro l h1 h2; simp [maxLen] at h1; omega
  | succ m ih =>
    intro l h1 h2
    cases m with
    | zero => simp [maxLen] at h1; omega
    | succ m =>
      rw [maxLen] at h1
      split at h1
      · rename_i hz
        by_cases hl : l = m + 2
        · subst hl; exact hz
        · exact ih l h1 (by omega)
      · omega

theorem maxLen_le (lens : List Nat) (m : Nat) : maxLen lens m ≤ m ∧ (1 ≤ m → 1 ≤ maxLen lens m) := by
  induction m with
  | zero => simp [maxLen]
  | succ m ih =>
    cases m with
    | zero => simp [maxLen]
    | succ m => rw [maxLen]; split <;> omega

/-- The sorted symbols. -/
theorem sorted_spec {lens : List Nat} (h15 : ∀ l ∈ lens, l ≤ 15) (hn : lens.length ≤ 288) :
    ∃ offs sorted, sortSyms lens 0 (fun l => if l ≤ maxLen lens 15 then startOf lens l else 0) (List.replicate 288 0) = some (offs, sorted) ∧
      offs 0 = lens.count 0 ∧ sorted.length = 288 ∧ ∀ s < lens.length, sorted[startOf lens (lens.getD s 0) + rank lens s]? = some s := by
  have hle : ∀ l, 0 < lens.count l → l ≤ maxLen lens 15 := by
    intro l hl
    by_contra h
    have h1 := h15 l (List.count_pos_iff.1 hl)
    have := maxLen_spec lens 15 l (by omega) h1
    omega
  obtain ⟨offs, sorted, e1, e2, e3, e4, -⟩ := sortSyms_spec lens 0 (fun l => if l ≤ maxLen lens 15 then startOf lens l else 0) (List.replicate 288 0)
    (by
      intro l hl
      rw [if_pos (hle l hl), List.length_replicate]
      show startOf lens l + lens.count l ≤ 288
      rw [← startOf_succ]
      exact le_trans (startOf_le _ _) hn)
    (by
      intro l l' hne a ha b hb
      rw [if_pos (hle l (by omega)), if_pos (hle l' (by omega))]
      rcases Nat.lt_or_gt_of_ne hne with h | h
      · have := startOf_mono lens h; omega
      · have := startOf_mono lens h; omega)
  refine ⟨offs, sorted, e1, ?_, by rw [e3, List.length_replicate], ?_⟩
  · rw [e2]; simp [startOf]
  · intro s hs
    have := e4 s hs
    rw [if_pos] at this
    · simpa [rank] using this
    · apply hle
      rw [List.count_pos_iff]
      simp [List.getD_eq_getElem?_getD, hs]

/-! ### Code space -/

theorem codespace_eq (lens : List Nat) (l : Nat) : codespace lens l = Canon.first (cnt lens) l + cnt lens l := by
  induction l with
  | zero => simp [codespace, Canon.first, cnt]
  | succ l ih =>
    rw [codespace, ih, Nat.shiftLeft_eq, Canon.first, show cnt lens (l + 1) = lens.count (l + 1) from if_neg (by omega)]
    ring

theorem codespace_weight {lens : List Nat} (h15 : ∀ l ∈ lens, l ≤ 15) : codespace lens (maxLen lens 15) = weight (maxLen lens 15) lens ∧
    ∀ l ∈ lens, l ≤ maxLen lens 15 := by
  have hle : ∀ l ∈ lens, l ≤ maxLen lens 15 := by
    intro l hl
    by_contra h
    have := maxLen_spec lens 15 l (by omega) (h15 l hl)
    rw [List.count_eq_zero] at this
    exact this hl
  refine ⟨?_, hle⟩
  have := Prefix.first_weight lens (N := maxLen lens 15) (L := maxLen lens 15) (Nat.le_refl _)
  rw [codespace_eq, ← Prefix.below_full _ _ hle, ← this]
  simp

/-- A complete code: all lengths at most 15, code space exactly filled. -/
structure Complete (lens : List Nat) : Prop where
  le : ∀ l ∈ lens, l ≤ 15
  full : weight 15 lens = 2 ^ 15

theorem exists_rank {l : Nat} : ∀ (lens : List Nat) (k : Nat), k < lens.count l → ∃ s, s < lens.length ∧ lens.getD s 0 = l ∧ (lens.take s).count l = k := by
  intro lens
  induction lens with
  | nil => intro k hk; simp at hk
  | cons x t ih =>
    intro k hk
    by_cases hx : x = l
    · subst hx
      cases k with
      | zero => exact ⟨0, by simp, by simp, by simp⟩
      | succ k =>
        obtain ⟨s, h1, h2, h3⟩ := ih k (by simpa using hk)
        exact ⟨s + 1, by simp [h1], by simpa using h2, by simp [h3]⟩
    · obtain ⟨s, h1, h2, h3⟩ := ih k (by simpa [List.count_cons, hx] using hk)
      exact ⟨s + 1, by simp [h1], by simpa using h2, by simp [h3, hx]⟩

theorem getD_mem {lens : List Nat} {s : Nat} (h : s < lens.length) : lens.getD s 0 ∈ lens := by
  simp [List.getD_eq_getElem?_getD, h]

/-- The construction stands at the codeword `cw` (bit-reversed) of `len` bits; `count` codewords of this length, including this one, are
    still to come, and `i` is the place of its symbol among the sorted ones. -/
structure At (lens : List Nat) (len cw count i : Nat) : Prop where
  one : 1 ≤ len
  le15 : len ≤ 15
  pos : 1 ≤ count
  le : count ≤ lens.count len
  idx : i + count = startOf lens (len + 1)
  lt : cw < 2 ^ len
  eq : lsb len cw = msb len (Canon.first (cnt lens) len + (lens.count len - count))

/-- Symbol `t` comes before the codeword at hand. -/
def Done (lens : List Nat) (len count t : Nat) : Prop :=
  Used lens t ∧ (lens.getD t 0 < len ∨ lens.getD t 0 = len ∧ rank lens t < lens.count len - count)

/-- The symbol at hand. -/
structure Cur (lens : List Nat) (len cw count s : Nat) : Prop where
  used : Used lens s
  leq : lens.getD s 0 = len
  rk : rank lens s = lens.count len - count
  weq : word lens s = lsb len cw
  ceq : code lens s = Canon.first (cnt lens) len + (lens.count len - count)

section
variable {lens : List Nat} {len cw count i : Nat}

theorem At.cur (h : At lens len cw count i) {sorted : List Nat}
    (hs : ∀ s < lens.length, sorted[startOf lens (lens.getD s 0) + rank lens s]? = some s) :
    ∃ s, Cur lens len cw count s ∧ sorted[i]? = some s ∧ s < lens.length := by
  have h1 := h.one
  have h2 := h.pos
  have h3 := h.le
  obtain ⟨s, s1, s2, s3⟩ := exists_rank (l := len) lens (lens.count len - count) (by omega)
  have hr : rank lens s = lens.count len - count := by rw [rank, s2, s3]
  have hc : code lens s = Canon.first (cnt lens) len + (lens.count len - count) := by rw [code, s2, hr]
  refine ⟨s, ⟨by rw [Used, s2]; omega, s2, hr, by rw [word, s2, hc]; exact h.eq.symm, hc⟩, ?_, s1⟩
  have := hs s s1
  rw [s2, hr] at this
  rw [← this]
  congr 1
  have := h.idx
  rw [startOf_succ] at this
  omega

theorem not_done_cur {s : Nat} (hc : Cur lens len cw count s) : ¬ Done lens len count s := by
  rintro ⟨-, h | ⟨h, h'⟩⟩
  · have := hc.leq; omega
  · have := hc.rk; omega

theorem limit_le (hk : Complete lens) (h15 : len ≤ 15) : Canon.first (cnt lens) len + cnt lens len ≤ 2 ^ len := by
  have h1 := Prefix.first_weight lens h15
  have h2 := Prefix.below_le 15 lens len
  rw [hk.full] at h2
  have h3 : (2 : Nat) ^ 15 = 2 ^ len * 2 ^ (15 - len) := by rw [← pow_add]; congr 1; omega
  rw [← h1, h3] at h2
  exact Nat.le_of_mul_le_mul_right h2 (Nat.two_pow_pos _)

theorem cnt_eq {lens : List Nat} {l : Nat} (h : 1 ≤ l) : cnt lens l = lens.count l := by rw [cnt, if_neg (by omega)]

theorem At.code_lt (hk : Complete lens) (h : At lens len cw count i) :
    Canon.first (cnt lens) len + (lens.count len - count) < 2 ^ len := by
  have := limit_le hk h.le15
  rw [cnt_eq h.one] at this
  have h2 := h.pos
  have h3 := h.le
  omega

/-- After the last codeword no symbol is left. -/
theorem At.last (hk : Complete lens) (h : At lens len cw count i) (hl : cw = 2 ^ len - 1) {s : Nat} (hc : Cur lens len cw count s) {t : Nat}
    (ht : Used lens t) : Done lens len count t ∨ t = s := by
  have h1 := (all_ones h.lt (h.code_lt hk) h.eq).1 hl
  have h2 := limit_le hk h.le15
  rw [cnt_eq h.one] at h2
  have h3 := h.pos
  have h4 := h.le
  have hp := Nat.two_pow_pos len
  have hcount : count = 1 := by omega
  have hlt := Prefix.used_lt ht
  have h15 : lens.getD t 0 ≤ 15 := hk.le _ (getD_mem hlt)
  have hr := Prefix.rank_lt hlt
  have hle : lens.getD t 0 ≤ len := by
    by_contra hgt
    have e1 := Prefix.first_weight lens h.le15
    rw [cnt_eq h.one, show Canon.first (cnt lens) len + lens.count len = 2 ^ len by omega, ← pow_add, show len + (15 - len) = 15 by have := h.le15; omega] at e1
    have e2 := Canon.start_le (cnt := cnt lens) (lens.getD t 0) (by omega : len < lens.getD t 0) h15
    rw [cnt_eq h.one, show Canon.first (cnt lens) len + lens.count len = 2 ^ len by omega, ← pow_add, show len + (15 - len) = 15 by have := h.le15; omega] at e2
    have e3 := Prefix.first_weight lens h15
    have e4 := Prefix.below_le 15 lens (lens.getD t 0)
    rw [hk.full, ← e3, Nat.add_mul, cnt_eq (Nat.pos_of_ne_zero ht)] at e4
    have e5 : 0 < lens.count (lens.getD t 0) * 2 ^ (15 - lens.getD t 0) := Nat.mul_pos (by omega) (Nat.two_pow_pos _)
    omega
  rcases Nat.lt_or_ge (lens.getD t 0) len with h5 | h5
  · exact Or.inl ⟨ht, Or.inl h5⟩
  · have h6 : lens.getD t 0 = len := by omega
    by_cases h7 : rank lens t < lens.count len - count
    · exact Or.inl ⟨ht, Or.inr ⟨h6, h7⟩⟩
    · right
      apply Prefix.code_inj ht hc.used (by rw [h6, hc.leq])
      rw [h6] at hr
      rw [hc.ceq, code, h6]
      omega

theorem done_next_same (h : At lens len cw count i) {s : Nat} (hc : Cur lens len cw count s) {t : Nat} :
    Done lens len (count - 1) t → Done lens len count t ∨ t = s := by
  rintro ⟨hu, h1 | ⟨h1, h2⟩⟩
  · exact Or.inl ⟨hu, Or.inl h1⟩
  · by_cases h3 : rank lens t < lens.count len - count
    · exact Or.inl ⟨hu, Or.inr ⟨h1, h3⟩⟩
    · right
      apply Prefix.code_inj hu hc.used (by rw [h1, hc.leq])
      have := h.pos
      have := h.le
      rw [hc.ceq, code, h1]
      omega

theorem At.next_same (h : At lens len cw count i) (hl : cw ≠ 2 ^ len - 1) (hcount : count - 1 ≠ 0) :
    At lens len (nextWord cw (2 ^ len)) (count - 1) (i + 1) := by
  obtain ⟨h1, h2⟩ := nextWord_spec h.lt h.eq hl
  have h3 := h.pos
  have h4 := h.le
  have h5 := h.idx
  refine ⟨h.one, h.le15, by omega, by omega, by omega, h1, ?_⟩
  rw [h2]; congr 1; omega

theorem first_gap {len len' : Nat} (h : len < len') (hz : ∀ l, len < l → l < len' → lens.count l = 0) :
    Canon.first (cnt lens) len' = (Canon.first (cnt lens) len + cnt lens len) * 2 ^ (len' - len) ∧ startOf lens len' = startOf lens (len + 1) := by
  induction len' with
  | zero => omega
  | succ k ih =>
    rcases Nat.lt_or_ge len k with h1 | h1
    · obtain ⟨e1, e2⟩ := ih h1 (fun l a b => hz l a (by omega))
      have hk0 := hz k h1 (by omega)
      refine ⟨?_, by rw [startOf_succ, hk0, e2]; omega⟩
      rw [Canon.first, e1, show cnt lens k = 0 by rw [cnt_eq (by omega), hk0], show k + 1 - len = (k - len) + 1 by omega, pow_succ]
      ring
    · obtain rfl : len = k := by omega
      exact ⟨by rw [Canon.first, show len + 1 - len = 1 by omega]; ring, rfl⟩

theorem At.next_len (h : At lens len cw count i) (hl : cw ≠ 2 ^ len - 1) (hcount : count - 1 = 0) {len' : Nat} (hlt : len < len')
    (h15 : len' ≤ 15) (hz : ∀ l, len < l → l < len' → lens.count l = 0) (hne : lens.count len' ≠ 0) :
    At lens len' (nextWord cw (2 ^ len)) (lens.count len') (i + 1) := by
  obtain ⟨h1, h2⟩ := nextWord_spec h.lt h.eq hl
  have h3 := h.pos
  have h4 := h.le
  have h5 := h.idx
  obtain ⟨e1, e2⟩ := first_gap hlt hz
  refine ⟨by omega, h15, by omega, Nat.le_refl _, ?_, lt_of_lt_of_le h1 (Nat.pow_le_pow_right (by decide) (by omega)), ?_⟩
  · rw [startOf_succ, e2]; omega
  · rw [Nat.sub_self, Nat.add_zero, e1]
    have hm := Prefix.msb_append len (len' - len) ((Canon.first (cnt lens) len + cnt lens len) * 2 ^ (len' - len))
    rw [show len + (len' - len) = len' by omega, Nat.mul_div_cancel _ (Nat.two_pow_pos _)] at hm
    have hs := lsb_append len (len' - len) (nextWord cw (2 ^ len))
    rw [show len + (len' - len) = len' by omega] at hs
    rw [hs, hm, h2, Nat.div_eq_of_lt h1, lsb_zero]
    congr 1
    · congr 1
      rw [cnt_eq h.one]; omega
    · rw [msb, ← lsb_mod, Nat.mul_mod_left, lsb_zero, List.reverse_replicate]

theorem done_next_len (h : At lens len cw count i) (hcount : count - 1 = 0) {s : Nat} (hc : Cur lens len cw count s) {len' : Nat} (hlt : len < len')
    (hz : ∀ l, len < l → l < len' → lens.count l = 0) {t : Nat} :
    Done lens len' (lens.count len') t → Done lens len count t ∨ t = s := by
  rintro ⟨hu, h1 | ⟨h1, h2⟩⟩
  · have htl := Prefix.used_lt hu
    have hcp : 0 < lens.count (lens.getD t 0) := List.count_pos_iff.2 (getD_mem htl)
    have hr := Prefix.rank_lt htl
    rcases Nat.lt_trichotomy (lens.getD t 0) len with h3 | h3 | h3
    · exact Or.inl ⟨hu, Or.inl h3⟩
    · by_cases h4 : rank lens t < lens.count len - count
      · exact Or.inl ⟨hu, Or.inr ⟨h3, h4⟩⟩
      · right
        apply Prefix.code_inj hu hc.used (by rw [h3, hc.leq])
        have := h.pos
        rw [h3] at hr
        rw [hc.ceq, code, h3]
        omega
    · have := hz _ h3 h1; omega
  · omega

end

end Zune.Inflate
