/- Property C27: scaling of bit fields. -/
import Verif.Bmp.Model
import Mathlib.Tactic.Ring
import Mathlib.Tactic.Linarith
import Mathlib.Tactic.IntervalCases

namespace Zune.Bmp

/-- The `n`-bit field at bit `p` of a pixel. -/
def Spec.fieldOf (v n p : Nat) : Nat := v / 2 ^ p % 2 ^ n

/-- Bit replication: bit `7 - i` of the result is bit `n - 1 - i mod n` of the field. -/
def Spec.replicateBits (n f : Nat) : Nat :=
  ((List.range 8).map fun i => 2 ^ (7 - i) * (f / 2 ^ (n - 1 - i % n) % 2)).sum

/-- The mask of the `n`-bit field at bit `p`. -/
def Spec.mask (n p : Nat) : Nat := (2 ^ n - 1) * 2 ^ p

theorem mask_table : ∀ n ≤ 32, ∀ p ≤ 32, 0 < n → n + p ≤ 32 → popCount (Spec.mask n p) = n ∧ bitLen (Spec.mask n p) = n + p := by
  decide +kernel

theorem and_mask (v n p : Nat) : v &&& Spec.mask n p = Spec.fieldOf v n p * 2 ^ p := by
  apply Nat.eq_of_testBit_eq
  intro i
  rw [Nat.testBit_and, Spec.mask, Spec.fieldOf, Nat.testBit_mul_two_pow, Nat.testBit_mul_two_pow, Nat.testBit_two_pow_sub_one,
    Nat.testBit_mod_two_pow, Nat.testBit_div_two_pow]
  by_cases h : p ≤ i
  · rw [show i - p + p = i by omega]; simp [h, Bool.and_comm]
  · simp [h]

/-- The complete table of the scaling. -/
theorem scale_table : ∀ n ≤ 8, 0 < n → ∀ f < 256, f < 2 ^ n →
    ((f * (([0, 0xff, 0x55, 0x49, 0x11, 0x21, 0x41, 0x81, 0x01] : List Nat)[n]?).getD 0) >>>
      (([0, 0, 0, 1, 0, 2, 4, 6, 0] : List Nat)[n]?).getD 0) = Spec.replicateBits n f := by
  decide +kernel

theorem shifted (f n p : Nat) (hn : 0 < n) :
    (if ((n + p : Nat) : Int) - 8 < 0 then (f * 2 ^ p) <<< (-(((n + p : Nat) : Int) - 8)).toNat
      else (f * 2 ^ p) >>> (((n + p : Nat) : Int) - 8).toNat) = if n ≤ 8 then f * 2 ^ (8 - n) else f / 2 ^ (n - 8) := by
  split
  · rename_i h
    rw [show (-(((n + p : Nat) : Int) - 8)).toNat = 8 - n - p by omega, Nat.shiftLeft_eq, if_pos (by omega), Nat.mul_assoc, ← Nat.pow_add,
      show p + (8 - n - p) = 8 - n by omega]
  · rename_i h
    rw [show (((n + p : Nat) : Int) - 8).toNat = n + p - 8 by omega, Nat.shiftRight_eq_div_pow]
    split
    · rename_i h8
      rw [show p = (n + p - 8) + (8 - n) by omega, Nat.pow_add, Nat.mul_comm (2 ^ (n + p - 8)), ← Nat.mul_assoc,
        show n + (n + p - 8 + (8 - n)) - 8 = n + p - 8 by omega, Nat.mul_div_cancel _ (by positivity)]
    · rename_i h8
      rw [show n + p - 8 = (n - 8) + p by omega, Nat.pow_add, Nat.mul_div_mul_right _ _ (by positivity)]

/-- **C27**: for every field of 1 to 8 bits at every position of a pixel, the sample is the field scaled by bit replication. -/
theorem c27_scaling (v n p : Nat) (hn : 0 < n) (hn8 : n ≤ 8) (hp : n + p ≤ 32) :
    (field v (Spec.mask n p)).toNat = Spec.replicateBits n (Spec.fieldOf v n p) := by
  obtain ⟨h1, h2⟩ := mask_table n (by omega) p (by omega) hn hp
  have hf : Spec.fieldOf v n p < 2 ^ n := Nat.mod_lt _ (by positivity)
  have hle : 2 ^ n ≤ 2 ^ 8 := Nat.pow_le_pow_right (by omega) hn8
  have ht := scale_table n hn8 hn (Spec.fieldOf v n p) (by omega) hf
  unfold field shiftSigned
  rw [h1, h2, and_mask]
  simp only
  rw [shifted _ n p hn, if_pos hn8, Nat.min_eq_left hn8, Nat.shiftRight_eq_div_pow (_ * 2 ^ (8 - n)),
    Nat.mul_div_cancel _ (by positivity), ht]
  have hr : Spec.replicateBits n (Spec.fieldOf v n p) < 256 := by
    have : ∀ n f : Nat, Spec.replicateBits n f < 256 := by
      intro n f
      have h2 : ∀ i, f / 2 ^ (n - 1 - i % n) % 2 ≤ 1 := fun i => by omega
      have := h2 0; have := h2 1; have := h2 2; have := h2 3; have := h2 4; have := h2 5; have := h2 6; have := h2 7
      simp only [Spec.replicateBits, List.range, List.range.loop, List.map_cons, List.map_nil, List.sum_cons, List.sum_nil, Nat.reduceSub,
        Nat.reducePow]
      omega
    exact this _ _
  rw [UInt8.toNat_ofNat', Nat.mod_eq_of_lt (by omega)]

example : (field 0x7c1f (Spec.mask 5 10)).toNat = 255 ∧ Spec.fieldOf 0x7c1f 5 10 = 31 := by decide +kernel

/-- **C27**: the scaling maps zero to zero and the maximum to 255, is monotone, and is off by less than one from `f * 255 / (2^n - 1)`. -/
theorem c27_scaling_bounds (n : Nat) (hn : 0 < n) (hn8 : n ≤ 8) :
    Spec.replicateBits n 0 = 0 ∧ Spec.replicateBits n (2 ^ n - 1) = 255 ∧
    (∀ f g, f ≤ g → g < 2 ^ n → Spec.replicateBits n f ≤ Spec.replicateBits n g) ∧
    (∀ f, f < 2 ^ n → Spec.replicateBits n f * (2 ^ n - 1) < f * 255 + (2 ^ n - 1) ∧ f * 255 < Spec.replicateBits n f * (2 ^ n - 1) + (2 ^ n - 1)) := by
  have t1 : ∀ n ≤ 8, 0 < n → Spec.replicateBits n 0 = 0 ∧ Spec.replicateBits n (2 ^ n - 1) = 255 := by decide +kernel
  have t2 : ∀ n ≤ 8, 0 < n → ∀ f < 256, f < 2 ^ n →
      Spec.replicateBits n f * (2 ^ n - 1) < f * 255 + (2 ^ n - 1) ∧ f * 255 < Spec.replicateBits n f * (2 ^ n - 1) + (2 ^ n - 1) := by decide +kernel
  have t3 : ∀ n ≤ 8, 0 < n → ∀ f < 255, f + 1 < 2 ^ n → Spec.replicateBits n f ≤ Spec.replicateBits n (f + 1) := by decide +kernel
  have hle : 2 ^ n ≤ 2 ^ 8 := Nat.pow_le_pow_right (by omega) hn8
  refine ⟨(t1 n hn8 hn).1, (t1 n hn8 hn).2, ?_, fun f hf => t2 n hn8 hn f (by omega) hf⟩
  intro f g hfg hg
  induction g with
  | zero => rw [Nat.le_zero.1 hfg]
  | succ g ih =>
    rcases Nat.lt_or_ge f (g + 1) with h | h
    · exact Nat.le_trans (ih (by omega) (by omega)) (t3 n hn8 hn g (by omega) hg)
    · rw [show f = g + 1 by omega]

example : Spec.replicateBits 5 17 = 140 := by decide

/-- **C27** (wider fields): of a field of more than 8 bits the top 8 bits are taken. -/
theorem c27_wide (v n p : Nat) (hn : 8 < n) (hp : n + p ≤ 32) :
    (field v (Spec.mask n p)).toNat = Spec.fieldOf v n p / 2 ^ (n - 8) := by
  obtain ⟨h1, h2⟩ := mask_table n (by omega) p (by omega) (by omega) hp
  have hf : Spec.fieldOf v n p < 2 ^ n := Nat.mod_lt _ (by positivity)
  unfold field shiftSigned
  rw [h1, h2, and_mask]
  simp only
  rw [shifted _ n p (by omega), if_neg (by omega), Nat.min_eq_right (by omega : 8 ≤ n)]
  have hlt : Spec.fieldOf v n p / 2 ^ (n - 8) < 256 := by
    rw [Nat.div_lt_iff_lt_mul (by positivity)]
    calc _ < 2 ^ n := hf
      _ = 256 * 2 ^ (n - 8) := by rw [show (256 : Nat) = 2 ^ 8 by norm_num, ← Nat.pow_add, show 8 + (n - 8) = n by omega]
  simp only [Nat.sub_self, Nat.shiftRight_zero, List.getElem?_cons_succ, List.getElem?_cons_zero, Option.getD_some, Nat.mul_one]
  rw [UInt8.toNat_ofNat', Nat.mod_eq_of_lt (by omega)]

example : (field 0x3ff00000 (Spec.mask 10 20)).toNat = 255 := by decide +kernel

end Zune.Bmp
