/-
Error analysis: a calculus for numbers that are known up to the errors of a number of roundings to `f32`.
-/
import Verif.Common.Float
import Mathlib.Tactic.Ring
import Mathlib.Tactic.Linarith
import Mathlib.Tactic.NormNum
import Mathlib.Tactic.IntervalCases

namespace Zune.Float

/-- `y` is the number `x`, of size `A` at most, after `n` roundings with relative error 2⁻²⁴ (of `A`) at most. -/
structure Approx (n : Nat) (A x y : Rat) : Prop where
  size : |x| ≤ A
  err : |y - x| ≤ ((1 + 1 / 2 ^ 24) ^ n - 1) * A

theorem unit_pow (n : Nat) : (1 : Rat) ≤ (1 + 1 / 2 ^ 24) ^ n := one_le_pow₀ (by norm_num)

theorem Approx.pos {n : Nat} {A x y : Rat} (h : Approx n A x y) : 0 ≤ A := le_trans (abs_nonneg x) h.size

theorem Approx.self (x : Rat) : Approx 0 |x| x x := ⟨le_rfl, by simp⟩

theorem Approx.bound {n : Nat} {A x y : Rat} (h : Approx n A x y) : |y| ≤ (1 + 1 / 2 ^ 24) ^ n * A := by
  have := abs_add_le (y - x) x
  rw [sub_add_cancel] at this
  have h1 := h.size
  have h2 := h.err
  linarith

theorem Approx.mono {n k : Nat} {A x y : Rat} (h : Approx n A x y) (hn : n ≤ k) : Approx k A x y := by
  refine ⟨h.size, le_trans h.err (mul_le_mul_of_nonneg_right ?_ h.pos)⟩
  have : (1 + 1 / 2 ^ 24 : Rat) ^ n ≤ (1 + 1 / 2 ^ 24) ^ k := pow_le_pow_right₀ (by norm_num) hn
  linarith

theorem Approx.widen {n : Nat} {A B x y : Rat} (h : Approx n A x y) (hA : A ≤ B) : Approx n B x y := by
  refine ⟨le_trans h.size hA, le_trans h.err (mul_le_mul_of_nonneg_left hA ?_)⟩
  have := unit_pow n
  linarith

theorem Approx.rnd {n : Nat} {A x y : Rat} (h : Approx n A x y) : Approx (n + 1) A x (rnd 24 y) := by
  refine ⟨h.size, ?_⟩
  have r : |Zune.Float.rnd 24 y - y| ≤ |y| / 2 ^ 24 := by rw [le_div_iff₀ (by norm_num)]; exact rnd_err 24 y
  have b := h.bound
  have e := h.err
  have t := abs_add_le (Zune.Float.rnd 24 y - y) (y - x)
  rw [sub_add_sub_cancel] at t
  have d : |y| / 2 ^ 24 ≤ (1 + 1 / 2 ^ 24) ^ n * A / 2 ^ 24 := div_le_div_of_nonneg_right b (by norm_num)
  have q : ((1 + 1 / 2 ^ 24 : Rat) ^ (n + 1) - 1) * A = (1 + 1 / 2 ^ 24) ^ n * A / 2 ^ 24 + ((1 + 1 / 2 ^ 24) ^ n - 1) * A := by ring
  linarith

theorem Approx.add {n : Nat} {A B x y x' y' : Rat} (h : Approx n A x y) (h' : Approx n B x' y') : Approx n (A + B) (x + x') (y + y') := by
  refine ⟨le_trans (abs_add_le _ _) (add_le_add h.size h'.size), ?_⟩
  have t := abs_add_le (y - x) (y' - x')
  rw [show y + y' - (x + x') = y - x + (y' - x') by ring, mul_add]
  linarith [h.err, h'.err]

theorem Approx.mul {n k : Nat} {A B x y x' y' : Rat} (h : Approx n A x y) (h' : Approx k B x' y') : Approx (n + k) (A * B) (x * x') (y * y') := by
  have hA := h.pos
  refine ⟨by rw [abs_mul]; exact mul_le_mul h.size h'.size (abs_nonneg _) hA, ?_⟩
  have t := abs_add_le (y * (y' - x')) ((y - x) * x')
  rw [abs_mul, abs_mul] at t
  have b := h.bound
  have p : 0 ≤ (1 + 1 / 2 ^ 24 : Rat) ^ n * A := mul_nonneg (by linarith [unit_pow n]) hA
  have m1 := mul_le_mul b h'.err (abs_nonneg _) p
  have e0 : 0 ≤ ((1 + 1 / 2 ^ 24 : Rat) ^ n - 1) * A := mul_nonneg (by linarith [unit_pow n]) hA
  have m2 := mul_le_mul h.err h'.size (abs_nonneg _) e0
  rw [show y * y' - x * x' = y * (y' - x') + (y - x) * x' by ring]
  have q : ((1 + 1 / 2 ^ 24 : Rat) ^ (n + k) - 1) * (A * B) =
    (1 + 1 / 2 ^ 24) ^ n * A * (((1 + 1 / 2 ^ 24) ^ k - 1) * B) + ((1 + 1 / 2 ^ 24) ^ n - 1) * A * B := by rw [pow_add]; ring
  linarith

/-- Up to 15 roundings the error is below (n + 1)·2⁻²⁴. -/
theorem unit_err {n : Nat} (h : n ≤ 15) : (1 + 1 / 2 ^ 24 : Rat) ^ n - 1 ≤ (n + 1) / 2 ^ 24 := by
  interval_cases n <;> norm_num

theorem Approx.near {n : Nat} {A x y : Rat} (h : Approx n A x y) (hn : n ≤ 15) : y ≤ x + (n + 1) / 2 ^ 24 * A ∧ x ≤ y + (n + 1) / 2 ^ 24 * A := by
  have e := le_trans h.err (mul_le_mul_of_nonneg_right (unit_err hn) h.pos)
  rw [abs_le] at e
  constructor <;> linarith [e.1, e.2]

end Zune.Float
