import Mathlib.Data.Int.Log
import Mathlib.Data.Rat.Floor
import Mathlib.Tactic.Linarith
import Mathlib.Tactic.Positivity
import Mathlib.Tactic.Ring
import Mathlib.Tactic.FieldSimp

/-!
# Floating point numbers as rationals

The rounding of IEEE 754: `rnd p x` is the number with a significand of `p` bits nearest to `x`, the even one in a tie.
`f32` has `p = 24`, `f64` has `p = 53`.  Exponents are not limited: no subnormal numbers, infinities or NaN.
Nothing here is taken from the source of zune-image.
-/

namespace Zune.Float

/-- The nearest integer, the even one in a tie. -/
def roundEven (x : Rat) : Int :=
  if x - ⌊x⌋ < 1 / 2 then ⌊x⌋
  else if 1 / 2 < x - ⌊x⌋ then ⌊x⌋ + 1
  else if ⌊x⌋ % 2 = 0 then ⌊x⌋ else ⌊x⌋ + 1

/-- The distance of the numbers with `p` bits around `x`. -/
def ulp (p : Nat) (x : Rat) : Rat := (2 : Rat) ^ (Int.log 2 |x| + 1 - p)

/-- Rounding to `p` significant bits. -/
def rnd (p : Nat) (x : Rat) : Rat := if x = 0 then 0 else roundEven (x / ulp p x) * ulp p x

/-- `x` is a number with a significand of `p` bits. -/
def Fits (p : Nat) (x : Rat) : Prop := ∃ m e : Int, |m| ≤ 2 ^ p ∧ x = m * (2 : Rat) ^ e

theorem roundEven_near (x : Rat) : |(roundEven x : Rat) - x| ≤ 1 / 2 := by
  have h1 := Int.floor_le x
  have h2 := Int.lt_floor_add_one x
  unfold roundEven
  split
  · rw [abs_le]; constructor <;> linarith
  · split
    · push_cast; rw [abs_le]; constructor <;> linarith
    · split
      · rw [abs_le]; constructor <;> linarith
      · push_cast; rw [abs_le]; constructor <;> linarith

theorem roundEven_best (x : Rat) (k : Int) : |(roundEven x : Rat) - x| ≤ |(k : Rat) - x| := by
  have h1 := Int.floor_le x
  have h2 := Int.lt_floor_add_one x
  have hn := roundEven_near x
  rcases le_or_gt k ⌊x⌋ with hk | hk
  · have hk' : (k : Rat) ≤ ⌊x⌋ := by exact_mod_cast hk
    rw [abs_of_nonpos (by linarith : (k : Rat) - x ≤ 0)]
    refine le_trans ?_ (by linarith : x - ⌊x⌋ ≤ -((k : Rat) - x))
    unfold roundEven
    split
    · rw [abs_of_nonpos (by linarith)]; linarith
    · split
      · push_cast; rw [abs_of_nonneg (by linarith)]; linarith
      · split
        · rw [abs_of_nonpos (by linarith)]; linarith
        · push_cast; rw [abs_of_nonneg (by linarith)]; linarith
  · have hk' : (⌊x⌋ : Rat) + 1 ≤ k := by exact_mod_cast hk
    rw [abs_of_nonneg (by linarith : (0 : Rat) ≤ (k : Rat) - x)]
    refine le_trans ?_ (by linarith : (⌊x⌋ : Rat) + 1 - x ≤ (k : Rat) - x)
    unfold roundEven
    split
    · rw [abs_of_nonpos (by linarith)]; linarith
    · split
      · push_cast; rw [abs_of_nonneg (by linarith)]
      · split
        · rw [abs_of_nonpos (by linarith)]; linarith
        · push_cast; rw [abs_of_nonneg (by linarith)]

theorem roundEven_int (k : Int) : roundEven k = k := by simp [roundEven]

theorem ulp_pos (p : Nat) (x : Rat) : 0 < ulp p x := zpow_pos (by norm_num) _

/-- The exponent of a number. -/
theorem log_le {x : Rat} (hx : x ≠ 0) : (2 : Rat) ^ Int.log 2 |x| ≤ |x| := by
  have := Int.zpow_log_le_self (b := 2) (by omega) (abs_pos.2 hx)
  exact_mod_cast this

theorem lt_log {x : Rat} : |x| < (2 : Rat) ^ (Int.log 2 |x| + 1) := by
  have := Int.lt_zpow_succ_log_self (b := 2) (by omega) |x|
  exact_mod_cast this

theorem ulp_scale (p : Nat) (x : Rat) : ulp p x * 2 ^ p = (2 : Rat) ^ (Int.log 2 |x| + 1) := by
  unfold ulp
  rw [← zpow_natCast, ← zpow_add₀ (by norm_num)]
  congr 1; omega

theorem rnd_zero (p : Nat) : rnd p 0 = 0 := by simp [rnd]

/-- The error is at most half the distance of the neighbours. -/
theorem rnd_ulp (p : Nat) (x : Rat) : |rnd p x - x| ≤ ulp p x / 2 := by
  unfold rnd
  split
  · subst_vars; rw [sub_zero, abs_zero]; have := ulp_pos p 0; positivity
  · have hu := ulp_pos p x
    have h := roundEven_near (x / ulp p x)
    have e : (roundEven (x / ulp p x) : Rat) * ulp p x - x = ((roundEven (x / ulp p x) : Rat) - x / ulp p x) * ulp p x := by
      field_simp
    rw [e, abs_mul, abs_of_pos hu]
    nlinarith

/-- The error relative to the number. -/
theorem rnd_err (p : Nat) (x : Rat) : |rnd p x - x| * 2 ^ p ≤ |x| := by
  by_cases hx : x = 0
  · subst hx; simp [rnd_zero]
  · have h1 := rnd_ulp p x
    have h2 := ulp_scale p x
    have h3 := log_le hx
    rw [zpow_add₀ (by norm_num), zpow_one] at h2
    have hp : (0 : Rat) < 2 ^ p := by positivity
    nlinarith

theorem fits_multiple {p : Nat} (hp : 1 ≤ p) {x y : Rat} (hy : Fits p y) (h : (2 : Rat) ^ Int.log 2 |x| ≤ |y|) :
    ∃ k : Int, y = k * ulp p x := by
  obtain ⟨m, f, hm, rfl⟩ := hy
  generalize he : Int.log 2 |x| = e at h
  have hm' : |(m : Rat)| ≤ 2 ^ p := by exact_mod_cast hm
  have hf : (0 : Rat) < (2 : Rat) ^ f := zpow_pos (by norm_num) _
  rw [abs_mul, abs_of_pos hf] at h
  have h1 : (2 : Rat) ^ e ≤ (2 : Rat) ^ ((p : Int) + f) := by
    rw [zpow_add₀ (by norm_num), zpow_natCast]
    exact h.trans (mul_le_mul_of_nonneg_right hm' hf.le)
  have h2 : e ≤ p + f := (zpow_le_zpow_iff_right₀ (by norm_num)).1 h1
  unfold ulp
  rw [he]
  by_cases h3 : e + 1 - p ≤ f
  · refine ⟨m * 2 ^ (f - (e + 1 - p)).toNat, ?_⟩
    push_cast
    rw [mul_assoc, ← zpow_natCast, Int.toNat_of_nonneg (by omega), ← zpow_add₀ (by norm_num)]
    congr 2; omega
  · obtain rfl : e = p + f := by omega
    rw [zpow_add₀ (by norm_num), zpow_natCast] at h
    have h4 : |(m : Rat)| = 2 ^ p := le_antisymm hm' (le_of_mul_le_mul_right h hf)
    have h5 : |m| = 2 ^ p := by exact_mod_cast h4
    obtain ⟨q, rfl⟩ : ∃ q, p = q + 1 := ⟨p - 1, by omega⟩
    have e2 : ((q + 1 : Nat) : Int) + f + 1 - ((q + 1 : Nat) : Int) = f + 1 := by omega
    rw [e2, zpow_add₀ (by norm_num), zpow_one]
    rcases abs_eq (by positivity : (0 : Int) ≤ 2 ^ (q + 1)) |>.1 h5 with h | h
    · refine ⟨2 ^ q, ?_⟩; rw [h]; push_cast; ring
    · refine ⟨-2 ^ q, ?_⟩; rw [h]; push_cast; ring

/-- Rounding gives the nearest number. -/
theorem rnd_best {p : Nat} (hp : 1 ≤ p) (x : Rat) {y : Rat} (hy : Fits p y) : |rnd p x - x| ≤ |y - x| := by
  by_cases hx : x = 0
  · subst hx; simp [rnd_zero]
  have hu := ulp_pos p x
  have main : ∀ k : Int, |rnd p x - x| ≤ |(k : Rat) * ulp p x - x| := by
    intro k
    have h := roundEven_best (x / ulp p x) k
    have e : ∀ k : Rat, k * ulp p x - x = (k - x / ulp p x) * ulp p x := by intro k; field_simp
    unfold rnd
    rw [if_neg hx, e, e, abs_mul, abs_mul, abs_of_pos hu]
    exact mul_le_mul_of_nonneg_right h hu.le
  by_cases hb : (2 : Rat) ^ Int.log 2 |x| ≤ |y|
  · obtain ⟨k, rfl⟩ := fits_multiple hp hy hb
    exact main k
  · have h1 := log_le hx
    obtain ⟨q, rfl⟩ : ∃ q, p = q + 1 := ⟨p - 1, by omega⟩
    have e : (2 : Rat) ^ q * ulp (q + 1) x = (2 : Rat) ^ Int.log 2 |x| := by
      have := ulp_scale (q + 1) x
      rw [zpow_add₀ (by norm_num), zpow_one, pow_succ] at this
      linarith
    have hb' := not_le.1 hb
    have hy2 := abs_lt.1 hb'
    rcases lt_or_gt_of_ne hx with hneg | hpos
    · have := main (-2 ^ q)
      push_cast at this
      rw [neg_mul, e] at this
      rw [abs_of_neg hneg] at *
      refine this.trans ?_
      rw [abs_of_nonneg (by linarith), abs_of_nonneg (by linarith)]
      linarith
    · have := main (2 ^ q)
      push_cast at this
      rw [e] at this
      rw [abs_of_pos hpos] at *
      refine this.trans ?_
      rw [abs_of_nonpos (by linarith), abs_of_nonpos (by linarith)]
      linarith

theorem rnd_fit {p : Nat} (hp : 1 ≤ p) {x : Rat} (h : Fits p x) : rnd p x = x := by
  have := rnd_best hp x h
  rw [sub_self, abs_zero] at this
  exact sub_eq_zero.1 (abs_nonpos_iff.1 this)

theorem le_rnd {p : Nat} (hp : 1 ≤ p) {x y : Rat} (hy : Fits p y) (h : y ≤ x) : y ≤ rnd p x := by
  by_contra hc
  have h1 := not_le.1 hc
  have := rnd_best hp x hy
  rw [abs_of_neg (by linarith), abs_of_nonpos (by linarith)] at this
  linarith

theorem rnd_le {p : Nat} (hp : 1 ≤ p) {x y : Rat} (hy : Fits p y) (h : x ≤ y) : rnd p x ≤ y := by
  by_contra hc
  have h1 := not_le.1 hc
  have := rnd_best hp x hy
  rw [abs_of_pos (by linarith), abs_of_nonneg (by linarith)] at this
  linarith

theorem rnd_fits (p : Nat) (x : Rat) : Fits p (rnd p x) := by
  by_cases hx : x = 0
  · exact ⟨0, 0, by simp, by simp [hx, rnd_zero]⟩
  refine ⟨roundEven (x / ulp p x), Int.log 2 |x| + 1 - p, ?_, by unfold rnd; rw [if_neg hx]; rfl⟩
  have hu := ulp_pos p x
  have h1 : |x / ulp p x| < 2 ^ p := by
    rw [abs_div, abs_of_pos hu, div_lt_iff₀ hu, mul_comm, ulp_scale]
    exact lt_log
  have h2 := roundEven_best (x / ulp p x) (2 ^ p)
  have h3 := roundEven_best (x / ulp p x) (-2 ^ p)
  have h4 := abs_lt.1 h1
  have h5 : |(roundEven (x / ulp p x) : Rat)| ≤ 2 ^ p := by
    push_cast at h2 h3
    rw [abs_le]
    constructor
    · by_contra hc
      have := not_le.1 hc
      rw [abs_of_neg (by linarith), abs_of_neg (by linarith)] at h3
      linarith
    · by_contra hc
      have := not_le.1 hc
      rw [abs_of_pos (by linarith), abs_of_pos (by linarith)] at h2
      linarith
  exact_mod_cast h5

/-- Integers of at most `p` bits. -/
theorem fits_int {p : Nat} {m : Int} (h : |m| ≤ 2 ^ p) : Fits p m := ⟨m, 0, h, by simp⟩

theorem fits_nat {p n : Nat} (h : n ≤ 2 ^ p) : Fits p n := ⟨n, 0, by simpa using (by exact_mod_cast h : (n : Int) ≤ 2 ^ p), by simp⟩

/-- Rounding found by its result: `m` units of `2 ^ e`, nearer than half a unit. -/
theorem rnd_eq {p : Nat} {x : Rat} (m e : Int) (hx : 0 < x) (h1 : (2 : Rat) ^ (e + p - 1) ≤ x) (h2 : x < (2 : Rat) ^ (e + p))
    (h3 : |x - m * (2 : Rat) ^ e| < (2 : Rat) ^ e / 2) : rnd p x = m * (2 : Rat) ^ e := by
  have hl : Int.log 2 |x| = e + p - 1 := by
    rw [abs_of_pos hx]
    refine le_antisymm ?_ ((Int.zpow_le_iff_le_log (by omega) hx).1 (by exact_mod_cast h1))
    have : Int.log 2 x < e + p := (Int.lt_zpow_iff_log_lt (by omega) hx).1 (by exact_mod_cast h2)
    omega
  have hu : ulp p x = (2 : Rat) ^ e := by unfold ulp; rw [hl]; congr 1; omega
  have hp : (0 : Rat) < (2 : Rat) ^ e := zpow_pos (by norm_num) _
  unfold rnd
  rw [if_neg hx.ne', hu]
  congr 1
  have h4 : |x / 2 ^ e - m| < 1 / 2 := by
    have : x / 2 ^ e - m = (x - m * (2 : Rat) ^ e) / 2 ^ e := by field_simp
    rw [this, abs_div, abs_of_pos hp, div_lt_iff₀ hp]; linarith
  have h5 := roundEven_near (x / 2 ^ e)
  have h6 : |((roundEven (x / 2 ^ e) - m : Int) : Rat)| < 1 := by
    push_cast
    have := abs_sub_le (roundEven (x / 2 ^ e) : Rat) (x / 2 ^ e) m
    linarith
  have h7 : |roundEven (x / 2 ^ e) - m| < 1 := by exact_mod_cast h6
  have h8 := abs_lt.1 h7
  exact_mod_cast (show roundEven (x / 2 ^ e) = m by omega)

/-- Rounding keeps the order. -/
theorem rnd_mono {p : Nat} (hp : 1 ≤ p) {x y : Rat} (h : x ≤ y) : rnd p x ≤ rnd p y := by
  by_contra hc
  have hc := not_le.1 hc
  by_cases h1 : x ≤ rnd p y
  · exact absurd (rnd_le hp (rnd_fits p y) h1) (not_le.2 hc)
  by_cases h2 : rnd p x ≤ y
  · exact absurd (le_rnd hp (rnd_fits p x) h2) (not_le.2 hc)
  have h1 := not_le.1 h1
  have h2 := not_le.1 h2
  have b1 := rnd_best hp x (rnd_fits p y)
  have b2 := rnd_best hp y (rnd_fits p x)
  rw [abs_of_nonneg (by linarith), abs_of_nonpos (by linarith)] at b1
  rw [abs_of_nonpos (by linarith), abs_of_nonneg (by linarith)] at b2
  have : x = y := le_antisymm h (by linarith)
  rw [this] at hc
  exact lt_irrefl _ hc

end Zune.Float
