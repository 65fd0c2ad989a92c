/-
The square root of IEEE 754: the number of `p` bits closest to the real root, computed from an integer root.
-/
import Verif.Common.Float
import Mathlib.Analysis.Real.Sqrt
import Mathlib.Data.Nat.Sqrt

namespace Zune.Float

/-- `f32::sqrt` (`p = 24`) and `f64::sqrt` (`p = 53`), used e.g. at zune-imageprocs/src/sobel.rs:126; unbounded exponents, as for `rnd`.  The integer
    root of `q` scaled to more than `p` bits, plus a half if it is not exact, is rounded once.  Numbers below zero, for which the result is
    NaN, are not meaningful arguments. -/
def fsqrt (p : Nat) (q : Rat) : Rat :=
  if q ≤ 0 then 0
  else
    let k : Int := p + 2 - Int.log 2 q / 2
    let s : Nat := Nat.sqrt ⌊q * (4 : Rat) ^ k⌋.toNat
    rnd p ((if (s * s : Rat) = q * (4 : Rat) ^ k then (s : Rat) else s + 1 / 2) * (2 : Rat) ^ (-k))

theorem closer_right {y r x : ℝ} (h : y < r) (hc : |r - x| ≤ |y - x|) : (y + r) / 2 ≤ x := by
  have := sq_le_sq.2 hc
  nlinarith

theorem closer_left {y r x : ℝ} (h : r < y) (hc : |r - x| ≤ |y - x|) : x ≤ (y + r) / 2 := by
  have := sq_le_sq.2 hc
  nlinarith

theorem fsqrt_fits (p : Nat) (q : Rat) : Fits p (fsqrt p q) := by
  unfold fsqrt
  split_ifs
  · exact ⟨0, 0, by simp, by simp⟩
  · exact rnd_fits _ _

/-- A number with more than `p + 2` bits before the point, not an integer, rounds like every other number between the same two integers. -/
theorem round_sticky {p : Nat} (hp : 1 ≤ p) {s : Nat} {u : Rat} (k : Int) (hu : u = (2 : Rat) ^ (-k)) (hs : 2 ^ (p + 2) ≤ s) {R : ℝ}
    (h1 : (s : ℝ) * u < R) (h2 : R < (s + 1) * (u : ℝ)) {y : Rat} (hy : Fits p y) :
    |(rnd p ((s + 1 / 2) * u) : ℝ) - R| ≤ |(y : ℝ) - R| := by
  have hu0 : 0 < u := by rw [hu]; exact zpow_pos (by norm_num) _
  have hu0' : (0 : ℝ) < u := by exact_mod_cast hu0
  generalize hx : ((s : Rat) + 1 / 2) * u = x
  have hx0 : 0 < x := by rw [← hx]; positivity
  have habs : |x| = x := abs_of_pos hx0
  -- the exponent of `x`
  have hlog : (p : Int) + 2 - k ≤ Int.log 2 |x| := by
    rw [habs, ← Int.zpow_le_iff_le_log (by norm_num) hx0, ← hx, hu]
    have : (2 : Rat) ^ ((p : Int) + 2 - k) = 2 ^ (p + 2) * 2 ^ (-k) := by
      rw [sub_eq_add_neg, zpow_add₀ (by norm_num)]; norm_cast
    push_cast
    rw [this]
    apply mul_le_mul_of_nonneg_right _ (zpow_pos (by norm_num) _).le
    have : ((2 ^ (p + 2) : Nat) : Rat) ≤ s := by exact_mod_cast hs
    push_cast at this
    linarith
  -- multiples of the unit of `x` are even multiples of `u`
  have hulp : ∃ c : Int, ulp p x = 2 * c * u := by
    obtain ⟨d, hd⟩ := Int.eq_ofNat_of_zero_le (show 0 ≤ Int.log 2 |x| + 1 - p - (1 - k) by omega)
    refine ⟨2 ^ d, ?_⟩
    unfold ulp
    rw [show Int.log 2 |x| + 1 - (p : Int) = 1 + d + -k by omega, zpow_add₀ (by norm_num), zpow_add₀ (by norm_num), hu]
    push_cast
    norm_cast
  obtain ⟨c, hc⟩ := hulp
  have heven : ∀ z : Rat, Fits p z → (2 : Rat) ^ Int.log 2 |x| ≤ |z| → ∃ a : Int, (z : ℝ) = 2 * a * u := by
    intro z hz hzx
    obtain ⟨n, hn⟩ := fits_multiple hp hz hzx
    refine ⟨n * c, ?_⟩
    rw [hn, hc]; push_cast; ring
  have hP : Fits p ((2 : Rat) ^ Int.log 2 |x|) := ⟨1, Int.log 2 |x|, by simpa using one_le_pow₀ (by norm_num), by simp⟩
  have hP0 : (0 : Rat) < (2 : Rat) ^ Int.log 2 |x| := zpow_pos (by norm_num) _
  have hPx : (2 : Rat) ^ Int.log 2 |x| ≤ x := by have := log_le hx0.ne'; rwa [habs] at this ⊢
  have hr := le_rnd hp hP hPx
  obtain ⟨a, ha⟩ := heven _ (rnd_fits p x) (le_trans hr (le_abs_self _))
  have hxr : (x : ℝ) = (s + 1 / 2) * u := by rw [← hx]; push_cast; ring
  have main : ∀ z : Rat, Fits p z → (2 : Rat) ^ Int.log 2 |x| ≤ z → |(rnd p x : ℝ) - R| ≤ |(z : ℝ) - R| := by
    intro z hz hzx
    obtain ⟨b, hb⟩ := heven z hz (le_trans hzx (le_abs_self _))
    have hbest : |(rnd p x : ℝ) - x| ≤ |(z : ℝ) - x| := by exact_mod_cast rnd_best hp x hz
    by_contra hcon
    have hcon' := (not_le.1 hcon)
    rcases lt_trichotomy (z : ℝ) (rnd p x : ℝ) with hlt | heq | hgt
    · have e1 := closer_right hlt hbest
      have e2 := closer_left hlt hcon'.le
      rw [ha, hb, hxr] at e1
      rw [ha, hb] at e2
      have i1 : ((a + b : Int) : ℝ) ≤ s + 1 / 2 := by
        push_cast; exact le_of_mul_le_mul_right (by linarith) hu0'
      have i2 : (s : ℝ) < ((a + b : Int) : ℝ) := by
        push_cast; exact lt_of_mul_lt_mul_right (by linarith) hu0'.le
      have j2 : (s : Int) + 1 ≤ a + b := by exact_mod_cast i2
      have j2' : ((s : ℝ)) + 1 ≤ ((a + b : Int) : ℝ) := by exact_mod_cast j2
      linarith
    · rw [heq] at hcon'; exact lt_irrefl _ hcon'
    · have e1 := closer_left hgt hbest
      have e2 := closer_right hgt hcon'.le
      rw [ha, hb, hxr] at e1
      rw [ha, hb] at e2
      have i1 : (s : ℝ) + 1 / 2 ≤ ((a + b : Int) : ℝ) := by
        push_cast; exact le_of_mul_le_mul_right (by linarith) hu0'
      have i2 : ((a + b : Int) : ℝ) < s + 1 := by
        push_cast; exact lt_of_mul_lt_mul_right (by linarith) hu0'.le
      have j2 : a + b < (s : Int) + 1 := by exact_mod_cast i2
      have j2' : ((a + b : Int) : ℝ) ≤ s := by exact_mod_cast (by omega : a + b ≤ (s : Int))
      linarith
  by_cases hyP : (2 : Rat) ^ Int.log 2 |x| ≤ y
  · exact main y hy hyP
  · refine le_trans (main _ hP le_rfl) ?_
    obtain ⟨b, hb⟩ := heven _ hP (le_abs_self _)
    have hPx' : (((2 : Rat) ^ Int.log 2 |x| : Rat) : ℝ) ≤ x := by exact_mod_cast hPx
    have hyP' : (y : ℝ) < (((2 : Rat) ^ Int.log 2 |x| : Rat) : ℝ) := by exact_mod_cast not_le.1 hyP
    generalize (((2 : Rat) ^ Int.log 2 |x| : Rat) : ℝ) = P at *
    have i1 : ((2 * b : Int) : ℝ) ≤ s + 1 / 2 := by
      push_cast; exact le_of_mul_le_mul_right (by linarith) hu0'
    have j1 : 2 * b ≤ (s : Int) := by
      by_contra hj
      have : ((s : ℝ)) + 1 ≤ ((2 * b : Int) : ℝ) := by exact_mod_cast (by omega : (s : Int) + 1 ≤ 2 * b)
      linarith
    have j1' : ((2 * b : Int) : ℝ) ≤ s := by exact_mod_cast j1
    have hPs : P ≤ s * u := by rw [hb]; push_cast at j1'; exact mul_le_mul_of_nonneg_right j1' hu0'.le
    rw [abs_of_nonpos (by linarith), abs_of_nonpos (by linarith)]
    linarith

/-- `fsqrt` is correctly rounded: no number of `p` bits is closer to the root. -/
theorem fsqrt_best {p : Nat} (hp : 1 ≤ p) {q : Rat} (hq : 0 ≤ q) {y : Rat} (hy : Fits p y) :
    |(fsqrt p q : ℝ) - √(q : ℝ)| ≤ |(y : ℝ) - √(q : ℝ)| := by
  unfold fsqrt
  by_cases h0 : q ≤ 0
  · have : q = 0 := le_antisymm h0 hq
    subst this
    simp
  rw [if_neg h0]
  have hq0 : 0 < q := not_le.1 h0
  dsimp only
  generalize hk : (p : Int) + 2 - Int.log 2 q / 2 = k at *
  generalize hs : Nat.sqrt ⌊q * (4 : Rat) ^ k⌋.toNat = s at *
  have h2k : (0 : ℝ) < 2 ^ k := zpow_pos (by norm_num) _
  have h4 : (4 : ℝ) ^ k = (2 ^ k) ^ 2 := by rw [sq, ← mul_zpow]; norm_num
  have hroot : √(q : ℝ) = √((q : ℝ) * 4 ^ k) * 2 ^ (-k) := by
    rw [h4, Real.sqrt_mul' _ (sq_nonneg _), Real.sqrt_sq h2k.le, zpow_neg, mul_assoc, mul_inv_cancel₀ h2k.ne', mul_one]
  split_ifs with he
  · have hx : √(q : ℝ) = (((s : Rat) * (2 : Rat) ^ (-k) : Rat) : ℝ) := by
      have he' : (s : ℝ) * s = q * 4 ^ k := by
        have := congrArg (fun z : Rat => (z : ℝ)) he
        push_cast at this
        exact this
      rw [hroot, ← he', Real.sqrt_mul_self (Nat.cast_nonneg s)]
      push_cast; rfl
    rw [hx]
    exact_mod_cast rnd_best hp ((s : Rat) * (2 : Rat) ^ (-k)) hy
  · have hpos : (0 : Rat) ≤ q * (4 : Rat) ^ k := mul_nonneg hq (zpow_pos (by norm_num) _).le
    have hfl : ((⌊q * (4 : Rat) ^ k⌋.toNat : Nat) : Rat) = (⌊q * (4 : Rat) ^ k⌋ : Rat) := by
      have : 0 ≤ ⌊q * (4 : Rat) ^ k⌋ := Int.floor_nonneg.2 hpos
      exact_mod_cast Int.toNat_of_nonneg this
    have hlo : (s : Rat) * s ≤ q * (4 : Rat) ^ k := by
      have := Nat.sqrt_le ⌊q * (4 : Rat) ^ k⌋.toNat
      rw [hs] at this
      have : ((s * s : Nat) : Rat) ≤ ((⌊q * (4 : Rat) ^ k⌋.toNat : Nat) : Rat) := by exact_mod_cast this
      rw [hfl] at this
      push_cast at this
      exact le_trans this (Int.floor_le _)
    have hhi : q * (4 : Rat) ^ k < (s + 1) * (s + 1) := by
      have := Nat.lt_succ_sqrt ⌊q * (4 : Rat) ^ k⌋.toNat
      rw [hs] at this
      have : (⌊q * (4 : Rat) ^ k⌋.toNat : Rat) + 1 ≤ (((s + 1) * (s + 1) : Nat) : Rat) := by exact_mod_cast this
      rw [hfl] at this
      push_cast at this
      exact lt_of_lt_of_le (Int.lt_floor_add_one _) this
    have hlt : (s : Rat) * s < q * (4 : Rat) ^ k := lt_of_le_of_ne hlo he
    -- enough bits
    have hbig : 2 ^ (p + 2) ≤ s := by
      rw [← hs, Nat.le_sqrt]
      have h1 : (2 : Rat) ^ Int.log 2 q ≤ q := Int.zpow_log_le_self (by norm_num) hq0
      have h2 : (2 : Rat) ^ (2 * (p : Int) + 4) ≤ q * 4 ^ k := by
        have e4 : (4 : Rat) ^ k = 2 ^ (2 * k) := by rw [zpow_mul]; norm_num
        rw [e4]
        refine le_trans ?_ (mul_le_mul_of_nonneg_right h1 (zpow_pos (by norm_num) _).le)
        rw [← zpow_add₀ (by norm_num)]
        exact zpow_le_zpow_right₀ (by norm_num) (by omega)
      have h3 : ((2 ^ (p + 2) * 2 ^ (p + 2) : Nat) : Int) ≤ ⌊q * (4 : Rat) ^ k⌋ := by
        rw [Int.le_floor]
        refine le_trans (le_of_eq ?_) h2
        push_cast
        rw [← pow_add, ← zpow_natCast]
        congr 1
        push_cast; ring
      have := Int.toNat_le_toNat h3
      rwa [Int.toNat_natCast] at this
    have r1 : (s : ℝ) < √((q : ℝ) * 4 ^ k) := by
      apply Real.lt_sqrt_of_sq_lt
      rw [sq]
      have : (((s : Rat) * s : Rat) : ℝ) < ((q * (4 : Rat) ^ k : Rat) : ℝ) := Rat.cast_lt.2 hlt
      push_cast at this
      exact this
    have r2 : √((q : ℝ) * 4 ^ k) < s + 1 := by
      rw [Real.sqrt_lt' (by positivity), sq]
      have : ((q * (4 : Rat) ^ k : Rat) : ℝ) < ((((s : Rat) + 1) * (s + 1) : Rat) : ℝ) := Rat.cast_lt.2 hhi
      push_cast at this
      exact this
    have hu : (((2 : Rat) ^ (-k) : Rat) : ℝ) = 2 ^ (-k) := by push_cast; rfl
    have hup : (0 : ℝ) < 2 ^ (-k) := zpow_pos (by norm_num) _
    rw [hroot]
    refine round_sticky hp k rfl hbig ?_ ?_ hy
    · rw [hu]; exact mul_lt_mul_of_pos_right r1 hup
    · rw [hu]; exact mul_lt_mul_of_pos_right r2 hup

/-- The relative error of the root. -/
theorem fsqrt_err {p : Nat} (hp : 1 ≤ p) {q : Rat} (hq : 0 ≤ q) : |(fsqrt p q : ℝ) - √(q : ℝ)| ≤ √(q : ℝ) / 2 ^ p := by
  have key : ∀ ε : ℝ, 0 < ε → |(fsqrt p q : ℝ) - √(q : ℝ)| ≤ √(q : ℝ) / 2 ^ p + ε := by
    intro ε hε
    obtain ⟨z, hz1, hz2⟩ := exists_rat_btwn (show √(q : ℝ) < √(q : ℝ) + ε / 2 by linarith)
    have hz0 : (0 : ℝ) ≤ z := le_trans (Real.sqrt_nonneg _) hz1.le
    have hb := fsqrt_best hp hq (rnd_fits p z)
    have he : |((rnd p z : Rat) : ℝ) - z| * 2 ^ p ≤ z := by
      have := rnd_err p z
      rw [abs_of_nonneg (show 0 ≤ z by exact_mod_cast hz0)] at this
      exact_mod_cast this
    have hpow : (1 : ℝ) ≤ 2 ^ p := one_le_pow₀ (by norm_num)
    have he' : |((rnd p z : Rat) : ℝ) - z| ≤ z / 2 ^ p := by rw [le_div_iff₀ (by positivity)]; exact he
    have ht := abs_add_le (((rnd p z : Rat) : ℝ) - z) (z - √(q : ℝ))
    rw [sub_add_sub_cancel, abs_of_pos (show 0 < (z : ℝ) - √(q : ℝ) by linarith)] at ht
    have hd : (z : ℝ) / 2 ^ p ≤ √(q : ℝ) / 2 ^ p + ε / 2 := by
      have : (z : ℝ) / 2 ^ p ≤ (√(q : ℝ) + ε / 2) / 2 ^ p := div_le_div_of_nonneg_right hz2.le (by positivity)
      rw [add_div] at this
      have : ε / 2 / 2 ^ p ≤ ε / 2 := div_le_self (by linarith) hpow
      linarith
    linarith
  exact le_of_forall_pos_le_add key

end Zune.Float
