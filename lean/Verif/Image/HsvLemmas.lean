/-
Rounding errors of the conversions between RGB, HSV and HSL.
-/
import Verif.Image.HsvModel
import Verif.Image.HsvSpec

namespace Zune.Hsv
open Zune.Float

/-- `x` is a number from 0 to 1, `k` times 2⁻²⁴ from `y` at most. -/
structure U (k : Rat) (x y : Rat) : Prop where
  lo : 0 ≤ x
  hi : x ≤ 1
  err : |x - y| ≤ k / 2 ^ 24

theorem fits_zero' : Fits 24 0 := by simpa using fits_nat (p := 24) (n := 0) (by norm_num)
theorem fits_one' : Fits 24 1 := by simpa using fits_nat (p := 24) (n := 1) (by norm_num)

theorem rnd_near {A x : Rat} (h : |x| ≤ A) : |rnd 24 x - x| ≤ A / 2 ^ 24 := by
  have e := rnd_err 24 x
  rw [le_div_iff₀ (by norm_num)]
  linarith

theorem rnd_near' {A k x y : Rat} (h : |x| ≤ A) (e : |x - y| ≤ k / 2 ^ 24) : |rnd 24 x - y| ≤ (k + A) / 2 ^ 24 := by
  have h1 := rnd_near h
  have t := abs_add_le (rnd 24 x - x) (x - y)
  rw [sub_add_sub_cancel] at t
  rw [add_div]
  linarith

theorem rnd_unit {x : Rat} (h0 : 0 ≤ x) (h1 : x ≤ 1) : 0 ≤ rnd 24 x ∧ rnd 24 x ≤ 1 :=
  ⟨le_rnd (by norm_num) fits_zero' h0, rnd_le (by norm_num) fits_one' h1⟩

theorem U.self {x : Rat} (h0 : 0 ≤ x) (h1 : x ≤ 1) : U 0 x x := ⟨h0, h1, by simp⟩

theorem U.rnd {k x y : Rat} (h : U k x y) : U (k + 1) (rnd 24 x) y := by
  obtain ⟨a, b⟩ := rnd_unit h.lo h.hi
  exact ⟨a, b, rnd_near' (by rw [abs_of_nonneg h.lo]; exact h.hi) h.err⟩

theorem U.compl {k x y : Rat} (h : U k x y) : U k (1 - x) (1 - y) :=
  ⟨by linarith [h.hi], by linarith [h.lo], by rw [show 1 - x - (1 - y) = -(x - y) by ring, abs_neg]; exact h.err⟩

theorem U.mul {k x y s : Rat} (h : U k x y) (h0 : 0 ≤ s) (h1 : s ≤ 1) : U k (s * x) (s * y) := by
  refine ⟨mul_nonneg h0 h.lo, by nlinarith [h.hi, h.lo], ?_⟩
  rw [← mul_sub, abs_mul, abs_of_nonneg h0]
  exact le_trans (mul_le_of_le_one_left (abs_nonneg _) h1) h.err

theorem U.mono {k l x y : Rat} (h : U k x y) (hk : k ≤ l) : U l x y :=
  ⟨h.lo, h.hi, le_trans h.err (div_le_div_of_nonneg_right hk (by norm_num))⟩

/-- A difference of at least 0, rounded, is 0 only if the difference is. -/
theorem rnd_pos {x : Rat} (h : 0 < x) : 0 < rnd 24 x := by
  have e := rnd_err 24 x
  rw [abs_of_pos h] at e
  by_contra hc
  push Not at hc
  rw [abs_of_nonpos (by linarith)] at e
  norm_num at e
  linarith

/-- The quotient of rounded numbers `n ≤ d`. -/
theorem quot {n d n' d' : Rat} (h0 : 0 ≤ n) (h1 : n ≤ d) (hd : 0 < d) (en : |n' - n| * 2 ^ 24 ≤ n) (ed : |d' - d| * 2 ^ 24 ≤ d)
    (h0' : 0 ≤ n') (h1' : n' ≤ d') (hd' : 0 < d') : U 3 (n' / d') (n / d) := by
  refine ⟨div_nonneg h0' hd'.le, (div_le_one hd').mpr h1', ?_⟩
  have hs : d ≤ d' * (1 + 1 / 2 ^ 23) := by
    have : d - d' ≤ |d' - d| := by rw [abs_sub_comm]; exact le_abs_self _
    norm_num at *
    linarith
  rw [div_sub_div _ _ hd'.ne' hd.ne', abs_div, abs_of_pos (mul_pos hd' hd), div_le_iff₀ (mul_pos hd' hd)]
  have e : n' * d - d' * n = (n' - n) * d - (d' - d) * n := by ring
  rw [e]
  have t := abs_sub (( n' - n) * d) ((d' - d) * n)
  rw [abs_mul, abs_mul, abs_of_pos hd, abs_of_nonneg h0] at t
  have e1 : |n' - n| ≤ n / 2 ^ 24 := by rw [le_div_iff₀ (by norm_num)]; exact en
  have e2 : |d' - d| ≤ d / 2 ^ 24 := by rw [le_div_iff₀ (by norm_num)]; exact ed
  have m1 := mul_le_mul_of_nonneg_right e1 hd.le
  have m2 := mul_le_mul_of_nonneg_right e2 h0
  have m3 := mul_le_mul_of_nonneg_right h1 hd.le
  have m4 := mul_le_mul_of_nonneg_left hs hd.le
  have m5 : 0 ≤ d' * d := (mul_pos hd' hd).le
  norm_num at *
  nlinarith

theorem below_unit {mx mn x : Rat} (h1 : x ≤ mx) (h2 : mn ≤ x) (h : mn < mx) : U 4 (below mx mn x) ((mx - x) / (mx - mn)) := by
  have := (quot (n := mx - x) (d := mx - mn) (by linarith) (by linarith) (by linarith)
    (by have := rnd_err 24 (mx - x); rwa [abs_of_nonneg (by linarith : 0 ≤ mx - x)] at this)
    (by have := rnd_err 24 (mx - mn); rwa [abs_of_nonneg (by linarith : 0 ≤ mx - mn)] at this)
    (le_rnd (by norm_num) fits_zero' (by linarith)) (rnd_mono (by norm_num) (by linarith)) (rnd_pos (by linarith))).rnd
  exact this.mono (by norm_num)

theorem pyMod_unit (n : Rat) : 0 ≤ pyMod n ∧ pyMod n ≤ 1 ∧ ∃ k : Int, |pyMod n + k - n| ≤ 1 / 2 ^ 24 := by
  have h0 : 0 ≤ n - ⌊n⌋ := by linarith [Int.floor_le n]
  have h1 : n - ⌊n⌋ ≤ 1 := by linarith [Int.lt_floor_add_one n]
  obtain ⟨a, b⟩ := rnd_unit h0 h1
  refine ⟨a, b, ⌊n⌋, ?_⟩
  have := rnd_near (x := n - ⌊n⌋) (A := 1) (by rw [abs_of_nonneg h0]; exact h1)
  rw [pyMod, show rnd 24 (n - ⌊n⌋) + (⌊n⌋ : Rat) - n = rnd 24 (n - ⌊n⌋) - (n - ⌊n⌋) by ring]
  exact this

theorem abs_near {x y k : Rat} (h : |x - y| ≤ k) : y - k ≤ x ∧ x ≤ y + k := by
  rw [abs_le] at h; constructor <;> linarith [h.1, h.2]

theorem fits_n {n : Nat} (h : n ≤ 8) : Fits 24 (n : Rat) := fits_nat (by omega)

/-- The sum `c + a - b` of the hue: the error of three roundings. -/
theorem hueSum {a b a' b' : Rat} (ha : U 4 a a') (hb : U 4 b b') (c : Nat) (hc : c ≤ 4) :
    |rnd 24 (rnd 24 (c + a) - b) - (c + a' - b')| ≤ 18 / 2 ^ 24 ∧ -1 ≤ rnd 24 (rnd 24 (c + a) - b) ∧ rnd 24 (rnd 24 (c + a) - b) ≤ 5 := by
  have hcq : (c : Rat) ≤ 4 := by exact_mod_cast hc
  have hc0 : (0 : Rat) ≤ c := Nat.cast_nonneg c
  have f5 : Fits 24 5 := fits_n (n := 5) (by norm_num)
  have fm : Fits 24 (-1 : Rat) := by simpa using fits_int (p := 24) (m := -1) (by norm_num)
  have s0 : (0 : Rat) ≤ rnd 24 (c + a) := le_rnd (by norm_num) fits_zero' (by linarith [ha.lo])
  have s5 : rnd 24 (c + a) ≤ 5 := rnd_le (by norm_num) f5 (by linarith [ha.hi])
  have e1 : |rnd 24 (c + a) - (c + a')| ≤ (4 + 5) / 2 ^ 24 :=
    rnd_near' (by rw [abs_of_nonneg (by linarith [ha.lo])]; linarith [ha.hi]) (by rw [show (c : Rat) + a - (c + a') = a - a' by ring]; exact ha.err)
  have e2 : |rnd 24 (c + a) - b - (c + a' - b')| ≤ 13 / 2 ^ 24 := by
    have t := abs_sub (rnd 24 (c + a) - (c + a')) (b - b')
    rw [show rnd 24 (c + a) - b - (c + a' - b') = rnd 24 (c + a) - (c + a') - (b - b') by ring]
    have := hb.err
    norm_num at *
    linarith
  refine ⟨?_, le_rnd (by norm_num) fm (by linarith [hb.hi]), rnd_le (by norm_num) f5 (by linarith [hb.lo])⟩
  have := rnd_near' (A := 5) (abs_le.mpr ⟨by linarith [hb.hi], by linarith [hb.lo]⟩) e2
  norm_num at *
  linarith

/-- The hue is, up to whole turns, 5·2⁻²⁴ from the true one at most. -/
theorem hue_near {r g b : Rat} (hne : minC r g b ≠ maxC r g b) :
    0 ≤ hue r g b ∧ hue r g b ≤ 1 ∧ ∃ k : Int, |hue r g b + k - trueHue r g b| ≤ 5 / 2 ^ 24 := by
  have hr : r ≤ maxC r g b := le_trans (le_max_left _ _) (le_max_left _ _)
  have hg : g ≤ maxC r g b := le_trans (le_max_right _ _) (le_max_left _ _)
  have hb : b ≤ maxC r g b := le_max_right _ _
  have hr' : minC r g b ≤ r := le_trans (min_le_left _ _) (min_le_left _ _)
  have hg' : minC r g b ≤ g := le_trans (min_le_left _ _) (min_le_right _ _)
  have hb' : minC r g b ≤ b := min_le_right _ _
  have hlt : minC r g b < maxC r g b := lt_of_le_of_ne (le_trans hr' hr) hne
  have et : trueHue r g b = (if r = maxC r g b then (g - b) / (maxC r g b - minC r g b) else if g = maxC r g b
      then 2 + (b - r) / (maxC r g b - minC r g b) else 4 + (r - g) / (maxC r g b - minC r g b)) / 6 := by
    change (if r = maxC r g b then (g - b) / (maxC r g b - minC r g b) / 6 else if g = maxC r g b
      then (2 + (b - r) / (maxC r g b - minC r g b)) / 6 else (4 + (r - g) / (maxC r g b - minC r g b)) / 6) = _
    by_cases e1 : r = maxC r g b
    · rw [if_pos e1, if_pos e1]
    · rw [if_neg e1, if_neg e1]
      by_cases e2 : g = maxC r g b
      · rw [if_pos e2, if_pos e2]
      · rw [if_neg e2, if_neg e2]
  rw [et]
  unfold hue
  dsimp only
  generalize hmx : maxC r g b = mx at *
  generalize hmn : minC r g b = mn at *
  have ur := below_unit hr hr' hlt
  have ug := below_unit hg hg' hlt
  have ub := below_unit hb hb' hlt
  have hd : mx - mn ≠ 0 := by linarith
  have key : ∀ q t : Rat, |q - t| ≤ 18 / 2 ^ 24 → -1 ≤ q → q ≤ 5 →
      0 ≤ pyMod (rnd 24 (q / 6)) ∧ pyMod (rnd 24 (q / 6)) ≤ 1 ∧ ∃ k : Int, |pyMod (rnd 24 (q / 6)) + k - t / 6| ≤ 5 / 2 ^ 24 := by
    intro q t h1 h2 h3
    obtain ⟨p0, p1, k, pk⟩ := pyMod_unit (rnd 24 (q / 6))
    refine ⟨p0, p1, k, ?_⟩
    have e : |q / 6 - t / 6| ≤ 3 / 2 ^ 24 := by
      rw [← sub_div, abs_div, abs_of_pos (by norm_num : (0 : Rat) < 6), div_le_iff₀ (by norm_num)]
      norm_num at *
      linarith
    have := rnd_near' (A := 1) (abs_le.mpr ⟨by linarith, by linarith⟩) e
    have t := abs_add_le (pyMod (rnd 24 (q / 6)) + k - rnd 24 (q / 6)) (rnd 24 (q / 6) - t / 6)
    rw [sub_add_sub_cancel] at t
    norm_num at *
    linarith
  split_ifs with e1 e2
  · refine key _ _ ?_ ?_ ?_
    · have t : |below mx mn b - below mx mn g - (g - b) / (mx - mn)| ≤ 8 / 2 ^ 24 := by
        have := abs_sub (below mx mn b - (mx - b) / (mx - mn)) (below mx mn g - (mx - g) / (mx - mn))
        have e : below mx mn b - below mx mn g - (g - b) / (mx - mn) =
            below mx mn b - (mx - b) / (mx - mn) - (below mx mn g - (mx - g) / (mx - mn)) := by field_simp; ring
        rw [e]
        have a1 := ub.err
        have a2 := ug.err
        norm_num at *
        linarith
      have := rnd_near' (A := 1) (abs_le.mpr ⟨by linarith [ub.lo, ug.hi], by linarith [ub.hi, ug.lo]⟩) t
      norm_num at *
      linarith
    · refine le_rnd (by norm_num) (by simpa using fits_int (p := 24) (m := -1) (by norm_num)) (by linarith [ub.lo, ug.hi])
    · exact le_trans (rnd_le (by norm_num) fits_one' (by linarith [ub.hi, ug.lo])) (by norm_num)
  · obtain ⟨a, b', c⟩ := hueSum ur ub 2 (by norm_num)
    refine key _ _ ?_ b' c
    have e : (2 : Rat) + (b - r) / (mx - mn) = (2 : Nat) + (mx - r) / (mx - mn) - (mx - b) / (mx - mn) := by push_cast; field_simp; ring
    rw [e]
    exact a
  · obtain ⟨a, b', c⟩ := hueSum ug ur 4 (by norm_num)
    refine key _ _ ?_ b' c
    have e : (4 : Rat) + (r - g) / (mx - mn) = (4 : Nat) + (mx - g) / (mx - mn) - (mx - r) / (mx - mn) := by push_cast; field_simp; ring
    rw [e]
    exact a

end Zune.Hsv
