/-
C118: pictures of 8 and 16 bits converted to HSV or HSL and back.
-/
import Verif.Image.HslProps

namespace Zune.Hsv
open Zune.Float

/-- 255 or 65535. -/
def Depth (m : Nat) : Prop := m = 255 ∨ m = 65535

theorem Depth.pos {m : Nat} (h : Depth m) : (0 : Rat) < m := by rcases h with rfl | rfl <;> norm_num

theorem Depth.le {m : Nat} (h : Depth m) : (m : Rat) ≤ 65535 := by rcases h with rfl | rfl <;> norm_num

/-- White is exactly 1. -/
theorem toFloat_white {m : Nat} (h : Depth m) : toFloat m m = 1 := by
  rcases h with rfl | rfl
  · have e : rnd 24 (1 / (255 : Nat) : Rat) = 8421505 * (2 : Rat) ^ (-31 : Int) := by
      have := rnd_eq (p := 24) (x := 1 / (255 : Nat)) 8421505 (-31) (by norm_num) (by norm_num) (by norm_num) (by norm_num [abs_lt])
      simpa using this
    rw [toFloat, e]
    have := rnd_eq (p := 24) (x := ((255 : Nat) : Rat) * (8421505 * (2 : Rat) ^ (-31 : Int))) 8388608 (-23) (by norm_num) (by norm_num)
      (by norm_num) (by norm_num [abs_lt])
    rw [this]; norm_num
  · have e : rnd 24 (1 / (65535 : Nat) : Rat) = 8388736 * (2 : Rat) ^ (-39 : Int) := by
      have := rnd_eq (p := 24) (x := 1 / (65535 : Nat)) 8388736 (-39) (by norm_num) (by norm_num) (by norm_num) (by norm_num [abs_lt])
      simpa using this
    rw [toFloat, e]
    have := rnd_eq (p := 24) (x := ((65535 : Nat) : Rat) * (8388736 * (2 : Rat) ^ (-39 : Int))) 16777216 (-24) (by norm_num) (by norm_num)
      (by norm_num) (by norm_num [abs_lt])
    rw [this]; norm_num

/-- Samples as `f32`: from 0 to 1, and right up to 3·2⁻²⁴. -/
theorem toFloat_near {m x : Nat} (h : Depth m) (hx : x ≤ m) : Sample (toFloat m x) ∧ |toFloat m x - x / m| ≤ 3 / 2 ^ 24 := by
  have hm := h.pos
  have hxq : (x : Rat) ≤ m := by exact_mod_cast hx
  have hx0 : (0 : Rat) ≤ x := Nat.cast_nonneg x
  have r0 : 0 ≤ rnd 24 (1 / m) := le_rnd (by norm_num) fits_zero' (by positivity)
  have e1 : |rnd 24 (1 / m : Rat) - 1 / m| * 2 ^ 24 ≤ 1 / m := by
    have := rnd_err 24 (1 / m : Rat)
    rwa [abs_of_nonneg (by positivity : (0 : Rat) ≤ 1 / m)] at this
  refine ⟨⟨rnd_fits 24 _, le_rnd (by norm_num) fits_zero' (mul_nonneg hx0 r0), ?_⟩, ?_⟩
  · rw [← toFloat_white h]
    exact rnd_mono (by norm_num) (mul_le_mul_of_nonneg_right hxq r0)
  · have e2 : |x * rnd 24 (1 / m : Rat) - x / m| ≤ 1 / 2 ^ 24 := by
      rw [div_eq_mul_one_div (x : Rat) m, ← mul_sub, abs_mul, abs_of_nonneg hx0, le_div_iff₀ (by norm_num), mul_assoc]
      refine le_trans (mul_le_mul_of_nonneg_left e1 hx0) ?_
      rw [mul_one_div]
      exact (div_le_one hm).mpr hxq
    have b := abs_near e2
    have q0 : (0 : Rat) ≤ x / m := div_nonneg hx0 hm.le
    have q1 : (x : Rat) / m ≤ 1 := (div_le_one hm).mpr hxq
    have := rnd_near' (A := 2) (abs_le.mpr ⟨by norm_num at *; linarith, by norm_num at *; linarith⟩) e2
    exact le_trans this (by norm_num)

/-- Back to whole samples: at most one less, up to the rounding. -/
theorem ofFloat_near {m : Nat} {y : Rat} (h : Depth m) (h0 : 0 ≤ y) (h1 : y ≤ 1 + 1 / 2) :
    (ofFloat m y : Rat) ≤ m * (y + 2 / 2 ^ 24) ∧ (y ≤ 1 → m * (y - 1 / 2 ^ 24) - 1 < ofFloat m y) ∧ ofFloat m y ≤ m := by
  have hm := h.pos
  have r0 : 0 ≤ rnd 24 (m * y) := le_rnd (by norm_num) fits_zero' (by positivity)
  have e1 : |rnd 24 (m * y) - m * y| * 2 ^ 24 ≤ m * y := by
    have := rnd_err 24 (m * y : Rat)
    rwa [abs_of_nonneg (by positivity : 0 ≤ m * y)] at this
  have hf : ((⌊rnd 24 (m * y)⌋.toNat : Nat) : Rat) = ⌊rnd 24 (m * y)⌋ := by
    have : (⌊rnd 24 (m * y)⌋.toNat : Int) = ⌊rnd 24 (m * y)⌋ := Int.toNat_of_nonneg (Int.floor_nonneg.mpr r0)
    exact_mod_cast this
  have fl := Int.floor_le (rnd 24 (m * y))
  have fu := Int.lt_floor_add_one (rnd 24 (m * y))
  have b : m * y - m * y / 2 ^ 24 ≤ rnd 24 (m * y) ∧ rnd 24 (m * y) ≤ m * y + m * y / 2 ^ 24 :=
    abs_near (by rw [le_div_iff₀ (by norm_num)]; exact e1)
  refine ⟨?_, ?_, min_le_left _ _⟩
  · have : (ofFloat m y : Rat) ≤ ⌊rnd 24 (m * y)⌋ := by rw [← hf]; exact_mod_cast min_le_right _ _
    have : m * y ≤ m * (3 / 2) := mul_le_mul_of_nonneg_left (by linarith) hm.le
    norm_num at *
    linarith
  · intro hy
    have hmy : m * y ≤ m := by nlinarith
    by_cases hc : m ≤ ⌊rnd 24 (m * y)⌋.toNat
    · rw [ofFloat, min_eq_left hc]
      norm_num at *
      linarith
    · rw [ofFloat, min_eq_right (by omega), hf]
      have : m * y / 2 ^ 24 ≤ m / 2 ^ 24 := div_le_div_of_nonneg_right hmy (by norm_num)
      have := b.1
      rw [mul_sub, mul_one_div]
      linarith

/-- A number from 0 to 1 stored as a sample and read again: at most one step less. -/
theorem stored_near {m : Nat} {y : Rat} (h : Depth m) (h0 : 0 ≤ y) (h1 : y ≤ 1) :
    0 ≤ toFloat m (ofFloat m y) ∧ toFloat m (ofFloat m y) ≤ 1 ∧ toFloat m (ofFloat m y) ≤ y + 5 / 2 ^ 24 ∧
      y - 1 / m - 5 / 2 ^ 24 ≤ toFloat m (ofFloat m y) := by
  have hm := h.pos
  obtain ⟨a, b, c⟩ := ofFloat_near h h0 (by linarith)
  obtain ⟨s, e⟩ := toFloat_near h c
  have b := b h1
  have be := abs_near e
  have q1 : (ofFloat m y : Rat) / m ≤ y + 2 / 2 ^ 24 := by rw [div_le_iff₀ hm]; linarith
  have q2 : y - 1 / 2 ^ 24 - 1 / m ≤ (ofFloat m y : Rat) / m := by
    rw [le_div_iff₀ hm, sub_mul, sub_mul, div_mul_cancel₀ _ hm.ne']
    linarith
  refine ⟨s.lo, s.hi, ?_, ?_⟩ <;> norm_num at * <;> linarith

/-- The last step: a number `y` within `k` steps and 200·2⁻²⁴ of the sample `x`. -/
theorem final_near {m x k : Nat} {y : Rat} (h : Depth m) (hx : x ≤ m) (e : |y - x / m| ≤ k / m + 200 / 2 ^ 24) :
    ofFloat m y ≤ x + k ∧ x ≤ ofFloat m y + k + 1 := by
  have hm := h.pos
  have hM := h.le
  have be := abs_near e
  have e1 : m * y ≤ x + k + 200 / 2 ^ 24 * m := by
    have := mul_le_mul_of_nonneg_left be.2 hm.le
    rw [mul_add, mul_add, mul_div_cancel₀ _ hm.ne', mul_div_cancel₀ _ hm.ne'] at this
    linarith
  have e2 : x - k - 200 / 2 ^ 24 * m ≤ m * y := by
    have := mul_le_mul_of_nonneg_left be.1 hm.le
    rw [mul_sub, mul_add, mul_div_cancel₀ _ hm.ne', mul_div_cancel₀ _ hm.ne'] at this
    linarith
  have fm : Fits 24 (m : Rat) := fits_nat (by rcases h with rfl | rfl <;> norm_num)
  rcases lt_or_ge y 0 with hn | h0
  · have r0 : rnd 24 (m * y) ≤ 0 := rnd_le (by norm_num) fits_zero' (by nlinarith)
    have : ⌊rnd 24 (m * y)⌋ ≤ 0 := by
      have := Int.floor_le_floor r0
      rwa [Int.floor_zero] at this
    have hz : ofFloat m y = 0 := by rw [ofFloat, Int.toNat_of_nonpos this, Nat.min_zero]
    rw [hz]
    have hmy : m * y ≤ 0 := by nlinarith
    have : (x : Rat) < k + 1 := by linarith
    have : x < k + 1 := by exact_mod_cast this
    omega
  · rcases lt_or_ge 1 y with hg | h1
    · have r1 : (m : Rat) ≤ rnd 24 (m * y) := le_rnd (by norm_num) fm (by nlinarith)
      have : (m : Int) ≤ ⌊rnd 24 (m * y)⌋ := Int.le_floor.mpr (by exact_mod_cast r1)
      have hz : ofFloat m y = m := by rw [ofFloat, min_eq_left (by omega)]
      rw [hz]
      have hmy : (m : Rat) ≤ m * y := by nlinarith
      have : (m : Rat) < x + k + 1 := by linarith
      have : m < x + k + 1 := by exact_mod_cast this
      omega
    · obtain ⟨a, b, -⟩ := ofFloat_near h h0 (by linarith)
      have b := b h1
      constructor
      · have : (ofFloat m y : Rat) < x + k + 1 := by
          rw [mul_add] at a
          linarith
        have : ofFloat m y < x + k + 1 := by exact_mod_cast this
        omega
      · have : (x : Rat) < ofFloat m y + k + 2 := by
          rw [mul_sub] at b
          linarith
        have : x < ofFloat m y + k + 2 := by exact_mod_cast this
        omega

/-- The channels after hue, saturation and value have been stored as samples. -/
theorem hsv_stored {h s v h' s' v' D e c : Rat} (s0 : 0 ≤ s) (s1 : s ≤ 1) (v0 : 0 ≤ v) (v1 : v ≤ 1) (s0' : 0 ≤ s') (s1' : s' ≤ 1)
    (v0' : 0 ≤ v') (v1' : v' ≤ 1) (he : 0 ≤ e) (hD : e ≤ D)
    (hh : |h' - h| ≤ D) (hs1 : s' ≤ s + e) (hs2 : s - D ≤ s') (hv1 : v' ≤ v + e) (hv2 : v - D ≤ v') :
    |channel h' (v' * (1 - s')) v' c - channel h (v * (1 - s)) v c| ≤ 7 * D + e := by
  have hw : |share (6 * h') c - share (6 * h) c| ≤ 6 * D := by
    refine le_trans (share_close _ _ _) ?_
    rw [← mul_sub, abs_mul, abs_of_pos (by norm_num : (0 : Rat) < 6)]
    linarith
  have w0 := share_nonneg (6 * h) c
  have w1 := share_le (6 * h) c
  have w0' := share_nonneg (6 * h') c
  have w1' := share_le (6 * h') c
  simp only [channel]
  generalize share (6 * h') c = w' at *
  generalize share (6 * h) c = w at *
  have bw := abs_near hw
  rw [show v' * (1 - s') + (v' - v' * (1 - s')) * w' = v' * (1 - s' * (1 - w')) by ring,
    show v * (1 - s) + (v - v * (1 - s)) * w = v * (1 - s * (1 - w)) by ring]
  -- the factor
  have f1 : 1 - s' * (1 - w') ≤ 1 - s * (1 - w) + 7 * D := by
    have a1 : (s - s') * (1 - w') ≤ D := by
      rcases le_total s s' with q | q
      · have : (s - s') * (1 - w') ≤ 0 := mul_nonpos_of_nonpos_of_nonneg (by linarith) (by linarith)
        linarith
      · have : (s - s') * (1 - w') ≤ (s - s') * 1 := mul_le_mul_of_nonneg_left (by linarith) (by linarith)
        linarith
    have a2 : s * (w' - w) ≤ 6 * D := by
      have : s * (w' - w) ≤ s * (6 * D) := mul_le_mul_of_nonneg_left (by linarith) s0
      have : s * (6 * D) ≤ 1 * (6 * D) := mul_le_mul_of_nonneg_right s1 (by linarith)
      linarith
    linarith
  have f2 : 1 - s * (1 - w) - (6 * D + e) ≤ 1 - s' * (1 - w') := by
    have a1 : (s' - s) * (1 - w') ≤ e := by
      rcases le_total s' s with q | q
      · have : (s' - s) * (1 - w') ≤ 0 := mul_nonpos_of_nonpos_of_nonneg (by linarith) (by linarith)
        linarith
      · have : (s' - s) * (1 - w') ≤ (s' - s) * 1 := mul_le_mul_of_nonneg_left (by linarith) (by linarith)
        linarith
    have a2 : s * (w - w') ≤ 6 * D := by
      have : s * (w - w') ≤ s * (6 * D) := mul_le_mul_of_nonneg_left (by linarith) s0
      have : s * (6 * D) ≤ 1 * (6 * D) := mul_le_mul_of_nonneg_right s1 (by linarith)
      linarith
    linarith
  have g0 : 0 ≤ 1 - s * (1 - w) := by nlinarith
  have g1 : 1 - s * (1 - w) ≤ 1 := by nlinarith
  have g0' : 0 ≤ 1 - s' * (1 - w') := by nlinarith
  have g1' : 1 - s' * (1 - w') ≤ 1 := by nlinarith
  generalize 1 - s' * (1 - w') = p' at *
  generalize 1 - s * (1 - w) = p at *
  rw [abs_le]
  constructor
  · have a1 : (v - v') * p ≤ D := by
      rcases le_total v v' with q | q
      · have : (v - v') * p ≤ 0 := mul_nonpos_of_nonpos_of_nonneg (by linarith) g0
        linarith
      · have : (v - v') * p ≤ (v - v') * 1 := mul_le_mul_of_nonneg_left g1 (by linarith)
        linarith
    have a2 : v' * (p - p') ≤ 6 * D + e := by
      have : v' * (p - p') ≤ v' * (6 * D + e) := mul_le_mul_of_nonneg_left (by linarith) v0'
      have : v' * (6 * D + e) ≤ 1 * (6 * D + e) := mul_le_mul_of_nonneg_right v1' (by linarith)
      linarith
    linarith
  · have a1 : (v' - v) * p' ≤ e := by
      rcases le_total v' v with q | q
      · have : (v' - v) * p' ≤ 0 := mul_nonpos_of_nonpos_of_nonneg (by linarith) g0'
        linarith
      · have : (v' - v) * p' ≤ (v' - v) * 1 := mul_le_mul_of_nonneg_left g1' (by linarith)
        linarith
    have a2 : v * (p' - p) ≤ 7 * D := by
      have : v * (p' - p) ≤ v * (7 * D) := mul_le_mul_of_nonneg_left (by linarith) v0
      have : v * (7 * D) ≤ 1 * (7 * D) := mul_le_mul_of_nonneg_right v1 (by linarith)
      linarith
    linarith

/-- The same for lightness. -/
theorem hsl_stored {h s l h' s' l' D c : Rat} (s0 : 0 ≤ s) (s1 : s ≤ 1) (l0 : 0 ≤ l) (l1 : l ≤ 1) (s0' : 0 ≤ s') (s1' : s' ≤ 1)
    (hD : 0 ≤ D) (hh : |h' - h| ≤ D) (hs : |s' - s| ≤ D) (hl : |l' - l| ≤ D) :
    |channel h' (l' - s' * room l' / 2) (l' + s' * room l' / 2) c - channel h (l - s * room l / 2) (l + s * room l / 2) c| ≤ 9 * D := by
  have hw : |share (6 * h') c - share (6 * h) c| ≤ 6 * D := by
    refine le_trans (share_close _ _ _) ?_
    rw [← mul_sub, abs_mul, abs_of_pos (by norm_num : (0 : Rat) < 6)]
    linarith
  have w0 := share_nonneg (6 * h') c
  have w1 := share_le (6 * h') c
  obtain ⟨r0, r1⟩ := room_unit l0 l1
  have hr : |room l' - room l| ≤ 2 * D := le_trans (room_close l' l) (by linarith)
  have hC : |s' * room l' - s * room l| ≤ 3 * D := by
    rw [show s' * room l' - s * room l = s' * (room l' - room l) + (s' - s) * room l by ring]
    have t := abs_add_le (s' * (room l' - room l)) ((s' - s) * room l)
    rw [abs_mul, abs_mul, abs_of_nonneg s0', abs_of_nonneg r0] at t
    have a1 : s' * |room l' - room l| ≤ 2 * D := le_trans (mul_le_of_le_one_left (abs_nonneg _) s1') hr
    have a2 : |s' - s| * room l ≤ D := le_trans (mul_le_of_le_one_right (abs_nonneg _) r1) hs
    linarith
  have c0 : 0 ≤ s * room l := mul_nonneg s0 r0
  have c1 : s * room l ≤ 1 := by nlinarith
  simp only [channel]
  generalize share (6 * h') c = w' at *
  generalize share (6 * h) c = w at *
  generalize s' * room l' = C' at *
  generalize s * room l = C at *
  rw [show l' - C' / 2 + (l' + C' / 2 - (l' - C' / 2)) * w' - (l - C / 2 + (l + C / 2 - (l - C / 2)) * w) =
    (l' - l) + (C' - C) * (w' - 1 / 2) + C * (w' - w) by ring]
  have t1 := abs_add_le (l' - l + (C' - C) * (w' - 1 / 2)) (C * (w' - w))
  have t2 := abs_add_le (l' - l) ((C' - C) * (w' - 1 / 2))
  rw [abs_mul] at t1 t2
  rw [abs_of_nonneg c0] at t1
  have hw2 : |w' - 1 / 2| ≤ 1 / 2 := abs_le.mpr ⟨by linarith, by linarith⟩
  have a1 : |C' - C| * |w' - 1 / 2| ≤ 3 * D * (1 / 2) := mul_le_mul hC hw2 (abs_nonneg _) (by linarith)
  have a2 : C * |w' - w| ≤ 6 * D := le_trans (mul_le_of_le_one_left (abs_nonneg _) c1) hw
  linarith

/-- **C118** (HSV, one pixel): a colour of 8 or 16 bits converted to HSV and back differs by 8 steps at most. -/
theorem hsv_pixel {m r g b : Nat} (hm : Depth m) (hr : r ≤ m) (hg : g ≤ m) (hb : b ≤ m) :
    ∃ h s v, rgbToHsvInner (toFloat m r) (toFloat m g) (toFloat m b) = some (h, s, v) ∧
      let c := hsvToRgbInner (toFloat m (ofFloat m h)) (toFloat m (ofFloat m s)) (toFloat m (ofFloat m v))
      (ofFloat m c.1 ≤ r + 8 ∧ r ≤ ofFloat m c.1 + 8) ∧ (ofFloat m c.2.1 ≤ g + 8 ∧ g ≤ ofFloat m c.2.1 + 8) ∧
      (ofFloat m c.2.2 ≤ b + 8 ∧ b ≤ ofFloat m c.2.2 + 8) := by
  obtain ⟨sr, er⟩ := toFloat_near hm hr
  obtain ⟨sg, eg⟩ := toFloat_near hm hg
  obtain ⟨sb, eb⟩ := toFloat_near hm hb
  obtain ⟨h, s, v, e, ⟨h0, h1⟩, ⟨s0, s1⟩, ⟨v0, v1⟩, c0, c2, c4⟩ := hsv_channels sr sg sb
  refine ⟨h, s, v, e, ?_⟩
  obtain ⟨a0, a1, a2, a3⟩ := stored_near hm h0 h1
  obtain ⟨b0, b1, b2, b3⟩ := stored_near hm s0 s1
  obtain ⟨d0, d1, d2, d3⟩ := stored_near hm v0 v1
  have hmp : (0 : Rat) < 1 / m := one_div_pos.mpr hm.pos
  have st (c : Rat) := hsv_stored (c := c) (h := h) (h' := toFloat m (ofFloat m h)) (D := 1 / m + 5 / 2 ^ 24) (e := 5 / 2 ^ 24) s0 s1 v0 v1 b0 b1 d0 d1
    (by norm_num) (by linarith) (abs_le.mpr ⟨by linarith, by linarith⟩) b2 (by linarith) d2 (by linarith)
  obtain ⟨p0, p2, p4, -⟩ := c116_rgb a0 a1 b0 b1 d0 d1
  have fin (x : Nat) (hx : x ≤ m) (y a z t : Rat) (q1 : |y - a| ≤ 11 / 2 ^ 24) (q2 : |a - z| ≤ 7 * (1 / m + 5 / 2 ^ 24) + 5 / 2 ^ 24)
      (q3 : |z - t| ≤ 34 / 2 ^ 24) (q4 : |t - x / m| ≤ 3 / 2 ^ 24) : ofFloat m y ≤ x + 8 ∧ x ≤ ofFloat m y + 8 := by
    have := final_near (k := 7) (y := y) hm hx (by
      have t1 := abs_add_le (y - a) (a - z)
      have t2 := abs_add_le (y - z) (z - t)
      have t3 := abs_add_le (y - t) (t - x / m)
      rw [sub_add_sub_cancel] at t1 t2 t3
      have : ((7 : Nat) : Rat) / m = 7 * (1 / m) := by push_cast; ring
      rw [this]
      linarith)
    omega
  exact ⟨fin r hr _ _ _ _ p0 (st 0) c0 er, fin g hg _ _ _ _ p2 (st 2) c2 eg, fin b hb _ _ _ _ p4 (st 4) c4 eb⟩

/-- **C118** (HSL, one pixel): a colour of 8 or 16 bits converted to HSL and back differs by 10 steps at most. -/
theorem hsl_pixel {m r g b : Nat} (hm : Depth m) (hr : r ≤ m) (hg : g ≤ m) (hb : b ≤ m) :
    ∃ h s l, rgbToHslInner (toFloat m r) (toFloat m g) (toFloat m b) = some (h, s, l) ∧
      let c := hslToRgbInner (toFloat m (ofFloat m h)) (toFloat m (ofFloat m s)) (toFloat m (ofFloat m l))
      (ofFloat m c.1 ≤ r + 10 ∧ r ≤ ofFloat m c.1 + 10) ∧ (ofFloat m c.2.1 ≤ g + 10 ∧ g ≤ ofFloat m c.2.1 + 10) ∧
      (ofFloat m c.2.2 ≤ b + 10 ∧ b ≤ ofFloat m c.2.2 + 10) := by
  obtain ⟨sr, er⟩ := toFloat_near hm hr
  obtain ⟨sg, eg⟩ := toFloat_near hm hg
  obtain ⟨sb, eb⟩ := toFloat_near hm hb
  obtain ⟨h, s, l, e, ⟨h0, h1⟩, ⟨s0, s1⟩, ⟨l0, l1⟩, c0, c2, c4⟩ := hsl_channels sr sg sb
  refine ⟨h, s, l, e, ?_⟩
  obtain ⟨a0, a1, a2, a3⟩ := stored_near hm h0 h1
  obtain ⟨b0, b1, b2, b3⟩ := stored_near hm s0 s1
  obtain ⟨d0, d1, d2, d3⟩ := stored_near hm l0 l1
  have hmp : (0 : Rat) < 1 / m := one_div_pos.mpr hm.pos
  have st (c : Rat) := hsl_stored (c := c) (h := h) (h' := toFloat m (ofFloat m h)) (l' := toFloat m (ofFloat m l)) (D := 1 / m + 5 / 2 ^ 24) s0 s1 l0 l1 b0 b1
    (by positivity) (abs_le.mpr ⟨by linarith, by linarith⟩) (abs_le.mpr ⟨by linarith, by linarith⟩) (abs_le.mpr ⟨by linarith, by linarith⟩)
  obtain ⟨p0, p2, p4⟩ := c117_rgb a0 a1 b0 b1 d0 d1
  have fin (x : Nat) (hx : x ≤ m) (y a z t : Rat) (q1 : |y - a| ≤ 85 / 2 ^ 24) (q2 : |a - z| ≤ 9 * (1 / m + 5 / 2 ^ 24))
      (q3 : |z - t| ≤ 38 / 2 ^ 24) (q4 : |t - x / m| ≤ 3 / 2 ^ 24) : ofFloat m y ≤ x + 10 ∧ x ≤ ofFloat m y + 10 := by
    have := final_near (k := 9) (y := y) hm hx (by
      have t1 := abs_add_le (y - a) (a - z)
      have t2 := abs_add_le (y - z) (z - t)
      have t3 := abs_add_le (y - t) (t - x / m)
      rw [sub_add_sub_cancel] at t1 t2 t3
      have : ((9 : Nat) : Rat) / m = 9 * (1 / m) := by push_cast; ring
      rw [this]
      linarith)
    omega
  exact ⟨fin r hr _ _ _ _ p0 (st 0) c0 er, fin g hg _ _ _ _ p2 (st 2) c2 eg, fin b hb _ _ _ _ p4 (st 4) c4 eb⟩

/-- What a frame holds after a conversion, pixel by pixel. -/
theorem convertFrame_get {m : Nat} (f : Rat → Rat → Rat → Option (Rat × Rat × Rat)) (n : Nat) (x y z a b c : List Nat)
    (lx : x.length = n) (ly : y.length = n) (lz : z.length = n) (e : convertFrame m (eachPixel f) x y z = some (a, b, c)) :
    a.length = n ∧ b.length = n ∧ c.length = n ∧ ∀ (i x' y' z' : Nat), x[i]? = some x' → y[i]? = some y' → z[i]? = some z' →
      ∃ p q r, f (toFloat m x') (toFloat m y') (toFloat m z') = some (p, q, r) ∧
        a[i]? = some (ofFloat m p) ∧ b[i]? = some (ofFloat m q) ∧ c[i]? = some (ofFloat m r) := by
  induction n generalizing x y z a b c with
  | zero =>
    rw [List.length_eq_zero_iff] at lx ly lz
    subst lx ly lz
    simp only [convertFrame, List.map_nil, eachPixel, Option.map_some, Option.some.injEq, Prod.mk.injEq] at e
    obtain ⟨rfl, rfl, rfl⟩ := e
    refine ⟨rfl, rfl, rfl, fun i x' y' z' h => by simp at h⟩
  | succ n ih =>
    obtain ⟨x0, x, rfl⟩ := List.exists_cons_of_length_eq_add_one lx
    obtain ⟨y0, y, rfl⟩ := List.exists_cons_of_length_eq_add_one ly
    obtain ⟨z0, z, rfl⟩ := List.exists_cons_of_length_eq_add_one lz
    simp only [convertFrame, List.map_cons, eachPixel, Option.map_eq_some_iff, Option.bind_eq_some_iff] at e
    obtain ⟨t, ⟨⟨p, q, r⟩, e1, ⟨u1, u2, u3⟩, e2, rfl⟩, e3⟩ := e
    simp only [List.map_cons, Prod.mk.injEq] at e3
    obtain ⟨rfl, rfl, rfl⟩ := e3
    obtain ⟨l1, l2, l3, g⟩ := ih x y z (u1.map (ofFloat m)) (u2.map (ofFloat m)) (u3.map (ofFloat m)) (by simpa using lx) (by simpa using ly)
      (by simpa using lz) (by simp [convertFrame, e2])
    refine ⟨by simpa using l1, by simpa using l2, by simpa using l3, fun i x' y' z' h1 h2 h3 => ?_⟩
    cases i with
    | zero =>
      simp only [List.getElem?_cons_zero, Option.some.injEq] at h1 h2 h3
      subst h1 h2 h3
      exact ⟨p, q, r, e1, by simp, by simp, by simp⟩
    | succ i =>
      simp only [List.getElem?_cons_succ] at h1 h2 h3 ⊢
      exact g i x' y' z' h1 h2 h3

/-- A stored sample as a number, against the number stored. -/
theorem level_near {m : Nat} {y : Rat} (h : Depth m) (h0 : 0 ≤ y) (h1 : y ≤ 1) :
    0 ≤ (ofFloat m y : Rat) / m ∧ (ofFloat m y : Rat) / m ≤ 1 ∧ (ofFloat m y : Rat) / m ≤ y + 5 / 2 ^ 24 ∧
      y - (1 / m + 5 / 2 ^ 24) ≤ (ofFloat m y : Rat) / m := by
  have hm := h.pos
  obtain ⟨a, b, c⟩ := ofFloat_near h h0 (by linarith)
  have b := b h1
  have cq : (ofFloat m y : Rat) ≤ m := by exact_mod_cast c
  refine ⟨by positivity, (div_le_one hm).mpr cq, ?_, ?_⟩
  · rw [div_le_iff₀ hm]
    nlinarith
  · rw [le_div_iff₀ hm, sub_mul, add_mul, div_mul_cancel₀ _ hm.ne']
    nlinarith

/-- **C118** (what HSV pictures hold): hue, saturation and value of every pixel, read as levels from 0 to 1, are those of a colour 8 steps
    at most away from the pixel's. -/
theorem c118_hsv_holds {m : Nat} (hm : Depth m) (n : Nat) (r g b h s v : List Nat) (lr : r.length = n) (lg : g.length = n) (lb : b.length = n)
    (hr : ∀ x ∈ r, x ≤ m) (hg : ∀ x ∈ g, x ≤ m) (hb : ∀ x ∈ b, x ≤ m) (e : convertRgbToHsv m r g b = some (h, s, v))
    (i x y z : Nat) (hx : r[i]? = some x) (hy : g[i]? = some y) (hz : b[i]? = some z) :
    ∃ H S V, h[i]? = some H ∧ s[i]? = some S ∧ v[i]? = some V ∧ H ≤ m ∧ S ≤ m ∧ V ≤ m ∧
      |channel (H / m) (V / m * (1 - S / m)) (V / m) 0 - x / m| ≤ 8 / m ∧
      |channel (H / m) (V / m * (1 - S / m)) (V / m) 2 - y / m| ≤ 8 / m ∧
      |channel (H / m) (V / m * (1 - S / m)) (V / m) 4 - z / m| ≤ 8 / m := by
  obtain ⟨-, -, -, get⟩ := convertFrame_get rgbToHsvInner n r g b h s v lr lg lb e
  obtain ⟨p, q, t, e1, i1, i2, i3⟩ := get i x y z hx hy hz
  obtain ⟨sr, er⟩ := toFloat_near hm (hr x (List.mem_of_getElem? hx))
  obtain ⟨sg, eg⟩ := toFloat_near hm (hg y (List.mem_of_getElem? hy))
  obtain ⟨sb, eb⟩ := toFloat_near hm (hb z (List.mem_of_getElem? hz))
  obtain ⟨p', q', t', e2, ⟨h0, h1⟩, ⟨s0, s1⟩, ⟨v0, v1⟩, c0, c2, c4⟩ := hsv_channels sr sg sb
  rw [e1, Option.some.injEq, Prod.mk.injEq, Prod.mk.injEq] at e2
  obtain ⟨rfl, rfl, rfl⟩ := e2
  refine ⟨_, _, _, i1, i2, i3, Nat.min_le_left _ _, Nat.min_le_left _ _, Nat.min_le_left _ _, ?_⟩
  obtain ⟨a0, a1, a2, a3⟩ := level_near hm h0 h1
  obtain ⟨b0, b1, b2, b3⟩ := level_near hm s0 s1
  obtain ⟨d0, d1, d2, d3⟩ := level_near hm v0 v1
  have hmp : (0 : Rat) < 1 / m := one_div_pos.mpr hm.pos
  have hml : (1 : Rat) / 65535 ≤ 1 / m := one_div_le_one_div_of_le hm.pos hm.le
  have st (c : Rat) := hsv_stored (c := c) (h := p) (h' := (ofFloat m p : Rat) / m) (D := 1 / m + 5 / 2 ^ 24) (e := 5 / 2 ^ 24) s0 s1 v0 v1 b0 b1 d0 d1
    (by norm_num) (by linarith) (abs_le.mpr ⟨by linarith, by linarith⟩) b2 b3 d2 d3
  have fin (x : Nat) (a z t : Rat) (q2 : |a - z| ≤ 7 * (1 / m + 5 / 2 ^ 24) + 5 / 2 ^ 24)
      (q3 : |z - t| ≤ 34 / 2 ^ 24) (q4 : |t - x / m| ≤ 3 / 2 ^ 24) : |a - x / m| ≤ 8 / m := by
    have t2 := abs_add_le (a - z) (z - t)
    have t3 := abs_add_le (a - t) (t - x / m)
    rw [sub_add_sub_cancel] at t2 t3
    have : (8 : Rat) / m = 8 * (1 / m) := by ring
    rw [this]
    linarith
  exact ⟨fin x _ _ _ (st 0) c0 er, fin y _ _ _ (st 2) c2 eg, fin z _ _ _ (st 4) c4 eb⟩

/-- **C118** (what HSL pictures hold): the same with 10 steps, `room l` being the greatest difference of channels at lightness `l`. -/
theorem c118_hsl_holds {m : Nat} (hm : Depth m) (n : Nat) (r g b h s l : List Nat) (lr : r.length = n) (lg : g.length = n) (lb : b.length = n)
    (hr : ∀ x ∈ r, x ≤ m) (hg : ∀ x ∈ g, x ≤ m) (hb : ∀ x ∈ b, x ≤ m) (e : convertRgbToHsl m r g b = some (h, s, l))
    (i x y z : Nat) (hx : r[i]? = some x) (hy : g[i]? = some y) (hz : b[i]? = some z) :
    ∃ H S L, h[i]? = some H ∧ s[i]? = some S ∧ l[i]? = some L ∧ H ≤ m ∧ S ≤ m ∧ L ≤ m ∧
      |channel (H / m) (L / m - S / m * room (L / m) / 2) (L / m + S / m * room (L / m) / 2) 0 - x / m| ≤ 10 / m ∧
      |channel (H / m) (L / m - S / m * room (L / m) / 2) (L / m + S / m * room (L / m) / 2) 2 - y / m| ≤ 10 / m ∧
      |channel (H / m) (L / m - S / m * room (L / m) / 2) (L / m + S / m * room (L / m) / 2) 4 - z / m| ≤ 10 / m := by
  obtain ⟨-, -, -, get⟩ := convertFrame_get rgbToHslInner n r g b h s l lr lg lb e
  obtain ⟨p, q, t, e1, i1, i2, i3⟩ := get i x y z hx hy hz
  obtain ⟨sr, er⟩ := toFloat_near hm (hr x (List.mem_of_getElem? hx))
  obtain ⟨sg, eg⟩ := toFloat_near hm (hg y (List.mem_of_getElem? hy))
  obtain ⟨sb, eb⟩ := toFloat_near hm (hb z (List.mem_of_getElem? hz))
  obtain ⟨p', q', t', e2, ⟨h0, h1⟩, ⟨s0, s1⟩, ⟨v0, v1⟩, c0, c2, c4⟩ := hsl_channels sr sg sb
  rw [e1, Option.some.injEq, Prod.mk.injEq, Prod.mk.injEq] at e2
  obtain ⟨rfl, rfl, rfl⟩ := e2
  refine ⟨_, _, _, i1, i2, i3, Nat.min_le_left _ _, Nat.min_le_left _ _, Nat.min_le_left _ _, ?_⟩
  obtain ⟨a0, a1, a2, a3⟩ := level_near hm h0 h1
  obtain ⟨b0, b1, b2, b3⟩ := level_near hm s0 s1
  obtain ⟨d0, d1, d2, d3⟩ := level_near hm v0 v1
  have hmp : (0 : Rat) < 1 / m := one_div_pos.mpr hm.pos
  have hml : (1 : Rat) / 65535 ≤ 1 / m := one_div_le_one_div_of_le hm.pos hm.le
  have st (c : Rat) := hsl_stored (c := c) (h := p) (h' := (ofFloat m p : Rat) / m) (l' := (ofFloat m t : Rat) / m) (D := 1 / m + 5 / 2 ^ 24) s0 s1 v0 v1 b0 b1
    (by positivity) (abs_le.mpr ⟨by linarith, by linarith⟩) (abs_le.mpr ⟨by linarith, by linarith⟩) (abs_le.mpr ⟨by linarith, by linarith⟩)
  have fin (x : Nat) (a z t : Rat) (q2 : |a - z| ≤ 9 * (1 / m + 5 / 2 ^ 24))
      (q3 : |z - t| ≤ 38 / 2 ^ 24) (q4 : |t - x / m| ≤ 3 / 2 ^ 24) : |a - x / m| ≤ 10 / m := by
    have t2 := abs_add_le (a - z) (z - t)
    have t3 := abs_add_le (a - t) (t - x / m)
    rw [sub_add_sub_cancel] at t2 t3
    have : (10 : Rat) / m = 10 * (1 / m) := by ring
    rw [this]
    linarith
  exact ⟨fin x _ _ _ (st 0) c0 er, fin y _ _ _ (st 2) c2 eg, fin z _ _ _ (st 4) c4 eb⟩

/-- A number near `t`, stored. -/
theorem level_of {m : Nat} {y t : Rat} (h : Depth m) (t0 : 0 ≤ t) (t1 : t ≤ 1) (e : |y - t| ≤ 200 / 2 ^ 24) :
    |(ofFloat m y : Rat) / m - t| ≤ 2 / m := by
  have hm := h.pos
  have hM := h.le
  have be := abs_near e
  have hml : (1 : Rat) / 65535 ≤ 1 / m := one_div_le_one_div_of_le hm hM
  have h2 : (2 : Rat) / m = 2 * (1 / m) := by ring
  have fm : Fits 24 (m : Rat) := fits_nat (by rcases h with rfl | rfl <;> norm_num)
  rcases lt_or_ge y 0 with hn | h0
  · have r0 : rnd 24 (m * y) ≤ 0 := rnd_le (by norm_num) fits_zero' (by nlinarith)
    have : ⌊rnd 24 (m * y)⌋ ≤ 0 := by
      have := Int.floor_le_floor r0
      rwa [Int.floor_zero] at this
    have hz : ofFloat m y = 0 := by rw [ofFloat, Int.toNat_of_nonpos this, Nat.min_zero]
    rw [hz, Nat.cast_zero, zero_div, zero_sub, abs_neg, abs_of_nonneg t0]
    linarith
  · rcases lt_or_ge 1 y with hg | h1
    · have r1 : (m : Rat) ≤ rnd 24 (m * y) := le_rnd (by norm_num) fm (by nlinarith)
      have : (m : Int) ≤ ⌊rnd 24 (m * y)⌋ := Int.le_floor.mpr (by exact_mod_cast r1)
      have hz : ofFloat m y = m := by rw [ofFloat, min_eq_left (by omega)]
      rw [hz, div_self hm.ne', abs_of_nonneg (by linarith)]
      linarith
    · obtain ⟨-, -, a, b⟩ := level_near h h0 h1
      exact abs_le.mpr ⟨by linarith, by linarith⟩

/-- **C118** (HSV back to RGB): the colour written for every pixel of an HSV picture is the one its hue, saturation and value describe,
    2 steps at most away. -/
theorem c118_rgb_holds {m : Nat} (hm : Depth m) (n : Nat) (h s v r g b : List Nat) (lh : h.length = n) (ls : s.length = n) (lv : v.length = n)
    (hh : ∀ x ∈ h, x ≤ m) (hs : ∀ x ∈ s, x ≤ m) (hv : ∀ x ∈ v, x ≤ m) (e : convertHsvToRgb m h s v = some (r, g, b))
    (i H S V : Nat) (iH : h[i]? = some H) (iS : s[i]? = some S) (iV : v[i]? = some V) :
    ∃ R G B : Nat, r[i]? = some R ∧ g[i]? = some G ∧ b[i]? = some B ∧
      |(R : Rat) / m - channel (H / m) (V / m * (1 - S / m)) (V / m) 0| ≤ 2 / m ∧
      |(G : Rat) / m - channel (H / m) (V / m * (1 - S / m)) (V / m) 2| ≤ 2 / m ∧
      |(B : Rat) / m - channel (H / m) (V / m * (1 - S / m)) (V / m) 4| ≤ 2 / m := by
  obtain ⟨-, -, -, get⟩ := convertFrame_get (fun x y z => some (hsvToRgbInner x y z)) n h s v r g b lh ls lv e
  obtain ⟨p, q, t, e1, i1, i2, i3⟩ := get i H S V iH iS iV
  refine ⟨_, _, _, i1, i2, i3, ?_⟩
  simp only [Option.some.injEq] at e1
  have lev (x : Nat) (hx : x ≤ m) : 0 ≤ (x : Rat) / m ∧ (x : Rat) / m ≤ 1 :=
    ⟨div_nonneg (Nat.cast_nonneg x) hm.pos.le, (div_le_one hm.pos).mpr (by exact_mod_cast hx)⟩
  have H1 := hh H (List.mem_of_getElem? iH)
  have S1 := hs S (List.mem_of_getElem? iS)
  have V1 := hv V (List.mem_of_getElem? iV)
  obtain ⟨sH, eH⟩ := toFloat_near hm H1
  obtain ⟨sS, eS⟩ := toFloat_near hm S1
  obtain ⟨sV, eV⟩ := toFloat_near hm V1
  obtain ⟨c0, c2, c4, -⟩ := c116_rgb sH.lo sH.hi sS.lo sS.hi sV.lo sV.hi
  rw [e1] at c0 c2 c4
  have bS := abs_near eS
  have bV := abs_near eV
  have st (c : Rat) := hsv_stored (c := c) (D := 3 / 2 ^ 24) (e := 3 / 2 ^ 24) (lev S S1).1 (lev S S1).2 (lev V V1).1 (lev V V1).2 sS.lo sS.hi sV.lo sV.hi
    (by norm_num) le_rfl eH (by linarith) (by linarith) (by linarith) (by linarith)
  have rng (c : Rat) : 0 ≤ channel ((H : Rat) / m) (V / m * (1 - S / m)) (V / m) c ∧ channel ((H : Rat) / m) (V / m * (1 - S / m)) (V / m) c ≤ 1 := by
    have w0 := share_nonneg (6 * ((H : Rat) / m)) c
    have w1 := share_le (6 * ((H : Rat) / m)) c
    obtain ⟨s0, s1⟩ := lev S S1
    obtain ⟨v0, v1⟩ := lev V V1
    simp only [channel]
    generalize share (6 * ((H : Rat) / m)) c = w at *
    generalize (S : Rat) / m = S' at *
    generalize (V : Rat) / m = V' at *
    rw [show V' * (1 - S') + (V' - V' * (1 - S')) * w = V' * (1 - S' * (1 - w)) by ring]
    have f0 : 0 ≤ S' * (1 - w) := mul_nonneg s0 (by linarith)
    have f1 : S' * (1 - w) ≤ 1 := by nlinarith
    exact ⟨mul_nonneg v0 (by linarith), by nlinarith⟩
  have fin (y a z : Rat) (z0 : 0 ≤ z ∧ z ≤ 1) (q1 : |y - a| ≤ 11 / 2 ^ 24) (q2 : |a - z| ≤ 7 * (3 / 2 ^ 24) + 3 / 2 ^ 24) :
      |(ofFloat m y : Rat) / m - z| ≤ 2 / m := by
    refine level_of hm z0.1 z0.2 ?_
    have t1 := abs_add_le (y - a) (a - z)
    rw [sub_add_sub_cancel] at t1
    linarith
  exact ⟨fin _ _ _ (rng 0) c0 (st 0), fin _ _ _ (rng 2) c2 (st 2), fin _ _ _ (rng 4) c4 (st 4)⟩

/-- **C118** (HSL back to RGB): the same for lightness. -/
theorem c118_rgb_of_hsl_holds {m : Nat} (hm : Depth m) (n : Nat) (h s l r g b : List Nat) (lh : h.length = n) (ls : s.length = n) (ll : l.length = n)
    (hh : ∀ x ∈ h, x ≤ m) (hs : ∀ x ∈ s, x ≤ m) (hl : ∀ x ∈ l, x ≤ m) (e : convertHslToRgb m h s l = some (r, g, b))
    (i H S L : Nat) (iH : h[i]? = some H) (iS : s[i]? = some S) (iL : l[i]? = some L) :
    ∃ R G B : Nat, r[i]? = some R ∧ g[i]? = some G ∧ b[i]? = some B ∧
      |(R : Rat) / m - channel (H / m) (L / m - S / m * room (L / m) / 2) (L / m + S / m * room (L / m) / 2) 0| ≤ 2 / m ∧
      |(G : Rat) / m - channel (H / m) (L / m - S / m * room (L / m) / 2) (L / m + S / m * room (L / m) / 2) 2| ≤ 2 / m ∧
      |(B : Rat) / m - channel (H / m) (L / m - S / m * room (L / m) / 2) (L / m + S / m * room (L / m) / 2) 4| ≤ 2 / m := by
  obtain ⟨-, -, -, get⟩ := convertFrame_get (fun x y z => some (hslToRgbInner x y z)) n h s l r g b lh ls ll e
  obtain ⟨p, q, t, e1, i1, i2, i3⟩ := get i H S L iH iS iL
  refine ⟨_, _, _, i1, i2, i3, ?_⟩
  simp only [Option.some.injEq] at e1
  have lev (x : Nat) (hx : x ≤ m) : 0 ≤ (x : Rat) / m ∧ (x : Rat) / m ≤ 1 :=
    ⟨div_nonneg (Nat.cast_nonneg x) hm.pos.le, (div_le_one hm.pos).mpr (by exact_mod_cast hx)⟩
  have H1 := hh H (List.mem_of_getElem? iH)
  have S1 := hs S (List.mem_of_getElem? iS)
  have L1 := hl L (List.mem_of_getElem? iL)
  obtain ⟨sH, eH⟩ := toFloat_near hm H1
  obtain ⟨sS, eS⟩ := toFloat_near hm S1
  obtain ⟨sL, eL⟩ := toFloat_near hm L1
  obtain ⟨c0, c2, c4⟩ := c117_rgb sH.lo sH.hi sS.lo sS.hi sL.lo sL.hi
  rw [e1] at c0 c2 c4
  have st (c : Rat) := hsl_stored (c := c) (D := 3 / 2 ^ 24) (lev S S1).1 (lev S S1).2 (lev L L1).1 (lev L L1).2 sS.lo sS.hi
    (by norm_num) eH eS eL
  have rng (c : Rat) : 0 ≤ channel ((H : Rat) / m) (L / m - S / m * room (L / m) / 2) (L / m + S / m * room (L / m) / 2) c ∧
      channel ((H : Rat) / m) (L / m - S / m * room (L / m) / 2) (L / m + S / m * room (L / m) / 2) c ≤ 1 := by
    have w0 := share_nonneg (6 * ((H : Rat) / m)) c
    have w1 := share_le (6 * ((H : Rat) / m)) c
    obtain ⟨s0, s1⟩ := lev S S1
    obtain ⟨l0, l1⟩ := lev L L1
    obtain ⟨r0, -⟩ := room_unit l0 l1
    have ra : room ((L : Rat) / m) ≤ 2 * (L / m) := by simp only [room]; linarith [neg_abs_le (2 * ((L : Rat) / m) - 1)]
    have rb : room ((L : Rat) / m) ≤ 2 * (1 - L / m) := by simp only [room]; linarith [le_abs_self (2 * ((L : Rat) / m) - 1)]
    simp only [channel]
    generalize share (6 * ((H : Rat) / m)) c = w at *
    generalize (S : Rat) / m = S' at *
    generalize (L : Rat) / m = L' at *
    generalize room L' = Q at *
    have c0 : 0 ≤ S' * Q := mul_nonneg s0 r0
    have c1 : S' * Q ≤ Q := mul_le_of_le_one_left r0 s1
    generalize S' * Q = C at *
    rw [show L' - C / 2 + (L' + C / 2 - (L' - C / 2)) * w = L' - C / 2 + C * w by ring]
    have d0 : 0 ≤ C * w := mul_nonneg c0 w0
    have d1 : C * w ≤ C := mul_le_of_le_one_right c0 w1
    exact ⟨by linarith, by linarith⟩
  have fin (y a z : Rat) (z0 : 0 ≤ z ∧ z ≤ 1) (q1 : |y - a| ≤ 85 / 2 ^ 24) (q2 : |a - z| ≤ 9 * (3 / 2 ^ 24)) :
      |(ofFloat m y : Rat) / m - z| ≤ 2 / m := by
    refine level_of hm z0.1 z0.2 ?_
    have t1 := abs_add_le (y - a) (a - z)
    rw [sub_add_sub_cancel] at t1
    linarith
  exact ⟨fin _ _ _ (rng 0) c0 (st 0), fin _ _ _ (rng 2) c2 (st 2), fin _ _ _ (rng 4) c4 (st 4)⟩

/-- `x` and `y` differ by `k` at most. -/
def Within (k : Nat) (x y : Nat) : Prop := x ≤ y + k ∧ y ≤ x + k

/-- Frames there and back, from what holds for every pixel. -/
theorem frame_there_back {m k : Nat} (f : Rat → Rat → Rat → Option (Rat × Rat × Rat)) (f' : Rat → Rat → Rat → Rat × Rat × Rat)
    (hp : ∀ r g b : Nat, r ≤ m → g ≤ m → b ≤ m → ∃ h s v, f (toFloat m r) (toFloat m g) (toFloat m b) = some (h, s, v) ∧
      let c := f' (toFloat m (ofFloat m h)) (toFloat m (ofFloat m s)) (toFloat m (ofFloat m v))
      Within k (ofFloat m c.1) r ∧ Within k (ofFloat m c.2.1) g ∧ Within k (ofFloat m c.2.2) b)
    (n : Nat) (r g b : List Nat) (lr : r.length = n) (lg : g.length = n) (lb : b.length = n)
    (hr : ∀ x ∈ r, x ≤ m) (hg : ∀ x ∈ g, x ≤ m) (hb : ∀ x ∈ b, x ≤ m) :
    ∃ h s v r' g' b', convertFrame m (eachPixel f) r g b = some (h, s, v) ∧
      convertFrame m (eachPixel fun x y z => some (f' x y z)) h s v = some (r', g', b') ∧
      List.Forall₂ (Within k) r' r ∧ List.Forall₂ (Within k) g' g ∧ List.Forall₂ (Within k) b' b := by
  induction n generalizing r g b with
  | zero =>
    rw [List.length_eq_zero_iff] at lr lg lb
    subst lr lg lb
    exact ⟨[], [], [], [], [], [], rfl, rfl, .nil, .nil, .nil⟩
  | succ n ih =>
    obtain ⟨x, r, rfl⟩ := List.exists_cons_of_length_eq_add_one lr
    obtain ⟨y, g, rfl⟩ := List.exists_cons_of_length_eq_add_one lg
    obtain ⟨z, b, rfl⟩ := List.exists_cons_of_length_eq_add_one lb
    obtain ⟨h, s, v, r', g', b', e1, e2, f1, f2, f3⟩ := ih r g b (by simpa using lr) (by simpa using lg) (by simpa using lb)
      (fun x hx => hr x (by simp [hx])) (fun x hx => hg x (by simp [hx])) (fun x hx => hb x (by simp [hx]))
    obtain ⟨h', s', v', e, p1, p2, p3⟩ := hp x y z (hr x (by simp)) (hg y (by simp)) (hb z (by simp))
    simp only [convertFrame, Option.map_eq_some_iff] at e1 e2
    obtain ⟨t1, q1, w1⟩ := e1
    obtain ⟨t2, q2, w2⟩ := e2
    refine ⟨ofFloat m h' :: h, ofFloat m s' :: s, ofFloat m v' :: v, _ :: r', _ :: g', _ :: b', ?_, ?_, .cons p1 f1, .cons p2 f2, .cons p3 f3⟩
    · simp only [convertFrame, List.map_cons, eachPixel, e, Option.bind_some, q1, Option.map_some, Option.some.injEq, Prod.mk.injEq]
      simp only [Prod.mk.injEq] at w1
      simp [w1]
    · simp only [convertFrame, List.map_cons, eachPixel, Option.bind_some, q2, Option.map_some, Option.some.injEq, Prod.mk.injEq]
      simp only [Prod.mk.injEq] at w2
      simp [w2]

/-- **C118** (HSV): an RGB picture of 8 or 16 bits converted to HSV and back differs by 8 steps at most at every sample. -/
theorem c118_hsv {m : Nat} (hm : Depth m) (n : Nat) (r g b : List Nat) (lr : r.length = n) (lg : g.length = n) (lb : b.length = n)
    (hr : ∀ x ∈ r, x ≤ m) (hg : ∀ x ∈ g, x ≤ m) (hb : ∀ x ∈ b, x ≤ m) :
    ∃ h s v r' g' b', convertRgbToHsv m r g b = some (h, s, v) ∧ convertHsvToRgb m h s v = some (r', g', b') ∧
      List.Forall₂ (Within 8) r' r ∧ List.Forall₂ (Within 8) g' g ∧ List.Forall₂ (Within 8) b' b :=
  frame_there_back rgbToHsvInner hsvToRgbInner (fun _ _ _ h1 h2 h3 => hsv_pixel hm h1 h2 h3) n r g b lr lg lb hr hg hb

/-- **C118** (HSL): the same with 10 steps for HSL. -/
theorem c118_hsl {m : Nat} (hm : Depth m) (n : Nat) (r g b : List Nat) (lr : r.length = n) (lg : g.length = n) (lb : b.length = n)
    (hr : ∀ x ∈ r, x ≤ m) (hg : ∀ x ∈ g, x ≤ m) (hb : ∀ x ∈ b, x ≤ m) :
    ∃ h s l r' g' b', convertRgbToHsl m r g b = some (h, s, l) ∧ convertHslToRgb m h s l = some (r', g', b') ∧
      List.Forall₂ (Within 10) r' r ∧ List.Forall₂ (Within 10) g' g ∧ List.Forall₂ (Within 10) b' b :=
  frame_there_back rgbToHslInner hslToRgbInner (fun _ _ _ h1 h2 h3 => hsl_pixel hm h1 h2 h3) n r g b lr lg lb hr hg hb

/-- The conversion to HSV and back is **not** the identity on pictures of 8 bits: yellow (255, 255, 0) comes back with less green,
    because the hue 1/6 is stored as 42 of 255. -/
theorem c118_yellow_wrong {h s v r' g' b' : List Nat} (e1 : convertRgbToHsv 255 [255] [255] [0] = some (h, s, v))
    (e2 : convertHsvToRgb 255 h s v = some (r', g', b')) : ∃ G, g' = [G] ∧ G ≤ 252 := by
  have hm : Depth 255 := Or.inl rfl
  obtain ⟨l1, l2, l3, get⟩ := convertFrame_get rgbToHsvInner 1 [255] [255] [0] h s v rfl rfl rfl e1
  obtain ⟨p, q, t, f1, i1, i2, i3⟩ := get 0 255 255 0 rfl rfl rfl
  obtain ⟨-, k2, -, get'⟩ := convertFrame_get (fun x y z => some (hsvToRgbInner x y z)) 1 h s v r' g' b' l1 l2 l3 e2
  obtain ⟨p', q', t', f2, -, j2, -⟩ := get' 0 _ _ _ i1 i2 i3
  refine ⟨ofFloat 255 q', ?_, ?_⟩
  · obtain ⟨G, rfl⟩ := List.length_eq_one_iff.mp k2
    simpa using j2
  · have w : toFloat 255 255 = 1 := toFloat_white hm
    have z : toFloat 255 0 = 0 := by simp [toFloat, rnd_zero]
    rw [w, z] at f1
    obtain ⟨h', s', f3, h0, h1, s0, s1, -, hcol⟩ := c116_hsv (r := 1) (g := 1) (b := 0) ⟨fits_one', by norm_num, by norm_num⟩
      ⟨fits_one', by norm_num, by norm_num⟩ ⟨fits_zero', by norm_num, by norm_num⟩
    rw [f1, Option.some.injEq, Prod.mk.injEq, Prod.mk.injEq] at f3
    obtain ⟨rfl, rfl, rfl⟩ := f3
    obtain ⟨hs, k, hk⟩ := hcol (by norm_num)
    have et : trueHue 1 1 0 = 1 / 6 := by norm_num [trueHue]
    rw [et] at hk
    have bk := abs_near hk
    have bs := abs_near hs
    have mx : max (max (1 : Rat) 1) 0 = 1 := by norm_num
    have mn : min (min (1 : Rat) 1) 0 = 0 := by norm_num
    rw [mx, mn] at bs
    have k0 : k = 0 := by
      have q1 : (k : Rat) < 1 := by linarith
      have q2 : (-1 : Rat) < k := by linarith
      have q1 : k < 1 := by exact_mod_cast q1
      have q2 : -1 < k := by exact_mod_cast q2
      omega
    rw [k0, Int.cast_zero, add_zero] at bk
    have hp : ofFloat 255 p ≤ 42 := by
      have := (ofFloat_near hm h0 (by linarith)).1
      have : (ofFloat 255 p : Rat) < 43 := by push_cast at this; linarith
      have : ofFloat 255 p < 43 := by exact_mod_cast this
      omega
    have hpq : (ofFloat 255 p : Rat) ≤ 42 := by exact_mod_cast hp
    obtain ⟨a0, a1, -, -⟩ := stored_near hm h0 h1
    have a2 := abs_near (toFloat_near hm (x := ofFloat 255 p) (le_trans hp (by norm_num))).2
    obtain ⟨b0, b1, -, b3⟩ := stored_near hm s0 s1
    rw [mx] at f1 f2
    obtain ⟨d0, d1, -, -⟩ := stored_near hm (y := 1) (by norm_num) le_rfl
    simp only [Option.some.injEq] at f2
    obtain ⟨-, pg, -, r0⟩ := c116_rgb a0 a1 b0 b1 d0 d1
    rw [f2] at pg
    dsimp only at pg
    have bp := abs_near pg
    have sh : share (6 * toFloat 255 (ofFloat 255 p)) 2 ≤ 6 * toFloat 255 (ofFloat 255 p) := by
      have hx : 6 * toFloat 255 (ofFloat 255 p) ≤ 1 := by push_cast at a2; linarith
      have := (share_main 0 (6 * toFloat 255 (ofFloat 255 p)) (abs_le.mpr ⟨by linarith, hx⟩)).2.1
      rw [zero_add, zero_add] at this
      rw [this, max_eq_right (by linarith)]
    have sh0 := share_nonneg (6 * toFloat 255 (ofFloat 255 p)) 2
    have ch : channel (toFloat 255 (ofFloat 255 p)) (toFloat 255 (ofFloat 255 1) * (1 - toFloat 255 (ofFloat 255 q))) (toFloat 255 (ofFloat 255 1)) 2 ≤
        1 - toFloat 255 (ofFloat 255 q) + share (6 * toFloat 255 (ofFloat 255 p)) 2 * toFloat 255 (ofFloat 255 q) := by
      simp only [channel]
      generalize share (6 * toFloat 255 (ofFloat 255 p)) 2 = w at *
      generalize toFloat 255 (ofFloat 255 q) = S at *
      generalize toFloat 255 (ofFloat 255 1) = V at *
      have : 0 ≤ 1 - S + w * S := by nlinarith
      nlinarith
    have hS : 1 - 1 / 255 - 9 / 2 ^ 24 ≤ toFloat 255 (ofFloat 255 q) := by push_cast at b3; linarith
    have hw : share (6 * toFloat 255 (ofFloat 255 p)) 2 ≤ 252 / 255 + 18 / 2 ^ 24 := by push_cast at a2; linarith
    have hprod : (1 - 1 / 255 - 9 / 2 ^ 24) * (3 / 255 - 18 / 2 ^ 24) ≤
        toFloat 255 (ofFloat 255 q) * (1 - share (6 * toFloat 255 (ofFloat 255 p)) 2) :=
      mul_le_mul hS (by linarith) (by norm_num) b0
    have hq : q' ≤ 1 - (1 - 1 / 255 - 9 / 2 ^ 24) * (3 / 255 - 18 / 2 ^ 24) + 11 / 2 ^ 24 := by linarith
    have hq0 : 0 ≤ q' := by
      have := r0.2.1.1
      rwa [f2] at this
    have := (ofFloat_near hm hq0 (by linarith)).1
    have : (ofFloat 255 q' : Rat) < 253 := by push_cast at this; linarith
    have : ofFloat 255 q' < 253 := by exact_mod_cast this
    omega

/-- Non-triviality: a picture of a yellow pixel and a dark blue one, whose conversions the theorems above give. -/
example : ∃ h s v r g b, convertRgbToHsv 255 [255, 10] [255, 20] [0, 90] = some (h, s, v) ∧ convertHsvToRgb 255 h s v = some (r, g, b) := by
  obtain ⟨h, s, v, r, g, b, e1, e2, -⟩ := c118_hsv (m := 255) (Or.inl rfl) 2 [255, 10] [255, 20] [0, 90] rfl rfl rfl (by decide) (by decide) (by decide)
  exact ⟨h, s, v, r, g, b, e1, e2⟩

/-- Non-triviality: the same picture in 16 bits, to HSL. -/
example : ∃ h s l r g b, convertRgbToHsl 65535 [65535, 10] [65535, 20] [0, 90] = some (h, s, l) ∧ convertHslToRgb 65535 h s l = some (r, g, b) := by
  obtain ⟨h, s, v, r, g, b, e1, e2, -⟩ := c118_hsl (m := 65535) (Or.inr rfl) 2 [65535, 10] [65535, 20] [0, 90] rfl rfl rfl (by decide) (by decide) (by decide)
  exact ⟨h, s, v, r, g, b, e1, e2⟩

end Zune.Hsv
