/-
C116: conversions between RGB and HSV.
-/
import Verif.Image.HsvLemmas
import Mathlib.Tactic.IntervalCases

namespace Zune.Hsv
open Zune.Float

/-- A sample of a floating point picture: an `f32` from 0 to 1. -/
structure Sample (x : Rat) : Prop where
  fits : Fits 24 x
  lo : 0 ≤ x
  hi : x ≤ 1

/-- The shares of the three channels in each sixth of the circle. -/
theorem shares {x f : Rat} (i : Nat) (hi : i ≤ 6) (hx : x = i + f) (h0 : 0 ≤ f) (h1 : f ≤ 1) :
    (share x 0, share x 2, share x 4) =
      match i % 6 with
      | 0 => (1, f, 0) | 1 => (1 - f, 1, 0) | 2 => (0, 1, f) | 3 => (0, 1 - f, 1) | 4 => (f, 0, 1) | _ => (1, 0, 1 - f) := by
  have c6 : share x 6 = share x 0 := by have := share_center x 0 1; norm_num at this; exact this
  have c8 : share x 8 = share x 2 := by have := share_center x 2 1; norm_num at this; exact this
  have cm : share x (-2) = share x 4 := by have := share_center x (-2) 1; norm_num at this; exact this.symm
  have up (c : Rat) (e : x = c + f) : share x c = 1 ∧ share x (c + 2) = f ∧ share x (c - 2) = 0 := by
    have := share_main c f (by rw [abs_of_nonneg h0]; exact h1)
    rw [← e, max_eq_right h0, max_eq_left (by linarith)] at this
    exact this
  have down (c : Rat) (e : x = c + (f - 1)) : share x c = 1 ∧ share x (c + 2) = 0 ∧ share x (c - 2) = 1 - f := by
    have := share_main c (f - 1) (abs_le.mpr ⟨by linarith, by linarith⟩)
    rw [← e, max_eq_left (by linarith), max_eq_right (by linarith)] at this
    exact ⟨this.1, this.2.1, by rw [this.2.2]; ring⟩
  have hcases : i = 0 ∨ i = 1 ∨ i = 2 ∨ i = 3 ∨ i = 4 ∨ i = 5 ∨ i = 6 := by omega
  rcases hcases with rfl | rfl | rfl | rfl | rfl | rfl | rfl
  · have := up 0 (by rw [hx]; norm_num)
    norm_num at this
    rw [cm] at this
    simp [this]
  · have := down 2 (by rw [hx]; norm_num; ring)
    norm_num at this
    simp [this]
  · have := up 2 (by rw [hx]; norm_num)
    norm_num at this
    simp [this]
  · have := down 4 (by rw [hx]; norm_num; ring)
    norm_num at this
    rw [c6] at this
    simp [this]
  · have := up 4 (by rw [hx]; norm_num)
    norm_num at this
    rw [c6] at this
    simp [this]
  · have := down 6 (by rw [hx]; norm_num; ring)
    norm_num at this
    rw [c6, c8] at this
    simp [this]
  · have := up 6 (by rw [hx]; norm_num)
    norm_num at this
    rw [c6, c8] at this
    simp [this]

/-- **C116** (from RGB): for samples from 0 to 1 the value is the greatest sample, the saturation is that of the colour up to
    4·2⁻²⁴, and the hue is that of the colour up to 5·2⁻²⁴ and whole turns; grey has hue and saturation 0. All are from 0 to 1. -/
theorem c116_hsv {r g b : Rat} (hr : Sample r) (hg : Sample g) (hb : Sample b) :
    ∃ h s, rgbToHsvInner r g b = some (h, s, max (max r g) b) ∧ 0 ≤ h ∧ h ≤ 1 ∧ 0 ≤ s ∧ s ≤ 1 ∧
      (r = g ∧ g = b → h = 0 ∧ s = 0) ∧
      (¬ (r = g ∧ g = b) → |s - (max (max r g) b - min (min r g) b) / max (max r g) b| ≤ 4 / 2 ^ 24 ∧
        ∃ k : Int, |h + k - trueHue r g b| ≤ 5 / 2 ^ 24) := by
  have grey : r = g ∧ g = b ↔ minC r g b = maxC r g b := by
    constructor
    · rintro ⟨rfl, rfl⟩; simp [minC, maxC]
    · intro e
      have h1 : r ≤ maxC r g b := le_trans (le_max_left _ _) (le_max_left _ _)
      have h2 : g ≤ maxC r g b := le_trans (le_max_right _ _) (le_max_left _ _)
      have h3 : b ≤ maxC r g b := le_max_right _ _
      have h4 : minC r g b ≤ r := le_trans (min_le_left _ _) (min_le_left _ _)
      have h5 : minC r g b ≤ g := le_trans (min_le_left _ _) (min_le_right _ _)
      have h6 : minC r g b ≤ b := min_le_right _ _
      constructor <;> linarith
  by_cases e : minC r g b = maxC r g b
  · refine ⟨0, 0, ?_, by norm_num, by norm_num, by norm_num, by norm_num, fun _ => ⟨rfl, rfl⟩, fun hn => absurd (grey.mpr e) hn⟩
    simp only [rgbToHsvInner, if_pos e]
    rfl
  · have hfit : Fits 24 (maxC r g b) := by
      unfold maxC
      rcases max_choice (max r g) b with q | q <;> rw [q]
      · rcases max_choice r g with q' | q' <;> rw [q']
        exacts [hr.fits, hg.fits]
      · exact hb.fits
    have hlo : 0 ≤ minC r g b := le_min (le_min hr.lo hg.lo) hb.lo
    have hhi : maxC r g b ≤ 1 := max_le (max_le hr.hi hg.hi) hb.hi
    have hlt : minC r g b < maxC r g b := lt_of_le_of_ne (le_trans (le_trans (min_le_left _ _) (min_le_left _ _))
      (le_trans (le_max_left _ _) (le_max_left _ _))) e
    have hpos : 0 < maxC r g b := by linarith
    obtain ⟨a1, a2, k, a3⟩ := hue_near e
    have us := (quot (n := maxC r g b - minC r g b) (d := maxC r g b) (n' := rnd 24 (maxC r g b - minC r g b)) (d' := maxC r g b)
      (by linarith) (by linarith) hpos
      (by have := rnd_err 24 (maxC r g b - minC r g b); rwa [abs_of_nonneg (by linarith : 0 ≤ maxC r g b - minC r g b)] at this)
      (by simp [hpos.le]) (le_rnd (by norm_num) fits_zero' (by linarith)) (rnd_le (by norm_num) hfit (by linarith)) hpos).rnd
    refine ⟨hue r g b, _, ?_, a1, a2, us.lo, us.hi, fun hg => absurd (grey.mp hg) e, fun _ => ⟨?_, k, a3⟩⟩
    · simp only [rgbToHsvInner, if_neg e, if_neg hpos.ne']
      rfl
    · exact le_trans us.err (by norm_num)

theorem trunc_nonneg {x : Rat} (h : 0 ≤ x) : trunc x = ⌊x⌋ := by simp [trunc, h]

/-- **C116** (to RGB): for hue, saturation and value from 0 to 1 each channel is, up to 11·2⁻²⁴, the one of the hexagon of hues:
    full up to a sixth of a turn from its own hue, `v (1 - s)` from a third on, linear in between. -/
theorem c116_rgb {h s v : Rat} (h0 : 0 ≤ h) (h1 : h ≤ 1) (s0 : 0 ≤ s) (s1 : s ≤ 1) (v0 : 0 ≤ v) (v1 : v ≤ 1) :
    let c := hsvToRgbInner h s v
    |c.1 - channel h (v * (1 - s)) v 0| ≤ 11 / 2 ^ 24 ∧ |c.2.1 - channel h (v * (1 - s)) v 2| ≤ 11 / 2 ^ 24 ∧
      |c.2.2 - channel h (v * (1 - s)) v 4| ≤ 11 / 2 ^ 24 ∧
      (0 ≤ c.1 ∧ c.1 ≤ 1) ∧ (0 ≤ c.2.1 ∧ c.2.1 ≤ 1) ∧ (0 ≤ c.2.2 ∧ c.2.2 ≤ 1) := by
  intro c
  by_cases hs : s = 0
  · have e : c = (v, v, v) := by simp only [c, hsvToRgbInner, if_pos hs]
    rw [e, hs]
    simp only [channel, sub_zero, mul_one, sub_self, zero_mul, add_zero, abs_zero]
    norm_num
    exact ⟨v0, v1⟩
  · have hx0 : 0 ≤ rnd 24 (h * 6) := le_rnd (by norm_num) fits_zero' (by linarith)
    have hx6 : rnd 24 (h * 6) ≤ 6 := rnd_le (by norm_num) (fits_n (n := 6) (by norm_num)) (by linarith)
    have hxe : |rnd 24 (h * 6) - 6 * h| ≤ 6 / 2 ^ 24 := by
      have := rnd_near (x := h * 6) (A := 6) (by rw [abs_of_nonneg (by linarith)]; linarith)
      rwa [mul_comm h 6] at *
    have ec : c = (let x := rnd 24 (h * 6)
        let i := trunc x
        let f := rnd 24 (x - rnd 24 i)
        let p := rnd 24 (v * rnd 24 (1 - s))
        let q := rnd 24 (v * rnd 24 (1 - rnd 24 (s * f)))
        let t := rnd 24 (v * rnd 24 (1 - rnd 24 (s * rnd 24 (1 - f))))
        match i.tmod 6 with
        | 0 => (v, t, p)
        | 1 => (q, v, p)
        | 2 => (p, v, t)
        | 3 => (p, q, v)
        | 4 => (t, p, v)
        | _ => (v, p, q)) := by simp only [c, hsvToRgbInner, if_neg hs]; rfl
    clear_value c
    generalize rnd 24 (h * 6) = x at *
    dsimp only at ec
    obtain ⟨i, hi⟩ : ∃ i : Nat, ⌊x⌋ = i := ⟨⌊x⌋.toNat, (Int.toNat_of_nonneg (Int.floor_nonneg.mpr hx0)).symm⟩
    have hfl := Int.floor_le x
    have hfu := Int.lt_floor_add_one x
    rw [trunc_nonneg hx0, hi] at ec
    rw [hi] at hfl hfu
    push_cast at ec hfl hfu
    have hi6 : i ≤ 6 := by
      have : (i : Rat) < 7 := by linarith
      have : i < 7 := by exact_mod_cast this
      omega
    rw [rnd_fit (by norm_num) (fits_nat (p := 24) (n := i) (by omega))] at ec
    have hsh := shares i hi6 (x := x) (f := x - i) (by ring) (by linarith) (by linarith)
    have uf := (U.self (x := x - i) (by linarith) (by linarith)).rnd
    have up := ((U.self s0 s1).compl.rnd.mul v0 v1).rnd
    have uq := (((uf.mul s0 s1).rnd.compl.rnd).mul v0 v1).rnd
    have ut := (((uf.compl.rnd.mul s0 s1).rnd.compl.rnd).mul v0 v1).rnd
    generalize rnd 24 (x - i) = f at *
    generalize x - (i : Rat) = f0 at *
    generalize rnd 24 (v * rnd 24 (1 - s)) = p at *
    generalize rnd 24 (v * rnd 24 (1 - rnd 24 (s * f))) = q at *
    generalize rnd 24 (v * rnd 24 (1 - rnd 24 (s * rnd 24 (1 - f)))) = t at *
    -- each channel from the share at `x`
    have key : ∀ y c' w : Rat, U 5 y (v * (1 - s) + v * s * w) → share x c' = w →
        |y - channel h (v * (1 - s)) v c'| ≤ 11 / 2 ^ 24 := by
      intro y c' w hy hw
      have hcl := share_close (6 * h) x c'
      rw [abs_sub_comm (6 * h) x, hw] at hcl
      have e : y - channel h (v * (1 - s)) v c' = (y - (v * (1 - s) + v * s * w)) - v * s * (share (6 * h) c' - w) := by
        simp only [channel]; ring
      rw [e]
      have tr := abs_sub (y - (v * (1 - s) + v * s * w)) (v * s * (share (6 * h) c' - w))
      have m : |v * s * (share (6 * h) c' - w)| ≤ 6 / 2 ^ 24 := by
        rw [abs_mul, abs_of_nonneg (mul_nonneg v0 s0)]
        refine le_trans (mul_le_of_le_one_left (abs_nonneg _) (by nlinarith)) (le_trans hcl hxe)
      have := hy.err
      norm_num at *
      linarith
    have kv : U 5 v (v * (1 - s) + v * s * 1) := by
      rw [show v * (1 - s) + v * s * 1 = v by ring]; exact (U.self v0 v1).mono (by norm_num)
    have kp : U 5 p (v * (1 - s) + v * s * 0) := by
      rw [show v * (1 - s) + v * s * 0 = v * (1 - s) by ring]; exact up.mono (by norm_num)
    have kq : U 5 q (v * (1 - s) + v * s * (1 - f0)) := by
      rw [show v * (1 - s) + v * s * (1 - f0) = v * (1 - s * f0) by ring]; exact uq.mono (by norm_num)
    have kt : U 5 t (v * (1 - s) + v * s * f0) := by
      rw [show v * (1 - s) + v * s * f0 = v * (1 - s * (1 - f0)) by ring]; exact ut.mono (by norm_num)
    have vv : 0 ≤ v ∧ v ≤ 1 := ⟨v0, v1⟩
    have pp : 0 ≤ p ∧ p ≤ 1 := ⟨kp.lo, kp.hi⟩
    have qq : 0 ≤ q ∧ q ≤ 1 := ⟨kq.lo, kq.hi⟩
    have tt : 0 ≤ t ∧ t ≤ 1 := ⟨kt.lo, kt.hi⟩
    have hcases : i = 0 ∨ i = 1 ∨ i = 2 ∨ i = 3 ∨ i = 4 ∨ i = 5 ∨ i = 6 := by omega
    rcases hcases with rfl | rfl | rfl | rfl | rfl | rfl | rfl <;>
      simp only [Prod.mk.injEq] at hsh <;> norm_num at hsh ec <;> rw [ec] <;> try dsimp only
    · exact ⟨key _ _ _ kv hsh.1, key _ _ _ kt hsh.2.1, key _ _ _ kp hsh.2.2, vv, tt, pp⟩
    · exact ⟨key _ _ _ kq hsh.1, key _ _ _ kv hsh.2.1, key _ _ _ kp hsh.2.2, qq, vv, pp⟩
    · exact ⟨key _ _ _ kp hsh.1, key _ _ _ kv hsh.2.1, key _ _ _ kt hsh.2.2, pp, vv, tt⟩
    · exact ⟨key _ _ _ kp hsh.1, key _ _ _ kq hsh.2.1, key _ _ _ kv hsh.2.2, pp, qq, vv⟩
    · exact ⟨key _ _ _ kt hsh.1, key _ _ _ kp hsh.2.1, key _ _ _ kv hsh.2.2, tt, pp, vv⟩
    · exact ⟨key _ _ _ kv hsh.1, key _ _ _ kp hsh.2.1, key _ _ _ kq hsh.2.2, vv, pp, qq⟩
    · exact ⟨key _ _ _ kv hsh.1, key _ _ _ kt hsh.2.1, key _ _ _ kp hsh.2.2, vv, tt, pp⟩

/-- The channels of nearly the same hue and saturation. -/
theorem channel_near {h k s v H S c : Rat} (n : Int) (hk : k = n) (s0 : 0 ≤ s) (s1 : s ≤ 1) (v0 : 0 ≤ v) (v1 : v ≤ 1)
    (es : |s - S| ≤ 4 / 2 ^ 24) (eh : |h + k - H| ≤ 5 / 2 ^ 24) :
    |channel h (v * (1 - s)) v c - channel H (v * (1 - S)) v c| ≤ 34 / 2 ^ 24 := by
  have hsh : |share (6 * h) c - share (6 * H) c| ≤ 30 / 2 ^ 24 := by
    rw [← share_turn (6 * h) c n, ← hk]
    refine le_trans (share_close _ _ _) ?_
    rw [show 6 * h + 6 * k - 6 * H = 6 * (h + k - H) by ring, abs_mul, abs_of_pos (by norm_num : (0 : Rat) < 6)]
    norm_num at *
    linarith
  have e : channel h (v * (1 - s)) v c - channel H (v * (1 - S)) v c =
      v * s * (share (6 * h) c - share (6 * H) c) - v * (1 - share (6 * H) c) * (s - S) := by simp only [channel]; ring
  rw [e]
  have t := abs_sub (v * s * (share (6 * h) c - share (6 * H) c)) (v * (1 - share (6 * H) c) * (s - S))
  have a0 := share_nonneg (6 * H) c
  have a1 := share_le (6 * H) c
  have m1 : |v * s * (share (6 * h) c - share (6 * H) c)| ≤ 30 / 2 ^ 24 := by
    rw [abs_mul, abs_of_nonneg (mul_nonneg v0 s0)]
    exact le_trans (mul_le_of_le_one_left (abs_nonneg _) (by nlinarith)) hsh
  have m2 : |v * (1 - share (6 * H) c) * (s - S)| ≤ 4 / 2 ^ 24 := by
    rw [abs_mul, abs_of_nonneg (mul_nonneg v0 (by linarith))]
    exact le_trans (mul_le_of_le_one_left (abs_nonneg _) (by nlinarith)) es
  norm_num at *
  linarith

/-- The channels for the hue, saturation and value that are computed are those of the colour up to 34·2⁻²⁴. -/
theorem hsv_channels {r g b : Rat} (hr : Sample r) (hg : Sample g) (hb : Sample b) :
    ∃ h s v, rgbToHsvInner r g b = some (h, s, v) ∧ (0 ≤ h ∧ h ≤ 1) ∧ (0 ≤ s ∧ s ≤ 1) ∧ (0 ≤ v ∧ v ≤ 1) ∧
      |channel h (v * (1 - s)) v 0 - r| ≤ 34 / 2 ^ 24 ∧ |channel h (v * (1 - s)) v 2 - g| ≤ 34 / 2 ^ 24 ∧
      |channel h (v * (1 - s)) v 4 - b| ≤ 34 / 2 ^ 24 := by
  obtain ⟨h, s, e, h0, h1, s0, s1, hgrey, hcol⟩ := c116_hsv hr hg hb
  have hhi : max (max r g) b ≤ 1 := max_le (max_le hr.hi hg.hi) hb.hi
  have h1' : r ≤ max (max r g) b := le_trans (le_max_left _ _) (le_max_left _ _)
  have h2' : g ≤ max (max r g) b := le_trans (le_max_right _ _) (le_max_left _ _)
  have h3' : b ≤ max (max r g) b := le_max_right _ _
  have hv : 0 ≤ max (max r g) b := le_trans hr.lo h1'
  refine ⟨h, s, _, e, ⟨h0, h1⟩, ⟨s0, s1⟩, ⟨hv, hhi⟩, ?_⟩
  by_cases gr : r = g ∧ g = b
  · obtain ⟨rfl, rfl⟩ := gr
    obtain ⟨-, rfl⟩ := hgrey ⟨rfl, rfl⟩
    simp [channel]
    norm_num
  · obtain ⟨es, k, ek⟩ := hcol gr
    have h4' : min (min r g) b ≤ r := le_trans (min_le_left _ _) (min_le_left _ _)
    have h5' : min (min r g) b ≤ g := le_trans (min_le_left _ _) (min_le_right _ _)
    have h6' : min (min r g) b ≤ b := min_le_right _ _
    have hne : min (min r g) b ≠ max (max r g) b := fun q => gr ⟨by linarith, by linarith⟩
    have hvp : 0 < max (max r g) b := lt_of_le_of_ne hv fun q => hne (by linarith [hr.lo, hg.lo, hb.lo, le_min (le_min hr.lo hg.lo) hb.lo])
    obtain ⟨c0, c2, c4⟩ := channel_hue hne
    have en (c : Rat) := channel_near (c := c) k rfl s0 s1 hv hhi es ek
    have elo : max (max r g) b * (1 - (max (max r g) b - min (min r g) b) / max (max r g) b) = min (min r g) b := by
      rw [mul_sub, mul_one, mul_div_cancel₀ _ hvp.ne']; ring
    simp only [elo] at en
    refine ⟨?_, ?_, ?_⟩
    · have := en 0; rwa [c0] at this
    · have := en 2; rwa [c2] at this
    · have := en 4; rwa [c4] at this

/-- **C116** (there and back): RGB to HSV and back gives every sample up to 45·2⁻²⁴ (less than 3 millionths). -/
theorem c116_roundtrip {r g b : Rat} (hr : Sample r) (hg : Sample g) (hb : Sample b) :
    ∃ h s v, rgbToHsvInner r g b = some (h, s, v) ∧
      |(hsvToRgbInner h s v).1 - r| ≤ 45 / 2 ^ 24 ∧ |(hsvToRgbInner h s v).2.1 - g| ≤ 45 / 2 ^ 24 ∧
      |(hsvToRgbInner h s v).2.2 - b| ≤ 45 / 2 ^ 24 := by
  obtain ⟨h, s, v, e, ⟨h0, h1⟩, ⟨s0, s1⟩, ⟨v0, v1⟩, c0, c2, c4⟩ := hsv_channels hr hg hb
  obtain ⟨d0, d2, d4, -⟩ := c116_rgb h0 h1 s0 s1 v0 v1
  have fin (y a z : Rat) (q1 : |y - a| ≤ 11 / 2 ^ 24) (q2 : |a - z| ≤ 34 / 2 ^ 24) : |y - z| ≤ 45 / 2 ^ 24 := by
    have := abs_add_le (y - a) (a - z)
    rw [sub_add_sub_cancel] at this
    norm_num at *
    linarith
  exact ⟨h, s, v, e, fin _ _ _ d0 c0, fin _ _ _ d2 c2, fin _ _ _ d4 c4⟩

/-- **C116** (channels there and back): the same for whole channels of the same length. -/
theorem c116_channels (n : Nat) (r g b : List Rat) (hr : r.length = n) (hg : g.length = n) (hb : b.length = n)
    (sr : ∀ x ∈ r, Sample x) (sg : ∀ x ∈ g, Sample x) (sb : ∀ x ∈ b, Sample x) :
    ∃ h s v r' g' b', rgbToHsv r g b = some (h, s, v) ∧ hsvToRgb h s v = some (r', g', b') ∧
      List.Forall₂ (fun x y => |x - y| ≤ 45 / 2 ^ 24) r' r ∧ List.Forall₂ (fun x y => |x - y| ≤ 45 / 2 ^ 24) g' g ∧
      List.Forall₂ (fun x y => |x - y| ≤ 45 / 2 ^ 24) b' b := by
  induction n generalizing r g b with
  | zero =>
    rw [List.length_eq_zero_iff] at hr hg hb
    subst hr hg hb
    exact ⟨[], [], [], [], [], [], rfl, rfl, .nil, .nil, .nil⟩
  | succ n ih =>
    obtain ⟨x, r, rfl⟩ := List.exists_cons_of_length_eq_add_one hr
    obtain ⟨y, g, rfl⟩ := List.exists_cons_of_length_eq_add_one hg
    obtain ⟨z, b, rfl⟩ := List.exists_cons_of_length_eq_add_one hb
    obtain ⟨h, s, v, r', g', b', e1, e2, f1, f2, f3⟩ := ih r g b (by simpa using hr) (by simpa using hg) (by simpa using hb)
      (fun x hx => sr x (by simp [hx])) (fun x hx => sg x (by simp [hx])) (fun x hx => sb x (by simp [hx]))
    obtain ⟨h', s', v', e, p1, p2, p3⟩ := c116_roundtrip (sr x (by simp)) (sg y (by simp)) (sb z (by simp))
    refine ⟨h' :: h, s' :: s, v' :: v, _ :: r', _ :: g', _ :: b', ?_, ?_, .cons p1 f1, .cons p2 f2, .cons p3 f3⟩
    · simp only [rgbToHsv] at e1 ⊢
      simp only [eachPixel, e, Option.bind_some, e1, Option.map_some]
    · simp only [hsvToRgb] at e2 ⊢
      simp only [eachPixel, Option.bind_some, e2, Option.map_some]

/-- Non-triviality: orange meets the hypotheses, and its hue is not that of grey. -/
example : Sample 1 ∧ Sample (1 / 2) ∧ Sample 0 ∧ trueHue 1 (1 / 2) 0 = 1 / 12 := by
  refine ⟨⟨fits_one', by norm_num, by norm_num⟩, ⟨⟨1, -1, by norm_num, by norm_num⟩, by norm_num, by norm_num⟩,
    ⟨fits_zero', by norm_num, by norm_num⟩, by norm_num [trueHue]⟩

end Zune.Hsv
