/-
C117: conversions between RGB and HSL.
-/
import Verif.Image.HsvProps

namespace Zune.Hsv
open Zune.Float

/-- How far the channels of a colour of lightness `l` may go from `l` at most, up and down together. -/
def room (l : Rat) : Rat := 1 - |2 * l - 1|

theorem room_close (a b : Rat) : |room a - room b| ≤ 2 * |a - b| := by
  have := abs_abs_sub_abs_le_abs_sub (2 * b - 1) (2 * a - 1)
  rw [show 2 * b - 1 - (2 * a - 1) = 2 * (b - a) by ring, abs_mul, abs_of_pos (by norm_num : (0 : Rat) < 2)] at this
  simp only [room]
  rw [show 1 - |2 * a - 1| - (1 - |2 * b - 1|) = |2 * b - 1| - |2 * a - 1| by ring, abs_sub_comm a b]
  exact this

theorem room_unit {l : Rat} (h0 : 0 ≤ l) (h1 : l ≤ 1) : 0 ≤ room l ∧ room l ≤ 1 := by
  have : |2 * l - 1| ≤ 1 := abs_le.mpr ⟨by linarith, by linarith⟩
  have := abs_nonneg (2 * l - 1)
  constructor <;> simp only [room] <;> linarith

theorem fits_two' : Fits 24 2 := fits_n (n := 2) (by norm_num)

/-- The lightness: up to 2·2⁻²⁴ the mean of least and greatest sample, and from 0 to 1. -/
theorem light_near {mx mn : Rat} (h0 : 0 ≤ mn) (h1 : mn ≤ mx) (h2 : mx ≤ 1) :
    U 2 (rnd 24 (rnd 24 (mn + mx) / 2)) ((mx + mn) / 2) := by
  have a0 : 0 ≤ rnd 24 (mn + mx) := le_rnd (by norm_num) fits_zero' (by linarith)
  have a2 : rnd 24 (mn + mx) ≤ 2 := rnd_le (by norm_num) fits_two' (by linarith)
  have e := rnd_near (x := mn + mx) (A := 2) (by rw [abs_of_nonneg (by linarith)]; linarith)
  have : U 1 (rnd 24 (mn + mx) / 2) ((mx + mn) / 2) := by
    refine ⟨by linarith, by linarith, ?_⟩
    rw [← sub_div, abs_div, abs_of_pos (by norm_num : (0 : Rat) < 2), div_le_iff₀ (by norm_num), add_comm mx mn]
    norm_num at *
    linarith
  have := this.rnd
  exact this.mono (by norm_num)

/-- The saturation as a quotient `n / d` with rounded numbers: with the right denominator it gives the difference. -/
theorem sat_near {n D d : Rat} (hn0 : 0 ≤ n) (hn1 : n ≤ 1) (hd : 0 < d) (hle : rnd 24 n ≤ d) (hD0 : 0 ≤ D) (hD : D ≤ 1)
    (ed : |d - D| ≤ 6 / 2 ^ 24) :
    0 ≤ rnd 24 (rnd 24 n / d) ∧ rnd 24 (rnd 24 n / d) ≤ 1 ∧ |rnd 24 (rnd 24 n / d) * D - n| ≤ 8 / 2 ^ 24 := by
  have n0 : 0 ≤ rnd 24 n := le_rnd (by norm_num) fits_zero' hn0
  have en := rnd_near (x := n) (A := 1) (by rw [abs_of_nonneg hn0]; exact hn1)
  have q0 : 0 ≤ rnd 24 n / d := div_nonneg n0 hd.le
  have q1 : rnd 24 n / d ≤ 1 := (div_le_one hd).mpr hle
  obtain ⟨a, b⟩ := rnd_unit q0 q1
  refine ⟨a, b, ?_⟩
  have es := rnd_near (x := rnd 24 n / d) (A := 1) (by rw [abs_of_nonneg q0]; exact q1)
  have hq : rnd 24 n / d * d = rnd 24 n := div_mul_cancel₀ _ hd.ne'
  generalize rnd 24 (rnd 24 n / d) = s at *
  generalize rnd 24 n / d = q at *
  have e : s * D - n = (s - q) * D - q * (d - D) + (rnd 24 n - n) := by rw [← hq]; ring
  rw [e]
  have t1 := abs_add_le ((s - q) * D - q * (d - D)) (rnd 24 n - n)
  have t2 := abs_sub ((s - q) * D) (q * (d - D))
  have m1 : |(s - q) * D| ≤ 1 / 2 ^ 24 := by
    rw [abs_mul, abs_of_nonneg hD0]
    exact le_trans (mul_le_of_le_one_right (abs_nonneg _) hD) es
  have m2 : |q * (d - D)| ≤ 6 / 2 ^ 24 := by
    rw [abs_mul, abs_of_nonneg q0]
    exact le_trans (mul_le_of_le_one_left (abs_nonneg _) q1) ed
  norm_num at *
  linarith

/-- **C117** (from RGB): for samples from 0 to 1 the lightness is the mean of the least and the greatest sample up to 2·2⁻²⁴, the hue is
    that of the colour up to 5·2⁻²⁴ and whole turns, and the saturation is the part of the room at that lightness which the
    channels take, in the sense that the room times the saturation is their distance up to 8·2⁻²⁴. All are from 0 to 1. -/
theorem c117_hsl {r g b : Rat} (hr : Sample r) (hg : Sample g) (hb : Sample b) :
    ∃ h s l, rgbToHslInner r g b = some (h, s, l) ∧ (0 ≤ h ∧ h ≤ 1) ∧ (0 ≤ s ∧ s ≤ 1) ∧ (0 ≤ l ∧ l ≤ 1) ∧
      |l - (max (max r g) b + min (min r g) b) / 2| ≤ 2 / 2 ^ 24 ∧
      (r = g ∧ g = b → h = 0 ∧ s = 0) ∧
      (¬ (r = g ∧ g = b) →
        |s * room ((max (max r g) b + min (min r g) b) / 2) - (max (max r g) b - min (min r g) b)| ≤ 8 / 2 ^ 24 ∧
        ∃ k : Int, |h + k - trueHue r g b| ≤ 5 / 2 ^ 24) := by
  have h1 : r ≤ maxC r g b := le_trans (le_max_left _ _) (le_max_left _ _)
  have h2 : g ≤ maxC r g b := le_trans (le_max_right _ _) (le_max_left _ _)
  have h3 : b ≤ maxC r g b := le_max_right _ _
  have h4 : minC r g b ≤ r := le_trans (min_le_left _ _) (min_le_left _ _)
  have h5 : minC r g b ≤ g := le_trans (min_le_left _ _) (min_le_right _ _)
  have h6 : minC r g b ≤ b := min_le_right _ _
  have grey : r = g ∧ g = b ↔ minC r g b = maxC r g b := by
    constructor
    · rintro ⟨rfl, rfl⟩; simp [minC, maxC]
    · intro e
      constructor <;> linarith
  have hlo : 0 ≤ minC r g b := le_min (le_min hr.lo hg.lo) hb.lo
  have hhi : maxC r g b ≤ 1 := max_le (max_le hr.hi hg.hi) hb.hi
  have ul := light_near hlo (le_trans h4 h1) hhi
  have hfit : Fits 24 (maxC r g b) := by
    unfold maxC
    rcases max_choice (max r g) b with q | q <;> rw [q]
    · rcases max_choice r g with q' | q' <;> rw [q']
      exacts [hr.fits, hg.fits]
    · exact hb.fits
  have hue' := hue_near (r := r) (g := g) (b := b)
  change ∃ h s l, rgbToHslInner r g b = some (h, s, l) ∧ (0 ≤ h ∧ h ≤ 1) ∧ (0 ≤ s ∧ s ≤ 1) ∧ (0 ≤ l ∧ l ≤ 1) ∧
      |l - (maxC r g b + minC r g b) / 2| ≤ 2 / 2 ^ 24 ∧ (r = g ∧ g = b → h = 0 ∧ s = 0) ∧
      (¬ (r = g ∧ g = b) → |s * room ((maxC r g b + minC r g b) / 2) - (maxC r g b - minC r g b)| ≤ 8 / 2 ^ 24 ∧
        ∃ k : Int, |h + k - trueHue r g b| ≤ 5 / 2 ^ 24)
  simp only [rgbToHslInner]
  generalize maxC r g b = mx at *
  generalize minC r g b = mn at *
  by_cases e : mn = mx
  · rw [if_pos e]
    exact ⟨0, 0, _, rfl, by norm_num, by norm_num, ⟨ul.lo, ul.hi⟩, ul.err, fun _ => ⟨rfl, rfl⟩, fun hn => absurd (grey.mpr e) hn⟩
  · rw [if_neg e]
    have hlt : mn < mx := lt_of_le_of_ne (le_trans h4 h1) e
    obtain ⟨a1, a2, k, a3⟩ := hue' e
    have hn0 : 0 ≤ mx - mn := by linarith
    have hn1 : mx - mn ≤ 1 := by linarith
    have hmean0 : 0 ≤ (mx + mn) / 2 := by linarith
    have hmean1 : (mx + mn) / 2 ≤ 1 := by linarith
    obtain ⟨r0, r1⟩ := room_unit hmean0 hmean1
    have np : 0 < rnd 24 (mx - mn) := rnd_pos (by linarith)
    by_cases hl : rnd 24 (rnd 24 (mn + mx) / 2) ≤ 1 / 2
    · rw [if_pos hl]
      have hle : rnd 24 (mx - mn) ≤ rnd 24 (mx + mn) := rnd_mono (by norm_num) (by linarith)
      have hd : 0 < rnd 24 (mx + mn) := lt_of_lt_of_le np hle
      -- the sum is hardly more than 1
      have hsum : mx + mn ≤ 1 + 2 / 2 ^ 24 := by
        have : rnd 24 (mn + mx) ≤ 1 := by
          by_contra hc
          push Not at hc
          have fh : Fits 24 (rnd 24 (mn + mx) / 2) := by
            obtain ⟨m, ex, hm, he⟩ := rnd_fits 24 (mn + mx)
            refine ⟨m, ex - 1, hm, ?_⟩
            rw [he, zpow_sub_one₀ (by norm_num)]; ring
          rw [rnd_fit (by norm_num) fh] at hl
          linarith
        have e1 := rnd_near (x := mn + mx) (A := 2) (by rw [abs_of_nonneg (by linarith)]; linarith)
        have := abs_near e1
        norm_num at *
        linarith
      have ed : |rnd 24 (mx + mn) - room ((mx + mn) / 2)| ≤ 6 / 2 ^ 24 := by
        have e1 := rnd_near (x := mx + mn) (A := 2) (by rw [abs_of_nonneg (by linarith)]; linarith)
        have e2 : |mx + mn - room ((mx + mn) / 2)| ≤ 4 / 2 ^ 24 := by
          simp only [room]
          rw [show 2 * ((mx + mn) / 2) - 1 = mx + mn - 1 by ring]
          rcases le_total (mx + mn) 1 with q | q
          · rw [abs_of_nonpos (by linarith : mx + mn - 1 ≤ 0), show mx + mn - (1 - -(mx + mn - 1)) = 0 by ring]
            norm_num
          · rw [abs_of_nonneg (by linarith : 0 ≤ mx + mn - 1), abs_of_nonneg (by linarith)]
            norm_num at *
            linarith
        have t := abs_add_le (rnd 24 (mx + mn) - (mx + mn)) (mx + mn - room ((mx + mn) / 2))
        rw [sub_add_sub_cancel] at t
        norm_num at *
        linarith
      obtain ⟨s0, s1, es⟩ := sat_near hn0 hn1 hd hle r0 r1 ed
      rw [if_neg hd.ne']
      exact ⟨_, _, _, rfl, ⟨a1, a2⟩, ⟨s0, s1⟩, ⟨ul.lo, ul.hi⟩, ul.err, fun hg => absurd (grey.mp hg) e, fun _ => ⟨es, k, a3⟩⟩
    · rw [if_neg hl]
      have h2m : mx ≤ rnd 24 (2 - mx) := le_rnd (by norm_num) hfit (by linarith)
      have h2u : rnd 24 (2 - mx) ≤ 2 := rnd_le (by norm_num) fits_two' (by linarith)
      have hle : rnd 24 (mx - mn) ≤ rnd 24 (rnd 24 (2 - mx) - mn) := rnd_mono (by norm_num) (by linarith)
      have hd : 0 < rnd 24 (rnd 24 (2 - mx) - mn) := lt_of_lt_of_le np hle
      have hsum : 1 ≤ mx + mn := by
        by_contra hc
        push Not at hc
        apply hl
        have : rnd 24 (mn + mx) ≤ 1 := rnd_le (by norm_num) fits_one' (by linarith)
        exact rnd_le (by norm_num) ⟨1, -1, by norm_num, by norm_num⟩ (by linarith)
      have ed : |rnd 24 (rnd 24 (2 - mx) - mn) - room ((mx + mn) / 2)| ≤ 6 / 2 ^ 24 := by
        have er : room ((mx + mn) / 2) = 2 - mx - mn := by
          simp only [room]
          rw [show 2 * ((mx + mn) / 2) - 1 = mx + mn - 1 by ring, abs_of_nonneg (by linarith)]; ring
        rw [er]
        have e1 := rnd_near (x := 2 - mx) (A := 2) (by rw [abs_of_nonneg (by linarith)]; linarith)
        have e2 := rnd_near' (x := rnd 24 (2 - mx) - mn) (y := 2 - mx - mn) (A := 2) (k := 2)
          (abs_le.mpr ⟨by linarith, by linarith⟩) (by rw [show rnd 24 (2 - mx) - mn - (2 - mx - mn) = rnd 24 (2 - mx) - (2 - mx) by ring]; exact e1)
        norm_num at *
        linarith
      obtain ⟨s0, s1, es⟩ := sat_near hn0 hn1 hd hle r0 r1 ed
      rw [if_neg hd.ne']
      exact ⟨_, _, _, rfl, ⟨a1, a2⟩, ⟨s0, s1⟩, ⟨ul.lo, ul.hi⟩, ul.err, fun hg => absurd (grey.mp hg) e, fun _ => ⟨es, k, a3⟩⟩

/-- The shares around the hue 2 within one turn. -/
theorem share_two {x : Rat} (h0 : 0 ≤ x) (h6 : x ≤ 6) : share x 2 = max 0 (min 1 (min x (4 - x))) := by
  rcases le_total x 5 with h | h
  · rw [share_eq 0 (abs_le.mpr ⟨by push_cast; linarith, by push_cast; linarith⟩)]
    push_cast
    rw [mul_zero, sub_zero]
    rcases le_total x 2 with q | q
    · rw [abs_of_nonpos (by linarith), min_eq_left (by linarith : x ≤ 4 - x)]; ring_nf
    · rw [abs_of_nonneg (by linarith), min_eq_right (by linarith : 4 - x ≤ x)]; ring_nf
  · rw [share_eq 1 (abs_le.mpr ⟨by push_cast; linarith, by push_cast; linarith⟩)]
    push_cast
    rw [abs_of_nonpos (by linarith), min_eq_right (by linarith : 4 - x ≤ x), min_eq_right (by linarith), min_eq_right (by linarith),
      max_eq_left (by linarith), max_eq_left (by linarith)]

/-- The linear part of `v`. -/
theorem linear_near {m1 m2 lo hi z : Rat} (l0 : 0 ≤ lo) (l1 : lo ≤ hi) (l2 : hi ≤ 1) (e1 : |m1 - lo| ≤ 9 / 2 ^ 24)
    (e2 : |m2 - hi| ≤ 5 / 2 ^ 24) (z0 : 0 ≤ z) (z1 : z ≤ 1 / 5) :
    |rnd 24 (m1 + rnd 24 (rnd 24 (rnd 24 (m2 - m1) * z) * 6)) - (lo + (hi - lo) * (6 * z))| ≤ 43 / 2 ^ 24 := by
  have b1 := abs_near e1
  have b2 := abs_near e2
  have ha : |rnd 24 (m2 - m1) - (hi - lo)| ≤ 16 / 2 ^ 24 := by
    have e : |m2 - m1 - (hi - lo)| ≤ 14 / 2 ^ 24 := by
      have := abs_sub (m2 - hi) (m1 - lo)
      rw [show m2 - m1 - (hi - lo) = m2 - hi - (m1 - lo) by ring]
      norm_num at *
      linarith
    have := rnd_near' (A := 2) (abs_le.mpr ⟨by norm_num at *; linarith, by norm_num at *; linarith⟩) e
    norm_num at *
    linarith
  generalize rnd 24 (m2 - m1) = a at *
  have ba := abs_near ha
  have haz : |a * z - (hi - lo) * z| ≤ 4 / 2 ^ 24 := by
    rw [← sub_mul, abs_mul, abs_of_nonneg z0]
    have := mul_le_mul ha z1 z0 (by norm_num)
    norm_num at *
    linarith
  have ez : lo + (hi - lo) * (6 * z) = lo + (hi - lo) * z * 6 := by ring
  rw [ez]
  have bz : 0 ≤ (hi - lo) * z ∧ (hi - lo) * z ≤ 1 / 5 := ⟨mul_nonneg (by linarith) z0, by nlinarith⟩
  have bt : (hi - lo) * z ≤ (hi - lo) * (1 / 5) := mul_le_mul_of_nonneg_left z1 (by linarith)
  have bz' := abs_near haz
  have hr : |rnd 24 (a * z) - (hi - lo) * z| ≤ 5 / 2 ^ 24 := by
    have := rnd_near' (A := 1) (abs_le.mpr ⟨by norm_num at *; linarith, by norm_num at *; linarith⟩) haz
    norm_num at *
    linarith
  generalize (hi - lo) * z = t at *
  have br := abs_near hr
  have h6 : |rnd 24 (a * z) * 6 - t * 6| ≤ 30 / 2 ^ 24 := by
    rw [← sub_mul, abs_mul, abs_of_pos (by norm_num : (0 : Rat) < 6)]
    norm_num at *
    linarith
  have h7 : |rnd 24 (rnd 24 (a * z) * 6) - t * 6| ≤ 32 / 2 ^ 24 := by
    have := rnd_near' (A := 2) (abs_le.mpr ⟨by norm_num at *; linarith, by norm_num at *; linarith⟩) h6
    norm_num at *
    linarith
  generalize rnd 24 (rnd 24 (a * z) * 6) = w at *
  have bw := abs_near h7
  have h8 : |m1 + w - (lo + t * 6)| ≤ 41 / 2 ^ 24 := by
    have := abs_add_le (m1 - lo) (w - t * 6)
    rw [show m1 + w - (lo + t * 6) = m1 - lo + (w - t * 6) by ring]
    norm_num at *
    linarith
  have b8 := abs_near h8
  have h9 : lo + t * 6 ≤ 3 / 2 ∧ 0 ≤ lo + t * 6 := ⟨by linarith, by linarith⟩
  have := rnd_near' (A := 2) (abs_le.mpr ⟨by norm_num at *; linarith, by norm_num at *; linarith⟩) h8
  norm_num at *
  linarith

/-- A third of a turn, a sixth and two thirds, up to rounding. -/
theorem thirds : |oneThird - 1 / 3| ≤ 1 / 2 ^ 24 ∧ |oneSixth - 1 / 6| ≤ 1 / 2 ^ 24 ∧ |twoThird - 2 / 3| ≤ 1 / 2 ^ 24 :=
  ⟨rnd_near (by norm_num), rnd_near (by norm_num), rnd_near (by norm_num)⟩

/-- A value between `lo` and `hi` by a weight nearly the share. -/
theorem weight_near {lo hi x w W e k : Rat} (l0 : 0 ≤ lo) (l1 : lo ≤ hi) (l2 : hi ≤ 1) (h : |x - (lo + (hi - lo) * w)| ≤ e / 2 ^ 24)
    (hw : |w - W| ≤ k / 2 ^ 24) : |x - (lo + (hi - lo) * W)| ≤ (e + k) / 2 ^ 24 := by
  have m : |(hi - lo) * (w - W)| ≤ k / 2 ^ 24 := by
    rw [abs_mul, abs_of_nonneg (by linarith : 0 ≤ hi - lo)]
    exact le_trans (mul_le_of_le_one_left (abs_nonneg _) (by linarith)) hw
  have t := abs_add_le (x - (lo + (hi - lo) * w)) ((hi - lo) * (w - W))
  rw [show x - (lo + (hi - lo) * w) + (hi - lo) * (w - W) = x - (lo + (hi - lo) * W) by ring] at t
  rw [add_div]
  linarith

/-- `v` gives the channel whose own hue is a third of a turn. -/
theorem vChan_near {m1 m2 lo hi h : Rat} (l0 : 0 ≤ lo) (l1 : lo ≤ hi) (l2 : hi ≤ 1) (e1 : |m1 - lo| ≤ 9 / 2 ^ 24)
    (e2 : |m2 - hi| ≤ 5 / 2 ^ 24) : |vChan m1 m2 h - (lo + (hi - lo) * share (6 * h) 2)| ≤ 67 / 2 ^ 24 := by
  obtain ⟨p0, p1, k, pk⟩ := pyMod_unit h
  have hsh : |share (6 * pyMod h) 2 - share (6 * h) 2| ≤ 6 / 2 ^ 24 := by
    rw [← share_turn (6 * pyMod h) 2 k]
    refine le_trans (share_close _ _ _) ?_
    rw [show 6 * pyMod h + 6 * (k : Rat) - 6 * h = 6 * (pyMod h + k - h) by ring, abs_mul, abs_of_pos (by norm_num : (0 : Rat) < 6)]
    norm_num at *
    linarith
  suffices hs : |vChan m1 m2 h - (lo + (hi - lo) * share (6 * pyMod h) 2)| ≤ 61 / 2 ^ 24 by
    have := weight_near l0 l1 l2 hs hsh
    norm_num at *
    linarith
  rw [share_two (by linarith) (by linarith)]
  unfold vChan
  dsimp only
  generalize pyMod h = y at *
  obtain ⟨t1, t2, t3⟩ := thirds
  have b1 := abs_near t2
  have b2 := abs_near t3
  have cl (a : Rat) (h0 : -(6 / 2 ^ 24) ≤ a) (h1 : a ≤ 1 + 6 / 2 ^ 24) : |a - max 0 (min 1 a)| ≤ 6 / 2 ^ 24 := by
    rcases le_total a 0 with q | q
    · rw [min_eq_right (by linarith), max_eq_left q]
      rw [abs_le]; constructor <;> linarith
    · rcases le_total a 1 with q' | q'
      · rw [min_eq_right q', max_eq_right q, sub_self, abs_zero]; norm_num
      · rw [min_eq_left q', max_eq_right (by norm_num), abs_le]; constructor <;> linarith
  split_ifs with c1 c2 c3
  · have h1 := linear_near l0 l1 l2 e1 e2 p0 (by norm_num at *; linarith : y ≤ 1 / 5)
    rw [min_eq_left (by norm_num at *; linarith : 6 * y ≤ 4 - 6 * y)]
    have := weight_near l0 l1 l2 h1 (cl (6 * y) (by norm_num at *; linarith) (by norm_num at *; linarith))
    norm_num at *
    linarith
  · have hW : |1 - max 0 (min 1 (min (6 * y) (4 - 6 * y)))| ≤ 6 / 2 ^ 24 := by
      have : 1 - 6 / 2 ^ 24 ≤ min (6 * y) (4 - 6 * y) := le_min (by norm_num at *; linarith) (by norm_num at *; linarith)
      have a1 : max 0 (min 1 (min (6 * y) (4 - 6 * y))) ≤ 1 := max_le (by norm_num) (min_le_left _ _)
      have a2 : 1 - 6 / 2 ^ 24 ≤ max 0 (min 1 (min (6 * y) (4 - 6 * y))) := le_trans (le_min (by norm_num) this) (le_max_right _ _)
      rw [abs_le]; constructor <;> linarith
    have := weight_near (x := m2) (e := 5) (w := 1) l0 l1 l2 (by rw [show lo + (hi - lo) * 1 = hi by ring]; exact e2) hW
    norm_num at *
    linarith
  · have z0 : 0 ≤ rnd 24 (twoThird - y) := le_rnd (by norm_num) fits_zero' (by linarith)
    have ze : |rnd 24 (twoThird - y) - (2 / 3 - y)| ≤ 2 / 2 ^ 24 := by
      have := rnd_near' (x := twoThird - y) (y := 2 / 3 - y) (A := 1) (k := 1) (abs_le.mpr ⟨by norm_num at *; linarith, by norm_num at *; linarith⟩)
        (by rw [show twoThird - y - (2 / 3 - y) = twoThird - 2 / 3 by ring]; exact t3)
      norm_num at *
      linarith
    have bz := abs_near ze
    have h1 := linear_near l0 l1 l2 e1 e2 z0 (by norm_num at *; linarith)
    rw [min_eq_right (by linarith : 4 - 6 * y ≤ 6 * y)]
    have h2 : |6 * rnd 24 (twoThird - y) - (4 - 6 * y)| ≤ 12 / 2 ^ 24 := by
      rw [show 6 * rnd 24 (twoThird - y) - (4 - 6 * y) = 6 * (rnd 24 (twoThird - y) - (2 / 3 - y)) by ring, abs_mul,
        abs_of_pos (by norm_num : (0 : Rat) < 6)]
      norm_num at *
      linarith
    have := weight_near l0 l1 l2 (weight_near l0 l1 l2 h1 h2) (cl (4 - 6 * y) (by norm_num at *; linarith) (by norm_num at *; linarith))
    norm_num at *
    linarith
  · have hW : |0 - max 0 (min 1 (min (6 * y) (4 - 6 * y)))| ≤ 6 / 2 ^ 24 := by
      have a1 : max 0 (min 1 (min (6 * y) (4 - 6 * y))) ≤ 6 / 2 ^ 24 :=
        max_le (by norm_num) (le_trans (min_le_right _ _) (le_trans (min_le_right _ _) (by norm_num at *; linarith)))
      have a2 : 0 ≤ max 0 (min 1 (min (6 * y) (4 - 6 * y))) := le_max_left _ _
      rw [abs_le]; constructor <;> linarith
    have := weight_near (x := m1) (e := 9) (w := 0) l0 l1 l2 (by rw [show lo + (hi - lo) * 0 = lo by ring]; exact e1) hW
    norm_num at *
    linarith

theorem share_shift (x c d : Rat) : share (x + d) (c + d) = share x c := by
  simp only [share, apart, show x + d - (c + d) = x - c by ring]

/-- **C117** (to RGB): for hue, saturation and lightness from 0 to 1 each channel is, up to 85·2⁻²⁴, the one of the hexagon of hues,
    between half of `s` times the room below and above the lightness. -/
theorem c117_rgb {h s l : Rat} (h0 : 0 ≤ h) (h1 : h ≤ 1) (s0 : 0 ≤ s) (s1 : s ≤ 1) (l0 : 0 ≤ l) (l1 : l ≤ 1) :
    let c := hslToRgbInner h s l
    let lo := l - s * room l / 2
    let hi := l + s * room l / 2
    |c.1 - channel h lo hi 0| ≤ 85 / 2 ^ 24 ∧ |c.2.1 - channel h lo hi 2| ≤ 85 / 2 ^ 24 ∧ |c.2.2 - channel h lo hi 4| ≤ 85 / 2 ^ 24 := by
  intro c lo hi
  by_cases hs : s = 0
  · have e : c = (l, l, l) := by simp only [c, hslToRgbInner, if_pos hs]
    rw [e]
    simp only [channel, lo, hi, hs]
    norm_num
  · have hroom : room l = if l ≤ 1 / 2 then 2 * l else 2 - 2 * l := by
      simp only [room]
      split_ifs with q
      · rw [abs_of_nonpos (by linarith)]; ring
      · rw [abs_of_nonneg (by linarith)]; ring
    obtain ⟨r0, r1⟩ := room_unit l0 l1
    have rl : room l ≤ 2 * l ∧ room l ≤ 2 - 2 * l := by
      rw [hroom]; split_ifs with q <;> constructor <;> linarith
    have c0 : 0 ≤ s * room l := mul_nonneg s0 r0
    have c1 : s * room l ≤ room l := mul_le_of_le_one_left r0 s1
    have lo0 : 0 ≤ lo := by simp only [lo]; linarith [rl.1]
    have lohi : lo ≤ hi := by simp only [lo, hi]; linarith
    have hi1 : hi ≤ 1 := by simp only [hi]; linarith [rl.2]
    have e2 : |(if l ≤ 1 / 2 then rnd 24 (l * rnd 24 (1 + s)) else rnd 24 (rnd 24 (l + s) - rnd 24 (l * s))) - hi| ≤ 5 / 2 ^ 24 := by
      split_ifs with q
      · rw [if_pos q] at hroom
        have a1 := rnd_near (x := 1 + s) (A := 2) (by rw [abs_of_nonneg (by linarith)]; linarith)
        have a0 : 0 ≤ rnd 24 (1 + s) := le_rnd (by norm_num) fits_zero' (by linarith)
        have a2 : rnd 24 (1 + s) ≤ 2 := rnd_le (by norm_num) fits_two' (by linarith)
        have eh : hi = l * (1 + s) := by simp only [hi, hroom]; ring
        have a3 : |l * rnd 24 (1 + s) - hi| ≤ 2 / 2 ^ 24 := by
          rw [eh, ← mul_sub, abs_mul, abs_of_nonneg l0]
          exact le_trans (mul_le_of_le_one_left (abs_nonneg _) l1) a1
        have := rnd_near' (A := 1) (abs_le.mpr ⟨by linarith [mul_nonneg l0 a0], by nlinarith⟩) a3
        norm_num at *
        linarith
      · rw [if_neg q] at hroom
        have eh : hi = l + s - l * s := by simp only [hi, hroom]; ring
        have a1 := rnd_near (x := l + s) (A := 2) (by rw [abs_of_nonneg (by linarith)]; linarith)
        have ls0 := mul_nonneg l0 s0
        have ls1 : l * s ≤ 1 := by nlinarith
        have a2 := rnd_near (x := l * s) (A := 1) (by rw [abs_of_nonneg ls0]; exact ls1)
        have a3 : |rnd 24 (l + s) - rnd 24 (l * s) - hi| ≤ 3 / 2 ^ 24 := by
          rw [eh, show rnd 24 (l + s) - rnd 24 (l * s) - (l + s - l * s) = (rnd 24 (l + s) - (l + s)) - (rnd 24 (l * s) - l * s) by ring]
          have := abs_sub (rnd 24 (l + s) - (l + s)) (rnd 24 (l * s) - l * s)
          norm_num at *
          linarith
        have b3 := abs_near a3
        have := rnd_near' (A := 2) (abs_le.mpr ⟨by norm_num at *; linarith, by norm_num at *; linarith⟩) a3
        norm_num at *
        linarith
    have ec : c = (let m2 := if l ≤ 1 / 2 then rnd 24 (l * rnd 24 (1 + s)) else rnd 24 (rnd 24 (l + s) - rnd 24 (l * s))
        let m1 := rnd 24 (rnd 24 (2 * l) - m2)
        (vChan m1 m2 (rnd 24 (h + oneThird)), vChan m1 m2 h, vChan m1 m2 (rnd 24 (h - oneThird)))) := by
      simp only [c, hslToRgbInner, if_neg hs]
    dsimp only at ec
    generalize (if l ≤ 1 / 2 then rnd 24 (l * rnd 24 (1 + s)) else rnd 24 (rnd 24 (l + s) - rnd 24 (l * s))) = m2 at *
    have b2 := abs_near e2
    have e1 : |rnd 24 (rnd 24 (2 * l) - m2) - lo| ≤ 9 / 2 ^ 24 := by
      have a1 := rnd_near (x := 2 * l) (A := 2) (by rw [abs_of_nonneg (by linarith)]; linarith)
      have el : lo = 2 * l - hi := by simp only [lo, hi]; ring
      have a2 : |rnd 24 (2 * l) - m2 - lo| ≤ 7 / 2 ^ 24 := by
        rw [el, show rnd 24 (2 * l) - m2 - (2 * l - hi) = rnd 24 (2 * l) - 2 * l - (m2 - hi) by ring]
        have := abs_sub (rnd 24 (2 * l) - 2 * l) (m2 - hi)
        norm_num at *
        linarith
      have b3 := abs_near a2
      have := rnd_near' (A := 2) (abs_le.mpr ⟨by norm_num at *; linarith, by norm_num at *; linarith⟩) a2
      norm_num at *
      linarith
    obtain ⟨t1, -, -⟩ := thirds
    have bt := abs_near t1
    have shift (d c' : Rat)
        (hc : (|d - (h + 1 / 3)| ≤ 3 / 2 ^ 24 ∧ c' = 0) ∨ (|d - (h - 1 / 3)| ≤ 3 / 2 ^ 24 ∧ c' = 4)) :
        |share (6 * d) 2 - share (6 * h) c'| ≤ 18 / 2 ^ 24 := by
      rcases hc with ⟨q, rfl⟩ | ⟨q, rfl⟩
      · have e : share (6 * h) 0 = share (6 * (h + 1 / 3)) 2 := by
          have := share_shift (6 * h) 0 2
          rw [← this]; congr 1 <;> ring
        rw [e]
        refine le_trans (share_close _ _ _) ?_
        rw [← mul_sub, abs_mul, abs_of_pos (by norm_num : (0 : Rat) < 6)]
        norm_num at *
        linarith
      · have e : share (6 * h) 4 = share (6 * (h - 1 / 3)) 2 := by
          have := share_shift (6 * h) 4 (-2)
          rw [← this]; congr 1 <;> ring
        rw [e]
        refine le_trans (share_close _ _ _) ?_
        rw [← mul_sub, abs_mul, abs_of_pos (by norm_num : (0 : Rat) < 6)]
        norm_num at *
        linarith
    have d1 : |rnd 24 (h + oneThird) - (h + 1 / 3)| ≤ 3 / 2 ^ 24 := by
      have := rnd_near' (x := h + oneThird) (y := h + 1 / 3) (A := 2) (k := 1) (abs_le.mpr ⟨by norm_num at *; linarith, by norm_num at *; linarith⟩)
        (by rw [show h + oneThird - (h + 1 / 3) = oneThird - 1 / 3 by ring]; exact t1)
      norm_num at *
      linarith
    have d2 : |rnd 24 (h - oneThird) - (h - 1 / 3)| ≤ 3 / 2 ^ 24 := by
      have := rnd_near' (x := h - oneThird) (y := h - 1 / 3) (A := 2) (k := 1) (abs_le.mpr ⟨by norm_num at *; linarith, by norm_num at *; linarith⟩)
        (by rw [show h - oneThird - (h - 1 / 3) = -(oneThird - 1 / 3) by ring, abs_neg]; exact t1)
      norm_num at *
      linarith
    rw [ec]
    dsimp only
    refine ⟨?_, ?_, ?_⟩
    · have := weight_near lo0 lohi hi1 (vChan_near lo0 lohi hi1 e1 e2 (h := rnd 24 (h + oneThird))) (shift _ 0 (Or.inl ⟨d1, rfl⟩))
      exact le_trans this (by norm_num)
    · exact le_trans (vChan_near lo0 lohi hi1 e1 e2) (by norm_num)
    · have := weight_near lo0 lohi hi1 (vChan_near lo0 lohi hi1 e1 e2 (h := rnd 24 (h - oneThird))) (shift _ 4 (Or.inr ⟨d2, rfl⟩))
      exact le_trans this (by norm_num)

/-- The channels for the hue, saturation and lightness that are computed are those of the colour up to 38·2⁻²⁴. -/
theorem hsl_channels {r g b : Rat} (hr : Sample r) (hg : Sample g) (hb : Sample b) :
    ∃ h s l, rgbToHslInner r g b = some (h, s, l) ∧ (0 ≤ h ∧ h ≤ 1) ∧ (0 ≤ s ∧ s ≤ 1) ∧ (0 ≤ l ∧ l ≤ 1) ∧
      |channel h (l - s * room l / 2) (l + s * room l / 2) 0 - r| ≤ 38 / 2 ^ 24 ∧
      |channel h (l - s * room l / 2) (l + s * room l / 2) 2 - g| ≤ 38 / 2 ^ 24 ∧
      |channel h (l - s * room l / 2) (l + s * room l / 2) 4 - b| ≤ 38 / 2 ^ 24 := by
  obtain ⟨h, s, l, e, ⟨h0, h1⟩, ⟨s0, s1⟩, ⟨l0, l1⟩, el, hgrey, hcol⟩ := c117_hsl hr hg hb
  refine ⟨h, s, l, e, ⟨h0, h1⟩, ⟨s0, s1⟩, ⟨l0, l1⟩, ?_⟩
  by_cases gr : r = g ∧ g = b
  · obtain ⟨rfl, rfl⟩ := gr
    obtain ⟨-, rfl⟩ := hgrey ⟨rfl, rfl⟩
    have : (r + r) / 2 = r := by ring
    simp only [max_self, min_self, this] at el
    simp only [channel, zero_mul, zero_div, sub_zero, add_zero, sub_self]
    have : |l - r| ≤ 38 / 2 ^ 24 := le_trans el (by norm_num)
    exact ⟨this, this, this⟩
  · obtain ⟨es, k, ek⟩ := hcol gr
    have h1' : r ≤ max (max r g) b := le_trans (le_max_left _ _) (le_max_left _ _)
    have h2' : g ≤ max (max r g) b := le_trans (le_max_right _ _) (le_max_left _ _)
    have h3' : b ≤ max (max r g) b := le_max_right _ _
    have h4' : min (min r g) b ≤ r := le_trans (min_le_left _ _) (min_le_left _ _)
    have h5' : min (min r g) b ≤ g := le_trans (min_le_left _ _) (min_le_right _ _)
    have h6' : min (min r g) b ≤ b := min_le_right _ _
    have hne : min (min r g) b ≠ max (max r g) b := fun q => gr ⟨by linarith, by linarith⟩
    have hlo : 0 ≤ min (min r g) b := le_min (le_min hr.lo hg.lo) hb.lo
    have hhi : max (max r g) b ≤ 1 := max_le (max_le hr.hi hg.hi) hb.hi
    obtain ⟨c0, c2, c4⟩ := channel_hue hne
    generalize max (max r g) b = mx at *
    generalize min (min r g) b = mn at *
    have hle : mn ≤ mx := by linarith
    -- least and greatest channel
    have ec : |s * room l - (mx - mn)| ≤ 12 / 2 ^ 24 := by
      have q := room_close l ((mx + mn) / 2)
      have e1 : |s * room l - s * room ((mx + mn) / 2)| ≤ 4 / 2 ^ 24 := by
        rw [← mul_sub, abs_mul, abs_of_nonneg s0]
        refine le_trans (mul_le_of_le_one_left (abs_nonneg _) s1) (le_trans q ?_)
        norm_num at *
        linarith
      have t := abs_add_le (s * room l - s * room ((mx + mn) / 2)) (s * room ((mx + mn) / 2) - (mx - mn))
      rw [sub_add_sub_cancel] at t
      norm_num at *
      linarith
    have bc := abs_near ec
    have bl := abs_near el
    have n1 : |(l - s * room l / 2) - mn| ≤ 8 / 2 ^ 24 := abs_le.mpr ⟨by norm_num at *; linarith, by norm_num at *; linarith⟩
    have n2 : |(l + s * room l / 2) - mx| ≤ 8 / 2 ^ 24 := abs_le.mpr ⟨by norm_num at *; linarith, by norm_num at *; linarith⟩
    have en (c : Rat) : |channel h (l - s * room l / 2) (l + s * room l / 2) c - channel (trueHue r g b) mn mx c| ≤ 38 / 2 ^ 24 := by
      have hsh : |share (6 * h) c - share (6 * trueHue r g b) c| ≤ 30 / 2 ^ 24 := by
        rw [← share_turn (6 * h) c k]
        refine le_trans (share_close _ _ _) ?_
        rw [show 6 * h + 6 * (k : Rat) - 6 * trueHue r g b = 6 * (h + k - trueHue r g b) by ring, abs_mul,
          abs_of_pos (by norm_num : (0 : Rat) < 6)]
        norm_num at *
        linarith
      have w0 := share_nonneg (6 * h) c
      have w1 := share_le (6 * h) c
      simp only [channel]
      generalize l - s * room l / 2 = a at *
      generalize l + s * room l / 2 = b' at *
      generalize share (6 * h) c = w at *
      generalize share (6 * trueHue r g b) c = W at *
      have m1 : |(a - mn) * (1 - w) + (b' - mx) * w| ≤ 8 / 2 ^ 24 := by
        have t := abs_add_le ((a - mn) * (1 - w)) ((b' - mx) * w)
        rw [abs_mul, abs_mul, abs_of_nonneg (by linarith : 0 ≤ 1 - w), abs_of_nonneg w0] at t
        have q1 := mul_le_mul_of_nonneg_right n1 (by linarith : 0 ≤ 1 - w)
        have q2 := mul_le_mul_of_nonneg_right n2 w0
        linarith
      have m2 : |(mx - mn) * (w - W)| ≤ 30 / 2 ^ 24 := by
        rw [abs_mul, abs_of_nonneg (by linarith : 0 ≤ mx - mn)]
        exact le_trans (mul_le_of_le_one_left (abs_nonneg _) (by linarith)) hsh
      have t := abs_add_le ((a - mn) * (1 - w) + (b' - mx) * w) ((mx - mn) * (w - W))
      rw [show (a - mn) * (1 - w) + (b' - mx) * w + (mx - mn) * (w - W) = a + (b' - a) * w - (mn + (mx - mn) * W) by ring] at t
      norm_num at *
      linarith
    refine ⟨?_, ?_, ?_⟩
    · have := en 0; rwa [c0] at this
    · have := en 2; rwa [c2] at this
    · have := en 4; rwa [c4] at this

/-- **C117** (there and back): RGB to HSL and back gives every sample up to 123·2⁻²⁴ (less than 8 millionths). -/
theorem c117_roundtrip {r g b : Rat} (hr : Sample r) (hg : Sample g) (hb : Sample b) :
    ∃ h s l, rgbToHslInner r g b = some (h, s, l) ∧
      |(hslToRgbInner h s l).1 - r| ≤ 123 / 2 ^ 24 ∧ |(hslToRgbInner h s l).2.1 - g| ≤ 123 / 2 ^ 24 ∧
      |(hslToRgbInner h s l).2.2 - b| ≤ 123 / 2 ^ 24 := by
  obtain ⟨h, s, l, e, ⟨h0, h1⟩, ⟨s0, s1⟩, ⟨l0, l1⟩, c0, c2, c4⟩ := hsl_channels hr hg hb
  obtain ⟨d0, d2, d4⟩ := c117_rgb h0 h1 s0 s1 l0 l1
  have fin (y a z : Rat) (q1 : |y - a| ≤ 85 / 2 ^ 24) (q2 : |a - z| ≤ 38 / 2 ^ 24) : |y - z| ≤ 123 / 2 ^ 24 := by
    have := abs_add_le (y - a) (a - z)
    rw [sub_add_sub_cancel] at this
    norm_num at *
    linarith
  exact ⟨h, s, l, e, fin _ _ _ d0 c0, fin _ _ _ d2 c2, fin _ _ _ d4 c4⟩

/-- **C117** (channels there and back): the same for whole channels of the same length. -/
theorem c117_channels (n : Nat) (r g b : List Rat) (hr : r.length = n) (hg : g.length = n) (hb : b.length = n)
    (sr : ∀ x ∈ r, Sample x) (sg : ∀ x ∈ g, Sample x) (sb : ∀ x ∈ b, Sample x) :
    ∃ h s l r' g' b', rgbToHsl r g b = some (h, s, l) ∧ hslToRgb h s l = some (r', g', b') ∧
      List.Forall₂ (fun x y => |x - y| ≤ 123 / 2 ^ 24) r' r ∧ List.Forall₂ (fun x y => |x - y| ≤ 123 / 2 ^ 24) g' g ∧
      List.Forall₂ (fun x y => |x - y| ≤ 123 / 2 ^ 24) b' b := by
  induction n generalizing r g b with
  | zero =>
    rw [List.length_eq_zero_iff] at hr hg hb
    subst hr hg hb
    exact ⟨[], [], [], [], [], [], rfl, rfl, .nil, .nil, .nil⟩
  | succ n ih =>
    obtain ⟨x, r, rfl⟩ := List.exists_cons_of_length_eq_add_one hr
    obtain ⟨y, g, rfl⟩ := List.exists_cons_of_length_eq_add_one hg
    obtain ⟨z, b, rfl⟩ := List.exists_cons_of_length_eq_add_one hb
    obtain ⟨h, s, v, r', g', b', e1, e2, f1, f2, f3⟩ := ih r g b (by simpa using hr) (by simpa using hg) (by simpa using hb)
      (fun x hx => sr x (by simp [hx])) (fun x hx => sg x (by simp [hx])) (fun x hx => sb x (by simp [hx]))
    obtain ⟨h', s', v', e, p1, p2, p3⟩ := c117_roundtrip (sr x (by simp)) (sg y (by simp)) (sb z (by simp))
    refine ⟨h' :: h, s' :: s, v' :: v, _ :: r', _ :: g', _ :: b', ?_, ?_, .cons p1 f1, .cons p2 f2, .cons p3 f3⟩
    · simp only [rgbToHsl] at e1 ⊢
      simp only [eachPixel, e, Option.bind_some, e1, Option.map_some]
    · simp only [hslToRgb] at e2 ⊢
      simp only [eachPixel, Option.bind_some, e2, Option.map_some]

/-- **C117** (disagreement CS7): near white the saturation is far from the true one, since `2.0 - max_c` is rounded before `min_c` is
    subtracted: it is 1/2 where 1/3 is right (room times saturation stays right up to the bound of `c117_hsl`). -/
theorem c117_white_wrong :
    let x : Rat := 1 - 1 / 2 ^ 24
    let y : Rat := 1 - 1 / 2 ^ 23
    Sample x ∧ Sample y ∧ (x - y) / room ((x + y) / 2) = 1 / 3 ∧ ∃ h l, rgbToHslInner x y y = some (h, 1 / 2, l) := by
  intro x y
  have fx : Sample x := ⟨⟨16777215, -24, by norm_num, by norm_num [x]⟩, by norm_num [x], by norm_num [x]⟩
  have fy : Sample y := ⟨⟨16777214, -24, by norm_num, by norm_num [y]⟩, by norm_num [y], by norm_num [y]⟩
  refine ⟨fx, fy, by norm_num [x, y, room], ?_⟩
  have emx : maxC x y y = x := by norm_num [maxC, x, y]
  have emn : minC x y y = y := by norm_num [minC, x, y]
  have r1 : rnd 24 (2 - x) = 1 := by
    have hl : Int.log 2 |2 - x| = 0 := by
      rw [abs_of_pos (by norm_num [x])]
      have a : Int.log 2 (2 - x) < 1 := (Int.lt_zpow_iff_log_lt (by omega) (by norm_num [x])).1 (by norm_num [x])
      have b : 0 ≤ Int.log 2 (2 - x) := (Int.zpow_le_iff_le_log (by omega) (by norm_num [x])).1 (by norm_num [x])
      omega
    have hre : roundEven (16777217 / 2) = 8388608 := by norm_num [roundEven]
    have hu : ulp 24 (2 - x) = 1 / 2 ^ 23 := by simp only [ulp, hl]; norm_num
    have hq : (2 - x) / (1 / 2 ^ 23) = 16777217 / 2 := by norm_num [x]
    rw [rnd, if_neg (by norm_num [x]), hu, hq, hre]
    norm_num
  have r2 : rnd 24 (1 - y) = 1 / 2 ^ 23 := by
    rw [show 1 - y = 1 / 2 ^ 23 by simp only [y]; ring]
    exact rnd_fit (by norm_num) ⟨1, -23, by norm_num, by norm_num⟩
  have r3 : rnd 24 (x - y) = 1 / 2 ^ 24 := by
    rw [show x - y = 1 / 2 ^ 24 by norm_num [x, y]]
    exact rnd_fit (by norm_num) ⟨1, -24, by norm_num, by norm_num⟩
  have r4 : rnd 24 (1 / 2 ^ 24 / (1 / 2 ^ 23)) = 1 / 2 := by
    rw [show (1 : Rat) / 2 ^ 24 / (1 / 2 ^ 23) = 1 / 2 by norm_num]
    exact rnd_fit (by norm_num) ⟨1, -1, by norm_num, by norm_num⟩
  have hl : ¬ rnd 24 (rnd 24 (y + x) / 2) ≤ 1 / 2 := by
    have u := light_near (mx := x) (mn := y) fy.lo (by norm_num [x, y]) fx.hi
    have := abs_near u.err
    intro q
    norm_num [x, y] at *
    linarith
  refine ⟨hue x y y, rnd 24 (rnd 24 (y + x) / 2), ?_⟩
  simp only [rgbToHslInner, emx, emn]
  rw [if_neg (by norm_num [x, y]), if_neg hl, r1, r2, if_neg (by norm_num), r3, r4]

/-- Non-triviality: orange, whose saturation is 1 at lightness 1/2, and whose channels take all the room. -/
example : Sample 1 ∧ Sample (1 / 2) ∧ Sample 0 ∧ room ((1 + 0) / 2) = 1 := by
  refine ⟨⟨fits_one', by norm_num, by norm_num⟩, ⟨⟨1, -1, by norm_num, by norm_num⟩, by norm_num, by norm_num⟩,
    ⟨fits_zero', by norm_num, by norm_num⟩, by norm_num [room]⟩

end Zune.Hsv
