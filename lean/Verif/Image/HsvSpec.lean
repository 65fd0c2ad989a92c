/-
Hue, saturation, value and lightness in exact arithmetic. The hues lie on a circle of length 6 with red at 0, green at 2 and blue at 4.
A channel is full up to 1 from its own hue, absent from 2 on, and changes linearly in between.
-/
import Verif.Common.Float
import Mathlib.Algebra.Order.Round
import Mathlib.Algebra.Order.Floor.Ring
import Mathlib.Tactic.Ring
import Mathlib.Tactic.Linarith
import Mathlib.Tactic.NormNum
import Mathlib.Tactic.FieldSimp

namespace Zune.Hsv

/-- The distance of two places on the circle of length 6. -/
def apart (x c : Rat) : Rat := |x - c - 6 * round ((x - c) / 6)|

/-- How much of a channel whose own hue is `c` there is at the hue `x`. -/
def share (x c : Rat) : Rat := max 0 (min 1 (2 - apart x c))

/-- The channel with its own hue at `c` of the colour whose channels go from `lo` to `hi` and whose hue is `h` (turns of the circle). -/
def channel (h lo hi c : Rat) : Rat := lo + (hi - lo) * share (6 * h) c

/-- The hue of a colour in turns: where its greatest channel has its own hue, moved towards the greater of the two others. -/
def trueHue (r g b : Rat) : Rat :=
  let mx := max (max r g) b
  let mn := min (min r g) b
  if r = mx then (g - b) / (mx - mn) / 6 else if g = mx then (2 + (b - r) / (mx - mn)) / 6 else (4 + (r - g) / (mx - mn)) / 6

theorem apart_le (x c : Rat) (n : Int) : apart x c ≤ |x - c - 6 * n| := by
  unfold apart
  have h := round_le ((x - c) / 6) n
  have e (m : Int) : x - c - 6 * m = 6 * ((x - c) / 6 - m) := by ring
  rw [e, e, abs_mul, abs_mul]
  exact mul_le_mul_of_nonneg_left h (abs_nonneg _)

theorem apart_eq {x c : Rat} (n : Int) (h : |x - c - 6 * n| ≤ 3) : apart x c = |x - c - 6 * n| := by
  refine le_antisymm (apart_le x c n) ?_
  unfold apart
  generalize round ((x - c) / 6) = m
  by_cases e : m = n
  · rw [e]
  · have hm : m ≤ n - 1 ∨ n + 1 ≤ m := by omega
    rw [abs_le] at h
    rcases hm with hm | hm
    · have : (m : Rat) ≤ n - 1 := by exact_mod_cast hm
      rw [le_abs]; left
      rw [abs_le']; constructor <;> linarith [h.1, h.2]
    · have : (n : Rat) + 1 ≤ m := by exact_mod_cast hm
      rw [le_abs]; right
      rw [abs_le']; constructor <;> linarith [h.1, h.2]

theorem apart_close (x y c : Rat) : apart x c ≤ apart y c + |x - y| := by
  refine le_trans (apart_le x c (round ((y - c) / 6))) ?_
  unfold apart
  generalize round ((y - c) / 6) = m
  have := abs_add_le (y - c - 6 * m) (x - y)
  rw [show y - c - 6 * (m : Rat) + (x - y) = x - c - 6 * m by ring] at this
  linarith

theorem apart_turn (x c : Rat) (n : Int) : apart (x + 6 * n) c = apart x c := by
  unfold apart
  have : (x + 6 * n - c) / 6 = (x - c) / 6 + n := by ring
  rw [this, round_add_intCast]
  push_cast
  ring_nf

theorem apart_center (x c : Rat) (n : Int) : apart x (c + 6 * n) = apart x c := by
  have := apart_turn (x + 6 * n) (c + 6 * n) (-n)
  push_cast at this
  rw [show x + 6 * (n : Rat) + 6 * -n = x by ring] at this
  rw [this]
  unfold apart
  rw [show x + 6 * (n : Rat) - (c + 6 * n) = x - c by ring]

theorem share_nonneg (x c : Rat) : 0 ≤ share x c := le_max_left _ _
theorem share_le (x c : Rat) : share x c ≤ 1 := max_le (by norm_num) (min_le_left _ _)

theorem clamp_close (a b : Rat) : |max 0 (min 1 a) - max 0 (min 1 b)| ≤ |a - b| := by
  rcases le_total a b with h | h
  · rw [abs_sub_comm, abs_sub_comm a b, abs_of_nonneg (sub_nonneg.mpr h)]
    rw [abs_of_nonneg (sub_nonneg.mpr (max_le_max le_rfl (min_le_min le_rfl h)))]
    rcases le_total 0 a with h0 | h0 <;> rcases le_total 1 b with h1 | h1 <;> rcases le_total 1 a with h2 | h2 <;>
      rcases le_total 0 b with h3 | h3 <;> simp [h0, h1, h2, h3] <;> linarith
  · rw [abs_of_nonneg (sub_nonneg.mpr h)]
    rw [abs_of_nonneg (sub_nonneg.mpr (max_le_max le_rfl (min_le_min le_rfl h)))]
    rcases le_total 0 a with h0 | h0 <;> rcases le_total 1 b with h1 | h1 <;> rcases le_total 1 a with h2 | h2 <;>
      rcases le_total 0 b with h3 | h3 <;> simp [h0, h1, h2, h3] <;> linarith

theorem share_close (x y c : Rat) : |share x c - share y c| ≤ |x - y| := by
  refine le_trans (clamp_close _ _) ?_
  rw [abs_le]
  have h1 := apart_close x y c
  have h2 := apart_close y x c
  rw [abs_sub_comm y x] at h2
  constructor <;> linarith

theorem share_turn (x c : Rat) (n : Int) : share (x + 6 * n) c = share x c := by simp only [share, apart_turn]
theorem share_center (x c : Rat) (n : Int) : share x (c + 6 * n) = share x c := by simp only [share, apart_center]

/-- The share at `x` when `x` is at most 3 away from the place of `c`, `n` turns further. -/
theorem share_eq {x c : Rat} (n : Int) (h : |x - c - 6 * n| ≤ 3) : share x c = max 0 (min 1 (2 - |x - c - 6 * n|)) := by
  rw [share, apart_eq n h]

/-- The channels of a hue near `c`, by `z` of at most 1: full at `c`, the positive part of `z` at `c + 2`, the negative one at `c - 2`. -/
theorem share_main (c z : Rat) (h : |z| ≤ 1) : share (c + z) c = 1 ∧ share (c + z) (c + 2) = max 0 z ∧ share (c + z) (c - 2) = max 0 (-z) := by
  have hb := abs_le.mp h
  refine ⟨?_, ?_, ?_⟩
  · rw [share_eq 0 (by rw [abs_le]; push_cast; constructor <;> linarith [hb.1, hb.2])]
    have : c + z - c - 6 * ((0 : Int) : Rat) = z := by push_cast; ring
    rw [this, min_eq_left (by linarith), max_eq_right (by norm_num)]
  · rw [share_eq 0 (by rw [abs_le]; push_cast; constructor <;> linarith [hb.1, hb.2])]
    have : c + z - (c + 2) - 6 * ((0 : Int) : Rat) = -(2 - z) := by push_cast; ring
    rw [this, abs_neg, abs_of_nonneg (by linarith [hb.2]), show 2 - (2 - z) = z by ring, min_eq_right hb.2]
  · rw [share_eq 0 (by rw [abs_le]; push_cast; constructor <;> linarith [hb.1, hb.2])]
    have : c + z - (c - 2) - 6 * ((0 : Int) : Rat) = 2 + z := by push_cast; ring
    rw [this, abs_of_nonneg (by linarith [hb.1]), show 2 - (2 + z) = -z by ring, min_eq_right (by linarith [hb.1])]

/-- The channels at the hue of a colour with greatest channel `m`, and others `a` and `b`. -/
theorem channel_main {m a b : Rat} (ha : a ≤ m) (hb : b ≤ m) (hne : min a b < m) (c : Rat) (mn : Rat) (hmn : mn = min a b) :
    let h := (c + (a - b) / (m - mn)) / 6
    channel h mn m c = m ∧ channel h mn m (c + 2) = a ∧ channel h mn m (c - 2) = b := by
  intro h
  have hd : 0 < m - mn := by rw [hmn]; linarith
  have hz : |(a - b) / (m - mn)| ≤ 1 := by
    rw [abs_div, abs_of_pos hd, div_le_one hd, abs_le, hmn]
    rcases le_total a b with t | t
    · rw [min_eq_left t]; constructor <;> linarith
    · rw [min_eq_right t]; constructor <;> linarith
  obtain ⟨s1, s2, s3⟩ := share_main c _ hz
  have e : 6 * h = c + (a - b) / (m - mn) := by simp only [h]; ring
  have hdn := ne_of_gt hd
  refine ⟨?_, ?_, ?_⟩
  · simp only [channel, e, s1]; ring
  · simp only [channel, e, s2]
    rcases le_total a b with t | t
    · have : (a - b) / (m - mn) ≤ 0 := div_nonpos_of_nonpos_of_nonneg (by linarith) hd.le
      rw [max_eq_left this, hmn, min_eq_left t]; ring
    · have : 0 ≤ (a - b) / (m - mn) := div_nonneg (by linarith) hd.le
      rw [max_eq_right this, mul_div_cancel₀ _ hdn, hmn, min_eq_right t]; ring
  · simp only [channel, e, s3]
    rcases le_total a b with t | t
    · have : (a - b) / (m - mn) ≤ 0 := div_nonpos_of_nonpos_of_nonneg (by linarith) hd.le
      rw [max_eq_right (by linarith), mul_neg, mul_div_cancel₀ _ hdn, hmn, min_eq_left t]; ring
    · have : 0 ≤ (a - b) / (m - mn) := div_nonneg (by linarith) hd.le
      rw [max_eq_left (by linarith), hmn, min_eq_right t]; ring

theorem channel_center (h lo hi c : Rat) (n : Int) : channel h lo hi (c + 6 * n) = channel h lo hi c := by
  simp only [channel, share_center]

/-- The channels of a colour are those of its hue between its least and its greatest channel. -/
theorem channel_hue {r g b : Rat} (hne : min (min r g) b ≠ max (max r g) b) :
    let h := trueHue r g b
    let mn := min (min r g) b
    let mx := max (max r g) b
    channel h mn mx 0 = r ∧ channel h mn mx 2 = g ∧ channel h mn mx 4 = b := by
  intro h mn mx
  have hr : r ≤ mx := le_trans (le_max_left _ _) (le_max_left _ _)
  have hg : g ≤ mx := le_trans (le_max_right _ _) (le_max_left _ _)
  have hb : b ≤ mx := le_max_right _ _
  have hr' : mn ≤ r := le_trans (min_le_left _ _) (min_le_left _ _)
  have hg' : mn ≤ g := le_trans (min_le_left _ _) (min_le_right _ _)
  have hb' : mn ≤ b := min_le_right _ _
  have hlt : mn < mx := lt_of_le_of_ne (le_trans hr' hr) hne
  have c4 (h lo hi : Rat) : channel h lo hi (-2) = channel h lo hi 4 := by
    have := channel_center h lo hi (-2) 1
    norm_num at this
    exact this.symm
  have c6 (h lo hi : Rat) : channel h lo hi 6 = channel h lo hi 0 := by
    have := channel_center h lo hi 0 1
    norm_num at this
    exact this
  have hle (a b c : Rat) (e1 : a = mx) (h1 : mn ≤ a) (h2 : mn ≤ b) (h3 : mn ≤ c) (h4 : mn = a ∨ mn = b ∨ mn = c) : mn = min b c := by
    rcases h4 with q | q | q
    · exact absurd (q.trans e1) (ne_of_lt hlt)
    · rw [min_eq_left (by linarith)]; exact q
    · rw [min_eq_right (by linarith)]; exact q
  have hor : mn = r ∨ mn = g ∨ mn = b := by
    simp only [mn]
    rcases min_choice (min r g) b with q | q
    · rcases min_choice r g with q' | q'
      · left; rw [q, q']
      · right; left; rw [q, q']
    · right; right; rw [q]
  by_cases e1 : r = mx
  · have hm := hle r g b e1 hr' hg' hb' hor
    have := channel_main (m := mx) hg hb (by rw [← hm]; exact hlt) 0 mn hm
    have e : h = (0 + (g - b) / (mx - mn)) / 6 := by simp only [h, trueHue]; rw [if_pos e1, zero_add]
    rw [e]
    norm_num at this
    norm_num
    rw [c4] at this
    exact ⟨by rw [this.1]; exact e1.symm, this.2.1, this.2.2⟩
  · by_cases e2 : g = mx
    · have hm := hle g b r e2 hg' hb' hr' (by tauto)
      have := channel_main (m := mx) hb hr (by rw [← hm]; exact hlt) 2 mn hm
      have e : h = (2 + (b - r) / (mx - mn)) / 6 := by simp only [h, trueHue]; rw [if_neg e1, if_pos e2]
      rw [e]
      norm_num at this
      exact ⟨this.2.2, by rw [this.1]; exact e2.symm, this.2.1⟩
    · have e3 : b = mx := by
        rcases max_choice (max r g) b with q | q
        · rcases max_choice r g with q' | q'
          · exact absurd (q'.symm.trans q.symm) e1
          · exact absurd (q'.symm.trans q.symm) e2
        · exact q.symm
      have hm := hle b r g e3 hb' hr' hg' (by tauto)
      have := channel_main (m := mx) hr hg (by rw [← hm]; exact hlt) 4 mn hm
      have e : h = (4 + (r - g) / (mx - mn)) / 6 := by simp only [h, trueHue]; rw [if_neg e1, if_neg e2]
      rw [e]
      norm_num at this
      rw [c6] at this
      exact ⟨this.2.1, this.2.2, by rw [this.1]; exact e3.symm⟩

/-- Non-triviality: orange. -/
example : trueHue 1 (1 / 2) 0 = 1 / 12 ∧ channel (1 / 12) 0 1 0 = 1 ∧ channel (1 / 12) 0 1 2 = 1 / 2 ∧ channel (1 / 12) 0 1 4 = 0 := by
  have e : trueHue 1 (1 / 2) 0 = 1 / 12 := by norm_num [trueHue]
  have := channel_hue (r := 1) (g := 1 / 2) (b := 0) (by norm_num)
  rw [e] at this
  norm_num at this
  exact ⟨e, this⟩

end Zune.Hsv
