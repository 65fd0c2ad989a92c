/-
Property C101, continued: what rotations by arbitrary angles compute.
-/
import Verif.Imageprocs.AffineProps
import Verif.Imageprocs.OrientProps

namespace Zune.Imageprocs
open Zune.Float

theorem arbitrary_eq (m : Nat) (c s : Rat) (l : List Nat) {w h : Nat} (hw : 0 < w) (hh : 0 < h) (ow oh x y : Nat) :
    arbitraryPixel m c s l w h ow oh x y = affineSample m l w h (sourcePos c s w h ow oh x y) := by
  unfold arbitraryPixel affineSample
  generalize sourcePos c s w h ow oh x y = p
  simp only
  rw [if_neg (by omega)]
  split
  · unfold biSample
    have e : ∀ x : Rat, min m ⌊x⌋.toNat = toSample m x := by
      intro x
      unfold toSample
      split
      · rename_i hx
        have : ⌊x⌋ < 0 := Int.floor_lt.2 (by simpa using hx)
        rw [show ⌊x⌋.toNat = 0 by omega, Nat.min_zero]
      · rfl
    simp only [e]
    rfl
  · rfl

theorem source_eq (c s : Rat) {w h ow oh x y : Nat} (hw : w ≤ 2 ^ 23) (hh : h ≤ 2 ^ 23) (how : ow ≤ 2 ^ 23) (hoh : oh ≤ 2 ^ 23) (hx : x < ow) (hy : y < oh) :
    sourcePos c s w h ow oh x y = (Affine.mk c s (-s) c ((w : Rat) / 2) ((h : Rat) / 2)).point ((x : Rat) - ow / 2, (y : Rat) - oh / 2) := by
  have half : ∀ {n : Nat}, n ≤ 2 ^ 23 → rnd 24 ((n : Rat) / 2) = n / 2 := fun {n} h => by
    have := rnd_fit (p := 24) (by norm_num) (fits_half (n := n) (by rw [abs_of_nonneg (by positivity)]; exact_mod_cast (by omega : n ≤ 2 ^ 24)))
    simpa using this
  have diff : ∀ {n x : Nat}, n ≤ 2 ^ 23 → x < n → rnd 24 ((x : Rat) - n / 2) = x - n / 2 := fun {n x} h hx => by
    have e : (x : Rat) - n / 2 = ((2 * x - n : Int) : Rat) / 2 := by push_cast; ring
    rw [e]
    refine rnd_fit (by norm_num) (fits_half ?_)
    rw [abs_le]; constructor <;> omega
  unfold sourcePos Affine.point dot2
  dsimp only
  rw [rnd_nat24 (by omega : w ≤ 2 ^ 24), rnd_nat24 (by omega : h ≤ 2 ^ 24), rnd_nat24 (by omega : ow ≤ 2 ^ 24), rnd_nat24 (by omega : oh ≤ 2 ^ 24),
    rnd_nat24 (by omega : x ≤ 2 ^ 24), rnd_nat24 (by omega : y ≤ 2 ^ 24), half hw, half hh, half how, half hoh, diff how hx, diff hoh hy]
  rw [mul_comm c, mul_comm s, mul_comm c, show -s * ((x : Rat) - ow / 2) = -(x - ow / 2) * s by ring]

/-- **C101** (arbitrary angles).  Every new sample is the picture, interpolated between the four samples around and rounded down, at the place of the sample turned
    back about the centres of both pictures, if that is in the picture (less its last row and column, see `c101_zero_wrong`); otherwise the largest sample. -/
theorem c101_turn {m M : Nat} (c s : Rat) {l : List Nat} {w h ow oh : Nat} (hw : 0 < w) (hh : 0 < h) (hw' : w ≤ 2 ^ 23) (hh' : h ≤ 2 ^ 23) (how : ow ≤ 2 ^ 23) (hoh : oh ≤ 2 ^ 23)
    (hl : l.length = w * h) (hm : ∀ v ∈ l, v ≤ M) (hM : M ≤ m) :
    ∃ out, rotateArbitrary m c s (ow * oh) l w h ow oh = some out ∧ out.length = ow * oh ∧ ∀ x < ow, ∀ y < oh, ∃ v, out[y * ow + x]? = some v ∧ ∃ p : Rat × Rat,
      |p.1 - (((x : Rat) - ow / 2) * c + ((y : Rat) - oh / 2) * s + w / 2)| ≤ 4 / 2 ^ 24 * (|((x : Rat) - ow / 2) * c| + |((y : Rat) - oh / 2) * s| + w / 2) ∧
      |p.2 - (((y : Rat) - oh / 2) * c - ((x : Rat) - ow / 2) * s + h / 2)| ≤ 4 / 2 ^ 24 * (|((y : Rat) - oh / 2) * c| + |((x : Rat) - ow / 2) * s| + h / 2) ∧
      ((0 ≤ p.1 ∧ p.1 < ((w - 1 : Nat) : Rat) ∧ 0 ≤ p.2 ∧ p.2 < ((h - 1 : Nat) : Rat)) → RoundedDown (8 * M / 2 ^ 24) (pictureAt l w h p.1 p.2) v) ∧
      (¬ (0 ≤ p.1 ∧ p.1 < ((w - 1 : Nat) : Rat) ∧ 0 ≤ p.2 ∧ p.2 < ((h - 1 : Nat) : Rat)) → v = m) := by
  have px : ∀ x < ow, ∀ y < oh, ∃ v, arbitraryPixel m c s l w h ow oh x y = some v ∧ ∃ p : Rat × Rat,
      |p.1 - (((x : Rat) - ow / 2) * c + ((y : Rat) - oh / 2) * s + w / 2)| ≤ 4 / 2 ^ 24 * (|((x : Rat) - ow / 2) * c| + |((y : Rat) - oh / 2) * s| + w / 2) ∧
      |p.2 - (((y : Rat) - oh / 2) * c - ((x : Rat) - ow / 2) * s + h / 2)| ≤ 4 / 2 ^ 24 * (|((y : Rat) - oh / 2) * c| + |((x : Rat) - ow / 2) * s| + h / 2) ∧
      ((0 ≤ p.1 ∧ p.1 < ((w - 1 : Nat) : Rat) ∧ 0 ≤ p.2 ∧ p.2 < ((h - 1 : Nat) : Rat)) → RoundedDown (8 * M / 2 ^ 24) (pictureAt l w h p.1 p.2) v) ∧
      (¬ (0 ≤ p.1 ∧ p.1 < ((w - 1 : Nat) : Rat) ∧ 0 ≤ p.2 ∧ p.2 < ((h - 1 : Nat) : Rat)) → v = m) := by
    intro x hx y hy
    rw [arbitrary_eq m c s l hw hh, source_eq c s hw' hh' how hoh hx hy]
    generalize ht : Affine.mk c s (-s) c ((w : Rat) / 2) ((h : Rat) / 2) = t
    generalize hq : ((x : Rat) - ow / 2, (y : Rat) - oh / 2) = q
    have f : Fits 24 (t.point q).1 ∧ Fits 24 (t.point q).2 := by
      unfold Affine.point
      exact ⟨rnd_fits _ _, rnd_fits _ _⟩
    obtain ⟨v, e1, e2, e3⟩ := affineSample_spec (m := m) hl hm hM hw hh (by omega) (by omega) f.1 f.2
    obtain ⟨n1, n2⟩ := point_approx t q
    have n1' := approx_near n1 (by omega)
    have n2' := approx_near n2 (by omega)
    rw [show (((3 : Nat) : Rat) + 1) / 2 ^ 24 = 4 / 2 ^ 24 by norm_num] at n1' n2'
    refine ⟨v, e1, t.point q, ?_, ?_, e2, e3⟩
    · rw [← hq, ← ht] at n1' ⊢
      simp only [Affine.exact, Affine.reach] at n1'
      rw [abs_of_nonneg (show (0 : Rat) ≤ (w : Rat) / 2 by positivity), mul_comm c, mul_comm s] at n1'
      exact n1'
    · rw [← hq, ← ht] at n2' ⊢
      simp only [Affine.exact, Affine.reach] at n2'
      rw [abs_of_nonneg (show (0 : Rat) ≤ (h : Rat) / 2 by positivity), mul_comm c, show -s * ((x : Rat) - ow / 2) = -((x - ow / 2) * s) by ring, abs_neg, neg_add_eq_sub,
        add_comm |_| |_|] at n2'
      exact n2'
  obtain ⟨out, h1, h2, h3⟩ := arbitrary_pixels (m := m) (c := c) (s := s) (l := l) (w := w) (h := h) (ow := ow) (oh := oh) rfl
    fun x hx y hy => ⟨_, (px x hx y hy).choose_spec.1⟩
  refine ⟨out, h1, h2, fun x hx y hy => ?_⟩
  obtain ⟨v, e1, e2⟩ := px x hx y hy
  exact ⟨v, by rw [h3 x hx y hy, e1], e2⟩

example : ∃ out, rotateArbitrary 255 (3 / 5) (4 / 5) (7 * 6) [10, 20, 30, 40, 50, 60] 3 2 7 6 = some out ∧ out.length = 7 * 6 := by
  obtain ⟨out, h1, h2, -⟩ := c101_turn (m := 255) (M := 60) (3 / 5) (4 / 5) (l := [10, 20, 30, 40, 50, 60]) (w := 3) (h := 2) (ow := 7) (oh := 6)
    (by norm_num) (by norm_num) (by norm_num) (by norm_num) (by norm_num) (by norm_num) rfl (by decide) (by norm_num)
  exact ⟨out, h1, h2⟩

end Zune.Imageprocs
