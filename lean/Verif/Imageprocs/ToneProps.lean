/-
**C103**: `brighten`, `contrast`, `exposure`, `gamma`.  The specification are the formulas of the documentation, in exact arithmetic.
-/
import Verif.Imageprocs.ToneModel
import Verif.Imageprocs.CompositeProps
import Mathlib.Tactic.Linarith
import Mathlib.Tactic.NormNum

namespace Zune.Imageprocs
open Zune.Float

/-! ### Specification -/

/-- x = a + c (brighten.rs:15-24), saturating; a brightness of 1 is the largest sample. -/
def brightenExact (m : Nat) (v : Rat) (x : Nat) : Rat := clampQ 0 m (x + clampQ (-1) 1 v * m)

/-- R' = F(R - 128) + 128 with F = 259(c + 255) / (255(259 - c)) (contrast.rs:19-28), saturating. -/
def contrastExact (c : Rat) (x : Nat) : Rat := clampQ 0 255 (259 * (c + 255) / (255 * (259 - c)) * (x - 128) + 128)

/-- clamp((pix - black) * exposure) (exposure.rs:13-16); the black level is a part of the largest sample. -/
def exposureExact (m : Nat) (e black : Rat) (x : Nat) : Rat := clampQ 0 m ((x - clampQ 0 1 black * m) * e)

/-- `v` is `y` rounded down, up to an error of `ε` before the rounding. -/
def RoundedDown (ε y : Rat) (v : Nat) : Prop := y - ε - 1 < v ∧ (v : Rat) ≤ y + ε

/-! ### Lemmas -/

theorem clampQ_mono {lo hi x y : Rat} (h : x ≤ y) : clampQ lo hi x ≤ clampQ lo hi y := max_le_max le_rfl (min_le_min le_rfl h)

theorem clampQ_mem {lo hi : Rat} (h : lo ≤ hi) (x : Rat) : lo ≤ clampQ lo hi x ∧ clampQ lo hi x ≤ hi :=
  ⟨le_max_left _ _, max_le h (min_le_left _ _)⟩

theorem clampQ_of_mem {lo hi x : Rat} (h1 : lo ≤ x) (h2 : x ≤ hi) : clampQ lo hi x = x := by
  unfold clampQ; rw [min_eq_right h2, max_eq_right h1]

theorem clampQ_near {lo hi x y ε : Rat} (hl : lo ≤ hi) (h1 : y ≤ x + ε) (h2 : x ≤ y + ε) :
    clampQ lo hi y ≤ clampQ lo hi x + ε ∧ clampQ lo hi x ≤ clampQ lo hi y + ε := by
  have h0 : 0 ≤ ε := by linarith
  unfold clampQ
  constructor <;> rcases le_total hi x with a | a <;> rcases le_total hi y with b | b <;> rcases le_total lo x with c | c <;>
    rcases le_total lo y with d | d <;> simp only [min_eq_left, min_eq_right, max_eq_left, max_eq_right, a, b, c, d, hl] <;> linarith

theorem toSample_mono (m : Nat) {x y : Rat} (h : x ≤ y) : toSample m x ≤ toSample m y := by
  unfold toSample
  by_cases hx : x < 0
  · rw [if_pos hx]; exact Nat.zero_le _
  · rw [if_neg hx, if_neg (by linarith)]
    have := Int.floor_mono h
    omega

theorem toSample_near {m : Nat} {y : Rat} (h0 : 0 ≤ y) (h1 : y ≤ m) : y - 1 < toSample m y ∧ (toSample m y : Rat) ≤ y := by
  unfold toSample
  rw [if_neg (by linarith)]
  have f0 := Int.floor_nonneg.2 h0
  have f1 := Int.floor_le y
  have f2 := Int.lt_floor_add_one y
  have f3 : ((⌊y⌋.toNat : Nat) : Rat) = ⌊y⌋ := by exact_mod_cast Int.toNat_of_nonneg f0
  have f4 : ⌊y⌋.toNat ≤ m := by
    have : ((⌊y⌋.toNat : Nat) : Rat) ≤ m := by rw [f3]; linarith
    exact_mod_cast this
  rw [Nat.min_eq_right f4, f3]
  constructor <;> linarith

theorem toSample_nat {m x : Nat} (h : x ≤ m) : toSample m x = x := by
  unfold toSample
  rw [if_neg (by simp), show ⌊(x : Rat)⌋ = (x : Int) from by exact_mod_cast Int.floor_natCast (R := Rat) x, Int.toNat_natCast, Nat.min_eq_right h]

theorem clamp_sample {m x : Nat} (h : x ≤ m) : toSample m (clampQ 0 m x) = x := by
  rw [clampQ_of_mem (by positivity) (by exact_mod_cast h), toSample_nat h]

theorem rounded_clamp {m : Nat} {x y ε : Rat} (h1 : y ≤ x + ε) (h2 : x ≤ y + ε) : RoundedDown ε (clampQ 0 m x) (toSample m (clampQ 0 m y)) := by
  have hm : (0 : Rat) ≤ m := by positivity
  have c := clampQ_near hm h1 h2
  have d := clampQ_mem hm y
  have t := toSample_near d.1 d.2
  constructor <;> linarith [c.1, c.2, t.1, t.2]

theorem rnd_bounds {x X : Rat} (h1 : -X ≤ x) (h2 : x ≤ X) : rnd 24 x ≤ x + X / 2 ^ 24 ∧ x ≤ rnd 24 x + X / 2 ^ 24 := by
  have h := rnd_err 24 x
  have h3 : |x| ≤ X := abs_le.2 ⟨h1, h2⟩
  have h2 : |rnd 24 x - x| ≤ X / 2 ^ 24 := by
    rw [le_div_iff₀ (by norm_num)]; exact le_trans h h3
  rw [abs_le] at h2
  constructor <;> linarith [h2.1, h2.2]

theorem rnd_nat {n : Nat} (h : n ≤ 65535) : rnd 24 (n : Rat) = n := rnd_fit (by norm_num) (fits_nat (by omega))

/-! ### The claims -/

/-- **C103** (`brighten`).  The sample is that of the formula, rounded down, up to the errors of `f32` (0.0000456 at 8 bits, 0.0118 at 16 bits);
    brighter settings and brighter samples never give darker ones; 0 changes nothing, 1 gives white, -1 black. -/
theorem c103_brighten {m : Nat} (hm : m = 255 ∨ m = 65535) (v : Rat) {x : Nat} (hx : x ≤ m) :
    RoundedDown (3 * m / 2 ^ 24) (brightenExact m v x) (brighten m v x) ∧
    (∀ v' x', v ≤ v' → x ≤ x' → brighten m v x ≤ brighten m v' x') ∧ brighten m 0 x = x ∧ brighten m 1 x = m ∧ brighten m (-1) x = 0 := by
  have hM : m ≤ 65535 := by omega
  have hm0 : (0 : Rat) < m := by exact_mod_cast (by omega : 0 < m)
  have hx' : (x : Rat) ≤ m := by exact_mod_cast hx
  have hx0 : (0 : Rat) ≤ x := by positivity
  have c := clampQ_mem (show (-1 : Rat) ≤ 1 by norm_num) v
  refine ⟨?_, ?_, ?_, ?_, ?_⟩
  · unfold brighten brightenExact
    generalize clampQ (-1) 1 v = u at c ⊢
    have r1 := rnd_bounds (x := u * m) (X := m) (by nlinarith [c.1]) (by nlinarith [c.2])
    have lo : -(m : Rat) ≤ rnd 24 (u * m) := by
      refine le_rnd (by norm_num) ?_ (by nlinarith [c.1])
      have := fits_int (p := 24) (m := -(m : Int)) (by rw [abs_neg, abs_of_nonneg (by positivity)]; exact_mod_cast (by omega : m ≤ 2 ^ 24))
      simpa using this
    have hi : rnd 24 (u * m) ≤ (m : Rat) := rnd_le (by norm_num) (fits_nat (by omega)) (by nlinarith [c.2])
    have r2 := rnd_bounds (x := x + rnd 24 (u * m)) (X := 2 * m) (by linarith) (by linarith)
    refine rounded_clamp ?_ ?_
    · have : 3 * (m : Rat) / 2 ^ 24 = m / 2 ^ 24 + 2 * m / 2 ^ 24 := by ring
      linarith [r1.1, r2.1]
    · have : 3 * (m : Rat) / 2 ^ 24 = m / 2 ^ 24 + 2 * m / 2 ^ 24 := by ring
      linarith [r1.2, r2.2]
  · intro v' x' hv hxx
    unfold brighten
    refine toSample_mono m (clampQ_mono (rnd_mono (by norm_num) ?_))
    have := rnd_mono (p := 24) (by norm_num) (mul_le_mul_of_nonneg_right (clampQ_mono (lo := -1) (hi := 1) hv) hm0.le)
    have : (x : Rat) ≤ x' := by exact_mod_cast hxx
    linarith
  · unfold brighten
    rw [clampQ_of_mem (lo := -1) (hi := 1) (by norm_num) (by norm_num), zero_mul, rnd_zero, add_zero, rnd_nat (by omega), clamp_sample hx]
  · unfold brighten
    rw [clampQ_of_mem (lo := -1) (hi := 1) (by norm_num) (by norm_num), one_mul, rnd_nat hM]
    have : clampQ 0 m (rnd 24 (x + m)) = ((m : Nat) : Rat) := by
      unfold clampQ
      rw [min_eq_left (le_rnd (by norm_num) (fits_nat (by omega)) (by linarith)), max_eq_right hm0.le]
    rw [this, toSample_nat le_rfl]
  · unfold brighten
    rw [clampQ_of_mem (lo := -1) (hi := 1) (by norm_num) (by norm_num)]
    have e : rnd 24 (-1 * (m : Rat)) = -m := by
      have := rnd_fit (p := 24) (by norm_num) (fits_int (p := 24) (m := -(m : Int)) (by rw [abs_neg, abs_of_nonneg (by positivity)]; exact_mod_cast (by omega : m ≤ 2 ^ 24)))
      rw [show (-1 * (m : Rat)) = ((-(m : Int) : Int) : Rat) by push_cast; ring, this]; push_cast; ring
    rw [e]
    have : clampQ 0 m (rnd 24 (x + -m)) = ((0 : Nat) : Rat) := by
      have h : rnd 24 ((x : Rat) + -m) ≤ 0 := rnd_le (by norm_num) (by simpa using fits_nat (p := 24) (n := 0) (by norm_num)) (by linarith)
      unfold clampQ
      rw [max_eq_left (le_trans (min_le_right _ _) h)]; simp
    rw [this, toSample_nat (by omega)]

/-- Half brightness on 100 is 227 (100 + 127.5). -/
example : RoundedDown (3 * (255 : Nat) / 2 ^ 24) (brightenExact 255 (1 / 2) 100) (brighten 255 (1 / 2) 100) ∧ brightenExact 255 (1 / 2) 100 = 227.5 :=
  ⟨(c103_brighten (.inl rfl) (1 / 2) (by omega)).1, by unfold brightenExact clampQ; norm_num⟩

/-- `y` is `x` up to a part `ε` of it. -/
def Close (ε x y : Rat) : Prop := x - ε * x ≤ y ∧ y ≤ x + ε * x

theorem Close.rnd {ε x y : Rat} (h : Close ε x y) (hx : 0 ≤ x) (he : ε ≤ 1 / 2 ^ 10) : Close (ε + 1002 / 1000 / 2 ^ 24) x (rnd 24 y) := by
  have hy : y ≤ 1001 / 1000 * x := by have := mul_le_mul_of_nonneg_right he hx; have := h.2; norm_num at *; linarith
  have hy' : 0 ≤ y := by have := mul_le_mul_of_nonneg_right he hx; have := h.1; norm_num at *; linarith
  have r := rnd_bounds (x := y) (X := 1001 / 1000 * x) (by linarith) hy
  have e : (ε + 1002 / 1000 / 2 ^ 24) * x = ε * x + 1002 / 1000 / 2 ^ 24 * x := by ring
  unfold Close at *
  rw [e]
  norm_num at r ⊢
  constructor <;> linarith [h.1, h.2, r.1, r.2]

theorem Close.mul {ε x y k : Rat} (h : Close ε x y) (hk : 0 ≤ k) : Close ε (k * x) (k * y) := by
  have h1 := mul_le_mul_of_nonneg_left h.1 hk
  have h2 := mul_le_mul_of_nonneg_left h.2 hk
  have e : ε * (k * x) = k * (ε * x) := by ring
  unfold Close
  rw [e]
  constructor <;> linarith

theorem contrast_factor {c : Rat} (h1 : -255 ≤ c) (h2 : c ≤ 255) : Close (51 / 10 / 2 ^ 24) (259 * (c + 255) / (255 * (259 - c))) (contrastFactor c) := by
  have self : ∀ x : Rat, Close 0 x x := fun x => ⟨by linarith, by linarith⟩
  have a := (((self (c + 255)).rnd (by linarith) (by norm_num)).mul (k := 259) (by norm_num)).rnd (by linarith) (by norm_num)
  have b := (((self (259 - c)).rnd (by linarith) (by norm_num)).mul (k := 255) (by norm_num)).rnd (by linarith) (by norm_num)
  unfold contrastFactor
  have hA0 : 0 ≤ 259 * (c + 255) := by linarith
  have hB0 : 0 < 255 * (259 - c) := by linarith
  generalize rnd 24 (259 * rnd 24 (c + 255)) = A at a ⊢
  generalize rnd 24 (255 * rnd 24 (259 - c)) = B at b ⊢
  generalize 259 * (c + 255) = A' at a hA0 ⊢
  generalize 255 * (259 - c) = B' at b hB0 ⊢
  unfold Close at a b
  norm_num at a b
  have hB : 0 < B := by linarith [b.1]
  have q : Close (409 / 100 / 2 ^ 24) (A' / B') (A / B) := by
    have e : A' / B' * B' = A' := div_mul_cancel₀ _ hB0.ne'
    have q0 : 0 ≤ A' / B' := by positivity
    have m1 := mul_le_mul_of_nonneg_left b.1 q0
    have m2 := mul_le_mul_of_nonneg_left b.2 q0
    unfold Close
    constructor
    · rw [le_div_iff₀ hB]; norm_num
      nlinarith [a.1, a.2, m1, m2]
    · rw [div_le_iff₀ hB]; norm_num
      nlinarith [a.1, a.2, m1, m2]
  have r := q.rnd (by positivity) (by norm_num)
  have : 0 ≤ A' / B' := by positivity
  unfold Close at r ⊢
  norm_num at r ⊢
  constructor <;> linarith [r.1, r.2]

theorem rnd_int {n : Int} (h : |n| ≤ 2 ^ 24) : rnd 24 (n : Rat) = n := rnd_fit (by norm_num) (fits_int h)

theorem factor_bound {c : Rat} (h1 : -255 ≤ c) (h2 : c ≤ 255) : 0 ≤ 259 * (c + 255) / (255 * (259 - c)) ∧ 259 * (c + 255) / (255 * (259 - c)) ≤ 1295 / 10 := by
  have hB0 : 0 < 255 * (259 - c) := by linarith
  refine ⟨div_nonneg (by linarith) hB0.le, ?_⟩
  rw [div_le_iff₀ hB0]; linarith

theorem minus128 {x : Nat} (hx : x ≤ 255) : rnd 24 ((x : Rat) - 128) = x - 128 := by
  have := rnd_int (n := (x : Int) - 128) (abs_le.2 ⟨by omega, by omega⟩)
  push_cast at this
  exact this

/-- **C103** (`contrast`, 8 bits).  The sample is that of the formula, rounded down, up to an error of 0.01 by `f32`; brighter samples never get darker;
    the middle 128 stays. -/
theorem c103_contrast {c : Rat} (h1 : -255 ≤ c) (h2 : c ≤ 255) {x : Nat} (hx : x ≤ 255) :
    RoundedDown (1 / 100) (contrastExact c x) (contrast c x) ∧ (∀ x', x ≤ x' → x' ≤ 255 → contrast c x ≤ contrast c x') ∧ contrast c 128 = 128 := by
  have f := contrast_factor h1 h2
  have b := factor_bound h1 h2
  have f0 : 0 ≤ contrastFactor c := by have := f.1; norm_num at this; linarith [b.1]
  have hx0 : (0 : Rat) ≤ x := by positivity
  have hx' : (x : Rat) ≤ 255 := by exact_mod_cast hx
  refine ⟨?_, ?_, ?_⟩
  · unfold contrastExact contrast
    rw [minus128 hx]
    generalize 259 * (c + 255) / (255 * (259 - c)) = F at f b ⊢
    generalize contrastFactor c = G at f f0 ⊢
    generalize (x : Rat) = X at hx0 hx' ⊢
    unfold Close at f
    have d1 : G - F ≤ 4 / 100000 := by have := f.2; norm_num at this; linarith [b.2]
    have d2 : F - G ≤ 4 / 100000 := by have := f.1; norm_num at this; linarith [b.2]
    have p1 : (G - F) * (X - 128) ≤ 4 / 100000 * 128 := by
      rcases le_total 128 X with h | h
      · nlinarith
      · nlinarith
    have p2 : -(4 / 100000 * 128) ≤ (G - F) * (X - 128) := by
      rcases le_total 128 X with h | h
      · nlinarith
      · nlinarith
    have g : G ≤ 130 := by linarith [b.2]
    have u1 : G * (X - 128) ≤ 16640 := by nlinarith
    have u2 : -16640 ≤ G * (X - 128) := by nlinarith
    have r1 := rnd_bounds u2 u1
    norm_num at r1
    have r2 := rnd_bounds (x := rnd 24 (G * (X - 128)) + 128) (X := 16800) (by linarith [r1.2]) (by linarith [r1.1])
    norm_num at r2
    have e : (G - F) * (X - 128) = G * (X - 128) - F * (X - 128) := by ring
    refine rounded_clamp (m := 255) ?_ ?_ <;> norm_num at * <;> linarith [r1.1, r1.2, r2.1, r2.2]
  · intro x' hxx hx2
    unfold contrast
    rw [minus128 hx, minus128 hx2]
    have : (x : Rat) ≤ x' := by exact_mod_cast hxx
    refine toSample_mono 255 (clampQ_mono (rnd_mono (by norm_num) ?_))
    have := rnd_mono (p := 24) (by norm_num) (mul_le_mul_of_nonneg_left (show (x : Rat) - 128 ≤ x' - 128 by linarith) f0)
    linarith
  · unfold contrast
    rw [minus128 (by omega), show ((128 : Nat) : Rat) - 128 = 0 by norm_num, mul_zero, rnd_zero, zero_add,
      show (128 : Rat) = ((128 : Nat) : Rat) by norm_num, rnd_nat (by omega)]
    exact clamp_sample (m := 255) (by omega)

/-- With a contrast of 50, where F is about 1.48, the sample 200 becomes 234 (234.7…). -/
example : RoundedDown (1 / 100) (contrastExact 50 200) (contrast 50 200) ∧ 234.7 < contrastExact 50 200 ∧ contrastExact 50 200 < 234.8 :=
  ⟨(c103_contrast (by norm_num) (by norm_num) (by omega)).1, by unfold contrastExact clampQ; norm_num, by unfold contrastExact clampQ; norm_num⟩

/-- **C103** (`contrast`).  A contrast of 0 changes nothing; -255 makes everything grey. -/
theorem c103_contrast_ends {x : Nat} (hx : x ≤ 255) : contrast 0 x = x ∧ contrast (-255) x = 128 := by
  have i : ∀ n : Nat, n ≤ 2 ^ 24 → rnd 24 (n : Rat) = n := fun n h => rnd_fit (by norm_num) (fits_nat h)
  constructor
  · have f : contrastFactor 0 = 1 := by
      unfold contrastFactor
      rw [zero_add, sub_zero, show (255 : Rat) = ((255 : Nat) : Rat) by norm_num, i 255 (by norm_num), show (259 : Rat) = ((259 : Nat) : Rat) by norm_num,
        i 259 (by norm_num), show ((259 : Nat) : Rat) * ((255 : Nat) : Rat) = ((66045 : Nat) : Rat) by norm_num,
        show ((255 : Nat) : Rat) * ((259 : Nat) : Rat) = ((66045 : Nat) : Rat) by norm_num, i 66045 (by norm_num), div_self (by norm_num)]
      simpa using i 1 (by norm_num)
    unfold contrast
    rw [f, minus128 hx, one_mul, minus128 hx, sub_add_cancel, i x (by omega)]
    exact clamp_sample (m := 255) hx
  · have f : contrastFactor (-255) = 0 := by
      unfold contrastFactor
      rw [show (-255 : Rat) + 255 = 0 by norm_num, rnd_zero, mul_zero, rnd_zero, zero_div, rnd_zero]
    unfold contrast
    rw [f, zero_mul, rnd_zero, zero_add, show (128 : Rat) = ((128 : Nat) : Rat) by norm_num, i 128 (by norm_num)]
    exact clamp_sample (m := 255) (by omega)

example : contrast 0 77 = 77 ∧ contrast (-255) 77 = 128 := c103_contrast_ends (by omega)

/-- **C103** (`exposure`).  The sample is that of the formula, rounded down, up to the errors of `f32`; for exposures that are not negative brighter samples
    never get darker ones; an exposure of 1 and a black level of 0 change nothing. -/
theorem c103_exposure {m : Nat} (hm : m = 255 ∨ m = 65535) (e black : Rat) {x : Nat} (hx : x ≤ m) :
    RoundedDown (4 * m * |e| / 2 ^ 24) (exposureExact m e black x) (exposure m e black x) ∧
    (0 ≤ e → ∀ x', x ≤ x' → exposure m e black x ≤ exposure m e black x') ∧ exposure m 1 0 x = x := by
  have hm0 : (0 : Rat) < m := by exact_mod_cast (by omega : 0 < m)
  have hx' : (x : Rat) ≤ m := by exact_mod_cast hx
  have hx0 : (0 : Rat) ≤ x := by positivity
  have c := clampQ_mem (show (0 : Rat) ≤ 1 by norm_num) black
  refine ⟨?_, ?_, ?_⟩
  · unfold exposure exposureExact
    generalize clampQ 0 1 black = u at c ⊢
    have lo : 0 ≤ rnd 24 (u * m) := le_rnd (by norm_num) (by simpa using fits_nat (p := 24) (n := 0) (by norm_num)) (mul_nonneg c.1 hm0.le)
    have hi : rnd 24 (u * m) ≤ (m : Rat) := rnd_le (by norm_num) (fits_nat (by omega)) (by nlinarith [c.2])
    have r1 := rnd_bounds (x := u * m) (X := m) (by nlinarith [c.1]) (by nlinarith [c.2])
    have r2 := rnd_bounds (x := x - rnd 24 (u * m)) (X := m) (by linarith) (by linarith)
    generalize rnd 24 (u * m) = B at *
    generalize rnd 24 ((x : Rat) - B) = D at *
    have a : |D - (x - u * m)| ≤ 2 * (m / 2 ^ 24) := abs_le.2 ⟨by linarith [r1.1, r2.2], by linarith [r1.2, r2.1]⟩
    have aD : |D| ≤ 3 / 2 * m := by
      norm_num at r2
      exact abs_le.2 ⟨by linarith [r2.2], by linarith [r2.1]⟩
    have a1 : |D * e - (x - u * m) * e| ≤ 2 * (m / 2 ^ 24) * |e| := by
      rw [← sub_mul, abs_mul]; exact mul_le_mul_of_nonneg_right a (abs_nonneg e)
    have a2 : |D * e| ≤ 3 / 2 * m * |e| := by rw [abs_mul]; exact mul_le_mul_of_nonneg_right aD (abs_nonneg e)
    rw [abs_le] at a1 a2
    have r3 := rnd_bounds a2.1 a2.2
    have pe : 0 ≤ m * |e| := mul_nonneg hm0.le (abs_nonneg e)
    have e1 : 2 * ((m : Rat) / 2 ^ 24) * |e| = 2 / 2 ^ 24 * (m * |e|) := by ring
    have e2 : 3 / 2 * (m : Rat) * |e| / 2 ^ 24 = 3 / 2 / 2 ^ 24 * (m * |e|) := by ring
    have e3 : 4 * (m : Rat) * |e| / 2 ^ 24 = 4 / 2 ^ 24 * (m * |e|) := by ring
    rw [e1] at a1
    rw [e2] at r3
    rw [e3]
    norm_num at a1 r3 ⊢
    refine rounded_clamp ?_ ?_ <;> linarith [a1.1, a1.2, r3.1, r3.2]
  · intro he x' hxx
    unfold exposure
    have : (x : Rat) ≤ x' := by exact_mod_cast hxx
    exact toSample_mono m (clampQ_mono (rnd_mono (by norm_num) (mul_le_mul_of_nonneg_right (rnd_mono (by norm_num) (by linarith)) he)))
  · unfold exposure
    rw [clampQ_of_mem (lo := 0) (hi := 1) (by norm_num) (by norm_num), zero_mul, rnd_zero, sub_zero, mul_one, rnd_nat (by omega), rnd_nat (by omega),
      clamp_sample hx]

example : RoundedDown (4 * (255 : Nat) * |(3 / 2 : Rat)| / 2 ^ 24) (exposureExact 255 (3 / 2) (1 / 10) 100) (exposure 255 (3 / 2) (1 / 10) 100) ∧
    exposureExact 255 (3 / 2) (1 / 10) 100 = 111.75 :=
  ⟨(c103_exposure (.inl rfl) (3 / 2) (1 / 10) (by omega)).1, by unfold exposureExact clampQ; norm_num⟩

/-- **C103** (negative).  The documentation calls zero the neutral exposure ("Default should be zero", exposure.rs:63-64): it makes every picture black. -/
theorem c103_exposure_zero (m : Nat) (black : Rat) (x : Nat) : exposure m 0 black x = 0 := by
  unfold exposure
  rw [mul_zero, rnd_zero, clampQ_of_mem (by norm_num) (by positivity)]
  simpa using toSample_nat (m := m) (x := 0) (by omega)

theorem normalized_eq {m x : Nat} (hm : m = 255 ∨ m = 65535) (hx : x ≤ m) : normalized m x = rnd 24 (x * rnd 24 (1 / m)) := by
  have z : Fits 24 0 := by simpa using fits_nat (p := 24) (n := 0) (by norm_num)
  have h0 : 0 ≤ rnd 24 (1 / (m : Rat)) := le_rnd (by norm_num) z (by positivity)
  have hx' : (x : Rat) ≤ m := by exact_mod_cast hx
  have h1 : rnd 24 (x * rnd 24 (1 / m)) ≤ 1 := by
    exact le_trans (rnd_mono (by norm_num) (mul_le_mul_of_nonneg_right hx' h0)) (full_one hm).le
  unfold normalized
  rw [min_eq_right h1, max_eq_right (le_rnd (by norm_num) z (mul_nonneg (by positivity) h0))]

/-- What is used of `powf` with a positive exponent: on [0, 1] it is monotone, 0 and 1 are fixed. -/
structure Power (pow : Rat → Rat) : Prop where
  zero : pow 0 = 0
  one : pow 1 = 1
  mono : ∀ x y, 0 ≤ x → x ≤ y → y ≤ 1 → pow x ≤ pow y

theorem gammaEntry_eq {m x : Nat} (hm : m = 255 ∨ m = 65535) (hx : x ≤ m) {pow : Rat → Rat} (hp : Power pow) :
    0 ≤ rnd 24 (m * pow (normalized m x)) ∧ rnd 24 (m * pow (normalized m x)) ≤ m ∧ gammaEntry m pow x = toSample m (rnd 24 (m * pow (normalized m x))) := by
  have n := normalized_mem m x
  have p0 := hp.mono 0 _ le_rfl n.1 n.2
  have p1 := hp.mono _ 1 n.1 n.2 le_rfl
  rw [hp.zero] at p0
  rw [hp.one] at p1
  have hm0 : (0 : Rat) ≤ m := by positivity
  have hi : rnd 24 (m * pow (normalized m x)) ≤ m := rnd_le (by norm_num) (fits_nat (by omega)) (by nlinarith)
  refine ⟨le_rnd (by norm_num) (by simpa using fits_nat (p := 24) (n := 0) (by norm_num)) (mul_nonneg hm0 p0), hi, ?_⟩
  unfold gammaEntry
  rw [← normalized_eq hm hx]
  simp only []
  rw [if_neg (not_lt.2 hi)]

theorem gamma_get {m : Nat} {pow : Rat → Rat} {px : List Nat} {i x : Nat} (h : px[i]? = some x) (hx : x ≤ m) :
    (gamma m pow px)[i]? = some (gammaEntry m pow x) := by
  unfold gamma gammaLut
  rw [List.getElem?_map, h, Option.map_some, List.getElem?_map, List.getElem?_range (by omega)]
  rfl

/-- **C103** (`gamma`).  The table is never left; every sample x becomes m·n^γ, rounded down, where n is x/m up to 2.01·2⁻²⁴; black stays black, white stays white, and
    brighter samples never get darker. -/
theorem c103_gamma {m : Nat} (hm : m = 255 ∨ m = 65535) {pow : Rat → Rat} (hp : Power pow) {px : List Nat} (hpx : ∀ x ∈ px, x ≤ m) :
    (gamma m pow px).length = px.length ∧ ∀ (i x : Nat), px[i]? = some x → ∃ v, (gamma m pow px)[i]? = some v ∧ v ≤ m ∧
      (∃ n : Rat, 0 ≤ n ∧ n ≤ 1 ∧ |n - x / m| ≤ 201 / 100 / 2 ^ 24 ∧ RoundedDown (m / 2 ^ 24) (m * pow n) v) ∧
      (x = 0 → v = 0) ∧ (x = m → v = m) ∧
      ∀ (j y : Nat), px[j]? = some y → x ≤ y → ∃ u, (gamma m pow px)[j]? = some u ∧ v ≤ u := by
  refine ⟨by simp [gamma], fun i x h => ?_⟩
  have hx := hpx x (List.mem_of_getElem? h)
  have g := gammaEntry_eq hm hx hp
  have n := normalized_mem m x
  have hm0 : (0 : Rat) ≤ m := by positivity
  refine ⟨_, gamma_get h hx, ?_, ⟨normalized m x, n.1, n.2, normalized_near (by omega) hx, ?_⟩, ?_, ?_, ?_⟩
  · rw [g.2.2]; unfold toSample; split <;> omega
  · rw [g.2.2]
    have p0 := hp.mono 0 _ le_rfl n.1 n.2
    have p1 := hp.mono _ 1 n.1 n.2 le_rfl
    rw [hp.zero] at p0
    rw [hp.one] at p1
    have r := rnd_bounds (x := m * pow (normalized m x)) (X := m) (by nlinarith) (by nlinarith)
    have t := toSample_near g.1 g.2.1
    constructor <;> linarith [r.1, r.2, t.1, t.2]
  · rintro rfl
    rw [g.2.2, normalized_zero, hp.zero, mul_zero, rnd_zero]
    simpa using toSample_nat (m := m) (x := 0) (by omega)
  · rintro rfl
    rw [g.2.2, normalized_full hm, hp.one, mul_one, rnd_nat (by omega), toSample_nat le_rfl]
  · intro j y hj hxy
    have hy := hpx y (List.mem_of_getElem? hj)
    refine ⟨_, gamma_get hj hy, ?_⟩
    rw [g.2.2, (gammaEntry_eq hm hy hp).2.2]
    refine toSample_mono m (rnd_mono (by norm_num) (mul_le_mul_of_nonneg_left (hp.mono _ _ n.1 ?_ (normalized_mem m y).2) hm0))
    rw [normalized_eq hm hx, normalized_eq hm hy]
    have : (x : Rat) ≤ y := by exact_mod_cast hxy
    exact rnd_mono (by norm_num) (mul_le_mul_of_nonneg_right this (le_rnd (by norm_num) (by simpa using fits_nat (p := 24) (n := 0) (by norm_num)) (by positivity)))

/-- An exponent of 2. -/
example : gamma 255 (fun x => x ^ 2) [0, 128, 255] = [0, 64, 255] ∧ Power (fun x => x ^ 2) :=
  ⟨by decide +kernel, by norm_num, by norm_num, fun x y h1 h2 _ => by nlinarith⟩

/-- **C103** (`gamma`, exponent 1).  At 8 bits nothing changes (all 256 samples). -/
theorem c103_gamma_one {px : List Nat} (hpx : ∀ x ∈ px, x ≤ 255) : gamma 255 id px = px := by
  have t : ∀ x < 256, gammaEntry 255 id x = x := by decide +kernel
  apply List.ext_getElem?
  intro i
  cases h : px[i]? with
  | none => rw [List.getElem?_eq_none_iff] at h ⊢; simpa [gamma] using h
  | some x =>
    have hx := hpx x (List.mem_of_getElem? h)
    rw [gamma_get h hx, t x (by omega)]

example : gamma 255 id [3, 200, 255] = [3, 200, 255] := c103_gamma_one (by simp)

/-- **C103** (negative).  At 16 bits an exponent of 1 does change samples: 257 becomes 256 (the quotient is rounded down below it, and then the fraction is cut off). -/
theorem c103_gamma_one_wrong : gamma 65535 id [257] = [256] ∧ Power id := by
  refine ⟨?_, rfl, rfl, fun _ _ _ h _ => h⟩
  have t : gammaEntry 65535 id 257 = 256 := by decide +kernel
  have := gamma_get (m := 65535) (pow := id) (px := [257]) (i := 0) (x := 257) rfl (by omega)
  rw [t] at this
  exact List.ext_getElem? fun i => by
    rcases i with _ | i
    · exact this
    · simp [gamma]

end Zune.Imageprocs
