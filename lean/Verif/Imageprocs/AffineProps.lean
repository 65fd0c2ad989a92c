/-
Property C115: affine transformations.
-/
import Verif.Imageprocs.AffineModel
import Verif.Imageprocs.SeparableProps

namespace Zune.Imageprocs
open Zune.Float

/-! ### Specification -/

/-- The map of a matrix, in exact arithmetic. -/
def Affine.exact (t : Affine) (p : Rat × Rat) : Rat × Rat := (t.a * p.1 + t.b * p.2 + t.tx, t.c * p.1 + t.d * p.2 + t.ty)

/-- The determinant, in exact arithmetic. -/
def Affine.D (t : Affine) : Rat := t.a * t.d - t.b * t.c

/-- The inverse, in exact arithmetic. -/
def Affine.exactInverse (t : Affine) : Affine :=
  ⟨t.d / t.D, -t.b / t.D, -t.c / t.D, t.a / t.D, (t.b * t.ty - t.d * t.tx) / t.D, (t.c * t.tx - t.a * t.ty) / t.D⟩

theorem exactInverse_spec {t : Affine} (h : t.D ≠ 0) (p : Rat × Rat) : t.exactInverse.exact (t.exact p) = p ∧ t.exact (t.exactInverse.exact p) = p := by
  obtain ⟨x, y⟩ := p
  constructor <;> simp only [Affine.exact, Affine.exactInverse, Prod.mk.injEq] <;> constructor <;> field_simp <;> unfold Affine.D <;> ring

/-- What the matrix does to lengths at most. -/
def Affine.reach (a b tx : Rat) (x y : Rat) : Rat := |a * x| + |b * y| + |tx|

/-! ### Errors -/

theorem dot2_approx (x y z u : Rat) : Approx 2 (|x * y| + |z * u|) (x * y + z * u) (dot2 x y z u) := by
  have h := (((Approx.self (x * y)).rnd).add ((Approx.self (z * u)).rnd)).rnd
  exact h

theorem point_approx (t : Affine) (p : Rat × Rat) :
    Approx 3 (Affine.reach t.a t.b t.tx p.1 p.2) (t.exact p).1 (t.point p).1 ∧ Approx 3 (Affine.reach t.c t.d t.ty p.1 p.2) (t.exact p).2 (t.point p).2 :=
  ⟨(((dot2_approx t.a p.1 t.b p.2).add ((Approx.self t.tx).mono (by omega))).rnd), (((dot2_approx t.c p.1 t.d p.2).add ((Approx.self t.ty).mono (by omega))).rnd)⟩

theorem approx_near {n : Nat} {A x y : Rat} (h : Approx n A x y) (hn : n ≤ 15) : |y - x| ≤ (n + 1) / 2 ^ 24 * A := by
  have := h.near hn
  rw [abs_le]
  constructor <;> linarith [this.1, this.2]

/-! ### A sample -/

theorem affineSample_spec {m M w h : Nat} {img : List Nat} (hi : img.length = w * h) (hm : ∀ v ∈ img, v ≤ M) (hM : M ≤ m) (hw : 0 < w) (hh : 0 < h)
    (hw2 : w ≤ 2 ^ 24) (hh2 : h ≤ 2 ^ 24) {p : Rat × Rat} (f1 : Fits 24 p.1) (f2 : Fits 24 p.2) :
    ∃ v, affineSample m img w h p = some v ∧
      ((0 ≤ p.1 ∧ p.1 < ((w - 1 : Nat) : Rat) ∧ 0 ≤ p.2 ∧ p.2 < ((h - 1 : Nat) : Rat)) → RoundedDown (8 * M / 2 ^ 24) (pictureAt img w h p.1 p.2) v) ∧
      (¬ (0 ≤ p.1 ∧ p.1 < ((w - 1 : Nat) : Rat) ∧ 0 ≤ p.2 ∧ p.2 < ((h - 1 : Nat) : Rat)) → v = m) := by
  unfold affineSample
  rw [rnd_nat24 (by omega : w - 1 ≤ 2 ^ 24), rnd_nat24 (by omega : h - 1 ≤ 2 ^ 24)]
  by_cases hin : 0 ≤ p.1 ∧ p.1 < ((w - 1 : Nat) : Rat) ∧ 0 ≤ p.2 ∧ p.2 < ((h - 1 : Nat) : Rat)
  · rw [if_pos hin]
    obtain ⟨s, t⟩ := p
    dsimp only at f1 f2 hin ⊢
    obtain ⟨s0, s1, t0, t1⟩ := hin
    have fl : ∀ {q : Rat} {n : Nat}, Fits 24 q → 0 ≤ q → q < ((n - 1 : Nat) : Rat) → n ≤ 2 ^ 24 → ⌊q⌋.toNat + 1 ≤ n - 1 ∧ rnd 24 (q - rnd 24 (⌊q⌋.toNat : Rat)) = Int.fract q := by
      intro q n fq q0 q1 hn
      have l : ⌊q⌋ < ((n - 1 : Nat) : Int) := Int.floor_lt.2 (by simpa using q1)
      have l0 := Int.floor_nonneg.2 q0
      refine ⟨by omega, ?_⟩
      rw [rnd_nat24 (by omega), show ((⌊q⌋.toNat : Nat) : Rat) = (⌊q⌋ : Rat) by
        have : ((⌊q⌋.toNat : Nat) : Int) = ⌊q⌋ := by omega
        exact_mod_cast congrArg (Int.cast (R := Rat)) this]
      exact rnd_fit (by norm_num) (fract_fits fq q0)
    obtain ⟨xw, xf⟩ := fl f1 s0 s1 hw2
    obtain ⟨yw, yf⟩ := fl f2 t0 t1 hh2
    rw [xf, yf]
    obtain ⟨p00, a1, b1⟩ := pixel_some hi (show ⌊s⌋.toNat ≤ w - 1 by omega) (show ⌊t⌋.toNat ≤ h - 1 by omega) hw hh
    obtain ⟨p10, a2, b2⟩ := pixel_some hi xw (show ⌊t⌋.toNat ≤ h - 1 by omega) hw hh
    obtain ⟨p01, a3, b3⟩ := pixel_some hi (show ⌊s⌋.toNat ≤ w - 1 by omega) yw hw hh
    obtain ⟨p11, a4, b4⟩ := pixel_some hi xw yw hw hh
    refine ⟨toSample m (biMix p00 p10 p01 p11 (Int.fract s) (Int.fract t)), by simp [biSample, a1, a2, a3, a4], fun _ => ?_, fun hc => absurd ⟨s0, s1, t0, t1⟩ hc⟩
    have ap := biMix_approx p00 p10 p01 p11 (Int.fract_nonneg s) (Int.fract_lt_one s).le (Int.fract_nonneg t) (Int.fract_lt_one t).le
    have ex : (1 - Int.fract t) * ((1 - Int.fract s) * p00 + Int.fract s * p10) + Int.fract t * ((1 - Int.fract s) * p01 + Int.fract s * p11) = pictureAt img w h s t := by
      unfold pictureAt lerp
      beta_reduce
      rw [b1, b2, b3, b4]
    rw [ex] at ap
    have bd : 0 ≤ pictureAt img w h s t ∧ pictureAt img w h s t ≤ M := lerp_between fun y => lerp_between fun x => pixelAt_le hm x y
    have nr := ap.near (by omega)
    push_cast at nr
    have e8 : (8 : Rat) / 2 ^ 24 * pictureAt img w h s t ≤ 8 / 2 ^ 24 * M := mul_le_mul_of_nonneg_left bd.2 (by norm_num)
    have := rounded_clamp (m := m) (x := pictureAt img w h s t) (y := biMix p00 p10 p01 p11 (Int.fract s) (Int.fract t)) (ε := 8 * M / 2 ^ 24)
      (by linarith [nr.1]) (by linarith [nr.2])
    rw [clampQ_of_mem bd.1 (le_trans bd.2 (by exact_mod_cast hM)), ← toSample_clamp] at this
    exact this
  · rw [if_neg hin]
    exact ⟨m, rfl, fun hc => absurd hc hin, fun _ => rfl⟩

/-- The sample at a position of whole numbers is that of the picture. -/
theorem affineSample_whole {m w h X Y : Nat} {img : List Nat} (hi : img.length = w * h) (hm : ∀ v ∈ img, v ≤ m) (hm2 : m ≤ 2 ^ 16) (hX : X + 1 < w) (hY : Y + 1 < h)
    (hw2 : w ≤ 2 ^ 24) (hh2 : h ≤ 2 ^ 24) : affineSample m img w h (X, Y) = img[Y * w + X]? := by
  unfold affineSample
  rw [rnd_nat24 (by omega : w - 1 ≤ 2 ^ 24), rnd_nat24 (by omega : h - 1 ≤ 2 ^ 24)]
  rw [if_pos ⟨by positivity, by dsimp only; exact_mod_cast (by omega : X < w - 1), by positivity, by dsimp only; exact_mod_cast (by omega : Y < h - 1)⟩]
  simp only [Int.floor_natCast, Int.toNat_natCast]
  rw [rnd_nat24 (by omega : X ≤ 2 ^ 24), rnd_nat24 (by omega : Y ≤ 2 ^ 24), sub_self, sub_self, rnd_zero]
  have g : ∀ x < w, ∀ y < h, ∃ v, img[y * w + x]? = some v := fun x hx y hy => ⟨_, List.getElem?_eq_getElem (by rw [hi]; exact rowcol_lt hx hy)⟩
  obtain ⟨p00, a1⟩ := g X (by omega) Y (by omega)
  obtain ⟨p10, a2⟩ := g (X + 1) (by omega) Y (by omega)
  obtain ⟨p01, a3⟩ := g X (by omega) (Y + 1) (by omega)
  obtain ⟨p11, a4⟩ := g (X + 1) (by omega) (Y + 1) (by omega)
  have hp : p00 ≤ m := hm _ (List.mem_of_getElem? a1)
  have e1 : rnd 24 (1 : Rat) = 1 := by simpa using rnd_nat24 (n := 1) (by norm_num)
  have e2 : biMix p00 p10 p01 p11 0 0 = p00 := by
    unfold biMix
    simp only [sub_zero, e1, mul_one, mul_zero, rnd_zero, add_zero, rnd_nat24 (by omega : p00 ≤ 2 ^ 24)]
  simp only [biSample, a1, a2, a3, a4, e2, bind, Option.bind, pure]
  unfold toSample
  rw [if_neg (by rw [not_lt]; positivity), Int.floor_natCast, Int.toNat_natCast, min_eq_right hp]

/-! ### The inverse -/

theorem det_near (t : Affine) : |t.det - t.D| ≤ 3 / 2 ^ 24 * (|t.a * t.d| + |t.b * t.c|) := by
  have h := approx_near ((approx_sub (Approx.self (t.a * t.d)).rnd (Approx.self (t.b * t.c)).rnd).rnd) (by omega)
  push_cast at h
  norm_num at h ⊢
  exact h

theorem rnd24_abs' (x : Rat) : |rnd 24 x - x| ≤ |x| / 2 ^ 24 := by
  rw [le_div_iff₀ (by norm_num)]; exact rnd_err 24 x

/-- The reciprocal of the determinant. -/
theorem recip_near {D det κ : Rat} (hD : 0 < |D|) (h1 : |det - D| ≤ 3 * κ / 2 ^ 24 * |D|) (k1 : 1 ≤ κ) (k2 : κ ≤ 2 ^ 10) :
    |rnd 24 (1 / det) * D - 1| ≤ 401 / 100 * κ / 2 ^ 24 := by
  have hd : |D| * (1 - 3 / 2 ^ 14) ≤ |det| := by
    have := abs_sub_abs_le_abs_sub D det
    rw [abs_sub_comm] at this
    have h2 : 3 * κ / 2 ^ 24 * |D| ≤ 3 / 2 ^ 14 * |D| := mul_le_mul_of_nonneg_right (by linarith) hD.le
    linarith
  have hd0 : 0 < |det| := lt_of_lt_of_le (mul_pos hD (by norm_num)) hd
  have hne : det ≠ 0 := abs_pos.1 hd0
  obtain ⟨i, hi⟩ : ∃ i, i = rnd 24 (1 / det) := ⟨_, rfl⟩
  rw [← hi]
  have e1 : |i * det - 1| ≤ 1 / 2 ^ 24 := by
    have := rnd24_abs' (1 / det)
    rw [← hi] at this
    have h2 := mul_le_mul_of_nonneg_right this hd0.le
    rw [← abs_mul, abs_div, abs_one, show (i - 1 / det) * det = i * det - 1 by field_simp] at h2
    rw [show 1 / |det| / 2 ^ 24 * |det| = 1 / 2 ^ 24 by field_simp] at h2
    exact h2
  have e2 : |i| * |det| ≤ 1 + 1 / 2 ^ 24 := by
    rw [← abs_mul]
    rw [abs_le] at e1 ⊢
    constructor <;> linarith [e1.1, e1.2]
  have e3 : |i| * |D| ≤ 1001 / 1000 := by
    have := mul_le_mul_of_nonneg_left hd (abs_nonneg i)
    linarith
  have e4 : |i * (D - det)| ≤ 1001 / 1000 * (3 * κ / 2 ^ 24) := by
    rw [abs_mul, abs_sub_comm]
    have := mul_le_mul_of_nonneg_left h1 (abs_nonneg i)
    have h2 := mul_le_mul_of_nonneg_right e3 (show 0 ≤ 3 * κ / 2 ^ 24 by positivity)
    linarith
  have := abs_add_le (i * det - 1) (i * (D - det))
  rw [show i * det - 1 + i * (D - det) = i * D - 1 by ring] at this
  linarith

/-- An entry of the inverse, multiplied by the determinant. -/
theorem entry_near {n n' A i D κ : Rat} (h1 : |n' - n| ≤ 3 / 2 ^ 24 * A) (h2 : |n| ≤ A) (hi : |i * D - 1| ≤ 401 / 100 * κ / 2 ^ 24) (k1 : 1 ≤ κ) (k2 : κ ≤ 2 ^ 10) :
    |rnd 24 (n' * i) * D - n| ≤ 10 * κ / 2 ^ 24 * A := by
  have hA : 0 ≤ A := le_trans (abs_nonneg _) h2
  have n1 : |n'| ≤ 1001 / 1000 * A := by
    have := abs_add_le (n' - n) n
    rw [sub_add_cancel] at this
    linarith
  have d1 : |i * D| ≤ 1001 / 1000 := by
    have := abs_add_le (i * D - 1) 1
    rw [sub_add_cancel, abs_one] at this
    linarith
  have r := mul_le_mul_of_nonneg_right (rnd24_abs' (n' * i)) (abs_nonneg D)
  rw [← abs_mul] at r
  have r2 : |n' * i| / 2 ^ 24 * |D| = |n'| * |i * D| / 2 ^ 24 := by rw [abs_mul, abs_mul]; ring
  rw [r2] at r
  have r3 : |n'| * |i * D| ≤ 1001 / 1000 * A * (1001 / 1000) := mul_le_mul n1 d1 (abs_nonneg _) (by positivity)
  have r4 : |n' * (i * D - 1)| ≤ 1001 / 1000 * A * (401 / 100 * κ / 2 ^ 24) := by
    rw [abs_mul]; exact mul_le_mul n1 hi (abs_nonneg _) (by positivity)
  have t1 := abs_add_le ((rnd 24 (n' * i) - n' * i) * D) (n' * (i * D - 1))
  have t2 := abs_add_le ((rnd 24 (n' * i) - n' * i) * D + n' * (i * D - 1)) (n' - n)
  rw [show (rnd 24 (n' * i) - n' * i) * D + n' * (i * D - 1) + (n' - n) = rnd 24 (n' * i) * D - n by ring] at t2
  have hk : A ≤ κ * A := le_mul_of_one_le_left hA k1
  have e1 : 1001 / 1000 * A * (401 / 100 * κ / 2 ^ 24) = 401401 / 100000 * (κ * A) / 2 ^ 24 := by ring
  have e2 : 10 * κ / 2 ^ 24 * A = 10 * (κ * A) / 2 ^ 24 := by ring
  rw [e1] at r4
  rw [e2]
  linarith

/-- **C115** The inverse of a matrix of determinant 2⁻²² at least (in absolute value) is computed, and every entry is that of the exact inverse up to a relative
error (relative to the numbers that are added) of 10·κ·2⁻²⁴ where κ, up to 1024, tells how much of a·d − b·c is cancelled. -/
theorem c115_inverse {t : Affine} {κ : Rat} (hD : 1 / 2 ^ 22 ≤ |t.D|) (hκ : |t.a * t.d| + |t.b * t.c| ≤ κ * |t.D|) (k2 : κ ≤ 2 ^ 10) :
    ∃ inv, t.inverse = some inv ∧ |inv.a - t.exactInverse.a| ≤ 10 * κ / 2 ^ 24 * (|t.d| / |t.D|) ∧ |inv.b - t.exactInverse.b| ≤ 10 * κ / 2 ^ 24 * (|t.b| / |t.D|) ∧
      |inv.c - t.exactInverse.c| ≤ 10 * κ / 2 ^ 24 * (|t.c| / |t.D|) ∧ |inv.d - t.exactInverse.d| ≤ 10 * κ / 2 ^ 24 * (|t.a| / |t.D|) ∧
      |inv.tx - t.exactInverse.tx| ≤ 10 * κ / 2 ^ 24 * ((|t.b * t.ty| + |t.d * t.tx|) / |t.D|) ∧
      |inv.ty - t.exactInverse.ty| ≤ 10 * κ / 2 ^ 24 * ((|t.c * t.tx| + |t.a * t.ty|) / |t.D|) := by
  have hpos : 0 < |t.D| := lt_of_lt_of_le (by norm_num) hD
  have hne : t.D ≠ 0 := abs_pos.1 hpos
  have k1 : 1 ≤ κ := by
    have : |t.D| ≤ |t.a * t.d| + |t.b * t.c| := by unfold Affine.D; exact abs_sub _ _
    by_contra hc
    have := mul_lt_mul_of_pos_right (not_le.1 hc) hpos
    linarith
  have hdet : |t.det - t.D| ≤ 3 * κ / 2 ^ 24 * |t.D| := by
    have := det_near t
    have h2 := mul_le_mul_of_nonneg_left hκ (show (0 : Rat) ≤ 3 / 2 ^ 24 by norm_num)
    rw [show 3 * κ / 2 ^ 24 * |t.D| = 3 / 2 ^ 24 * (κ * |t.D|) by ring]
    exact le_trans this h2
  have hdet' : ¬ |t.det| < 1 / 2 ^ 23 := by
    rw [not_lt]
    have := abs_sub_abs_le_abs_sub t.D t.det
    rw [abs_sub_comm] at this
    have h2 : 3 * κ / 2 ^ 24 * |t.D| ≤ 3 / 2 ^ 14 * |t.D| := mul_le_mul_of_nonneg_right (by linarith) hpos.le
    linarith
  have hr := recip_near hpos hdet k1 k2
  unfold Affine.inverse
  rw [if_neg hdet']
  have fin : ∀ {n n' A : Rat}, |n' - n| ≤ 3 / 2 ^ 24 * A → |n| ≤ A → |rnd 24 (n' * rnd 24 (1 / t.det)) - n / t.D| ≤ 10 * κ / 2 ^ 24 * (A / |t.D|) := by
    intro n n' A h1 h2
    have := entry_near h1 h2 hr k1 k2
    rw [show rnd 24 (n' * rnd 24 (1 / t.det)) - n / t.D = (rnd 24 (n' * rnd 24 (1 / t.det)) * t.D - n) / t.D by field_simp, abs_div, ← mul_div_assoc]
    exact div_le_div_of_nonneg_right this hpos.le
  have same : ∀ {n : Rat}, |n - n| ≤ 3 / 2 ^ 24 * |n| := fun {n} => by rw [sub_self, abs_zero]; positivity
  have sub : ∀ x y z u : Rat, |rnd 24 (rnd 24 (x * y) - rnd 24 (z * u)) - (x * y - z * u)| ≤ 3 / 2 ^ 24 * (|x * y| + |z * u|) := by
    intro x y z u
    have h := approx_near ((approx_sub (Approx.self (x * y)).rnd (Approx.self (z * u)).rnd).rnd) (by omega)
    push_cast at h
    norm_num at h ⊢
    exact h
  refine ⟨_, rfl, fin same le_rfl, ?_, ?_, fin same le_rfl, fin (sub ..) (abs_sub _ _), fin (sub ..) (abs_sub _ _)⟩
  · have := fin (n := -t.b) same le_rfl
    rwa [abs_neg] at this
  · have := fin (n := -t.c) same le_rfl
    rwa [abs_neg] at this

example : (1 / 2 ^ 22 : Rat) ≤ |(Affine.shear 2 (1 / 4)).D| ∧
    |(Affine.shear 2 (1 / 4)).a * (Affine.shear 2 (1 / 4)).d| + |(Affine.shear 2 (1 / 4)).b * (Affine.shear 2 (1 / 4)).c| ≤ 3 * |(Affine.shear 2 (1 / 4)).D| := by
  simp only [Affine.shear, Affine.D]; norm_num [abs_of_pos]

/-- **C115, disagreement IP38** Shrinking to a tiny size is refused as impossible, although every scaling by factors other than zero has an inverse. -/
theorem c115_small_wrong {sx sy : Rat} (h0 : sx * sy ≠ 0) (h : |sx * sy| ≤ 1 / 2 ^ 24) (m : Nat) (img : List Nat) (w h' : Nat) :
    (Affine.scale sx sy).D ≠ 0 ∧ affine m img w h' (Affine.scale sx sy) = none := by
  refine ⟨by simpa [Affine.scale, Affine.D] using h0, ?_⟩
  have : (Affine.scale sx sy).inverse = none := by
    unfold Affine.inverse
    refine if_pos ?_
    have d := det_near (Affine.scale sx sy)
    have e : (Affine.scale sx sy).D = sx * sy := by simp [Affine.scale, Affine.D]
    have e2 : |(Affine.scale sx sy).a * (Affine.scale sx sy).d| + |(Affine.scale sx sy).b * (Affine.scale sx sy).c| = |sx * sy| := by simp [Affine.scale]
    rw [e, e2] at d
    have t := abs_add_le ((Affine.scale sx sy).det - sx * sy) (sx * sy)
    rw [sub_add_cancel] at t
    linarith
  unfold affine
  rw [this]

example : (1 / 5000 : Rat) * (1 / 5000) ≠ 0 ∧ |(1 / 5000 : Rat) * (1 / 5000)| ≤ 1 / 2 ^ 24 := by norm_num

/-! ### The picture -/

/-- The corners of the picture. -/
def boxCorners (w h : Nat) : List (Rat × Rat) := [(0, 0), ((w : Rat), 0), (0, (h : Rat)), ((w : Rat), (h : Rat))]

theorem corners_eq {w h : Nat} (hw : w ≤ 2 ^ 24) (hh : h ≤ 2 ^ 24) (t : Affine) : t.corners w h = (boxCorners w h).map t.point := by
  simp [Affine.corners, boxCorners, rnd_nat24 hw, rnd_nat24 hh]

theorem least4_spec (f : Rat × Rat → Rat) (w h : Nat) :
    (∃ c ∈ boxCorners w h, least4 ((boxCorners w h).map f) = f c) ∧ ∀ c ∈ boxCorners w h, least4 ((boxCorners w h).map f) ≤ f c := by
  simp only [boxCorners, List.map_cons, List.map_nil, least4, List.mem_cons, List.not_mem_nil, or_false, forall_eq_or_imp, forall_eq, exists_eq_or_imp, exists_eq_left]
  refine ⟨?_, by simp, by simp, by simp, by simp⟩
  rcases min_choice (min (min (f (0, 0)) (f (↑w, 0))) (f (0, ↑h))) (f (↑w, ↑h)) with h1 | h1
  · rcases min_choice (min (f (0, 0)) (f (↑w, 0))) (f (0, ↑h)) with h2 | h2
    · rcases min_choice (f (0, 0)) (f (↑w, 0)) with h3 | h3
      · left; rw [h1, h2, h3]
      · right; left; rw [h1, h2, h3]
    · right; right; left; rw [h1, h2]
  · right; right; right; exact h1

theorem most4_spec (f : Rat × Rat → Rat) (w h : Nat) :
    (∃ c ∈ boxCorners w h, most4 ((boxCorners w h).map f) = f c) ∧ ∀ c ∈ boxCorners w h, f c ≤ most4 ((boxCorners w h).map f) := by
  simp only [boxCorners, List.map_cons, List.map_nil, most4, List.mem_cons, List.not_mem_nil, or_false, forall_eq_or_imp, forall_eq, exists_eq_or_imp, exists_eq_left]
  refine ⟨?_, by simp, by simp, by simp, by simp⟩
  rcases max_choice (max (max (f (0, 0)) (f (↑w, 0))) (f (0, ↑h))) (f (↑w, ↑h)) with h1 | h1
  · rcases max_choice (max (f (0, 0)) (f (↑w, 0))) (f (0, ↑h)) with h2 | h2
    · rcases max_choice (f (0, 0)) (f (↑w, 0)) with h3 | h3
      · left; rw [h1, h2, h3]
      · right; left; rw [h1, h2, h3]
    · right; right; left; rw [h1, h2]
  · right; right; right; exact h1

/-- The new width (or height) for the numbers of four corners: the least whole number from the difference on, up to the errors of f32. -/
theorem side_spec {f g : Rat × Rat → Rat} {w h : Nat} {R : Rat} (hg : ∀ c ∈ boxCorners w h, |g c - f c| ≤ 4 / 2 ^ 24 * R) (hr : ∀ c ∈ boxCorners w h, |f c| ≤ R) :
    (∀ c ∈ boxCorners w h, ∀ c' ∈ boxCorners w h, f c - f c' ≤ (⌈rnd 24 (most4 ((boxCorners w h).map g) - least4 ((boxCorners w h).map g))⌉.toNat : Nat) + 12 / 2 ^ 24 * R) ∧
    ∃ c ∈ boxCorners w h, ∃ c' ∈ boxCorners w h, (⌈rnd 24 (most4 ((boxCorners w h).map g) - least4 ((boxCorners w h).map g))⌉.toNat : Nat) < f c - f c' + 1 + 12 / 2 ^ 24 * R := by
  obtain ⟨⟨c1, m1, e1⟩, l1⟩ := least4_spec g w h
  obtain ⟨⟨c2, m2, e2⟩, l2⟩ := most4_spec g w h
  have hR : 0 ≤ R := le_trans (abs_nonneg _) (hr _ m1)
  have hd := rnd24_abs' (most4 ((boxCorners w h).map g) - least4 ((boxCorners w h).map g))
  have hge : 0 ≤ most4 ((boxCorners w h).map g) - least4 ((boxCorners w h).map g) := by linarith [l1 c1 m1, l2 c1 m1]
  have hle : most4 ((boxCorners w h).map g) - least4 ((boxCorners w h).map g) ≤ f c2 - f c1 + 8 / 2 ^ 24 * R := by
    have a := hg c1 m1
    have b := hg c2 m2
    rw [abs_le] at a b
    rw [e1, e2]
    linarith [a.1, b.2]
  have hsz : most4 ((boxCorners w h).map g) - least4 ((boxCorners w h).map g) ≤ 3 * R := by
    have a := hr c1 m1
    have b := hr c2 m2
    rw [abs_le] at a b
    linarith [a.1, a.2, b.1, b.2]
  generalize most4 ((boxCorners w h).map g) = mo at *
  generalize least4 ((boxCorners w h).map g) = le at *
  rw [abs_of_nonneg hge] at hd
  have r0 : 0 ≤ rnd 24 (mo - le) := by
    rw [abs_le] at hd; linarith [hd.1]
  generalize rnd 24 (mo - le) = r at *
  rw [abs_le] at hd
  have c0 : 0 ≤ ⌈r⌉ := Int.ceil_nonneg r0
  have ce : ((⌈r⌉.toNat : Nat) : Rat) = (⌈r⌉ : Rat) := by
    have : ((⌈r⌉.toNat : Nat) : Int) = ⌈r⌉ := by omega
    exact_mod_cast congrArg (Int.cast (R := Rat)) this
  rw [ce]
  have ca := Int.le_ceil r
  have cb := Int.ceil_lt_add_one r
  constructor
  · intro c hc c' hc'
    have a := hg c hc
    have b := hg c' hc'
    rw [abs_le] at a b
    have := l2 c hc
    have := l1 c' hc'
    linarith [a.1, b.2, hd.1]
  · exact ⟨c2, m2, c1, m1, by linarith [hd.2]⟩

/-- The largest absolute values of the transformed corners. -/
def Affine.reachX (t : Affine) (w h : Nat) : Rat := |t.a| * w + |t.b| * h + |t.tx|

/-- Likewise. -/
def Affine.reachY (t : Affine) (w h : Nat) : Rat := |t.c| * w + |t.d| * h + |t.ty|

theorem reach_le {w h : Nat} {c : Rat × Rat} (hc : c ∈ boxCorners w h) (a b tx : Rat) : Affine.reach a b tx c.1 c.2 ≤ |a| * w + |b| * h + |tx| := by
  have h0 : (0 : Rat) ≤ w := Nat.cast_nonneg w
  have h1 : (0 : Rat) ≤ h := Nat.cast_nonneg h
  have : |c.1| ≤ w ∧ |c.2| ≤ h := by
    simp only [boxCorners, List.mem_cons, List.not_mem_nil, or_false] at hc
    rcases hc with rfl | rfl | rfl | rfl <;> simp
  unfold Affine.reach
  rw [abs_mul, abs_mul]
  have := mul_le_mul_of_nonneg_left this.1 (abs_nonneg a)
  have := mul_le_mul_of_nonneg_left ‹|c.1| ≤ w ∧ |c.2| ≤ h›.2 (abs_nonneg b)
  linarith

theorem corner_near {w h : Nat} {c : Rat × Rat} (hc : c ∈ boxCorners w h) (t : Affine) :
    (|(t.point c).1 - (t.exact c).1| ≤ 4 / 2 ^ 24 * t.reachX w h ∧ |(t.exact c).1| ≤ t.reachX w h) ∧
    (|(t.point c).2 - (t.exact c).2| ≤ 4 / 2 ^ 24 * t.reachY w h ∧ |(t.exact c).2| ≤ t.reachY w h) := by
  obtain ⟨p1, p2⟩ := point_approx t c
  have q1 := p1.widen (reach_le hc t.a t.b t.tx)
  have q2 := p2.widen (reach_le hc t.c t.d t.ty)
  have n1 := approx_near q1 (by omega)
  have n2 := approx_near q2 (by omega)
  norm_num at n1 n2
  unfold Affine.reachX Affine.reachY
  norm_num
  exact ⟨⟨n1, q1.size⟩, ⟨n2, q2.size⟩⟩

/-- **C115** The new dimensions are those of the box around the transformed picture: any two transformed corners fit, and no smaller number would do (up to the
errors of f32). -/
theorem c115_dims {w h : Nat} (hw : w ≤ 2 ^ 24) (hh : h ≤ 2 ^ 24) (t : Affine) :
    (∀ c ∈ boxCorners w h, ∀ c' ∈ boxCorners w h, (t.exact c).1 - (t.exact c').1 ≤ (affineDims w h t).1 + 12 / 2 ^ 24 * t.reachX w h ∧
      (t.exact c).2 - (t.exact c').2 ≤ (affineDims w h t).2 + 12 / 2 ^ 24 * t.reachY w h) ∧
    (∃ c ∈ boxCorners w h, ∃ c' ∈ boxCorners w h, (affineDims w h t).1 < (t.exact c).1 - (t.exact c').1 + 1 + 12 / 2 ^ 24 * t.reachX w h) ∧
    ∃ c ∈ boxCorners w h, ∃ c' ∈ boxCorners w h, (affineDims w h t).2 < (t.exact c).2 - (t.exact c').2 + 1 + 12 / 2 ^ 24 * t.reachY w h := by
  have hx := side_spec (f := fun c => (t.exact c).1) (g := fun c => (t.point c).1) (w := w) (h := h) (R := t.reachX w h) (fun c hc => (corner_near hc t).1.1)
    (fun c hc => (corner_near hc t).1.2)
  have hy := side_spec (f := fun c => (t.exact c).2) (g := fun c => (t.point c).2) (w := w) (h := h) (R := t.reachY w h) (fun c hc => (corner_near hc t).2.1)
    (fun c hc => (corner_near hc t).2.2)
  have ex : (t.corners w h).map Prod.fst = (boxCorners w h).map fun c => (t.point c).1 := by rw [corners_eq hw hh, List.map_map]; rfl
  have ey : (t.corners w h).map Prod.snd = (boxCorners w h).map fun c => (t.point c).2 := by rw [corners_eq hw hh, List.map_map]; rfl
  unfold affineDims
  rw [ex, ey]
  exact ⟨fun c hc c' hc' => ⟨hx.1 c hc c' hc', hy.1 c hc c' hc'⟩, hx.2, hy.2⟩

/-- The place (x, y) of the plane that belongs to a new sample: that many columns and rows from the least coordinates of a corner. -/
def IsPlace (t : Affine) (w h ox oy : Nat) (p : Rat × Rat) : Prop :=
  ((∃ c ∈ boxCorners w h, |p.1 - ((t.exact c).1 + ox)| ≤ 8 / 2 ^ 24 * (t.reachX w h + ox)) ∧ ∀ c ∈ boxCorners w h, p.1 ≤ (t.exact c).1 + ox + 8 / 2 ^ 24 * (t.reachX w h + ox)) ∧
  ((∃ c ∈ boxCorners w h, |p.2 - ((t.exact c).2 + oy)| ≤ 8 / 2 ^ 24 * (t.reachY w h + oy)) ∧ ∀ c ∈ boxCorners w h, p.2 ≤ (t.exact c).2 + oy + 8 / 2 ^ 24 * (t.reachY w h + oy))

theorem place_side {f g : Rat × Rat → Rat} {w h : Nat} {R : Rat} (hg : ∀ c ∈ boxCorners w h, |g c - f c| ≤ 4 / 2 ^ 24 * R) (hr : ∀ c ∈ boxCorners w h, |f c| ≤ R) (o : Nat) :
    (∃ c ∈ boxCorners w h, |rnd 24 (rnd 24 o + least4 ((boxCorners w h).map g)) - (f c + o)| ≤ 8 / 2 ^ 24 * (R + o)) ∧
    ∀ c ∈ boxCorners w h, rnd 24 (rnd 24 o + least4 ((boxCorners w h).map g)) ≤ f c + o + 8 / 2 ^ 24 * (R + o) := by
  obtain ⟨⟨c1, m1, e1⟩, l1⟩ := least4_spec g w h
  have hR : 0 ≤ R := le_trans (abs_nonneg _) (hr _ m1)
  have o0 : (0 : Rat) ≤ o := Nat.cast_nonneg o
  have a := rnd24_abs' (o : Rat)
  rw [abs_of_nonneg o0] at a
  have b := rnd24_abs' (rnd 24 (o : Rat) + least4 ((boxCorners w h).map g))
  have c := hg c1 m1
  have d := hr c1 m1
  rw [← e1] at c
  generalize least4 ((boxCorners w h).map g) = le at *
  generalize rnd 24 (o : Rat) = o' at *
  have sz : |o' + le| ≤ 2 * (R + o) := by
    rw [abs_le] at a c d ⊢
    constructor <;> linarith [a.1, a.2, c.1, c.2, d.1, d.2]
  have near : |rnd 24 (o' + le) - (o + le)| ≤ 3 / 2 ^ 24 * (R + o) := by
    rw [abs_le] at a b ⊢
    constructor <;> linarith [a.1, a.2, b.1, b.2]
  rw [abs_le] at near c
  refine ⟨⟨c1, m1, ?_⟩, fun c' hc' => ?_⟩
  · rw [abs_le]
    constructor <;> linarith [near.1, near.2, c.1, c.2]
  · have g' := hg c' hc'
    rw [abs_le] at g'
    have := l1 c' hc'
    linarith [near.2, g'.2]

/-- What `c115_affine_partial` says about a sample. -/
def Placed (m M : Nat) (img : List Nat) (w h : Nat) (t inv : Affine) (ox oy v : Nat) : Prop :=
  ∃ p s : Rat × Rat, IsPlace t w h ox oy p ∧
    |s.1 - (inv.exact p).1| ≤ 4 / 2 ^ 24 * Affine.reach inv.a inv.b inv.tx p.1 p.2 ∧ |s.2 - (inv.exact p).2| ≤ 4 / 2 ^ 24 * Affine.reach inv.c inv.d inv.ty p.1 p.2 ∧
    ((0 ≤ s.1 ∧ s.1 < ((w - 1 : Nat) : Rat) ∧ 0 ≤ s.2 ∧ s.2 < ((h - 1 : Nat) : Rat)) → RoundedDown (8 * M / 2 ^ 24) (pictureAt img w h s.1 s.2) v) ∧
    (¬ (0 ≤ s.1 ∧ s.1 < ((w - 1 : Nat) : Rat) ∧ 0 ≤ s.2 ∧ s.2 < ((h - 1 : Nat) : Rat)) → v = m)

theorem place_sample {m M w h : Nat} {img : List Nat} (hi : img.length = w * h) (hm : ∀ v ∈ img, v ≤ M) (hM : M ≤ m) (hw : 0 < w) (hh : 0 < h)
    (hw2 : w ≤ 2 ^ 24) (hh2 : h ≤ 2 ^ 24) (t inv : Affine) (ox oy : Nat) :
    ∃ v, affineSample m img w h (affineSource inv (least4 ((boxCorners w h).map fun c => (t.point c).1)) (least4 ((boxCorners w h).map fun c => (t.point c).2)) ox oy) = some v ∧
      Placed m M img w h t inv ox oy v := by
  have ps := place_side (f := fun c => (t.exact c).1) (g := fun c => (t.point c).1) (w := w) (h := h) (R := t.reachX w h) (fun c hc => (corner_near hc t).1.1)
    (fun c hc => (corner_near hc t).1.2) ox
  have qs := place_side (f := fun c => (t.exact c).2) (g := fun c => (t.point c).2) (w := w) (h := h) (R := t.reachY w h) (fun c hc => (corner_near hc t).2.1)
    (fun c hc => (corner_near hc t).2.2) oy
  unfold affineSource
  dsimp only
  generalize least4 ((boxCorners w h).map fun c => (t.point c).1) = mx at *
  generalize least4 ((boxCorners w h).map fun c => (t.point c).2) = my at *
  generalize rnd 24 (rnd 24 (ox : Rat) + mx) = px at *
  generalize rnd 24 (rnd 24 (oy : Rat) + my) = py at *
  have f : Fits 24 (inv.point (px, py)).1 ∧ Fits 24 (inv.point (px, py)).2 := by
    unfold Affine.point
    exact ⟨rnd_fits _ _, rnd_fits _ _⟩
  obtain ⟨v, e1, e2, e3⟩ := affineSample_spec (m := m) hi hm hM hw hh hw2 hh2 f.1 f.2
  obtain ⟨n1, n2⟩ := point_approx inv (px, py)
  have n1' := approx_near n1 (by omega)
  have n2' := approx_near n2 (by omega)
  rw [show (((3 : Nat) : Rat) + 1) / 2 ^ 24 = 4 / 2 ^ 24 by norm_num] at n1' n2'
  exact ⟨v, e1, (px, py), inv.point (px, py), ⟨ps, qs⟩, n1', n2', e2, e3⟩

/-- **C115 (partial)** A transformation that has an inverse (as computed, see `c115_inverse`) does not panic, and every new sample is the picture, interpolated between
the four samples around and rounded down, at the point that the inverse has for its place, if that point is in the picture; otherwise it is the largest sample.

Missing: "in the picture" leaves out the last row and column (`c115_translation_wrong`, IP37). -/
theorem c115_affine_partial {m M w h : Nat} {img : List Nat} (hi : img.length = w * h) (hm : ∀ v ∈ img, v ≤ M) (hM : M ≤ m) (hw : 0 < w) (hh : 0 < h)
    (hw2 : w ≤ 2 ^ 24) (hh2 : h ≤ 2 ^ 24) {t inv : Affine} (ht : t.inverse = some inv) :
    ∃ ow oh out, affine m img w h t = some (some (ow, oh, out)) ∧ (ow, oh) = affineDims w h t ∧ out.length = ow * oh ∧
      ∀ ox < ow, ∀ oy < oh, ∃ v, out[oy * ow + ox]? = some v ∧ Placed m M img w h t inv ox oy v := by
  have ex : (t.corners w h).map Prod.fst = (boxCorners w h).map fun c => (t.point c).1 := by rw [corners_eq hw2 hh2, List.map_map]; rfl
  have ey : (t.corners w h).map Prod.snd = (boxCorners w h).map fun c => (t.point c).2 := by rw [corners_eq hw2 hh2, List.map_map]; rfl
  obtain ⟨ow, oh, hd⟩ : ∃ ow oh, (ow, oh) = affineDims w h t := ⟨_, _, rfl⟩
  obtain ⟨rows, h1, h2, h3⟩ := grid_mapM (w := ow) (h := oh) fun ox _ oy _ => place_sample hi hm hM hw hh hw2 hh2 t inv ox oy
  refine ⟨ow, oh, rows.flatten, ?_, hd, h2, h3⟩
  unfold affine affineChannel
  rw [ht]
  dsimp only
  rw [ex, ey, ← hd]
  dsimp only
  rw [h1]
  rfl

example : (Affine.scale 2 4).inverse = some (Affine.scale (1 / 2) (1 / 4)) := by decide +kernel

/-! ### Whole numbers -/

/-- **C115, disagreements IP37 and IP39** Every translation by whole numbers (the identity is the one by 0) has the same effect: the picture is not moved, since the
new picture begins at its least coordinates, and the last row and column become white. -/
theorem c115_translation_wrong {m w h : Nat} {img : List Nat} (hi : img.length = w * h) (hm : ∀ v ∈ img, v ≤ m) (hm2 : m ≤ 2 ^ 16)
    (hw2 : w ≤ 2 ^ 23) (hh2 : h ≤ 2 ^ 23) {tx ty : Int} (hx : |tx| ≤ 2 ^ 23) (hy : |ty| ≤ 2 ^ 23) :
    ∃ out, affine m img w h (Affine.translation tx ty) = some (some (w, h, out)) ∧ out.length = w * h ∧
      ∀ x < w, ∀ y < h, out[y * w + x]? = if x + 1 < w ∧ y + 1 < h then img[y * w + x]? else some m := by
  have R : ∀ {k : Int}, |k| ≤ 2 ^ 24 → rnd 24 (k : Rat) = k := fun h => rnd_fit (by norm_num) (fits_int h)
  have e0 : rnd 24 (0 : Rat) = 0 := rnd_zero ..
  have e1 : rnd 24 (1 : Rat) = 1 := by simpa using R (k := 1) (by norm_num)
  rw [abs_le] at hx hy
  have pt : ∀ {ux uy x y : Int}, |x| ≤ 2 ^ 24 → |y| ≤ 2 ^ 24 → |x + ux| ≤ 2 ^ 24 → |y + uy| ≤ 2 ^ 24 →
      (Affine.translation ux uy).point ((x : Rat), (y : Rat)) = (((x + ux : Int) : Rat), ((y + uy : Int) : Rat)) := by
    intro ux uy x y h1 h2 h3 h4
    simp only [Affine.point, Affine.translation, dot2, one_mul, zero_mul, e0, add_zero, zero_add, R h1, R h2]
    rw [← Int.cast_add, ← Int.cast_add, R h3, R h4]
  have inv : (Affine.translation tx ty).inverse = some (Affine.translation ((-tx : Int) : Rat) ((-ty : Int) : Rat)) := by
    have d : (Affine.translation tx ty).det = 1 := by simp [Affine.det, Affine.translation, e0, e1]
    unfold Affine.inverse
    rw [if_neg (by rw [d]; norm_num), d]
    simp only [Affine.translation, div_one, e1, mul_one, one_mul, zero_mul, neg_zero, e0, zero_sub, R (k := tx) (by rw [abs_le]; omega), R (k := ty) (by rw [abs_le]; omega)]
    rw [← Int.cast_neg, ← Int.cast_neg, R (k := -tx) (by rw [abs_le]; omega), R (k := -ty) (by rw [abs_le]; omega),
      R (k := -tx) (by rw [abs_le]; omega), R (k := -ty) (by rw [abs_le]; omega)]
  have cs : (Affine.translation tx ty).corners w h = [(((tx : Int) : Rat), ((ty : Int) : Rat)), ((((w : Int) + tx : Int) : Rat), ((ty : Int) : Rat)),
      (((tx : Int) : Rat), (((h : Int) + ty : Int) : Rat)), ((((w : Int) + tx : Int) : Rat), (((h : Int) + ty : Int) : Rat))] := by
    rw [corners_eq (by omega) (by omega)]
    have p1 := pt (ux := tx) (uy := ty) (x := 0) (y := 0) (by norm_num) (by norm_num) (by rw [abs_le]; omega) (by rw [abs_le]; omega)
    have p2 := pt (ux := tx) (uy := ty) (x := w) (y := 0) (by rw [abs_le]; omega) (by norm_num) (by rw [abs_le]; omega) (by rw [abs_le]; omega)
    have p3 := pt (ux := tx) (uy := ty) (x := 0) (y := h) (by norm_num) (by rw [abs_le]; omega) (by rw [abs_le]; omega) (by rw [abs_le]; omega)
    have p4 := pt (ux := tx) (uy := ty) (x := w) (y := h) (by rw [abs_le]; omega) (by rw [abs_le]; omega) (by rw [abs_le]; omega) (by rw [abs_le]; omega)
    simp only [zero_add, Int.cast_zero, Int.cast_natCast] at p1 p2 p3 p4
    simp only [boxCorners, List.map_cons, List.map_nil, p1, p2, p3, p4]
  have w0 : (0 : Rat) ≤ w := Nat.cast_nonneg w
  have h0 : (0 : Rat) ≤ h := Nat.cast_nonneg h
  have lx : least4 (((Affine.translation tx ty).corners w h).map Prod.fst) = tx := by
    rw [cs]
    simp only [List.map_cons, List.map_nil, least4]
    push_cast
    rw [min_eq_left (by linarith : (tx : Rat) ≤ w + tx), min_self, min_eq_left (by linarith)]
  have ly : least4 (((Affine.translation tx ty).corners w h).map Prod.snd) = ty := by
    rw [cs]
    simp only [List.map_cons, List.map_nil, least4]
    push_cast
    rw [min_self, min_eq_left (by linarith : (ty : Rat) ≤ h + ty), min_eq_left (by linarith)]
  have ux : most4 (((Affine.translation tx ty).corners w h).map Prod.fst) = w + tx := by
    rw [cs]
    simp only [List.map_cons, List.map_nil, most4]
    push_cast
    rw [max_eq_right (by linarith : (tx : Rat) ≤ w + tx), max_eq_left (by linarith : (tx : Rat) ≤ w + tx), max_self]
  have uy : most4 (((Affine.translation tx ty).corners w h).map Prod.snd) = h + ty := by
    rw [cs]
    simp only [List.map_cons, List.map_nil, most4]
    push_cast
    rw [max_self, max_eq_right (by linarith : (ty : Rat) ≤ h + ty), max_self]
  have dm : affineDims w h (Affine.translation tx ty) = (w, h) := by
    unfold affineDims
    dsimp only
    rw [lx, ly, ux, uy, add_sub_cancel_right, add_sub_cancel_right, rnd_nat24 (by omega), rnd_nat24 (by omega), Int.ceil_natCast, Int.ceil_natCast, Int.toNat_natCast, Int.toNat_natCast]
  have src : ∀ ox < w, ∀ oy < h, affineSource (Affine.translation ((-tx : Int) : Rat) ((-ty : Int) : Rat)) tx ty ox oy = ((ox : Rat), (oy : Rat)) := by
    intro ox hox oy hoy
    unfold affineSource
    rw [rnd_nat24 (by omega), rnd_nat24 (by omega)]
    have a1 := R (k := ox + tx) (by rw [abs_le]; omega)
    have a2 := R (k := oy + ty) (by rw [abs_le]; omega)
    have p := pt (ux := -tx) (uy := -ty) (x := ox + tx) (y := oy + ty) (by rw [abs_le]; omega) (by rw [abs_le]; omega) (by rw [abs_le]; omega) (by rw [abs_le]; omega)
    dsimp only
    push_cast at a1 a2 p ⊢
    rw [a1, a2, p]
    simp
  obtain ⟨rows, g1, g2, g3⟩ := grid_mapM (w := w) (h := h)
    (g := fun ox oy => affineSample m img w h (affineSource (Affine.translation ((-tx : Int) : Rat) ((-ty : Int) : Rat)) tx ty ox oy))
    (P := fun x y v => some v = if x + 1 < w ∧ y + 1 < h then img[y * w + x]? else some m) fun x hx y hy => by
      rw [src x hx y hy]
      by_cases hin : x + 1 < w ∧ y + 1 < h
      · rw [affineSample_whole hi hm hm2 hin.1 hin.2 (by omega) (by omega), if_pos hin, List.getElem?_eq_getElem (by rw [hi]; exact rowcol_lt hx hy)]
        exact ⟨_, rfl, rfl⟩
      · rw [if_neg hin]
        refine ⟨m, ?_, rfl⟩
        unfold affineSample
        rw [rnd_nat24 (by omega : w - 1 ≤ 2 ^ 24), rnd_nat24 (by omega : h - 1 ≤ 2 ^ 24)]
        refine if_neg fun hc => hin ?_
        obtain ⟨-, c2, -, c4⟩ := hc
        dsimp only at c2 c4
        have c2' : x < w - 1 := by exact_mod_cast c2
        have c4' : y < h - 1 := by exact_mod_cast c4
        omega
  unfold affine affineChannel
  rw [inv]
  dsimp only
  rw [dm, lx, ly]
  dsimp only
  rw [g1]
  refine ⟨rows.flatten, rfl, g2, fun x hx y hy => ?_⟩
  obtain ⟨v, e, e'⟩ := g3 x hx y hy
  rw [e, e']

example : Affine.identity = Affine.translation ((0 : Int) : Rat) ((0 : Int) : Rat) := by simp [Affine.identity, Affine.translation]

/-- **C115, disagreement IP40** A quarter turn of a 4 × 3 picture, which should be 9 5 1, 10 6 2, 11 7 3, 12 8 4, has its middle column moved to the right and is
white otherwise: the corners of the picture are transformed, but samples are taken for points at the corners of pixels. -/
theorem c115_quarter_wrong : affine 255 [1, 2, 3, 4, 5, 6, 7, 8, 9, 10, 11, 12] 4 3 (Affine.rotation 0 1) =
    some (some (3, 4, [255, 255, 5, 255, 255, 6, 255, 255, 7, 255, 255, 255])) := by decide +kernel

/-! ### Composition -/

/-- **C115** `s.then(o)` is the product of the matrices (every entry up to the errors of f32): it applies `o` first and then `s`. -/
theorem c115_compose (s o : Affine) :
    |(s.after o).a - (s.a * o.a + s.b * o.c)| ≤ 3 / 2 ^ 24 * (|s.a * o.a| + |s.b * o.c|) ∧ |(s.after o).b - (s.a * o.b + s.b * o.d)| ≤ 3 / 2 ^ 24 * (|s.a * o.b| + |s.b * o.d|) ∧
    |(s.after o).c - (s.c * o.a + s.d * o.c)| ≤ 3 / 2 ^ 24 * (|s.c * o.a| + |s.d * o.c|) ∧ |(s.after o).d - (s.c * o.b + s.d * o.d)| ≤ 3 / 2 ^ 24 * (|s.c * o.b| + |s.d * o.d|) ∧
    |(s.after o).tx - (s.exact (o.tx, o.ty)).1| ≤ 4 / 2 ^ 24 * Affine.reach s.a s.b s.tx o.tx o.ty ∧
    |(s.after o).ty - (s.exact (o.tx, o.ty)).2| ≤ 4 / 2 ^ 24 * Affine.reach s.c s.d s.ty o.tx o.ty := by
  have d : ∀ x y z u : Rat, |dot2 x y z u - (x * y + z * u)| ≤ 3 / 2 ^ 24 * (|x * y| + |z * u|) := by
    intro x y z u
    have := approx_near (dot2_approx x y z u) (by omega)
    rwa [show (((2 : Nat) : Rat) + 1) / 2 ^ 24 = 3 / 2 ^ 24 by norm_num] at this
  obtain ⟨n1, n2⟩ := point_approx s (o.tx, o.ty)
  have n1' := approx_near n1 (by omega)
  have n2' := approx_near n2 (by omega)
  rw [show (((3 : Nat) : Rat) + 1) / 2 ^ 24 = 4 / 2 ^ 24 by norm_num] at n1' n2'
  exact ⟨d .., d .., d .., d .., n1', n2'⟩

/-- The product of the matrices is the composition of the maps. -/
theorem exact_compose (s o : Affine) (p : Rat × Rat) :
    s.exact (o.exact p) = Affine.exact ⟨s.a * o.a + s.b * o.c, s.a * o.b + s.b * o.d, s.c * o.a + s.d * o.c, s.c * o.b + s.d * o.d, (s.exact (o.tx, o.ty)).1, (s.exact (o.tx, o.ty)).2⟩ p := by
  simp only [Affine.exact, Prod.mk.injEq]
  constructor <;> ring

/-- **C115, disagreement IP41** "Scale by 2, then translate by 1" maps 0 to 2: the translation comes first. -/
theorem c115_then_wrong : ((Affine.scale 2 2).after (Affine.translation 1 0)).point (0, 0) = (2, 0) ∧
    (Affine.translation 1 0).exact ((Affine.scale 2 2).exact (0, 0)) = (1, 0) := by
  constructor
  · decide +kernel
  · decide +kernel

end Zune.Imageprocs
