/-
**C110**: bilinear resizing.
-/
import Verif.Imageprocs.MixProps
import Verif.Imageprocs.TransferProps
import Mathlib.Algebra.Order.Floor.Ring

namespace Zune.Imageprocs
open Zune.Float

/-! ### The continuous picture -/

/-- Linear interpolation between the values at whole numbers. -/
def lerp (f : Nat → Rat) (t : Rat) : Rat := (1 - Int.fract t) * f ⌊t⌋.toNat + Int.fract t * f (⌊t⌋.toNat + 1)

/-- The sample at a column and a row; beyond the right and lower border that at the border. -/
def pixelAt (img : List Nat) (w h x y : Nat) : Rat := ((img[min y (h - 1) * w + min x (w - 1)]?).getD 0 : Nat)

/-- The picture at real coordinates. -/
def pictureAt (img : List Nat) (w h : Nat) (s t : Rat) : Rat := lerp (fun y => lerp (fun x => pixelAt img w h x y) s) t

theorem lerp_between {f : Nat → Rat} {t lo hi : Rat} (h : ∀ i, lo ≤ f i ∧ f i ≤ hi) : lo ≤ lerp f t ∧ lerp f t ≤ hi := by
  have f0 := Int.fract_nonneg t
  have f1 := (Int.fract_lt_one t).le
  have a := h ⌊t⌋.toNat
  have b := h (⌊t⌋.toNat + 1)
  unfold lerp
  constructor
  · nlinarith [mul_le_mul_of_nonneg_left a.1 (sub_nonneg.2 f1), mul_le_mul_of_nonneg_left b.1 f0]
  · nlinarith [mul_le_mul_of_nonneg_left a.2 (sub_nonneg.2 f1), mul_le_mul_of_nonneg_left b.2 f0]

theorem lerp_sub (f g : Nat → Rat) (t : Rat) : lerp f t - lerp g t = lerp (fun i => f i - g i) t := by unfold lerp; ring

theorem lerp_lip' {f : Nat → Rat} {M s t : Rat} (hM : ∀ i j, |f i - f j| ≤ M) (hs : 0 ≤ s) (h : s ≤ t) (h1 : t - s < 1) : |lerp f t - lerp f s| ≤ M * (t - s) := by
  have s0 := Int.fract_nonneg s
  have s1 := Int.fract_lt_one s
  have t0 := Int.fract_nonneg t
  have t1 := Int.fract_lt_one t
  have es := Int.floor_add_fract s
  have et := Int.floor_add_fract t
  have le : ⌊s⌋ ≤ ⌊t⌋ := Int.floor_le_floor h
  have nn : 0 ≤ ⌊s⌋ := Int.floor_nonneg.2 hs
  have lt : ⌊t⌋ < ⌊s⌋ + 2 := by
    have : (⌊t⌋ : Rat) < ⌊s⌋ + 2 := by linarith
    exact_mod_cast this
  rcases (by omega : ⌊t⌋ = ⌊s⌋ ∨ ⌊t⌋ = ⌊s⌋ + 1) with e | e
  · have d : t - s = Int.fract t - Int.fract s := by rw [e] at et; linarith
    have : lerp f t - lerp f s = (t - s) * (f (⌊s⌋.toNat + 1) - f ⌊s⌋.toNat) := by unfold lerp; rw [d, e]; ring
    rw [this, abs_mul, abs_of_nonneg (by linarith), mul_comm]
    exact mul_le_mul_of_nonneg_right (hM _ _) (by linarith)
  · have d : t - s = (1 - Int.fract s) + Int.fract t := by rw [e] at et; push_cast at et; linarith
    have e2 : ⌊t⌋.toNat = ⌊s⌋.toNat + 1 := by omega
    have : lerp f t - lerp f s = (1 - Int.fract s) * (f (⌊s⌋.toNat + 1) - f ⌊s⌋.toNat) + Int.fract t * (f (⌊s⌋.toNat + 1 + 1) - f (⌊s⌋.toNat + 1)) := by
      unfold lerp; rw [e2]; ring
    rw [this, d, mul_add]
    refine le_trans (abs_add_le _ _) (add_le_add ?_ ?_)
    · rw [abs_mul, abs_of_nonneg (by linarith), mul_comm]
      exact mul_le_mul_of_nonneg_right (hM _ _) (by linarith)
    · rw [abs_mul, abs_of_nonneg t0, mul_comm]
      exact mul_le_mul_of_nonneg_right (hM _ _) t0

/-- Interpolation changes by at most the range of the values times the distance. -/
theorem lerp_lip {f : Nat → Rat} {M s t : Rat} (hM : ∀ i j, |f i - f j| ≤ M) (hs : 0 ≤ s) (ht : 0 ≤ t) (h1 : |t - s| < 1) : |lerp f t - lerp f s| ≤ M * |t - s| := by
  rcases le_total s t with h | h
  · rw [abs_of_nonneg (sub_nonneg.2 h)] at h1 ⊢
    exact lerp_lip' hM hs h h1
  · rw [abs_sub_comm, abs_sub_comm t s] at *
    rw [abs_of_nonneg (sub_nonneg.2 h)] at h1 ⊢
    exact lerp_lip' hM ht h h1

theorem pixelAt_le {m w h : Nat} {img : List Nat} (hm : ∀ v ∈ img, v ≤ m) (x y : Nat) : 0 ≤ pixelAt img w h x y ∧ pixelAt img w h x y ≤ m := by
  unfold pixelAt
  refine ⟨by positivity, ?_⟩
  cases e : img[min y (h - 1) * w + min x (w - 1)]? with
  | none => simp
  | some v => simpa using hm v (List.mem_of_getElem? e)

theorem abs_sub_range {M a b : Rat} (ha : 0 ≤ a ∧ a ≤ M) (hb : 0 ≤ b ∧ b ≤ M) : |a - b| ≤ M := by rw [abs_le]; constructor <;> linarith [ha.1, ha.2, hb.1, hb.2]

/-- Small displacements change the picture little. -/
theorem pictureAt_lip {m w h : Nat} {img : List Nat} (hm : ∀ v ∈ img, v ≤ m) {s s' t t' : Rat} (hs : 0 ≤ s) (hs' : 0 ≤ s') (ht : 0 ≤ t) (ht' : 0 ≤ t') (d1 : |s - s'| < 1)
    (d2 : |t - t'| < 1) : |pictureAt img w h s t - pictureAt img w h s' t'| ≤ m * (|s - s'| + |t - t'|) := by
  unfold pictureAt
  have a : |lerp (fun y => lerp (fun x => pixelAt img w h x y) s) t - lerp (fun y => lerp (fun x => pixelAt img w h x y) s') t| ≤ m * |s - s'| := by
    rw [lerp_sub]
    have := lerp_between (f := fun i => lerp (fun x => pixelAt img w h x i) s - lerp (fun x => pixelAt img w h x i) s') (t := t) (lo := -(m * |s - s'|)) (hi := m * |s - s'|) (fun i =>
      abs_le.1 (lerp_lip (fun i j => abs_sub_range (pixelAt_le hm _ _) (pixelAt_le hm _ _)) hs' hs d1))
    exact abs_le.2 this
  have b : |lerp (fun y => lerp (fun x => pixelAt img w h x y) s') t - lerp (fun y => lerp (fun x => pixelAt img w h x y) s') t'| ≤ m * |t - t'| :=
    lerp_lip (fun i j => abs_sub_range (lerp_between fun x => pixelAt_le hm _ _) (lerp_between fun x => pixelAt_le hm _ _)) ht' ht d2
  have := abs_add_le (lerp (fun y => lerp (fun x => pixelAt img w h x y) s) t - lerp (fun y => lerp (fun x => pixelAt img w h x y) s') t)
    (lerp (fun y => lerp (fun x => pixelAt img w h x y) s') t - lerp (fun y => lerp (fun x => pixelAt img w h x y) s') t')
  rw [sub_add_sub_cancel] at this
  linarith

/-! ### Positions -/

theorem rnd_nat24 {n : Nat} (h : n ≤ 2 ^ 24) : rnd 24 (n : Rat) = n := rnd_fit (by norm_num) (fits_nat h)

/-- The part behind the point of a number of 24 bits has 24 bits. -/
theorem fract_fits {x : Rat} (h : Fits 24 x) (hx : 0 ≤ x) : Fits 24 (x - ⌊x⌋) := by
  obtain ⟨k, e, hk, rfl⟩ := h
  rcases le_or_gt 0 e with he | he
  · obtain ⟨n, rfl⟩ := Int.eq_ofNat_of_zero_le he
    refine ⟨0, 0, by simp, ?_⟩
    have : (k : Rat) * (2 : Rat) ^ (n : Int) = ((k * 2 ^ n : Int) : Rat) := by push_cast; rw [zpow_natCast]
    rw [this, Int.floor_intCast]; simp
  · obtain ⟨n, rfl⟩ : ∃ n : Nat, e = -(n : Int) := ⟨(-e).toNat, by omega⟩
    have hx2 : (k : Rat) * (2 : Rat) ^ (-(n : Int)) = (k : Rat) / ((2 ^ n : Nat) : Rat) := by rw [zpow_neg, zpow_natCast]; push_cast; rfl
    rw [hx2] at hx ⊢
    have hk0 : 0 ≤ k := by
      by_contra hc
      have : (k : Rat) < 0 := by exact_mod_cast not_le.1 hc
      have := div_neg_of_neg_of_pos this (show (0 : Rat) < ((2 ^ n : Nat) : Rat) by positivity)
      linarith
    refine ⟨k % (2 ^ n : Nat), -(n : Int), ?_, ?_⟩
    · have h1 : 0 ≤ k % ((2 ^ n : Nat) : Int) := Int.emod_nonneg _ (by positivity)
      have h2 : k % ((2 ^ n : Nat) : Int) ≤ k := by
        have := Int.mul_ediv_add_emod k ((2 ^ n : Nat) : Int)
        have : 0 ≤ ((2 ^ n : Nat) : Int) * (k / ((2 ^ n : Nat) : Int)) := mul_nonneg (by positivity) (Int.ediv_nonneg hk0 (by positivity))
        omega
      rw [abs_of_nonneg h1]
      rw [abs_of_nonneg hk0] at hk
      omega
    · rw [Rat.floor_intCast_div_natCast, zpow_neg, zpow_natCast]
      have := Int.mul_ediv_add_emod k ((2 ^ n : Nat) : Int)
      have e : ((k % ((2 ^ n : Nat) : Int) : Int) : Rat) = k - ((2 ^ n : Nat) : Rat) * ((k / ((2 ^ n : Nat) : Int) : Int) : Rat) := by
        have : k % ((2 ^ n : Nat) : Int) = k - ((2 ^ n : Nat) : Int) * (k / ((2 ^ n : Nat) : Int)) := by omega
        rw [this]; push_cast; ring
      rw [e]
      have p : ((2 ^ n : Nat) : Rat) ≠ 0 := by positivity
      push_cast at p ⊢
      field_simp

/-- The position of an output column in the input. -/
theorem biPos_spec (larger : Bool) {w ow x : Nat} (hw : 0 < w) (hw2 : w ≤ 2 ^ 22) (ho : ow ≤ 2 ^ 21) (hx : x < ow) :
    ∃ t : Rat, 0 ≤ t ∧ t < w ∧ |t - x * w / ow| ≤ 4 * w / 2 ^ 24 ∧ 0 ≤ (x * w / ow : Rat) ∧ biPos larger w (biRatio w ow) x = (⌊t⌋.toNat, min (⌊t⌋.toNat + 1) (w - 1), Int.fract t) ∧
      ⌊t⌋.toNat ≤ w - 1 := by
  have o0 : (0 : Rat) < ow := by exact_mod_cast Nat.lt_of_le_of_lt (Nat.zero_le _) hx
  have w0 : (0 : Rat) < w := by exact_mod_cast hw
  have x0 : (0 : Rat) ≤ x := by positivity
  have ap : Approx 3 (|(x : Rat)| * (|1 / (ow : Rat)| * |(w : Rat)|)) ((x : Rat) * (1 / ow * w)) (rnd 24 (x * biRatio w ow)) := by
    unfold biRatio
    rw [rnd_nat24 (by omega), rnd_nat24 (by omega)]
    have := ((Approx.self (x : Rat)).mul ((((Approx.self (1 / (ow : Rat))).rnd).mul (.self (w : Rat))).rnd)).rnd
    exact this
  have X : (x : Rat) * (1 / ow * w) = x * w / ow := by ring
  have Xn : (0 : Rat) ≤ x * w / ow := by positivity
  rw [abs_of_nonneg x0, abs_of_nonneg (by positivity), abs_of_nonneg w0.le, X] at ap
  have nr := ap.near (by omega)
  push_cast at nr
  have hle : (x : Rat) + 1 ≤ ow := by exact_mod_cast hx
  have ho' : (ow : Rat) ≤ 2 ^ 21 := by exact_mod_cast ho
  have xl : (x : Rat) * w / ow ≤ w - w / ow := by
    rw [div_le_iff₀ o0, sub_mul, div_mul_cancel₀ _ o0.ne']
    nlinarith
  have wo : (w : Rat) / 2 ^ 21 ≤ w / ow := div_le_div_of_nonneg_left w0.le o0 ho'
  have t0 : 0 ≤ rnd 24 (x * biRatio w ow) := by
    rw [← rnd_zero 24]
    refine rnd_mono (by norm_num) (mul_nonneg x0 ?_)
    unfold biRatio
    rw [← rnd_zero 24]
    refine rnd_mono (by norm_num) (mul_nonneg ?_ ?_)
    · rw [← rnd_zero 24]
      refine rnd_mono (by norm_num) ?_
      rw [rnd_nat24 (by omega)]; positivity
    · rw [rnd_nat24 (by omega)]; positivity
  have tw : rnd 24 (x * biRatio w ow) < w := by
    have : (4 : Rat) / 2 ^ 24 * (x * w / ow) ≤ 4 / 2 ^ 24 * w := mul_le_mul_of_nonneg_left (by linarith [show (0 : Rat) ≤ w / ow by positivity]) (by norm_num)
    have e : (4 : Rat) / 2 ^ 24 * w < w / 2 ^ 21 := by
      rw [show (4 : Rat) / 2 ^ 24 * w = w / 2 ^ 22 by ring]
      exact div_lt_div_of_pos_left w0 (by norm_num) (by norm_num)
    linarith [nr.1]
  have fl : ⌊rnd 24 (x * biRatio w ow)⌋ < w := by
    rw [Int.floor_lt]; exact_mod_cast tw
  have fn : 0 ≤ ⌊rnd 24 (x * biRatio w ow)⌋ := Int.floor_nonneg.2 t0
  have hf : ⌊rnd 24 (x * biRatio w ow)⌋.toNat ≤ w - 1 := by omega
  refine ⟨rnd 24 (x * biRatio w ow), t0, tw, ?_, Xn, ?_, hf⟩
  · have : (4 : Rat) / 2 ^ 24 * (x * w / ow) ≤ 4 * w / 2 ^ 24 := by
      have := mul_le_mul_of_nonneg_left (show (x : Rat) * w / ow ≤ w by linarith [show (0 : Rat) ≤ w / ow by positivity]) (show (0 : Rat) ≤ 4 / 2 ^ 24 by norm_num)
      linarith
    rw [abs_le]
    constructor <;> linarith [nr.1, nr.2]
  · unfold biPos
    rw [rnd_nat24 (show x ≤ 2 ^ 24 by omega)]
    have e : (if larger then min ⌊rnd 24 (x * biRatio w ow)⌋.toNat (w - 1) else ⌊rnd 24 (x * biRatio w ow)⌋.toNat) = ⌊rnd 24 (x * biRatio w ow)⌋.toNat := by
      split
      · exact min_eq_left hf
      · rfl
    simp only [e, Prod.mk.injEq, true_and]
    rw [rnd_nat24 (by omega)]
    have c : ((⌊rnd 24 (x * biRatio w ow)⌋.toNat : Nat) : Rat) = (⌊rnd 24 (x * biRatio w ow)⌋ : Rat) := by exact_mod_cast Int.toNat_of_nonneg fn
    rw [c, rnd_fit (by norm_num) (fract_fits (rnd_fits 24 _) t0)]
    rfl

/-! ### The property -/

theorem biMix_approx (p00 p10 p01 p11 : Nat) {a b : Rat} (a0 : 0 ≤ a) (a1 : a ≤ 1) (b0 : 0 ≤ b) (b1 : b ≤ 1) :
    Approx 7 ((1 - b) * ((1 - a) * p00 + a * p10) + b * ((1 - a) * p01 + a * p11)) ((1 - b) * ((1 - a) * p00 + a * p10) + b * ((1 - a) * p01 + a * p11)) (biMix p00 p10 p01 p11 a b) := by
  have ps : ∀ p : Nat, Approx 0 (p : Rat) p p := fun p => by
    have := Approx.self (p : Rat); rwa [abs_of_nonneg (by positivity)] at this
  have pos : ∀ c : Rat, 0 ≤ c → Approx 0 c c c := fun c hc => by
    have := Approx.self c; rwa [abs_of_nonneg hc] at this
  have A := pos a a0
  have B := pos b b0
  have A' := (pos (1 - a) (by linarith)).rnd
  have B' := (pos (1 - b) (by linarith)).rnd
  have t00 := ((((ps p00).mul A').rnd).mul B').rnd
  have t10 := ((((ps p10).mul A).rnd).mul B').rnd
  have t01 := ((((ps p01).mul A').rnd).mul B).rnd
  have t11 := ((((ps p11).mul A).rnd).mul B).rnd
  have r := (((((t00.mono (show _ ≤ 4 by omega)).add (t10.mono (show _ ≤ 4 by omega))).rnd).add (t01.mono (show _ ≤ 4 + 1 by omega))).rnd.add (t11.mono (show _ ≤ 4 + 1 + 1 by omega))).rnd
  have e : (p00 : Rat) * (1 - a) * (1 - b) + p10 * a * (1 - b) + p01 * (1 - a) * b + p11 * a * b = (1 - b) * ((1 - a) * p00 + a * p10) + b * ((1 - a) * p01 + a * p11) := by ring
  rw [← e]
  exact r

theorem pixel_some {img : List Nat} {w h : Nat} (hi : img.length = w * h) {x y : Nat} (hx : x ≤ w - 1) (hy : y ≤ h - 1) (hw : 0 < w) (hh : 0 < h) :
    ∃ v : Nat, img[y * w + x]? = some v ∧ pixelAt img w h x y = v := by
  have : y * w + x < img.length := by rw [hi]; exact rowcol_lt (by omega) (by omega)
  refine ⟨img[y * w + x], List.getElem?_eq_getElem this, ?_⟩
  unfold pixelAt
  rw [min_eq_left hx, min_eq_left hy, List.getElem?_eq_getElem this]; rfl

theorem pixel_min (img : List Nat) (w h x y : Nat) : pixelAt img w h (min x (w - 1)) y = pixelAt img w h x y ∧ pixelAt img w h x (min y (h - 1)) = pixelAt img w h x y := by
  simp [pixelAt]

theorem biSample_spec {m M w h ow oh x y : Nat} {img : List Nat} (l1 l2 : Bool) (hi : img.length = w * h) (hm : ∀ v ∈ img, v ≤ M) (hM : M ≤ m) (hw : 0 < w) (hh : 0 < h) (hw2 : w ≤ 2 ^ 21)
    (hh2 : h ≤ 2 ^ 21) (ho : ow ≤ 2 ^ 21) (ho2 : oh ≤ 2 ^ 21) (hx : x < ow) (hy : y < oh) :
    ∃ v, biSample m img w (biPos l1 w (biRatio w ow) x) (biPos l2 h (biRatio h oh) y) = some v ∧
      RoundedDown (4 * M * (w + h + 2) / 2 ^ 24) (pictureAt img w h (x * w / ow) (y * h / oh)) v := by
  obtain ⟨s, s0, s1, s2, s3, s4, s5⟩ := biPos_spec l1 hw (by omega) ho hx
  obtain ⟨t, t0, t1, t2, t3, t4, t5⟩ := biPos_spec l2 hh (by omega) ho2 hy
  rw [s4, t4]
  obtain ⟨p00, a1, b1⟩ := pixel_some hi s5 t5 hw hh
  obtain ⟨p10, a2, b2⟩ := pixel_some hi (min_le_right (⌊s⌋.toNat + 1) (w - 1)) t5 hw hh
  obtain ⟨p01, a3, b3⟩ := pixel_some hi s5 (min_le_right (⌊t⌋.toNat + 1) (h - 1)) hw hh
  obtain ⟨p11, a4, b4⟩ := pixel_some hi (min_le_right (⌊s⌋.toNat + 1) (w - 1)) (min_le_right (⌊t⌋.toNat + 1) (h - 1)) hw hh
  rw [(pixel_min ..).1] at b2
  rw [(pixel_min ..).2] at b3
  rw [(pixel_min ..).2, (pixel_min ..).1] at b4
  refine ⟨toSample m (biMix p00 p10 p01 p11 (Int.fract s) (Int.fract t)), by simp [biSample, a1, a2, a3, a4], ?_⟩
  have ap := biMix_approx p00 p10 p01 p11 (Int.fract_nonneg s) (Int.fract_lt_one s).le (Int.fract_nonneg t) (Int.fract_lt_one t).le
  have ex : (1 - Int.fract t) * ((1 - Int.fract s) * p00 + Int.fract s * p10) + Int.fract t * ((1 - Int.fract s) * p01 + Int.fract s * p11) = pictureAt img w h s t := by
    unfold pictureAt lerp
    beta_reduce
    rw [b1, b2, b3, b4]
  rw [ex] at ap
  have bd : ∀ a b, 0 ≤ pictureAt img w h a b ∧ pictureAt img w h a b ≤ M := fun a b => lerp_between fun y => lerp_between fun x => pixelAt_le hm x y
  have nr := ap.near (by omega)
  push_cast at nr
  have w' : (w : Rat) ≤ 2 ^ 21 := by exact_mod_cast hw2
  have h' : (h : Rat) ≤ 2 ^ 21 := by exact_mod_cast hh2
  have li := pictureAt_lip (w := w) (h := h) hm s0 s3 t0 t3 (lt_of_le_of_lt s2 (by linarith)) (lt_of_le_of_lt t2 (by linarith))
  have m0 : (0 : Rat) ≤ M := by positivity
  have li2 : (M : Rat) * (|s - x * w / ow| + |t - y * h / oh|) ≤ M * (4 * w / 2 ^ 24 + 4 * h / 2 ^ 24) := mul_le_mul_of_nonneg_left (add_le_add s2 t2) m0
  have e8 : (8 : Rat) / 2 ^ 24 * pictureAt img w h s t ≤ 8 / 2 ^ 24 * M := mul_le_mul_of_nonneg_left (bd s t).2 (by norm_num)
  have tot : (M : Rat) * (4 * w / 2 ^ 24 + 4 * h / 2 ^ 24) + 8 / 2 ^ 24 * M = 4 * M * (w + h + 2) / 2 ^ 24 := by ring
  rw [abs_le] at li
  have := rounded_clamp (m := m) (x := pictureAt img w h (x * w / ow) (y * h / oh)) (y := biMix p00 p10 p01 p11 (Int.fract s) (Int.fract t)) (ε := 4 * M * (w + h + 2) / 2 ^ 24)
    (by linarith [nr.1, li.2]) (by linarith [nr.2, li.1])
  rw [clampQ_of_mem (bd _ _).1 (le_trans (bd _ _).2 (by exact_mod_cast hM)), ← toSample_clamp] at this
  exact this

theorem grid_mapM {β : Type} {g : Nat → Nat → Option β} {P : Nat → Nat → β → Prop} {w h : Nat} (H : ∀ x < w, ∀ y < h, ∃ v, g x y = some v ∧ P x y v) :
    ∃ rows : List (List β), ((List.range h).mapM fun y => (List.range w).mapM fun x => g x y) = some rows ∧ rows.flatten.length = w * h ∧
      ∀ x < w, ∀ y < h, ∃ v, rows.flatten[y * w + x]? = some v ∧ P x y v := by
  have row : ∀ y ∈ List.range h, ∃ r, ((List.range w).mapM fun x => g x y) = some r := fun y hy => by
    obtain ⟨r, h1, -⟩ := mapM_get (g := fun x => g x y) (l := List.range w) fun x hx => by
      obtain ⟨v, hv, -⟩ := H x (List.mem_range.1 hx) y (List.mem_range.1 hy); exact ⟨v, hv⟩
    exact ⟨r, h1⟩
  obtain ⟨rows, a1, a2, a3⟩ := mapM_get (g := fun y => (List.range w).mapM fun x => g x y) row
  have each : ∀ y r, rows[y]? = some r → y < h ∧ ((List.range w).mapM fun x => g x y) = some r := by
    intro y r hr
    have hy : y < h := by have := (List.getElem?_eq_some_iff.1 hr).1; rw [a2, List.length_range] at this; exact this
    obtain ⟨o, o1, o2⟩ := a3 y y (List.getElem?_range hy)
    rw [hr] at o1; obtain rfl := Option.some.inj o1
    exact ⟨hy, o2⟩
  have sp : ∀ y r, rows[y]? = some r → r.length = w ∧ ∀ x < w, ∃ v, r[x]? = some v ∧ P x y v := by
    intro y r hr
    obtain ⟨hy, e⟩ := each y r hr
    obtain ⟨r', b1, b2, b3⟩ := mapM_get (g := fun x => g x y) (l := List.range w) fun x hx => by
      obtain ⟨v, hv, -⟩ := H x (List.mem_range.1 hx) y hy; exact ⟨v, hv⟩
    rw [e] at b1; obtain rfl := Option.some.inj b1
    refine ⟨by rw [b2, List.length_range], fun x hx => ?_⟩
    obtain ⟨o, o1, o2⟩ := b3 x x (List.getElem?_range hx)
    obtain ⟨v, hv, hp⟩ := H x hx y hy
    rw [hv] at o2; obtain rfl := Option.some.inj o2
    exact ⟨_, o1, hp⟩
  have len : ∀ r ∈ rows, r.length = w := fun r hr => by
    obtain ⟨y, hy⟩ := List.mem_iff_getElem?.1 hr
    exact (sp y r hy).1
  refine ⟨rows, a1, by rw [rows_length len, a2, List.length_range, Nat.mul_comm], fun x hx y hy => ?_⟩
  have hy' : y < rows.length := by rw [a2, List.length_range]; exact hy
  rw [rows_get len hx, List.getElem?_eq_getElem hy']
  exact (sp y _ (List.getElem?_eq_getElem hy')).2 x hx

/-- **C110** (bilinear).  For pictures of up to 2²¹ columns and rows, and as many in the output, bilinear resizing does not panic, and the sample in column x and row y is the (continuously
    interpolated) picture at x·w/w' and y·h/h', rounded down, up to 4·M·(w + h + 2)·2⁻²⁴ with the largest input sample M. -/
theorem c110_bilinear {m M w h ow oh : Nat} {img : List Nat} (hi : img.length = w * h) (hm : ∀ v ∈ img, v ≤ M) (hM : M ≤ m) (hw : 0 < w) (hh : 0 < h) (hw2 : w ≤ 2 ^ 21) (hh2 : h ≤ 2 ^ 21)
    (ho : ow ≤ 2 ^ 21) (ho2 : oh ≤ 2 ^ 21) :
    ∃ out, bilinearResize m img w h ow oh = some out ∧ out.length = ow * oh ∧ ∀ x < ow, ∀ y < oh, ∃ v, out[y * ow + x]? = some v ∧
      RoundedDown (4 * M * (w + h + 2) / 2 ^ 24) (pictureAt img w h (x * w / ow) (y * h / oh)) v := by
  obtain ⟨rows, h1, h2, h3⟩ := grid_mapM (w := ow) (h := oh) fun x hx y hy =>
    biSample_spec (m := m) (decide (biRatio w ow < 1 ∧ biRatio h oh < 1)) (decide (biRatio w ow < 1 ∧ biRatio h oh < 1)) hi hm hM hw hh hw2 hh2 ho ho2 hx hy
  exact ⟨rows.flatten, by unfold bilinearResize; simp only [h1]; rfl, h2, h3⟩

example : ∃ out, bilinearResize 255 [10, 20, 30, 40] 2 2 3 5 = some out ∧ out.length = 3 * 5 ∧ ∀ x : Nat, x < 3 → ∀ y : Nat, y < 5 → ∃ v, out[y * 3 + x]? = some v ∧
    RoundedDown (4 * (40 : Nat) * ((2 : Nat) + (2 : Nat) + 2) / 2 ^ 24) (pictureAt [10, 20, 30, 40] 2 2 (x * (2 : Nat) / (3 : Nat)) (y * (2 : Nat) / (5 : Nat))) v :=
  c110_bilinear (img := [10, 20, 30, 40]) rfl (by decide) (by norm_num) (by norm_num) (by norm_num) (by norm_num) (by norm_num) (by norm_num) (by norm_num)

theorem picture_const {w h c : Nat} (hw : 0 < w) (hh : 0 < h) (s t : Rat) : pictureAt (List.replicate (w * h) c) w h s t = c := by
  have p : ∀ x y, pixelAt (List.replicate (w * h) c) w h x y = c := by
    intro x y
    have : min y (h - 1) * w + min x (w - 1) < w * h := rowcol_lt (by omega) (by omega)
    unfold pixelAt
    rw [List.getElem?_replicate, if_pos this]; rfl
  have := lerp_between (f := fun y => lerp (fun x => pixelAt (List.replicate (w * h) c) w h x y) s) (t := t) (lo := c) (hi := c) fun y =>
    lerp_between fun x => by rw [p]; exact ⟨le_rfl, le_rfl⟩
  exact le_antisymm this.2 this.1

/-- **C110** (one colour, partial).  A picture of one colour stays so, except that samples can become one less (see `c110_white_wrong`). -/
theorem c110_constant_partial {m w h ow oh c : Nat} (hc : c ≤ m) (hw : 0 < w) (hh : 0 < h) (hw2 : w ≤ 2 ^ 21) (hh2 : h ≤ 2 ^ 21) (ho : ow ≤ 2 ^ 21) (ho2 : oh ≤ 2 ^ 21)
    (hs : 4 * c * (w + h + 2) < 2 ^ 24) : ∃ out, bilinearResize m (List.replicate (w * h) c) w h ow oh = some out ∧ ∀ v ∈ out, v = c ∨ v + 1 = c := by
  obtain ⟨out, h1, h2, h3⟩ := c110_bilinear (m := m) (M := c) (w := w) (h := h) (ow := ow) (oh := oh) (img := List.replicate (w * h) c) (by simp)
    (fun v hv => (List.eq_of_mem_replicate hv).le) hc hw hh hw2 hh2 ho ho2
  refine ⟨out, h1, fun v hv => ?_⟩
  obtain ⟨k, hk⟩ := List.mem_iff_getElem?.1 hv
  have hk2 : k < ow * oh := by rw [← h2]; exact (List.getElem?_eq_some_iff.1 hk).1
  have o0 : 0 < ow := by
    rcases Nat.eq_zero_or_pos ow with e | e
    · subst e; simp at hk2
    · exact e
  obtain ⟨v', e1, e2⟩ := h3 (k % ow) (Nat.mod_lt _ o0) (k / ow) (Nat.div_lt_of_lt_mul hk2)
  rw [Nat.mul_comm, Nat.div_add_mod, hk] at e1
  obtain rfl := Option.some.inj e1
  rw [picture_const hw hh] at e2
  have hs' : 4 * (c : Rat) * (w + h + 2) / 2 ^ 24 < 1 := by
    rw [div_lt_one (by norm_num)]
    exact_mod_cast hs
  have a : (c : Rat) < v + 2 := by linarith [e2.1]
  have b : (v : Rat) < c + 1 := by linarith [e2.2]
  have a' : c < v + 2 := by exact_mod_cast a
  have b' : v < c + 1 := by exact_mod_cast b
  omega

example : ∃ out, bilinearResize 255 (List.replicate (100 * 50) 255) 100 50 200 75 = some out ∧ ∀ v ∈ out, v = 255 ∨ v + 1 = 255 :=
  c110_constant_partial (by norm_num) (by norm_num) (by norm_num) (by norm_num) (by norm_num) (by norm_num) (by norm_num) (by norm_num)

/-- **C110** (negative).  The sum is cut off instead of rounded, so white gets darker spots. -/
theorem c110_white_wrong : bilinearResize 255 (List.replicate 9 255) 3 3 7 5 ≠ some (List.replicate 35 255) := by decide +kernel

/-- **C110** (negative).  Resizing to the same size changes the picture: with 41 columns `1.0 / 41.0 * 41.0` is below 1, and samples become one less. -/
theorem c110_same_wrong : bilinearResize 255 (List.range 41) 41 1 41 1 = some (0 :: List.range 40) := by decide +kernel

end Zune.Imageprocs
