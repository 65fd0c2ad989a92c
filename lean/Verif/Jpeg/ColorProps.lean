import Verif.Jpeg.ColorLemmas
import Mathlib.Data.Rat.Cast.Order
import Mathlib.Tactic.NormNum

/-!
# zune-jpeg: colour conversion (properties C46, C66)
-/

namespace Zune.Jpeg

/-! ## One pixel (C46) -/

/-- **C46.** Neutral chroma gives a grey pixel with exactly the luma value. -/
theorem c46_grey (y : Int) (hy : Sample y) :
    let p := ycbcrPixel y 128 128
    (p.r.toNat : Int) = y ∧ (p.g.toNat : Int) = y ∧ (p.b.toNat : Int) = y := by
  obtain ⟨h0, h1⟩ := hy
  unfold ycbcrPixel
  simp only [clampU8_toNat]
  rw [show wrap16 (128 - 128) = 0 by decide]
  refine ⟨?_, ?_, ?_⟩ <;> omega

/-- Specification: the conversion of ITU-T T.871 (JFIF), clause 7, with exact rational numbers:
`R = Y + 1.402 (Cr - 128)`, `B = Y + 1.772 (Cb - 128)` and `G` such that
`Y = 0.299 R + 0.587 G + 0.114 B`. -/
structure Exact (y cb cr r g b : ℚ) : Prop where
  red : r = y + 1402 / 1000 * (cr - 128)
  blue : b = y + 1772 / 1000 * (cb - 128)
  luma : y = 299 / 1000 * r + 587 / 1000 * g + 114 / 1000 * b

/-- Specification: limited to 0..255. -/
def limit (x : ℚ) : ℚ := max 0 (min 255 x)

theorem limit_close (q : Int) (x e : ℚ) (h1 : x - e ≤ q) (h2 : (q : ℚ) ≤ x + e) (he : 0 ≤ e) :
    |(((clampU8 q).toNat : Int) : ℚ) - limit x| ≤ e := by
  rw [clampU8_toNat]
  push_cast
  unfold limit
  rw [abs_le]
  rcases max_cases (0 : ℚ) (min 255 (q : ℚ)) with ⟨e1, _⟩ | ⟨e1, _⟩ <;>
  rcases max_cases (0 : ℚ) (min 255 x) with ⟨e2, _⟩ | ⟨e2, _⟩ <;>
  rcases min_cases (255 : ℚ) (q : ℚ) with ⟨e3, _⟩ | ⟨e3, _⟩ <;>
  rcases min_cases (255 : ℚ) x with ⟨e4, _⟩ | ⟨e4, _⟩ <;>
  rw [e1, e2] <;> constructor <;> linarith

theorem floor14 (n : Int) : ((n : ℚ) - 16383) / 16384 ≤ ((n / 2 ^ 14 : Int) : ℚ) ∧
    ((n / 2 ^ 14 : Int) : ℚ) ≤ (n : ℚ) / 16384 := by
  have h1 : n - 16383 ≤ 16384 * (n / 2 ^ 14) := by omega
  have h2 : 16384 * (n / 2 ^ 14) ≤ n := by omega
  have h1 : ((n - 16383 : Int) : ℚ) ≤ ((16384 * (n / 2 ^ 14) : Int) : ℚ) := Int.cast_le.2 h1
  have h2 : ((16384 * (n / 2 ^ 14) : Int) : ℚ) ≤ (n : ℚ) := Int.cast_le.2 h2
  generalize n / 2 ^ 14 = q at *
  push_cast at h1 h2
  constructor
  · rw [div_le_iff₀ (by norm_num)]; linarith
  · rw [le_div_iff₀ (by norm_num)]; linarith

/-- **C46.** For every triple of samples each colour is in 0..255 and within 0.51 of the exact
value limited to 0..255.  (The claim asks for one unit; half a unit is the best any rounding to
an integer can do.) -/
theorem c46_close (y cb cr : Int) (hy : Sample y) (hb : Sample cb) (hr : Sample cr) (r g b : ℚ)
    (hx : Exact y cb cr r g b) :
    let p := ycbcrPixel y cb cr
    |((p.r.toNat : Int) : ℚ) - limit r| ≤ 51 / 100 ∧
    |((p.g.toNat : Int) : ℚ) - limit g| ≤ 51 / 100 ∧
    |((p.b.toNat : Int) : ℚ) - limit b| ≤ 51 / 100 := by
  obtain ⟨hy0, hy1⟩ := hy
  obtain ⟨hb0, hb1⟩ := hb
  obtain ⟨hr0, hr1⟩ := hr
  obtain ⟨e1, e2, e3⟩ := hx
  have qb0 : (0 : ℚ) ≤ cb := by exact_mod_cast hb0
  have qb1 : (cb : ℚ) ≤ 255 := by exact_mod_cast hb1
  have qr0 : (0 : ℚ) ≤ cr := by exact_mod_cast hr0
  have qr1 : (cr : ℚ) ≤ 255 := by exact_mod_cast hr1
  unfold ycbcrPixel
  rw [wrap16_id (cr - 128) (by omega) (by omega), wrap16_id (cb - 128) (by omega) (by omega)]
  simp only
  refine ⟨?_, ?_, ?_⟩
  · obtain ⟨h1, h2⟩ := floor14 (y * 16384 + 8191 + (cr - 128) * 22970)
    push_cast at h1 h2
    apply limit_close _ _ _ _ _ (by norm_num)
    · refine le_trans ?_ h1
      rw [le_div_iff₀ (by norm_num)]; linarith
    · refine le_trans h2 ?_
      rw [div_le_iff₀ (by norm_num)]; linarith
  · obtain ⟨h1, h2⟩ := floor14 (y * 16384 + 8191 + (cr - 128) * (-11700) + (cb - 128) * (-5638))
    push_cast at h1 h2
    apply limit_close _ _ _ _ _ (by norm_num)
    · refine le_trans ?_ h1
      rw [le_div_iff₀ (by norm_num)]; linarith
    · refine le_trans h2 ?_
      rw [div_le_iff₀ (by norm_num)]; linarith
  · obtain ⟨h1, h2⟩ := floor14 (y * 16384 + 8191 + (cb - 128) * 29032)
    push_cast at h1 h2
    apply limit_close _ _ _ _ _ (by norm_num)
    · refine le_trans ?_ h1
      rw [le_div_iff₀ (by norm_num)]; linarith
    · refine le_trans h2 ?_
      rw [div_le_iff₀ (by norm_num)]; linarith

example : Sample 100 ∧ Sample 200 ∧ Sample 30 ∧ ycbcrPixel 100 200 30 = ⟨0, 145, 228⟩ ∧
    ∃ r g b, Exact 100 200 30 r g b :=
  ⟨by unfold Sample; omega, by unfold Sample; omega, by unfold Sample; omega, by decide,
    100 + 1402 / 1000 * (30 - 128),
    (100 - 299 / 1000 * (100 + 1402 / 1000 * (30 - 128)) - 114 / 1000 * (100 + 1772 / 1000 * (200 - 128)))
      / (587 / 1000), 100 + 1772 / 1000 * (200 - 128), by constructor <;> norm_num⟩

/-- **C46.** The AVX2 conversions of sixteen pixels give exactly the bytes of the scalar ones, for
all samples in 0..255. -/
theorem c46_avx2 (alpha : Bool) (y cb cr : Nat → Int)
    (hs : ∀ i, Sample (y i) ∧ Sample (cb i) ∧ Sample (cr i)) :
    conv16Avx alpha (plane y 0 16) (plane cb 0 16) (plane cr 0 16) =
      conv16Scalar (if alpha then .rgba else .rgb) (plane y 0 16) (plane cb 0 16) (plane cr 0 16) := by
  rw [conv16Avx_eq alpha y cb cr hs 0, conv16Scalar_eq]

/-- **C46**, the limit of `c46_avx2`: outside 0..255 the two differ (the transforms do not produce
such samples, `c45_range`). -/
theorem c46_avx2_outside : conv16Avx false (plane (fun _ => 100) 0 16) (plane (fun _ => 128) 0 16)
      (plane (fun _ => 300) 0 16) ≠
    conv16Scalar .rgb (plane (fun _ => 100) 0 16) (plane (fun _ => 128) 0 16)
      (plane (fun _ => 300) 0 16) := by decide +kernel

example : (∀ i : Nat, Sample ((i % 256 : Nat) : Int)) := by
  intro i; unfold Sample; omega

/-! ## A line (C66) -/

/-- Specification: a sample as a byte. -/
def byte (x : Int) : UInt8 := UInt8.ofNat x.toNat

/-- Specification: the product of two values of 0..255 taken as fractions of 255, rounded. -/
def scaled (x y : Nat) : UInt8 := UInt8.ofNat ((2 * (x * y) + 255) / 510)

/-- Specification: number of bytes of an output pixel. -/
def OutSpace.n : OutSpace → Nat
  | .luma => 1
  | .lumaA => 2
  | .ycbcr => 3
  | .cmyk | .ycck => 4
  | .layout l => l.n

/-- Specification: the bytes of a pixel, in the order the colour space is named after; an opaque
alpha. -/
def bytesOf (l : Layout) (r g b : UInt8) : List UInt8 :=
  match l with
  | .rgb => [r, g, b]
  | .rgba => [r, g, b, 255]
  | .bgr => [b, g, r]
  | .bgra => [b, g, r, 255]

/-- Specification of the supported pairs: the bytes of an output pixel as a function of the four
samples at its position (`ycbcrPixel` is specified by `c46_close`). -/
def pixelOf (i : InSpace) (o : OutSpace) (a b c d : Int) : Option (List UInt8) :=
  let p := ycbcrPixel a b c
  match i, o with
  | .luma, .luma => some [byte a]
  | .ycbcr, .luma => some [byte a]
  | .luma, .layout .rgb => some (bytesOf .rgb (byte a) (byte a) (byte a))
  | .luma, .layout .rgba => some (bytesOf .rgba (byte a) (byte a) (byte a))
  | .ycbcr, .ycbcr => some [byte a, byte b, byte c]
  | .rgb, .layout .rgb => some [byte a, byte b, byte c]
  | .cmyk, .cmyk => some [byte a, byte b, byte c, byte d]
  | .ycck, .ycck => some [byte a, byte b, byte c, byte d]
  | .ycbcr, .layout l => some (bytesOf l p.r p.g p.b)
  | .ycck, .layout .rgb =>
    some (bytesOf .rgb (scaled (255 - p.r.toNat) d.toNat) (scaled (255 - p.g.toNat) d.toNat)
      (scaled (255 - p.b.toNat) d.toNat))
  | .ycck, .layout .rgba =>
    some (bytesOf .rgba (scaled (255 - p.r.toNat) d.toNat) (scaled (255 - p.g.toNat) d.toNat)
      (scaled (255 - p.b.toNat) d.toNat))
  | .cmyk, .layout .rgb =>
    some (bytesOf .rgb (scaled a.toNat d.toNat) (scaled b.toNat d.toNat) (scaled c.toNat d.toNat))
  | .cmyk, .layout .rgba =>
    some (bytesOf .rgba (scaled a.toNat d.toNat) (scaled b.toNat d.toNat) (scaled c.toNat d.toNat))
  | .multi n, .lumaA => if n = 2 then some [byte a, byte b] else none
  | _, _ => none

theorem lowByte_eq (a : Int) (h : Sample a) : lowByte a = byte a := by
  obtain ⟨h0, h1⟩ := h
  unfold lowByte byte
  congr 1
  omega

theorem blinn_nat (n : Nat) (hn : n ≤ 255 * 255) :
    (n + 128 + (n + 128) / 256) / 256 = (2 * n + 255) / 510 := by
  omega

theorem blinn_eq (x y : UInt8) : blinn x y = scaled x.toNat y.toNat := by
  have hx := x.toNat_lt
  have hy := y.toNat_lt
  have hn : x.toNat * y.toNat ≤ 255 * 255 := Nat.mul_le_mul (by omega) (by omega)
  unfold blinn scaled
  generalize x.toNat * y.toNat = n at hn
  simp only
  rw [show 2 ^ 8 = 256 from rfl, blinn_nat n hn]

theorem lowByte_nat (a : Int) (h : Sample a) : (lowByte a).toNat = a.toNat := by
  have := lowByte_toNat a h.1 h.2
  omega

theorem copy_line (gs : List (Nat → Int)) (hg : gs ≠ []) (width padded k : Nat) (hk : 0 < k)
    (hw : 0 < width) (hp : width ≤ padded) (out : List UInt8) (ho : out.length = width * k)
    (f : List UInt8 → List Int → List UInt8) (F : Nat → List UInt8)
    (hf : ∀ j, j < width → f ((out.drop (j * k)).take k) (gs.map fun g => g j) = F j) :
    pixelLines (width * k) padded k f (gs.map fun g => plane g 0 padded) out =
      some ((List.range width).flatMap F) := by
  rw [pixelLines_eq (width * k) padded k width f gs hg out hw hk hp (by omega) (by omega)
    (by rw [Nat.succ_mul]; omega)]
  have hd : out.drop (width * k) = [] := List.drop_eq_nil_of_le (by omega)
  rw [hd, List.append_nil]
  congr 1
  rw [List.flatMap_def, List.flatMap_def]
  congr 1
  apply List.map_congr_left
  intro j hj
  exact hf j (List.mem_range.1 hj)

theorem store_eq (l : Layout) (p : Rgb) : l.store p = bytesOf l p.r p.g p.b := by
  cases l <;> rfl

theorem drop_flatMap_range (f : Nat → List UInt8) (n w : Nat) (hf : ∀ i, (f i).length = n) (j : Nat)
    (hj : j < w) : (((List.range w).flatMap f).drop (j * n)).take n = f j := by
  obtain ⟨e, rfl⟩ := Nat.exists_eq_add_of_le hj
  rw [show j.succ + e = j + (e + 1) by omega, List.range_add, List.flatMap_append,
    List.drop_left' (by rw [flatMap_length_const _ f n (fun i _ => hf i), List.length_range]),
    List.range_succ_eq_map, List.map_cons, List.flatMap_cons, List.take_left' (hf _)]
  rfl

theorem sub255 (x : UInt8) : (255 - x).toNat = 255 - x.toNat := by
  have := x.toNat_lt
  rw [UInt8.toNat_sub_of_le _ _ (UInt8.le_iff_toNat_le.2 (by show x.toNat ≤ 255; omega))]
  rfl

/-- **C66.** For each pair of colour spaces the decoder supports other than CMYK or YCCK to RGBA
and two bands to anything but two components: one line is converted pixel by pixel, each from the
samples at its own position, and the padding of the planes is left out.  Holds with and without
AVX2 and for every width.  Not covered because the code is wrong there: `c66_cmyk_rgba`,
`c66_ycck_rgba`, `c66_two_bands`. -/
theorem c66_line_partial (avx2 : Bool) (i : InSpace) (o : OutSpace) (width padded : Nat)
    (hw : 0 < width) (hp : width ≤ padded) (a b c d : Nat → Int)
    (ha : ∀ j, Sample (a j)) (hb : ∀ j, Sample (b j)) (hc : ∀ j, Sample (c j))
    (hd : ∀ j, Sample (d j)) (F : Nat → List UInt8)
    (hF : ∀ j, pixelOf i o (a j) (b j) (c j) (d j) = some (F j))
    (hbr : ¬((i = .cmyk ∨ i = .ycck) ∧ o = .layout .rgba))
    (out : List UInt8) (ho : out.length = width * o.n) :
    colorConvert avx2 i o width padded (plane a 0 padded) (plane b 0 padded) (plane c 0 padded)
      (plane d 0 padded) out = .ok ((List.range width).flatMap F) := by
  have L : ∀ {x : Except CErr (List UInt8)} {q : Option (List UInt8)} {r : List UInt8},
      x = orPanic q → q = some r → x = .ok r := by
    rintro _ _ _ rfl rfl; rfl
  have la := fun j => lowByte_eq _ (ha j)
  have lb := fun j => lowByte_eq _ (hb j)
  have lc := fun j => lowByte_eq _ (hc j)
  have ld := fun j => lowByte_eq _ (hd j)
  have na := fun j => lowByte_nat _ (ha j)
  have nb := fun j => lowByte_nat _ (hb j)
  have nc := fun j => lowByte_nat _ (hc j)
  have nd := fun j => lowByte_nat _ (hd j)
  cases i with
  | luma =>
    cases o with
    | luma =>
      refine L rfl ((congrArg (fun n => pixelLines n padded 1 greyPixel [plane a 0 padded] out)
        (Nat.mul_one width).symm).trans
        (copy_line [a] (by simp) width padded 1 (by omega) hw hp out ho greyPixel F ?_))
      intro j _
      have := hF j
      simp only [pixelOf, Option.some.injEq] at this
      simp [greyPixel, la, ← this]
    | layout l =>
      cases l with
      | rgb =>
        refine L rfl (copy_line [a] (by simp) width padded 3 (by omega) hw hp out ho lumaRgbPixel F ?_)
        intro j _
        have := hF j
        simp only [pixelOf, Option.some.injEq] at this
        simp [lumaRgbPixel, la, ← this, bytesOf]
      | rgba =>
        refine L rfl (copy_line [a] (by simp) width padded 4 (by omega) hw hp out ho lumaRgbaPixel F ?_)
        intro j _
        have := hF j
        simp only [pixelOf, Option.some.injEq] at this
        simp [lumaRgbaPixel, la, ← this, bytesOf]
      | _ => exact absurd (hF 0) (by simp [pixelOf])
    | _ => exact absurd (hF 0) (by simp [pixelOf])
  | ycbcr =>
    cases o with
    | luma =>
      refine L rfl ((congrArg (fun n => pixelLines n padded 1 greyPixel [plane a 0 padded] out)
        (Nat.mul_one width).symm).trans
        (copy_line [a] (by simp) width padded 1 (by omega) hw hp out ho greyPixel F ?_))
      intro j _
      have := hF j
      simp only [pixelOf, Option.some.injEq] at this
      simp [greyPixel, la, ← this]
    | ycbcr =>
      refine L rfl (copy_line [a, b, c] (by simp) width padded 3 (by omega) hw hp out ho copyPixel F ?_)
      intro j _
      have := hF j
      simp only [pixelOf, Option.some.injEq] at this
      simp [copyPixel, la, lb, lc, ← this]
    | layout l =>
      have := ycbcrLines_eq avx2 l width padded hw hp a b c (fun j => ⟨ha j, hb j, hc j⟩) out ho
      refine L ?_ (this.trans ?_)
      · cases l <;> rfl
      · congr 2
        funext j
        have := hF j
        simp only [pixelOf, Option.some.injEq] at this
        rw [← this, store_eq]
    | _ => exact absurd (hF 0) (by simp [pixelOf])
  | rgb =>
    cases o with
    | layout l =>
      cases l with
      | rgb =>
        refine L rfl (copy_line [a, b, c] (by simp) width padded 3 (by omega) hw hp out ho copyPixel F ?_)
        intro j _
        have := hF j
        simp only [pixelOf, Option.some.injEq] at this
        simp [copyPixel, la, lb, lc, ← this]
      | _ => exact absurd (hF 0) (by simp [pixelOf])
    | _ => exact absurd (hF 0) (by simp [pixelOf])
  | cmyk =>
    cases o with
    | cmyk =>
      refine L rfl (copy_line [a, b, c, d] (by simp) width padded 4 (by omega) hw hp out ho copyPixel F ?_)
      intro j _
      have := hF j
      simp only [pixelOf, Option.some.injEq] at this
      simp [copyPixel, la, lb, lc, ld, ← this]
    | layout l =>
      cases l with
      | rgb =>
        refine L rfl (copy_line [a, b, c, d] (by simp) width padded 3 (by omega) hw hp out ho cmykPixel F ?_)
        intro j _
        have := hF j
        simp only [pixelOf, Option.some.injEq] at this
        simp only [List.map_cons, List.map_nil, cmykPixel, blinn_eq, na, nb, nc, nd, ← this, bytesOf]
      | rgba => exact absurd ⟨.inl rfl, rfl⟩ hbr
      | _ => exact absurd (hF 0) (by simp [pixelOf])
    | _ => exact absurd (hF 0) (by simp [pixelOf])
  | ycck =>
    cases o with
    | ycck =>
      refine L rfl (copy_line [a, b, c, d] (by simp) width padded 4 (by omega) hw hp out ho copyPixel F ?_)
      intro j _
      have := hF j
      simp only [pixelOf, Option.some.injEq] at this
      simp [copyPixel, la, lb, lc, ld, ← this]
    | layout l =>
      cases l with
      | rgb =>
        refine L rfl ?_
        unfold ycckLines
        rw [ycbcrLines_eq avx2 .rgb width padded hw hp a b c (fun j => ⟨ha j, hb j, hc j⟩) out ho]
        refine copy_line [d] (by simp) width padded 3 (by omega) hw hp _ ?_ ycckPixel F ?_
        · rw [flatMap_length_const _ _ 3 (fun i _ => rfl), List.length_range]
        intro j hj
        rw [drop_flatMap_range _ 3 width (fun _ => rfl) j hj]
        have := hF j
        simp only [pixelOf, Option.some.injEq] at this
        simp only [List.map_cons, List.map_nil, store_eq, bytesOf, ycckPixel, blinn_eq, sub255, nd, ← this]
      | rgba => exact absurd ⟨.inr rfl, rfl⟩ hbr
      | _ => exact absurd (hF 0) (by simp [pixelOf])
    | _ => exact absurd (hF 0) (by simp [pixelOf])
  | multi n =>
    cases o with
    | lumaA =>
      by_cases hn : n = 2
      · subst hn
        refine L rfl (copy_line [a, b] (by simp) width padded 2 (by omega) hw hp out ho copyPixel F ?_)
        intro j _
        have := hF j
        simp only [pixelOf, if_true, Option.some.injEq] at this
        simp [copyPixel, la, lb, ← this]
      · exact absurd (hF 0) (by simp [pixelOf, hn])
    | _ => exact absurd (hF 0) (by simp [pixelOf])

example : (∀ j : Nat, Sample ((j * 37 % 256 : Nat) : Int)) ∧
    (∀ j : Nat, pixelOf .ycck (.layout .rgb) ((j * 37 % 256 : Nat) : Int) 30 200 77 =
      some ((pixelOf .ycck (.layout .rgb) ((j * 37 % 256 : Nat) : Int) 30 200 77).get rfl)) ∧
    (List.replicate (21 * 3) (0 : UInt8)).length = 21 * (OutSpace.layout .rgb).n :=
  ⟨fun j => by unfold Sample; omega, fun _ => rfl, by rw [List.length_replicate]; rfl⟩

/-- **C66 fails** for CMYK to RGBA (DESIGN J2): the pixels are stored as three bytes, the rest of the
line is never written and there is no alpha.  Two pixels, all inks at 255. -/
theorem c66_cmyk_rgba :
    colorConvert false .cmyk (.layout .rgba) 2 8 (plane (fun _ => 255) 0 8) (plane (fun _ => 100) 0 8)
        (plane (fun _ => 50) 0 8) (plane (fun _ => 255) 0 8) (List.replicate 8 0) =
      .ok [255, 100, 50, 255, 100, 50, 0, 0] ∧
    pixelOf .cmyk (.layout .rgba) 255 100 50 255 = some [255, 100, 50, 255] := by
  decide +kernel

/-- **C66 fails** for YCCK to RGBA (DESIGN J3): the last quarter of the pixels of a line is left as
plain YCbCr. -/
theorem c66_ycck_rgba :
    colorConvert false .ycck (.layout .rgba) 4 8 (plane (fun _ => 100) 0 8) (plane (fun _ => 128) 0 8)
        (plane (fun _ => 128) 0 8) (plane (fun _ => 255) 0 8) (List.replicate 16 0) =
      .ok [155, 155, 155, 255, 155, 155, 155, 255, 155, 155, 155, 255, 100, 100, 100, 255] ∧
    pixelOf .ycck (.layout .rgba) 100 128 128 255 = some [155, 155, 155, 255] := by
  decide +kernel

/-- **C66 fails** for images of two bands (DESIGN J4): with the default output RGB the conversion is
accepted, but the line gets two-byte pixels and its last third is never written. -/
theorem c66_two_bands :
    colorConvert false (.multi 2) (.layout .rgb) 3 8 (plane (fun j => 10 * j) 0 8)
        (plane (fun _ => 77) 0 8) [] [] (List.replicate 9 0) =
      .ok [0, 77, 10, 77, 20, 77, 0, 0, 0] := by
  decide +kernel

/-- **C66.** All other pairs are refused with an error, so nothing is converted wrongly without
notice apart from J2 to J4. -/
theorem c66_unsupported (avx2 : Bool) (i : InSpace) (o : OutSpace) (width padded : Nat)
    (p0 p1 p2 p3 : List Int) (out : List UInt8) (h2 : i ≠ .multi 2)
    (h : ∀ a b c d, pixelOf i o a b c d = none) :
    ∃ e, e ≠ .panic ∧ colorConvert avx2 i o width padded p0 p1 p2 p3 out = .error e := by
  have h := h 0 0 0 0
  cases i with
  | multi n =>
    have hn : n ≠ 2 := fun e => h2 (by rw [e])
    exact ⟨.multiband, by decide, by simp [colorConvert, hn]⟩
  | luma =>
    cases o with
    | layout l => cases l <;> first | exact ⟨.unimplemented, by decide, rfl⟩ | simp [pixelOf] at h
    | _ => first | exact ⟨.unimplemented, by decide, rfl⟩ | simp [pixelOf] at h
  | ycbcr =>
    cases o with
    | layout l => cases l <;> first | exact ⟨.unimplemented, by decide, rfl⟩ | simp [pixelOf] at h
    | _ => first | exact ⟨.unimplemented, by decide, rfl⟩ | simp [pixelOf] at h
  | rgb =>
    cases o with
    | layout l => cases l <;> first | exact ⟨.unimplemented, by decide, rfl⟩ | simp [pixelOf] at h
    | _ => first | exact ⟨.unimplemented, by decide, rfl⟩ | simp [pixelOf] at h
  | cmyk =>
    cases o with
    | layout l => cases l <;> first | exact ⟨.unimplemented, by decide, rfl⟩ | simp [pixelOf] at h
    | _ => first | exact ⟨.unimplemented, by decide, rfl⟩ | simp [pixelOf] at h
  | ycck =>
    cases o with
    | layout l => cases l <;> first | exact ⟨.unimplemented, by decide, rfl⟩ | simp [pixelOf] at h
    | _ => first | exact ⟨.unimplemented, by decide, rfl⟩ | simp [pixelOf] at h

example : InSpace.cmyk ≠ .multi 2 ∧ ∀ a b c d, pixelOf .cmyk .luma a b c d = none :=
  ⟨by decide, fun _ _ _ _ => rfl⟩

end Zune.Jpeg
