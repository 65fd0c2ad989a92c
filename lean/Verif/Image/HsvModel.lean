/-
Model of the conversions between RGB and HSV and between RGB and HSL of
`crates/zune-image/src/core_filters/colorspace/rgb_to_hsv.rs` and `rgb_to_hsl.rs`.
A finite `f32` is a rational number, and every operation is the exact one followed by rounding to 24 bits (`Zune.Float.rnd`);
overflow, underflow, infinities and NaNs are not modelled (a division by zero, which gives one of them, is `none`).
-/
import Verif.Common.Float
import Mathlib.Algebra.Order.Round
import Mathlib.Algebra.Order.Floor.Ring

namespace Zune.Hsv
open Zune.Float (rnd)

/-- `python_mod(n, 1.0)` (rgb_to_hsv.rs:1-3, rgb_to_hsl.rs:13-18), the only base the code uses: dividing by 1 and multiplying by 1
    change nothing. -/
def pyMod (n : Rat) : Rat := rnd 24 (n - ⌊n⌋)

/-- The greatest of the three, `r.max(g).max(b)` (rgb_to_hsv.rs:6, rgb_to_hsl.rs:22). -/
def maxC (r g b : Rat) : Rat := max (max r g) b

/-- The least of the three, `r.min(g).min(b)` (rgb_to_hsv.rs:7, rgb_to_hsl.rs:23). -/
def minC (r g b : Rat) : Rat := min (min r g) b

/-- `rc`, `gc` and `bc`: `(max_c - x) / (max_c - min_c)` (rgb_to_hsv.rs:14-16, rgb_to_hsl.rs:36-38). -/
def below (mx mn x : Rat) : Rat := rnd 24 (rnd 24 (mx - x) / rnd 24 (mx - mn))

/-- The hue (rgb_to_hsv.rs:14-25, rgb_to_hsl.rs:36-47). The sums `2.0 + rc - bc` are evaluated from the left. -/
def hue (r g b : Rat) : Rat :=
  let mx := maxC r g b
  let mn := minC r g b
  let rc := below mx mn r
  let gc := below mx mn g
  let bc := below mx mn b
  let h := if r = mx then rnd 24 (bc - gc) else if g = mx then rnd 24 (rnd 24 (2 + rc) - bc) else rnd 24 (rnd 24 (4 + gc) - rc)
  pyMod (rnd 24 (h / 6))

/-- `rgb_to_hsv_inner` (rgb_to_hsv.rs:5-28). `none`: the division by `max_c = 0` (some sample is negative then). -/
def rgbToHsvInner (r g b : Rat) : Option (Rat × Rat × Rat) :=
  let mx := maxC r g b
  let mn := minC r g b
  if mn = mx then some (0, 0, mx)
  else if mx = 0 then none
  else some (hue r g b, rnd 24 (rnd 24 (mx - mn) / mx), mx)

/-- `x as i32` (rgb_to_hsv.rs:34): towards zero. The saturation beyond 2³¹ is left out. -/
def trunc (x : Rat) : Int := if 0 ≤ x then ⌊x⌋ else ⌈x⌉

/-- `hsv_to_rgb_inner` (rgb_to_hsv.rs:30-48). -/
def hsvToRgbInner (h s v : Rat) : Rat × Rat × Rat :=
  if s = 0 then (v, v, v)
  else
    let x := rnd 24 (h * 6)
    let i := trunc x
    let f := rnd 24 (x - rnd 24 i)
    let p := rnd 24 (v * rnd 24 (1 - s))
    let q := rnd 24 (v * rnd 24 (1 - rnd 24 (s * f)))
    let t := rnd 24 (v * rnd 24 (1 - rnd 24 (s * rnd 24 (1 - f))))
    match i.tmod 6 with
    | 0 => (v, t, p)
    | 1 => (q, v, p)
    | 2 => (p, v, t)
    | 3 => (p, q, v)
    | 4 => (t, p, v)
    | _ => (v, p, q)

/-- The loops of `rgb_to_hsv`, `hsv_to_rgb`, `rgb_to_hsl` and `hsl_to_rgb` (rgb_to_hsv.rs:50-74, rgb_to_hsl.rs:82-106): one function
    applied to each pixel up to the end of the shortest channel; later samples stay. -/
def eachPixel (f : Rat → Rat → Rat → Option (Rat × Rat × Rat)) : List Rat → List Rat → List Rat → Option (List Rat × List Rat × List Rat)
  | r :: rs, g :: gs, b :: bs =>
    (f r g b).bind fun c => (eachPixel f rs gs bs).map fun t => (c.1 :: t.1, c.2.1 :: t.2.1, c.2.2 :: t.2.2)
  | rs, gs, bs => some (rs, gs, bs)

/-- `rgb_to_hsv` (rgb_to_hsv.rs:50-61). -/
def rgbToHsv (r g b : List Rat) : Option (List Rat × List Rat × List Rat) := eachPixel rgbToHsvInner r g b

/-- `hsv_to_rgb` (rgb_to_hsv.rs:63-74). -/
def hsvToRgb (h s v : List Rat) : Option (List Rat × List Rat × List Rat) := eachPixel (fun h s v => some (hsvToRgbInner h s v)) h s v

/-- `ONE_THIRD`, `ONE_SIXTH` and `TWO_THIRD` (rgb_to_hsl.rs:8-10): the nearest `f32` to the quotient, computed by the compiler. -/
def oneThird : Rat := rnd 24 (1 / 3)
@[inherit_doc oneThird] def oneSixth : Rat := rnd 24 (1 / 6)
@[inherit_doc oneThird] def twoThird : Rat := rnd 24 (2 / 3)

/-- `rgb_to_hsl_inner` (rgb_to_hsl.rs:19-50). `none`: a division by zero in the saturation. -/
def rgbToHslInner (r g b : Rat) : Option (Rat × Rat × Rat) :=
  let mx := maxC r g b
  let mn := minC r g b
  let l := rnd 24 (rnd 24 (mn + mx) / 2)
  if mn = mx then some (0, 0, l)
  else
    let d := if l ≤ 1 / 2 then rnd 24 (mx + mn) else rnd 24 (rnd 24 (2 - mx) - mn)
    if d = 0 then none else some (hue r g b, rnd 24 (rnd 24 (mx - mn) / d), l)

/-- `v` (rgb_to_hsl.rs:52-66). -/
def vChan (m1 m2 h : Rat) : Rat :=
  let h := pyMod h
  if h < oneSixth then rnd 24 (m1 + rnd 24 (rnd 24 (rnd 24 (m2 - m1) * h) * 6))
  else if h < 1 / 2 then m2
  else if h < twoThird then rnd 24 (m1 + rnd 24 (rnd 24 (rnd 24 (m2 - m1) * rnd 24 (twoThird - h)) * 6))
  else m1

/-- `hsl_to_rgb_inner` (rgb_to_hsl.rs:68-80). -/
def hslToRgbInner (h s l : Rat) : Rat × Rat × Rat :=
  if s = 0 then (l, l, l)
  else
    let m2 := if l ≤ 1 / 2 then rnd 24 (l * rnd 24 (1 + s)) else rnd 24 (rnd 24 (l + s) - rnd 24 (l * s))
    let m1 := rnd 24 (rnd 24 (2 * l) - m2)
    (vChan m1 m2 (rnd 24 (h + oneThird)), vChan m1 m2 h, vChan m1 m2 (rnd 24 (h - oneThird)))

/-- `rgb_to_hsl` (rgb_to_hsl.rs:82-93). -/
def rgbToHsl (r g b : List Rat) : Option (List Rat × List Rat × List Rat) := eachPixel rgbToHslInner r g b

/-- `hsl_to_rgb` (rgb_to_hsl.rs:95-106). -/
def hslToRgb (h s l : List Rat) : Option (List Rat × List Rat × List Rat) := eachPixel (fun h s l => some (hslToRgbInner h s l)) h s l

/-- An 8 or 16-bit sample (`m` is 255 or 65535) as `f32` (depth.rs:167-192): times the rounded reciprocal. -/
def toFloat (m x : Nat) : Rat := rnd 24 (x * rnd 24 (1 / m))

/-- `(m * y).clamp(0.0, m) as u8` or `u16` (depth.rs:141-166). -/
def ofFloat (m : Nat) (y : Rat) : Nat := min m ⌊rnd 24 (m * y)⌋.toNat

/-- The body of `convert_rgb_to_hsv`, `convert_hsv_to_rgb`, `convert_rgb_to_hsl` and `convert_hsl_to_rgb`
    (conversion_functions.rs:300-396) for one frame of 8 or 16 bits: to `f32`, the conversion `f`, and back to the old depth.
    Simplified: colour space and depth of the image, which the caller sets, are left out. -/
def convertFrame (m : Nat) (f : List Rat → List Rat → List Rat → Option (List Rat × List Rat × List Rat)) (x y z : List Nat) :
    Option (List Nat × List Nat × List Nat) :=
  (f (x.map (toFloat m)) (y.map (toFloat m)) (z.map (toFloat m))).map fun t =>
    (t.1.map (ofFloat m), t.2.1.map (ofFloat m), t.2.2.map (ofFloat m))

/-- `convert_rgb_to_hsv` (conversion_functions.rs:347-371) of one RGB frame. -/
def convertRgbToHsv (m : Nat) := convertFrame m rgbToHsv
/-- `convert_hsv_to_rgb` (conversion_functions.rs:372-395) of one frame. -/
def convertHsvToRgb (m : Nat) := convertFrame m hsvToRgb
/-- `convert_rgb_to_hsl` (conversion_functions.rs:300-322) of one RGB frame. -/
def convertRgbToHsl (m : Nat) := convertFrame m rgbToHsl
/-- `convert_hsl_to_rgb` (conversion_functions.rs:324-346) of one frame. -/
def convertHslToRgb (m : Nat) := convertFrame m hslToRgb

end Zune.Hsv
