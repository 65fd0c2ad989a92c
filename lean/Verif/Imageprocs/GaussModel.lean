/-
Model of `gaussian_blur` (crates/zune-imageprocs/src/gaussian_blur.rs) for 8 and 16 bit samples.
A channel is a row-major list of samples; `none` stands for a panic.  f32 arithmetic has unlimited exponents (`rnd 24`).
-/
import Verif.Imageprocs.FilterModel
import Verif.Common.Float

namespace Zune.Imageprocs
open Zune.Float

/-- `x.round()` (gaussian_blur.rs:192): to the nearest integer, ties away from zero. -/
def roundAway (x : Rat) : Int := if 0 ≤ x then ⌊x + 1 / 2⌋ else -⌊-x + 1 / 2⌋

/-- `wl`, the integer part of `w_ideal` made odd (gaussian_blur.rs:175-180).  The root of f32 is the parameter `root`.  (Simplified: the cast to `i32` does not
    saturate, so sigma is below 2 ^ 29.) -/
def gaussLower (root : Rat → Rat) (sigma : Rat) : Int :=
  let ideal := rnd 24 (root (rnd 24 (rnd 24 (rnd 24 (12 * sigma) * sigma) / 3)) + 1)
  if ⌊ideal⌋ % 2 = 0 then ⌊ideal⌋ - 1 else ⌊ideal⌋

/-- `m` (gaussian_blur.rs:184-192): the cast of a negative number is 0. -/
def gaussCount (sigma : Rat) (wl : Int) : Nat :=
  let f := rnd 24 wl
  let num := rnd 24 (rnd 24 (rnd 24 (rnd 24 (rnd 24 (12 * sigma) * sigma) - rnd 24 (rnd 24 (3 * f) * f)) - rnd 24 (12 * f)) - 9)
  (roundAway (rnd 24 (num / rnd 24 (rnd 24 (-4 * f) - 4)))).toNat

/-- `create_box_gauss` (gaussian_blur.rs:169-204). -/
def createBoxGauss (root : Rat → Rat) (sigma : Rat) : List Nat :=
  let radii : List Nat :=
    if sigma > 0 then
      let wl := gaussLower root sigma
      (List.range 3).map fun i => if i < gaussCount sigma wl then wl.toNat else (wl + 2).toNat
    else [1, 1, 1]
  radii.map fun c => if c % 2 = 0 then c + 1 else c

/-- One of the two loops over the radii (gaussian_blur.rs:221-230, 236-243, 341-350, 356-363): from the picture to the scratch space, back, and again; the
    result is (picture, scratch space).  There are three radii. -/
def gaussPass (bits : Nat) (img scratch : List Nat) (w : Nat) : List Nat → Option (List Nat × List Nat)
  | [a, b, c] =>
    (boxInner bits img scratch w a).bind fun s1 =>
      (boxInner bits s1 img w b).bind fun i1 => (boxInner bits i1 s1 w c).map fun s2 => (i1, s2)
  | _ => none

/-- `gaussian_blur_u8` with `bits = 8` (gaussian_blur.rs:310-366), `gaussian_blur_u16` with `bits = 16` (215-246); the scalar transpose. -/
def gaussianBlur (checks : Bool) (bits : Nat) (radii : List Nat) (img scratch : List Nat) (w h : Nat) : Option (List Nat) :=
  (gaussPass bits img scratch w radii).bind fun p =>
    (transposeScalar checks 0 p.2 p.1 w h).bind fun t =>
      (gaussPass bits t p.2 h radii).bind fun q => transposeScalar checks 0 q.2 q.1 h w

/-- What `execute_impl` does to a channel with threads (gaussian_blur.rs:101-154): a new scratch space for each channel. -/
def gaussianChannel (checks : Bool) (bits : Nat) (root : Rat → Rat) (sigma : Rat) (img : List Nat) (w h : Nat) : Option (List Nat) :=
  gaussianBlur checks bits (createBoxGauss root sigma) img (List.replicate (w * h) 0) w h

end Zune.Imageprocs
