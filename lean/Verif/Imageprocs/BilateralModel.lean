/-
Model of `bilateral_filter` (crates/zune-imageprocs/src/bilateral_filter.rs) for 8 and 16 bit samples.
A channel is a row-major list of samples; `none` stands for a panic.

The exponential function is not modelled: the weights are parameters, `cw k` being the f64 that line 158 stores for the difference `k`, and `sw i j` the one
that line 168 computes for the offset (i, j).  Everything after that is modelled in f64 arithmetic with unlimited exponents (`rnd 53`).
-/
import Verif.Imageprocs.AreaModel
import Verif.Common.Float

namespace Zune.Imageprocs
open Zune.Float

/-- The weights that the loops of `init_bilateral` store (bilateral_filter.rs:160-171), in their order; `makx` is their number.  (Simplified: the root of
    line 164 is compared with the radius by comparing the squares, which are below 2 ^ 53.) -/
def diskWeights (sw : Int → Int → Rat) (radius : Nat) : List Rat :=
  ((grid (2 * radius + 1) (2 * radius + 1)).map fun p => ((p.1 : Int) - radius, (p.2 : Int) - radius)).filterMap fun p =>
    if p.1 * p.1 + p.2 * p.2 > (radius * radius : Int) then none else some (sw p.1 p.2)

/-- `space_weight` of `init_bilateral` (bilateral_filter.rs:150-171): `d * d` zeroes, the first `makx` of them replaced; an index behind the end panics.
    (Simplified: `d * d` does not overflow, so `d` is below 46341.) -/
def spaceWeight (sw : Int → Int → Rat) (d : Nat) : Option (List Rat) :=
  let ws := diskWeights sw (d / 2)
  if d * d < ws.length then none else some (ws ++ List.replicate (d * d - ws.length) 0)

/-- The body of the loop of `bilateral_func` (bilateral_filter.rs:212-217) for the state (sum, wsum). -/
def bilateralStep (cw : Nat → Rat) (val0 : Nat) (s : Rat × Rat) (p : Nat × Rat) : Rat × Rat :=
  let w := rnd 53 (p.2 * cw ((p.1 : Int) - val0).natAbs)
  (rnd 53 (s.1 + rnd 53 (p.1 * w)), rnd 53 (s.2 + w))

/-- `T::from_f64((sum / wsum).round())` (bilateral_filter.rs:219, traits.rs:115-117) for numbers that are not negative: NaN (zero divided by zero) becomes 0,
    ties are rounded up, the cast saturates. -/
def bilateralCast (bits : Nat) (s : Rat × Rat) : Nat :=
  if s.2 = 0 then 0 else min (2 ^ bits - 1) ⌊rnd 53 (s.1 / s.2) + 1 / 2⌋.toNat

/-- `bilateral_func` (bilateral_filter.rs:200-220). -/
def bilateralAt (bits : Nat) (cw : Nat → Rat) (space : List Rat) (makx : Nat) (area : List Nat) : Option Nat :=
  (area[(area.length + 1) / 2]?).map fun val0 =>
    bilateralCast bits (((area.zip space).take makx).foldl (bilateralStep cw val0) (0, 0))

/-- What `execute_impl` does to a channel (bilateral_filter.rs:81-120, 180-223). -/
def bilateral (bits : Nat) (cw : Nat → Rat) (sw : Int → Int → Rat) (d : Int) (l : List Nat) (w h : Nat) : Option (List Nat) :=
  if d < 1 then some l
  else (spaceWeight sw d.toNat).bind fun space =>
    (padReplicate 0 l w h (d.toNat / 2) (d.toNat / 2)).bind fun padded =>
      spatialLoop (fun (_ : Unit) win => (bilateralAt bits cw space (diskWeights sw (d.toNat / 2)).length win).map fun v => (v, ()))
        padded (List.replicate l.length 0) (d.toNat / 2) w h ()

end Zune.Imageprocs
