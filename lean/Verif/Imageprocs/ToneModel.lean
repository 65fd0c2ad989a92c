/-
Model of `brighten`, `contrast`, `exposure` and `gamma` of `crates/zune-imageprocs` on one 8 or 16 bit sample.
`m` is the largest sample.  `f32` arithmetic is that of `Common/Float`; the settings are numbers (NaN and infinities are not modelled).
-/
import Verif.Common.Float

namespace Zune.Imageprocs
open Zune.Float (rnd)

/-- `f32::clamp`. -/
def clampQ (lo hi x : Rat) : Rat := max lo (min hi x)

/-- The cast of a number to a sample (`T::from_f32`, `as u8`, traits.rs:119-121): the integer part, saturating. -/
def toSample (m : Nat) (x : Rat) : Nat := if x < 0 then 0 else min m ⌊x⌋.toNat

/-- `brighten` (brighten.rs:130-139). -/
def brighten (m : Nat) (v : Rat) (x : Nat) : Nat :=
  toSample m (clampQ 0 m (rnd 24 (x + rnd 24 (clampQ (-1) 1 v * m))))

/-- The factor of `contrast_u8` (contrast.rs:106).  A contrast of 259 divides by zero, here the factor is 0 then (the claims exclude it). -/
def contrastFactor (c : Rat) : Rat := rnd 24 (rnd 24 (259 * rnd 24 (c + 255)) / rnd 24 (255 * rnd 24 (259 - c)))

/-- `contrast_u8` (contrast.rs:108-113). -/
def contrast (c : Rat) (x : Nat) : Nat := toSample 255 (clampQ 0 255 (rnd 24 (rnd 24 (contrastFactor c * rnd 24 (x - 128)) + 128)))

/-- `Exposure` (exposure.rs:90-105). -/
def exposure (m : Nat) (e black : Rat) (x : Nat) : Nat :=
  toSample m (clampQ 0 m (rnd 24 (rnd 24 (x - rnd 24 (clampQ 0 1 black * m)) * e)))

/-- One entry of `build_gamma_lut` (gamma.rs:46-55); `pow` stands for `powf(value)` (its result as an `f32`). -/
def gammaEntry (m : Nat) (pow : Rat → Rat) (x : Nat) : Nat :=
  let v := rnd 24 (m * pow (rnd 24 (x * rnd 24 (1 / m))))
  toSample m (if (m : Rat) < v then m else v)

/-- `build_gamma_lut` (gamma.rs:34-57); the table has `m + 1` entries, a power of two, so the mask changes nothing. -/
def gammaLut (m : Nat) (pow : Rat → Rat) : List Nat := (List.range (m + 1)).map (gammaEntry m pow)

/-- `gamma` (gamma.rs:148-158): entries that are missing are taken as one. -/
def gamma (m : Nat) (pow : Rat → Rat) (px : List Nat) : List Nat := px.map fun p => (gammaLut m pow)[p]?.getD 1

end Zune.Imageprocs
