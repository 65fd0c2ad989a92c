/-
Model of `blend`, `color_matrix`, `hsv_adjust` and the masking step of `unsharpen` of `crates/zune-imageprocs` on 8 and 16 bit samples.
`m` is the largest sample; `f32` arithmetic is that of `Common/Float` (NaN and infinities are not modelled).
-/
import Verif.Imageprocs.ToneModel

namespace Zune.Imageprocs
open Zune.Float (rnd)

/-! ### `blend` -/

/-- The new sample of the loop of `blend_single_channel` (blend.rs:151-156). -/
def mixSample (m : Nat) (a : Rat) (s d : Nat) : Nat := toSample m (rnd 24 (rnd 24 (a * s) + rnd 24 (rnd 24 (1 - a) * d)))

/-- `blend_single_channel` (blend.rs:138-157); `none` is the panic of `copy_from_slice`.  After the copy the loop runs too. -/
def blendChannel (m : Nat) (a : Rat) (src dst : List Nat) : Option (List Nat) :=
  if a ≤ 0 then some dst
  else if 1 ≤ a ∧ src.length ≠ dst.length then none
  else
    let dst := if 1 ≤ a then src else dst
    some (List.zipWith (mixSample m a) src dst ++ dst.drop src.length)

/-- The loop over the channels in `execute_impl` (blend.rs:102-129): channels without partner stay.  The checks of dimensions, depth and colour space are left out. -/
def blendChannels (m : Nat) (a : Rat) : List (List Nat) → List (List Nat) → Option (List (List Nat))
  | s :: ss, d :: ds => do
    let r ← blendChannel m a s d
    let rs ← blendChannels m a ss ds
    return r :: rs
  | _, ds => some ds

/-! ### `color_matrix` -/

/-- `new_r` (and `new_g`, `new_b`, `new_a`) for one row of the matrix (color_matrix.rs:198-220). -/
def matrixRow (m : Nat) (row : Nat → Rat) (r g b a : Nat) : Rat :=
  rnd 24 (rnd 24 (rnd 24 (rnd 24 (rnd 24 (r * row 0) + rnd 24 (g * row 1)) + rnd 24 (b * row 2)) + rnd 24 (a * row 3)) + rnd 24 (m * row 4))

/-- One pixel of `color_matrix_component` (color_matrix.rs:188-225); the pixel is red, green, blue, alpha. -/
def matrixPixel (m : Nat) (c : Nat → Nat → Rat) (p : Nat × Nat × Nat × Nat) : Nat × Nat × Nat × Nat :=
  let v := fun i => toSample m (matrixRow m (c i) p.1 p.2.1 p.2.2.1 p.2.2.2)
  (v 0, v 1, v 2, v 3)

/-! ### `hsv_adjust` -/

/-- A coefficient of `modulate_hsl`, for instance `0.299 * v + 0.701 * vsu + 0.168 * vsw` (hsv_adjust.rs:165-175); the three constants are rounded, and subtracting a
    product is adding that of the negative constant. -/
def hsvCoeff (k1 k2 k3 : Rat) (v vsu vsw : Rat) : Rat :=
  rnd 24 (rnd 24 (rnd 24 (rnd 24 k1 * v) + rnd 24 (rnd 24 k2 * vsu)) + rnd 24 (rnd 24 k3 * vsw))

/-- The coefficients (hsv_adjust.rs:165-175) in thousandths: output colour, input colour, (v, vsu, vsw). -/
def hsvTable : List (List (Int × Int × Int)) :=
  [[(299, 701, 168), (587, -587, 330), (114, -114, -497)],
   [(299, -299, -328), (587, 413, 35), (114, -114, 292)],
   [(299, -300, 1250), (587, -588, -1050), (114, 886, -203)]]

/-- `new_r`, `new_g`, `new_b` (hsv_adjust.rs:165-175) for a row of the table. -/
def hsvRow (row : List (Int × Int × Int)) (v vsu vsw : Rat) (p : List Nat) : Rat :=
  let t := List.zipWith (fun (k : Int × Int × Int) (x : Nat) =>
    rnd 24 (hsvCoeff ((k.1 : Rat) / 1000) ((k.2.1 : Rat) / 1000) ((k.2.2 : Rat) / 1000) v vsu vsw * x)) row p
  rnd 24 (rnd 24 (t.getD 0 0 + t.getD 1 0) + t.getD 2 0)

/-- One pixel of `modulate_hsl` (hsv_adjust.rs:147-181); the pixel is red, green, blue; `c` and `sn` stand for the results of `cos` and `sin`, `s` and `v` are saturation and
    lightness. -/
def hsvPixel (m : Nat) (c sn s v : Rat) (p : List Nat) : List Nat :=
  let vs := rnd 24 (v * s)
  hsvTable.map fun row => toSample m (clampQ 0 m (hsvRow row v (rnd 24 (vs * c)) (rnd 24 (vs * sn)) p))

/-! ### `unsharpen` -/

/-- The body of the loop of `unsharpen_u8` (unsharpen.rs:241-250) on a sample and the blurred sample. -/
def unsharpen8 (thr : UInt8) (o b : UInt8) : UInt8 :=
  let diff := o - b
  let mask := (if diff > thr then 1 else 0 : UInt8) - 1
  let sum : UInt8 := if o.toNat + diff.toNat < 256 then o + diff else 255
  (sum &&& ~~~mask) ||| (o &&& mask)

/-- The body of the loop of `unsharpen_u16` (unsharpen.rs:193-205). -/
def unsharpen16 (thr : UInt16) (o b : UInt16) : UInt16 :=
  let diff : UInt16 := if b ≤ o then o - b else 0
  let mask := (if diff > thr then 1 else 0 : UInt16) - 1
  ((o + diff) &&& ~~~mask) ||| (o &&& mask)

end Zune.Imageprocs
