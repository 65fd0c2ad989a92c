/-
Model of the rest of `rotate.rs` (dimensions, arbitrary angles) and of `auto_orient.rs` of `crates/zune-imageprocs`, on 8-bit channels.
`f32` arithmetic is that of `Common/Float`; the sines and cosines are parameters, in the claims only what is used of them is supposed.
-/
import Verif.Imageprocs.Model
import Verif.Common.Float

namespace Zune.Imageprocs
variable {α : Type}
open Zune.Float (rnd)

/-- The bounding box (rotate.rs:36-41, 136-141): `c`, `s` are the absolute values of cosine and sine. -/
def rotatedDims (c s : Rat) (w h : Nat) : Nat × Nat :=
  (⌈rnd 24 (rnd 24 (rnd 24 w * c) + rnd 24 (rnd 24 h * s))⌉.toNat, ⌈rnd 24 (rnd 24 (rnd 24 w * s) + rnd 24 (rnd 24 h * c))⌉.toNat)

/-- `change_image_dims` (rotate.rs:127-144): the dimensions that are set first for 90 and 270 degrees are overwritten. -/
def changeDims (c s : Rat) (w h : Nat) : Nat × Nat := rotatedDims c s w h

/-- The position in the source (rotate.rs:200-205). -/
def sourcePos (c s : Rat) (w h ow oh x y : Nat) : Rat × Rat :=
  let cx := rnd 24 (rnd 24 w / 2)
  let cy := rnd 24 (rnd 24 h / 2)
  let dx := rnd 24 (rnd 24 x - rnd 24 (rnd 24 ow / 2))
  let dy := rnd 24 (rnd 24 y - rnd 24 (rnd 24 oh / 2))
  (rnd 24 (rnd 24 (rnd 24 (dx * c) + rnd 24 (dy * s)) + cx), rnd 24 (rnd 24 (rnd 24 (-dx * s) + rnd 24 (dy * c)) + cy))

/-- The interpolation (rotate.rs:226-229). -/
def bilinear (p00 p10 p01 p11 fx fy : Rat) : Rat :=
  let gx := rnd 24 (1 - fx)
  let gy := rnd 24 (1 - fy)
  rnd 24 (rnd 24 (rnd 24 (rnd 24 (rnd 24 (p00 * gx) * gy) + rnd 24 (rnd 24 (p10 * fx) * gy)) + rnd 24 (rnd 24 (p01 * gx) * fy)) +
    rnd 24 (rnd 24 (p11 * fx) * fy))

/-- One pixel of `rotate_arbitrary` (rotate.rs:199-232).  `none` is an index out of range or an underflow of `in_width - 1` (with overflow
    checks; simplified: an empty source has no pixels inside otherwise). -/
def arbitraryPixel (m : Nat) (c s : Rat) (l : List Nat) (w h ow oh x y : Nat) : Option Nat :=
  let p := sourcePos c s w h ow oh x y
  if 0 ≤ p.1 ∧ (w = 0 ∨ h = 0) then none
  else if 0 ≤ p.1 ∧ p.1 < rnd 24 ((w - 1 : Nat) : Rat) ∧ 0 ≤ p.2 ∧ p.2 < rnd 24 ((h - 1 : Nat) : Rat) then do
    let x0 := ⌊p.1⌋.toNat
    let y0 := ⌊p.2⌋.toNat
    let p00 ← l[y0 * w + x0]?
    let p10 ← l[y0 * w + (x0 + 1)]?
    let p01 ← l[(y0 + 1) * w + x0]?
    let p11 ← l[(y0 + 1) * w + (x0 + 1)]?
    return min m ⌊bilinear p00 p10 p01 p11 (rnd 24 (p.1 - rnd 24 x0)) (rnd 24 (p.2 - rnd 24 y0))⌋.toNat
  else some m

/-- `rotate_arbitrary` (rotate.rs:181-235) on a channel of `len` samples for the output: an index behind it panics. -/
def rotateArbitrary (m : Nat) (c s : Rat) (len : Nat) (l : List Nat) (w h ow oh : Nat) : Option (List Nat) := do
  let px ← (List.range (ow * oh)).mapM fun i => arbitraryPixel m c s l w h ow oh (i % ow) (i / ow)
  if len < px.length then none else some (px ++ List.replicate (len - px.length) m)

/-! ### Orientation -/

/-- A value of an exif field, as far as `auto_orient` looks at it. -/
inductive ExifValue
  | byte (l : List Nat)
  | short (l : List Nat)
  | other
deriving Repr, DecidableEq

/-- An exif field: is it the orientation, and its value. -/
structure ExifField where
  orientation : Bool
  value : ExifValue
deriving Repr, DecidableEq

/-- An image of one frame: its channels, its dimensions and its exif fields. -/
structure OImage (α : Type) where
  channels : List (List α)
  w : Nat
  h : Nat
  exif : Option (List ExifField)
deriving Repr, DecidableEq

/-- `Flip::execute` for the two directions used (flip.rs:75-123). -/
def OImage.flop (i : OImage α) : Option (OImage α) := do
  return { i with channels := ← i.channels.mapM fun l => Imageprocs.flop l i.w }

/-- As above. -/
def OImage.verticalFlip (i : OImage α) : Option (OImage α) := do
  return { i with channels := ← i.channels.mapM fun l => Imageprocs.verticalFlip l i.w }

/-- `Rotate::execute` for the multiples of 90 degrees (rotate.rs:62-119); `trig` gives the absolute values of cosine and sine. -/
def OImage.rotate (trig : Nat → Rat × Rat) (d : α) (angle : Nat) (i : OImage α) : Option (OImage α) := do
  let channels ← i.channels.mapM fun l => rotateChannel 1 angle d l i.w i.h
  if angle = 180 then return { i with channels }
  else
    let t := changeDims (trig angle).1 (trig angle).2 i.w i.h
    return { i with channels, w := t.1, h := t.2 }

/-- `Transpose::execute_impl` (transpose.rs:50-96) with the scalar function. -/
def OImage.transpose (checks : Bool) (d : α) (i : OImage α) : Option (OImage α) := do
  let channels ← i.channels.mapM fun l => transposeScalar checks d l (List.replicate (i.w * i.h) d) i.w i.h
  return { i with channels, w := i.h, h := i.w }

/-- The `match` on the value of the tag (auto_orient.rs:62-94). -/
def OImage.apply (trig : Nat → Rat × Rat) (checks : Bool) (d : α) (n : Nat) (i : OImage α) : Option (OImage α) :=
  match n with
  | 2 => i.flop
  | 3 => i.rotate trig d 180
  | 4 => i.verticalFlip
  | 5 => i.transpose checks d
  | 6 => i.rotate trig d 90
  | 7 => (i.rotate trig d 270).bind OImage.flop
  | 8 => i.rotate trig d 270
  | _ => some i

/-- What the loop over the fields finds (auto_orient.rs:52-102): nothing, an empty value (return at once), or an orientation. -/
inductive Found
  | nothing
  | empty
  | tag (n : Nat)
deriving Repr, DecidableEq

/-- The loop (auto_orient.rs:52-102). -/
def findOrientation : List ExifField → Found
  | [] => .nothing
  | f :: fs =>
    if f.orientation then
      match f.value with
      | .short [] => .empty
      | .short (n :: _) => .tag n
      | _ => findOrientation fs
    else findOrientation fs

/-- The update of the fields (auto_orient.rs:105-112). -/
def resetOrientation (fs : List ExifField) : List ExifField :=
  fs.map fun f => if f.orientation then { f with value := .byte [1] } else f

/-- `AutoOrient::execute_impl` (auto_orient.rs:43-115) with the feature `exif`. -/
def autoOrient (trig : Nat → Rat × Rat) (checks : Bool) (d : α) (i : OImage α) : Option (OImage α) :=
  match i.exif with
  | none => some i
  | some fs =>
    match findOrientation fs with
    | .empty => some i
    | .nothing => some { i with exif := some (resetOrientation fs) }
    | .tag n => (i.apply trig checks d n).map fun j => { j with exif := some (resetOrientation fs) }

end Zune.Imageprocs
