/-
Model of the C interface to pictures (`crates/zune-capi/src/{enums,image}.rs`): the conversions of the enumerations, the making of pictures from
samples and the writing of samples to the memory of the caller.  Pointers to pictures and samples are not null; memory is modelled in
`Verif.Capi.HeapModel`.
-/
import Verif.Image.SaveModel

namespace Zune.Capi

open Zune.Imageprocs (ColorSpace)
open Zune.Depth (BitDepth Samples)
open Zune.Color (Image)

/-- `ZImageColorspace` (enums.rs:119-145). -/
inductive ZColor where
  | unknown | rgb | rgba | yCbCr | luma | lumaA | ycck | cmyk | bgr | bgra | argb | hsl | hsv
  deriving DecidableEq, Repr

/-- `ZImageColorspace::to_colorspace` (enums.rs:148-164). -/
def toColor : ZColor → ColorSpace
  | .rgb => .RGB
  | .rgba => .RGBA
  | .yCbCr => .YCbCr
  | .luma => .Luma
  | .lumaA => .LumaA
  | .ycck => .YCCK
  | .cmyk => .CMYK
  | .bgr => .BGR
  | .bgra => .BGRA
  | .argb => .ARGB
  | .hsl => .HSL
  | .hsv => .HSV
  | .unknown => .Unknown

/-- `ZImageColorspace::from` (enums.rs:166-185). -/
def ofColor : ColorSpace → ZColor
  | .RGB => .rgb
  | .RGBA => .rgba
  | .YCbCr => .yCbCr
  | .Luma => .luma
  | .LumaA => .lumaA
  | .YCCK => .ycck
  | .CMYK => .cmyk
  | .BGR => .bgr
  | .BGRA => .bgra
  | .ARGB => .argb
  | .HSV => .hsv
  | .HSL => .hsl
  | _ => .unknown

/-- What a function that returns a pointer to a picture does: null, a picture, or a panic, which ends the process since it can not leave a C function. -/
inductive Ret where
  | null
  | image (i : Image)
  | abort
  deriving DecidableEq, Repr

/-- `checked_mul` (zune-capi/src/image.rs:454-461). -/
def checkedMul (width height depth comps : Nat) : Option Nat :=
  if width * height < 2 ^ 64 ∧ width * height * depth < 2 ^ 64 ∧ width * height * depth * comps < 2 ^ 64 then some (width * height * depth * comps)
  else none

/-- The common text of the three functions (image.rs:360-380, 396-416, 432-452); `depth` is the third argument of `checked_mul`, `make` the function
of the library. (Simplified: there is memory for the picture.) -/
def fromSamples {α : Type} (depth : Nat) (make : List α → Nat → Nat → ColorSpace → Option Image) (pixels : List α) (width height : Nat) (z : ZColor) : Ret :=
  match checkedMul width height depth (toColor z).numComponents with
  | none => .null
  | some size =>
    if size ≤ pixels.length then
      match make (pixels.take size) width height (toColor z) with
      | some i => .image i
      | none => .abort
    else .null

/-- `zil_zimg_from_u8` (image.rs:357-381). -/
def zimgFromU8 (isa : Split.Isa) (pixels : List UInt8) (width height : Nat) (z : ZColor) : Ret :=
  fromSamples 1 (Save.fromU8 isa) pixels width height z

/-- `zil_zimg_from_u16` (image.rs:393-417). -/
def zimgFromU16 (pixels : List UInt16) (width height : Nat) (z : ZColor) : Ret :=
  fromSamples 2 Save.fromU16 pixels width height z

/-- The image `Image::from_f32` makes (zune-image/src/image.rs:464-477). -/
def fromF32 (px : List Depth.F32) (w h : Nat) (cs : ColorSpace) : Option Image :=
  (Make.fromPixels (Depth.ofNat 0) (fun l a b c => .ok (Split.split3 l a b c)) px w h cs.numComponents).map fun im =>
    ⟨cs, .float32, w, h, false, im.frames.map fun f => f.channels.map .f32⟩

/-- `zil_zimg_from_f32` (image.rs:429-453). -/
def zimgFromF32 (pixels : List Depth.F32) (width height : Nat) (z : ZColor) : Ret :=
  fromSamples 4 fromF32 pixels width height z

/-- `zil_zimg_get_out_buffer_size` (image.rs:73-87), without overflow. -/
def outBufferSize (i : Image) : Nat := i.width * i.height * i.cs.numComponents * Color.sizeOf i.depth

/-- What `zil_zimg_write_to_output` does: the number it returns and the memory of the caller afterwards, or an error in the status and zero, or a panic,
which ends the process. -/
inductive Written where
  | done (count : Nat) (memory : List UInt8)
  | failed
  | abort
  deriving DecidableEq, Repr

/-- `align_to_mut::<u16>` (image.rs:118) of memory that is aligned and of even length, on a little endian machine. -/
def words : List UInt8 → List UInt16
  | a :: b :: l => UInt16.ofNat (a.toNat + 256 * b.toNat) :: words l
  | _ => []

/-- `zil_zimg_write_to_output` (image.rs:98-150) for 8 and 16 bits; `aligned` says whether the address is even; `channels_ref` takes as many channels as the colour space
has (frame.rs:265-272). (Simplified: floats are not modelled and yield `abort`.) -/
def writeToOutput (aligned : Bool) (i : Image) (out : List UInt8) : Written :=
  match i.frames with
  | [] => .abort
  | f :: _ =>
    if f.length < i.cs.numComponents then .abort
    else
      let channels := f.take i.cs.numComponents
      match i.depth with
      | .eight =>
        match channels.mapM Save.asU8 with
        | none => .failed
        | some cs =>
          match Split.swizzle cs out with
          | .ok (o, n) => .done (n * 1) o
          | .error _ => .abort
      | .sixteen =>
        if aligned = false ∨ out.length % 2 ≠ 0 then .failed
        else
          match channels.mapM Save.asU16 with
          | none => .failed
          | some cs =>
            match Split.swizzle cs (words out) with
            | .ok (o, n) => .done (n * 2) (o.flatMap Make.ne16)
            | .error _ => .abort
      | .float32 => .abort

end Zune.Capi
