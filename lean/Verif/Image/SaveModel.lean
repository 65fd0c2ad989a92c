/-
Model of saving and opening pictures: `Image::write_to_vec`, `encode`, `read` (`crates/zune-image/src/codecs.rs`), `Image::to_u8` (`image.rs`)
and the wrappers around the QOI, PPM and farbfeld codecs (`codecs/{qoi,ppm,farbfeld}.rs`), on top of the models of the codecs themselves.
-/
import Verif.Image.ColorModel
import Verif.Image.MakeModel
import Verif.Image.GuessModel
import Verif.Qoi.Model
import Verif.Ppm.Model
import Verif.Farbfeld.Model

namespace Zune.Save

open Zune.Imageprocs (ColorSpace)
open Zune.Depth (BitDepth Samples)
open Zune.Color (Image Err Env Encoder)

/-- `reinterpret_as::<u8>().unwrap()` (frame.rs:331-365): the type of the channel must be the right one. -/
def asU8 : Samples → Option (List UInt8)
  | .u8 l => some l
  | _ => none

/-- The check of the types at the start of `u16_to_native_endian` (frame.rs:413-419) and `reinterpret_as::<u16>().unwrap()`. -/
def asU16 : Samples → Option (List UInt16)
  | .u16 l => some l
  | _ => none

/-- `Frame::flatten::<u8>` (frame.rs:327-393). -/
def flatU8 (f : List Samples) : Option (List UInt8) :=
  (f.mapM asU8).bind fun cs => (Split.flatten cs).toOption

/-- `Frame::u16_to_native_endian` (frame.rs:411-492). -/
def flatU16 (f : List Samples) : Option (List UInt8) :=
  (f.mapM asU16).bind fun cs => Make.u16Bytes Make.ne16 cs.length cs

/-- `Image::to_u8` (image.rs:185-196), for all frames; `todo!` for floats. -/
def toU8 (i : Image) : Option (List (List UInt8)) :=
  match i.depth with
  | .eight => i.frames.mapM flatU8
  | .sixteen => i.frames.mapM flatU16
  | .float32 => none

/-- `&image.to_u8()[0]` (qoi.rs, ppm.rs, farbfeld.rs: `encode_inner`). -/
def firstBytes (i : Image) : Option (List UInt8) := (toU8 i).bind List.head?

/-- The error of an encoder, mapped to the errors of the library (payloads dropped). -/
def wrapErr {ε : Type} : Except ε (List UInt8) → Except Err (List UInt8)
  | .ok b => .ok b
  | .error _ => .error .generic

/-- The colour spaces the QOI encoder writes (zune-qoi/src/encoder.rs:107-119). -/
def qoiCs : ColorSpace → Option Qoi.Cs
  | .RGB => some .rgb
  | .RGBA => some .rgba
  | _ => none

/-- The colour spaces the PPM encoder writes (zune-ppm/src/encoder.rs:181-188). -/
def ppmCs : ColorSpace → Option Ppm.Cs
  | .Luma => some .luma
  | .LumaA => some .lumaA
  | .RGB => some .rgb
  | .RGBA => some .rgba
  | _ => none

/-- `QoiEncoder::encode_inner` (codecs/qoi.rs:105-118) with `create_options_for_encoder` (codecs.rs:59-75). -/
def qoiInner (i : Image) : Except Err (List UInt8) :=
  match firstBytes i with
  | none => .error .panic
  | some data =>
    match qoiCs i.cs with
    | none => .error .generic
    | some cs => wrapErr (Qoi.encode i.width i.height cs data)

/-- `PPMEncoder::encode_inner` (codecs/ppm.rs:45-59). -/
def ppmInner (i : Image) : Except Err (List UInt8) :=
  match firstBytes i with
  | none => .error .panic
  | some data =>
    match ppmCs i.cs with
    | none => .error .generic
    | some cs => wrapErr (Ppm.encode i.width i.height cs (decide (i.depth = .sixteen)) data)

/-- `FarbFeldEncoder::encode_inner` (codecs/farbfeld.rs:111-127); the `assert_eq!` on the depth is a panic. -/
def farbfeldInner (i : Image) : Except Err (List UInt8) :=
  if i.depth ≠ .sixteen then .error .panic
  else
    match firstBytes i with
    | none => .error .panic
    | some data => if i.cs ≠ .RGBA then .error .generic else wrapErr (Farbfeld.encode i.width i.height data)

/-- The formats modelled here. -/
inductive Format where
  | qoi | ppm | farbfeld
  deriving DecidableEq, Repr

/-- `ImageFormat::encode` (codecs.rs:284-345) by way of `Image::write_to_vec` (codecs.rs:547-560) and `Image::encode` (codecs.rs:681-699): the bytes
    of the file.  These formats have encoders (`has_encoder`, codecs.rs:271-282). -/
def writeToVec (env : Env) (f : Format) (i : Image) : Except Err (List UInt8) :=
  match f with
  | .qoi => Color.encode env (Color.qoiEncoder qoiInner) i
  | .ppm => Color.encode env (Color.ppmEncoder ppmInner) i
  | .farbfeld => Color.encode env (Color.farbfeldEncoder farbfeldInner) i

/-- The image `Image::from_u8` makes (image.rs:403-416, metadata.rs:55-72): one frame, alpha not multiplied in. -/
def fromU8 (isa : Split.Isa) (px : List UInt8) (w h : Nat) (cs : ColorSpace) : Option Image :=
  (Make.fromPixels 0 (Split.three isa) px w h cs.numComponents).map fun im =>
    ⟨cs, .eight, w, h, false, im.frames.map fun f => f.channels.map .u8⟩

/-- The image `Image::from_u16` makes (image.rs:434-447). -/
def fromU16 (px : List UInt16) (w h : Nat) (cs : ColorSpace) : Option Image :=
  (Make.fromPixels 0 (fun l a b c => .ok (Split.split3 l a b c)) px w h cs.numComponents).map fun im =>
    ⟨cs, .sixteen, w, h, false, im.frames.map fun f => f.channels.map .u16⟩

/-- `DecoderOptions`, the parts used. -/
structure Opts where
  maxW : Nat
  maxH : Nat
  strict : Bool
  deriving DecidableEq, Repr

/-- `QoiDecoder::colorspace` in the colour spaces of the library (zune-qoi/src/decoder.rs:350-356). -/
def qoiColor : Qoi.Cs → ColorSpace
  | .rgb => .RGB
  | .rgba => .RGBA

/-- `PPMDecoder::colorspace` in the colour spaces of the library (zune-ppm/src/decoder.rs:465-471). -/
def ppmColor : Ppm.Cs → ColorSpace
  | .luma => .Luma
  | .lumaA => .LumaA
  | .rgb => .RGB
  | .rgba => .RGBA

/-- `QoiDecoder::decode` of the wrapper (codecs/qoi.rs:31-45); `none` is an error or a panic. -/
def readQoi (isa : Split.Isa) (o : Opts) (file : List UInt8) : Option Image :=
  match Qoi.decode ⟨o.maxW, o.maxH, o.strict⟩ file with
  | .error _ => none
  | .ok (hd, px) => fromU8 isa px hd.w hd.h (qoiColor hd.cs)

/-- `PPMDecoder::decode` of the wrapper (codecs/ppm.rs:96-116), for 8 and 16 bits. -/
def readPpm (isa : Split.Isa) (o : Opts) (file : List UInt8) : Option Image :=
  match Ppm.decode o.maxW o.maxH file with
  | .error _ => none
  | .ok (hd, px) =>
    match px with
    | .u8 l => fromU8 isa l hd.w hd.h (ppmColor hd.cs)
    | .u16 l => fromU16 (l.map UInt16.ofNat) hd.w hd.h (ppmColor hd.cs)

/-- `FarbFeldDecoder::decode` of the wrapper (codecs/farbfeld.rs:30-41); the dimensions are those of the header. -/
def readFarbfeld (o : Opts) (file : List UInt8) : Option Image :=
  match Farbfeld.decodeHeaders o.maxW o.maxH file, Farbfeld.decode o.maxW o.maxH file with
  | .ok (w, h, _), .ok px => fromU16 (px.map UInt16.ofNat) w h .RGBA
  | _, _ => none

/-- `Image::read` (codecs.rs:652-669): the format is guessed from the bytes; `other` stands for the decoders of the other formats. -/
def read (isa : Split.Isa) (o : Opts) (other : Guess.Format → List UInt8 → Option Image) (file : List UInt8) : Option Image :=
  match Guess.guessFormat (Bytestream.Cursor.new file) with
  | none => none
  | some (.QOI, c) => readQoi isa o c.rest
  | some (.PPM, c) => readPpm isa o c.rest
  | some (.Farbfeld, c) => readFarbfeld o c.rest
  | some (f, c) => other f c.rest

end Zune.Save
