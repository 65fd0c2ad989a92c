/-
Model of the headers of files and of their formats as the C interface tells them (`crates/zune-capi/src/{enums,structs,utils,imread,image}.rs`).
-/
import Verif.Capi.Model
import Verif.Capi.DecodeModel

namespace Zune.Capi

open Zune.Imageprocs (ColorSpace)
open Zune.Depth (BitDepth)

/-- `ZImageFormat` (enums.rs:15-36). -/
inductive ZFormat where
  | unknown | jpeg | png | ppm | psd | farbfeld | qoi | jpegXl | hdr | bmp
  deriving DecidableEq, Repr

/-- `ZImageFormat::from` (enums.rs:55-70). -/
def ofFormat : Guess.Format → ZFormat
  | .JPEG => .jpeg
  | .PNG => .png
  | .PPM => .ppm
  | .PSD => .psd
  | .Farbfeld => .farbfeld
  | .QOI => .qoi
  | .JPEG_XL => .jpegXl
  | .HDR => .hdr
  | .BMP => .bmp
  | _ => .unknown

/-- `ZImageFormat::to_format` (enums.rs:38-54); `none` is `ImageFormat::Unknown`. -/
def toFormat : ZFormat → Option Guess.Format
  | .jpeg => some .JPEG
  | .png => some .PNG
  | .ppm => some .PPM
  | .psd => some .PSD
  | .farbfeld => some .Farbfeld
  | .qoi => some .QOI
  | .jpegXl => some .JPEG_XL
  | .hdr => some .HDR
  | .bmp => some .BMP
  | _ => none

/-- `ZImageDepth` (enums.rs:85-94). -/
inductive ZDepth where
  | unknown | u8 | u16 | f32
  deriving DecidableEq, Repr

/-- The numbers C sees (enums.rs:87-93). -/
def ZDepth.code : ZDepth → Nat
  | .unknown => 0
  | .u8 => 1
  | .u16 => 2
  | .f32 => 4

/-- `ZImageDepth::from` (enums.rs:106-115). -/
def ofDepth : BitDepth → ZDepth
  | .eight => .u8
  | .sixteen => .u16
  | .float32 => .f32

/-- `ZImageDepth::to_depth` (enums.rs:96-105); `none` is `BitDepth::Unknown`. -/
def toDepth : ZDepth → Option BitDepth
  | .unknown => none
  | .u8 => some .eight
  | .u16 => some .sixteen
  | .f32 => some .float32

/-- `zil_guess_format` (utils.rs:22-29). -/
def zGuess (file : List UInt8) : ZFormat :=
  match Guess.guessFormat (Bytestream.Cursor.new file) with
  | none => .unknown
  | some (f, _) => ofFormat f

/-- `ZImageMetadata` (structs.rs:6-13). -/
structure ZMeta where
  width : Nat
  height : Nat
  depth : ZDepth
  color : ZColor
  format : ZFormat
  deriving DecidableEq, Repr

/-- `ZImageMetadata::default` (structs.rs:15-25). -/
def ZMeta.zero : ZMeta := ⟨0, 0, .unknown, .unknown, .unknown⟩

/-- The value `zil_read_headers_from_memory` returns when the headers are `m` (imread.rs:211-219); `as u32` keeps the low bits; the format is the one the
file was guessed to be, which every wrapper puts there (for example codecs/ppm.rs:136). -/
def ofMeta (f : ZFormat) (m : Meta) : ZMeta := ⟨m.width % 2 ^ 32, m.height % 2 ^ 32, ofDepth m.depth, ofColor m.cs, f⟩

/-- `zil_read_headers_from_memory` (imread.rs:186-222) with a status at `p` and enough memory for messages: first the status says that there is an error, and when
the headers are there it says that all is well (`ZStatus::okay`, errno.rs:75-78). -/
def readHeaders (x : Others) (file : List UInt8) (p : Nat) (h : Heap) : Except Fault (ZMeta × Heap) :=
  if p = 0 then .ok (.zero, h)
  else
    match report true p .decodeErrors h with
    | .error e => .error e
    | .ok h =>
      match decodeInfo x file with
      | none => .ok (.zero, h)
      | some m =>
        match report true p .ok h with
        | .error e => .error e
        | .ok h => .ok (ofMeta (zGuess file) m, h)

/-- `zil_zimg_read_from_memory` (zune-capi/src/image.rs:217-245) with a status at `p` and room for messages; `good` says whether `Image::read` gives a picture. -/
def zimgRead (good : Bool) (image p : Nat) (h : Heap) : Except Fault Heap :=
  if image = 0 then (if p = 0 then .ok h else report true p .imageIsNull h)
  else if good then assignImage image h
  else if p = 0 then .ok h
  else report true p .decodeErrors h

end Zune.Capi
