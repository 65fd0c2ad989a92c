/-
Model of decoding through the C interface (`zil_imdecode_into`, `imdecode_inner`, `crates/zune-capi/src/imread.rs`) with `decode_info`
(`crates/zune-image/src/utils.rs`), on top of the models of the codecs.
-/
import Verif.Capi.HeapModel
import Verif.Image.SaveModel
import Verif.Jpeg.HeaderModel

namespace Zune.Capi

open Zune.Imageprocs (ColorSpace)
open Zune.Depth (BitDepth)

/-- The parts of `ImageMetadata` used (imread.rs:324-327). -/
structure Meta where
  width : Nat
  height : Nat
  cs : ColorSpace
  depth : BitDepth
  deriving DecidableEq, Repr

/-- The limits of `DecoderOptions::default` (zune-core/src/options/decoder.rs:655-665); strict mode is off. -/
def defaults : Save.Opts := ⟨16384, 16384, false⟩

/-- What is not modelled: the headers and the decoders of the other formats, and JPEG after the headers. -/
structure Others where
  info : Guess.Format → List UInt8 → Option Meta
  into : Guess.Format → List UInt8 → List UInt8 → Option (List UInt8)
  jpeg : Jpeg.Hdr → List UInt8 → List UInt8 → Option (List UInt8)

/-- The depth of a PPM file (zune-ppm/src/decoder.rs:451-457). -/
def ppmDepth (hd : Ppm.Hdr) : BitDepth := if hd.sixteen then .sixteen else .eight

/-- `decode_info` (utils.rs:191-199) with `read_headers` of the wrappers (codecs/qoi.rs:60-80, ppm.rs:128-145, farbfeld.rs:58-75). (Simplified: PPM files with
floats have no headers here.) -/
def decodeInfo (x : Others) (file : List UInt8) : Option Meta :=
  match Guess.guessFormat (Bytestream.Cursor.new file) with
  | none => none
  | some (.QOI, c) =>
    match (Qoi.decodeHeaders ⟨defaults.maxW, defaults.maxH, defaults.strict⟩ (Bytestream.Cursor.new c.rest)).1 with
    | .ok hd => some ⟨hd.w, hd.h, Save.qoiColor hd.cs, .eight⟩
    | .error _ => none
  | some (.PPM, c) =>
    match Ppm.decodeHeaders defaults.maxW defaults.maxH c.rest with
    | .ok (hd, _) => some ⟨hd.w, hd.h, Save.ppmColor hd.cs, ppmDepth hd⟩
    | .error _ => none
  | some (.Farbfeld, c) =>
    match Farbfeld.decodeHeaders defaults.maxW defaults.maxH c.rest with
    | .ok (w, h, _) => some ⟨w, h, .RGBA, .sixteen⟩
    | .error _ => none
  | some (f, c) => x.info f c.rest

/-- What `imdecode_inner` comes to besides success. -/
inductive Fail where
  | error | panic
  deriving DecidableEq, Repr

/-- `PngDecoder::depth` (zune-png/src/decoder.rs:248-257) of a decoder with the given flag and bits. -/
def pngDepth (seenHdr : Bool) (bits : Nat) : Option BitDepth :=
  if seenHdr = false then none else if bits = 16 then some .sixteen else some .eight

/-- `JpegDecoder::decode_into` (zune-jpeg/src/decoder.rs:776-795): the headers come first. -/
def jpegInto (x : Others) (file out : List UInt8) : Except Fail (List UInt8) :=
  match Jpeg.decodeHeaders ⟨defaults.maxW, defaults.maxH, defaults.strict⟩ file with
  | .error _ => .error .error
  | .ok (hd, rest) =>
    match x.jpeg hd rest out with
    | some o => .ok o
    | none => .error .error

/-- The part for PPM (imread.rs:414-446), for 8 and 16 bits. -/
def ppmInto (file out : List UInt8) : Except Fail (List UInt8) :=
  match Ppm.decodeHeaders defaults.maxW defaults.maxH file with
  | .error _ => .error .error
  | .ok (hd, _) =>
    let size := hd.w * hd.h * hd.cs.comps * Color.sizeOf (ppmDepth hd)
    if out.length < size then .error .error
    else
      match Ppm.decode defaults.maxW defaults.maxH file with
      | .error _ => .error .error
      | .ok (_, .u8 l) => if l.length = size then .ok (l ++ out.drop size) else .error .panic
      | .ok (_, .u16 l) =>
        let b := l.flatMap fun v => Make.ne16 (UInt16.ofNat v)
        if size ≤ b.length then .ok (b.take size ++ out.drop size) else .error .panic

/-- The part for farbfeld (imread.rs:480-492): the memory as 16 bit samples must have nothing before or after them. -/
def farbfeldInto (aligned : Bool) (file out : List UInt8) : Except Fail (List UInt8) :=
  if aligned = false ∨ out.length % 2 ≠ 0 then .error .error
  else
    match Farbfeld.decodeHeaders defaults.maxW defaults.maxH file with
    | .error _ => .error .error
    | .ok (w, h, s) =>
      match Farbfeld.decodeInto w h (out.length / 2) s with
      | .error _ => .error .error
      | .ok l => .ok ((l.flatMap fun v => Make.ne16 (UInt16.ofNat v)) ++ out.drop (2 * l.length))

/-- `imdecode_inner` (imread.rs:361-545); `aligned` says whether the memory is aligned. -/
def imdecodeInner (x : Others) (aligned : Bool) (file out : List UInt8) : Except Fail (List UInt8) :=
  match Guess.guessFormat (Bytestream.Cursor.new file) with
  | none => .ok out
  | some (.JPEG, c) => jpegInto x c.rest out
  | some (.PNG, c) =>
    match pngDepth false 0 with
    | none => .error .panic
    | some _ =>
      match x.into .PNG c.rest out with
      | some o => .ok o
      | none => .error .error
  | some (.PPM, c) => ppmInto c.rest out
  | some (.Farbfeld, c) => farbfeldInto aligned c.rest out
  | some (.QOI, c) => jpegInto x c.rest out
  | some (.WEBP, _) => .ok out
  | some (f, c) =>
    match x.into f c.rest out with
    | some o => .ok o
    | none => .error .error

/-- What the caller sees: the code of the status, the memory, and width, height, depth and channels when they are written. -/
structure Outcome where
  code : Code
  memory : List UInt8
  size : Option (Nat × Nat × BitDepth × Nat)
  deriving DecidableEq, Repr

/-- `zil_imdecode_into` (imread.rs:305-359) with no null pointers; `none` is a panic, which ends the process. (Simplified: memory written by a
decoder that then fails is left as it was.) -/
def imdecodeInto (x : Others) (aligned : Bool) (file out : List UInt8) : Option Outcome :=
  match decodeInfo x file with
  | none => some ⟨.decodeErrors, out, none⟩
  | some m =>
    let size := m.width * m.height * Color.sizeOf m.depth * m.cs.numComponents
    if out.length < size then some ⟨.notEnoughSpace, out, none⟩
    else
      match imdecodeInner x aligned file out with
      | .error .panic => none
      | .error .error => some ⟨.decodeErrors, out, none⟩
      | .ok o => some ⟨.ok, o, some (m.width, m.height, m.depth, m.cs.numComponents)⟩

end Zune.Capi
