/-
Model of saving to files: `Image::save`, `Image::save_to`, `ImageFormat::encoder_for_extension`, `has_encoder`, `has_decoder`
(`crates/zune-image/src/codecs.rs`).  The parts of the standard library they use, `Path::extension` and `BufWriter`, are modelled after their
documentation and source, which are not in the repository.
-/
import Verif.Image.GuessModel

namespace Zune.Files
open Zune.Guess (Format)

/-- The features of the crate that have a format (zune-image/Cargo.toml, `cfg` in codecs.rs:145-267). -/
structure Features where
  jpeg : Bool
  png : Bool
  ppm : Bool
  psd : Bool
  farbfeld : Bool
  qoi : Bool
  hdr : Bool
  bmp : Bool
  jxl : Bool
  webp : Bool
  deriving DecidableEq, Repr

/-- `encoder_for_extension` (codecs.rs:354-429). -/
def encoderForExtension (ft : Features) (ext : String) : Option Format :=
  if ext = "qoi" then (if ft.qoi then some .QOI else none)
  else if ext = "ppm" ∨ ext = "pam" ∨ ext = "pgm" ∨ ext = "pbm" ∨ ext = "pfm" then (if ft.ppm then some .PPM else none)
  else if ext = "jpeg" ∨ ext = "jpg" then (if ft.jpeg then some .JPEG else none)
  else if ext = "jxl" then (if ft.jxl then some .JPEG_XL else none)
  else if ext = "ff" then (if ft.farbfeld then some .Farbfeld else none)
  else if ext = "hdr" then (if ft.hdr then some .HDR else none)
  else if ext = "png" then (if ft.png then some .PNG else none)
  else none

/-- `has_encoder` (codecs.rs:268-282). -/
def hasEncoder (ft : Features) : Format → Bool
  | .JPEG => ft.jpeg
  | .PNG => ft.png
  | .PPM => ft.ppm
  | .Farbfeld => ft.farbfeld
  | .QOI => ft.qoi
  | .JPEG_XL => ft.jxl
  | .HDR => ft.hdr
  | _ => false

/-- `has_decoder` (codecs.rs:108-126) with `decoder_with_options` (134-265) on no data: making a decoder succeeds when its feature is on. -/
def hasDecoder (ft : Features) : Format → Bool
  | .JPEG_XL => ft.jxl
  | .WEBP => ft.webp
  | .JPEG => ft.jpeg
  | .PNG => ft.png
  | .PPM => ft.ppm
  | .PSD => ft.psd
  | .Farbfeld => ft.farbfeld
  | .QOI => ft.qoi
  | .HDR => ft.hdr
  | .BMP => ft.bmp

/-- `Path::extension` (used at codecs.rs:457) of a file name without directories: what follows the last dot, unless there is none, it is the first
    letter, or the name is `..`. -/
def extension (name : List Char) : Option (List Char) :=
  let ext := (name.reverse.takeWhile fun c => c != '.').reverse
  if name = ['.', '.'] ∨ name.length ≤ ext.length + 1 then none else some ext

/-- A `BufWriter` (codecs.rs:508): what is in the file and what is in the buffer. -/
structure Writer where
  file : List UInt8
  buf : List UInt8
  deriving DecidableEq, Repr

/-- Writing to a file on a device with room for `room` bytes of it. -/
def fileWrite (room : Nat) (file b : List UInt8) : Bool × List UInt8 :=
  (decide (b.length ≤ room - file.length), file ++ b.take (room - file.length))

/-- `BufWriter::flush_buf`: what could not be written stays in the buffer. -/
def flushBuf (room : Nat) (w : Writer) : Bool × Writer :=
  ((fileWrite room w.file w.buf).1, ⟨(fileWrite room w.file w.buf).2, w.buf.drop (room - w.file.length)⟩)

/-- `BufWriter::write_all` with a buffer of `cap` bytes (8192 for `BufWriter::new`). -/
def writeAll (cap room : Nat) (w : Writer) (b : List UInt8) : Bool × Writer :=
  if b.length < cap - w.buf.length then (true, ⟨w.file, w.buf ++ b⟩)
  else
    let r := if cap - w.buf.length < b.length then flushBuf room w else (true, w)
    if r.1 = false then (false, r.2)
    else if cap ≤ b.length then ((fileWrite room r.2.file b).1, ⟨(fileWrite room r.2.file b).2, r.2.buf⟩)
    else (true, ⟨r.2.file, r.2.buf ++ b⟩)

/-- What an encoder does to a sink that takes everything: the pieces it writes one after the other, and whether it succeeds. -/
structure Out where
  chunks : List (List UInt8)
  ok : Bool
  deriving DecidableEq, Repr

/-- An encoder with a sink that may fail; the first failure ends it. (Simplified: `write_u8`, which ignores failures, is taken for `write_u8_err`.) -/
def runOut (cap room : Nat) (w : Writer) : List (List UInt8) → Bool → Bool × Writer
  | [], ok => (ok, w)
  | b :: bs, ok =>
    let r := writeAll cap room w b
    if r.1 = false then (false, r.2) else runOut cap room r.2 bs ok

/-- `save_to` (codecs.rs:506-517): whether it succeeds, and the file afterwards.  The file is emptied when it is opened; the buffer is written when the writer is
    dropped, where failures are ignored; no encoder calls `flush_bytes`.  (Simplified: the file can be opened.) -/
def saveTo (cap room : Nat) (o : Out) : Bool × List UInt8 :=
  let r := runOut cap room ⟨[], []⟩ o.chunks o.ok
  (r.1, (flushBuf room r.2).2.file)

/-- `save` (codecs.rs:456-470) over a file that may exist. -/
def save (ft : Features) (enc : Format → Out) (cap room : Nat) (name : List Char) (old : Option (List UInt8)) : Bool × Option (List UInt8) :=
  match extension name with
  | none => (false, old)
  | some ext =>
    match encoderForExtension ft (String.ofList ext) with
    | none => (false, old)
    | some f => ((saveTo cap room (enc f)).1, some (saveTo cap room (enc f)).2)

end Zune.Files
