/-
Model of `guess_format` (`crates/zune-image/src/codecs.rs`).
-/
import Verif.Bytestream.Model

namespace Zune.Guess
open Zune.Bytestream

/-- The variants of `ImageFormat` (codecs.rs:41-74) that can be guessed. -/
inductive Format where
  | PNG | JPEG | PPM | PSD | Farbfeld | QOI | HDR | JPEG_XL | BMP | WEBP
  deriving DecidableEq, Repr

/-- The vector `magic_bytes` (codecs.rs:738-763). -/
def magicBytes : List (List UInt8 × Format) :=
  [([137, 80, 78, 71, 13, 10, 26, 10], .PNG),
   ([0xff, 0xd8], .JPEG),
   ([80, 53], .PPM),
   ([80, 54], .PPM),
   ([80, 55], .PPM),
   ([80, 102], .PPM),
   ([80, 70], .PPM),
   ([56, 66, 80, 83], .PSD),
   ([102, 97, 114, 98, 102, 101, 108, 100], .Farbfeld),
   ([113, 111, 105, 102], .QOI),
   ([35, 63, 82, 65, 68, 73, 65, 78, 67, 69, 10], .HDR),
   ([35, 63, 82, 71, 66, 69, 10], .HDR),
   ([0x00, 0x00, 0x00, 0x0C, 0x4A, 0x58, 0x4C, 0x20, 0x0D, 0x0A, 0x87, 0x0A], .JPEG_XL),
   ([0xFF, 0x0A], .JPEG_XL)]

/-- `probe_bmp` (zune-bmp/src/decoder.rs:114-136). -/
def probeBmp (bytes : List UInt8) : Bool :=
  if 2 ≤ bytes.length ∧ bytes.take 2 = [66, 77] then
    match bytes[14]? with
    | some sz => sz == 12 || sz == 16 || sz == 40 || sz == 52 || sz == 56 || sz == 64 || sz == 108 || sz == 124
    | none => false
  else false

/-- `is_webp` (codecs.rs:791-798). -/
def isWebp (data : List UInt8) : Bool :=
  if data.length < 12 then false
  else decide (data.take 4 = [82, 73, 70, 70]) && decide ((data.drop 8).take 4 = [87, 69, 66, 80])

/-- What follows the loop (codecs.rs:770-787), with the features `bmp` and `webp` enabled. -/
def guessTail (c : Cursor) : Option (Format × Cursor) :=
  match c.peekAt 0 16 with
  | (.error _, _) => none
  | (.ok reference, c) =>
    if probeBmp reference then some (.BMP, c)
    else
      match c.peekAt 0 12 with
      | (.error _, _) => none
      | (.ok reference, c) => if isWebp reference then some (.WEBP, c) else none

/-- The loop over the magic bytes (codecs.rs:765-769); `.ok()?` leaves the function. -/
def guessLoop : List (List UInt8 × Format) → Cursor → Option (Format × Cursor)
  | [], c => guessTail c
  | (magic, decoder) :: t, c =>
    match c.peekAt 0 magic.length with
    | (.error _, _) => none
    | (.ok l, c) => if magic.isPrefixOf l then some (decoder, c) else guessLoop t c

/-- `guess_format` (codecs.rs:732-789) on a reader at a given position; the returned data source is in the state the peeks leave
    it in. -/
def guessFormat (c : Cursor) : Option (Format × Cursor) := guessLoop magicBytes c

end Zune.Guess
