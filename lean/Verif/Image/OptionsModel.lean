/-
Model of the options of encoders and decoders (`crates/zune-core/src/options/encoder.rs`, `crates/zune-core/src/options/decoder.rs`).
-/
import Verif.Image.ColorModel

namespace Zune.Options

open Zune.Imageprocs (ColorSpace)
open Zune.Depth (BitDepth)
open Zune.Color (Image)

/-- `EncoderFlags` (encoder.rs:14-21). -/
structure EncFlags where
  jpegEncodeProgressive : Bool := false
  jpegOptimizeHuffman : Bool := false
  imageStripMetadata : Bool := false

/-- `EncoderOptions` with its default (encoder.rs:26-50); `usize` is `Nat`. -/
structure EncOpts where
  width : Nat := 0
  height : Nat := 0
  cs : ColorSpace := .RGB
  quality : UInt8 := 80
  depth : BitDepth := .eight
  numThreads : UInt8 := 4
  effort : UInt8 := 4
  flags : EncFlags := {}

/-- The public functions that change options of encoders (encoder.rs:119-180, 213-216). -/
inductive EncSet where
  | width (v : Nat)
  | height (v : Nat)
  | depth (v : BitDepth)
  | quality (v : UInt8)
  | colorspace (v : ColorSpace)
  | numThreads (v : UInt8)
  | effort (v : UInt8)
  | stripMetadata (v : Bool)
  | jpegEncodeProgressive (v : Bool)

/-- What these functions do (encoder.rs:119-180, 213-216). -/
def EncOpts.set (o : EncOpts) : EncSet → EncOpts
  | .width v => { o with width := v }
  | .height v => { o with height := v }
  | .depth v => { o with depth := v }
  | .quality v => { o with quality := if 100 < v then 100 else v }
  | .colorspace v => { o with cs := v }
  | .numThreads v => { o with numThreads := v }
  | .effort v => { o with effort := v }
  | .stripMetadata v => { o with flags := { o.flags with imageStripMetadata := v } }
  | .jpegEncodeProgressive v => { o with flags := { o.flags with jpegOptimizeHuffman := v } }

/-- `height` (encoder.rs:86-89); `none` is the panic of the assertion. -/
def EncOpts.getHeight (o : EncOpts) : Option Nat :=
  if o.height = 0 then none else some o.height

/-- `strip_metadata` (encoder.rs:185-187). -/
def EncOpts.stripMetadata (o : EncOpts) : Bool :=
  !o.flags.imageStripMetadata

/-- `jpeg_encode_progressive` (encoder.rs:198-200). -/
def EncOpts.progressive (o : EncOpts) : Bool :=
  o.flags.jpegEncodeProgressive

/-- `jpeg_optimized_huffman_tables` (encoder.rs:206-208). -/
def EncOpts.optimizedHuffman (o : EncOpts) : Bool :=
  o.flags.jpegOptimizeHuffman

/-- `create_options_for_encoder` (`crates/zune-image/src/codecs.rs:59-75`). -/
def optionsFor (o : Option EncOpts) (i : Image) : EncOpts :=
  ((((o.getD {}).set (.width i.width)).set (.height i.height)).set (.depth i.depth)).set (.colorspace i.cs)

/-- What the JPEG encoder is told (`crates/zune-image/src/codecs/jpeg.rs:168-197`): quality, progressive, optimized tables and the Exif fields to add. (Simplified: fields are any
type, and writing them to a segment succeeds.) -/
def jpegSetup {φ : Type} (o : Option EncOpts) (i : Image) (exif : Option (List φ)) : UInt8 × Bool × Bool × Option (List φ) :=
  let p := optionsFor o i
  (p.quality, p.progressive, p.optimizedHuffman, if p.stripMetadata then none else exif)

/-- The Exif fields given to the PNG encoder (`crates/zune-image/src/codecs/png.rs:180-207`), simplified as `jpegSetup`. -/
def pngExif {φ : Type} (o : Option EncOpts) (i : Image) (exif : Option (List φ)) : Option (List φ) :=
  let p := optionsFor o i
  if !p.stripMetadata then exif else none

/-- `ByteEndian` (`crates/zune-core/src/bit_depth.rs:165-170`). -/
inductive Endian where
  | LE | BE
  deriving DecidableEq

/-- `DecoderFlags` (decoder.rs:79-112). -/
structure DecFlags where
  confirmAdler : Bool
  confirmCrc : Bool
  jpgStrict : Bool
  useUnsafe : Bool
  sse2 : Bool
  sse3 : Bool
  sse41 : Bool
  avx : Bool
  avx2 : Bool
  addAlpha : Bool
  neon : Bool
  strip16 : Bool
  pngAnimated : Bool
  jxlAnimated : Bool

/-- `fast_options` (decoder.rs:25-44). -/
def fastOptions : DecFlags where
  confirmAdler := false
  confirmCrc := false
  jpgStrict := false
  useUnsafe := true
  neon := true
  avx := true
  avx2 := true
  sse2 := true
  sse3 := true
  sse41 := true
  addAlpha := false
  strip16 := false
  pngAnimated := true
  jxlAnimated := true

/-- `cmd_options` (decoder.rs:52-72). -/
def cmdOptions : DecFlags where
  confirmAdler := false
  confirmCrc := false
  jpgStrict := false
  useUnsafe := true
  neon := true
  avx := true
  avx2 := true
  sse2 := true
  sse3 := true
  sse41 := true
  addAlpha := false
  strip16 := false
  pngAnimated := true
  jxlAnimated := true

/-- `DecoderOptions` (decoder.rs:118-161) with its default (655-665); `decoder_error_tolerance_mode` (16-19) is `fast_options`. -/
structure DecOpts where
  maxWidth : Nat := 2 ^ 14
  maxHeight : Nat := 2 ^ 14
  outCs : ColorSpace := .RGB
  maxScans : Nat := 100
  deflateLimit : Nat := 2 ^ 30
  flags : DecFlags := fastOptions
  endian : Endian := .BE

/-- `new_safe` (decoder.rs:173-175). -/
def newSafe : DecOpts := {}

/-- `new_fast` (decoder.rs:181-184) with `set_decoder_flags` (269-272). -/
def newFast : DecOpts := { newSafe with flags := fastOptions }

/-- `new_cmd` (decoder.rs:191-194). -/
def newCmd : DecOpts := { newSafe with flags := cmdOptions }

/-- The public functions that change options of decoders (decoder.rs:232-308, 326-395, 408-427, 625-628). -/
inductive DecSet where
  | maxWidth (v : Nat)
  | maxHeight (v : Nat)
  | useUnsafe (v : Bool)
  | strictMode (v : Bool)
  | byteEndian (v : Endian)
  | confirmAdler (v : Bool)
  | limit (v : Nat)
  | confirmCrc (v : Bool)
  | addAlpha (v : Bool)
  | strip16 (v : Bool)
  | pngAnimated (v : Bool)
  | maxScans (v : Nat)
  | outColorspace (v : ColorSpace)
  | jxlAnimated (v : Bool)

/-- What these functions do (decoder.rs:232-308, 326-395, 408-427, 625-628). -/
def DecOpts.set (o : DecOpts) : DecSet → DecOpts
  | .maxWidth v => { o with maxWidth := v }
  | .maxHeight v => { o with maxHeight := v }
  | .useUnsafe v => { o with flags := { o.flags with useUnsafe := v } }
  | .strictMode v => { o with flags := { o.flags with jpgStrict := v, confirmCrc := v, confirmAdler := v } }
  | .byteEndian v => { o with endian := v }
  | .confirmAdler v => { o with flags := { o.flags with confirmAdler := v } }
  | .limit v => { o with deflateLimit := v }
  | .confirmCrc v => { o with flags := { o.flags with confirmCrc := v } }
  | .addAlpha v => { o with flags := { o.flags with addAlpha := v } }
  | .strip16 v => { o with flags := { o.flags with strip16 := v } }
  | .pngAnimated v => { o with flags := { o.flags with pngAnimated := v } }
  | .maxScans v => { o with maxScans := v }
  | .outColorspace v => { o with outCs := v }
  | .jxlAnimated v => { o with flags := { o.flags with jxlAnimated := v } }

/-- `strict_mode` (decoder.rs:213-217). -/
def DecOpts.strictMode (o : DecOpts) : Bool :=
  o.flags.jpgStrict || o.flags.confirmCrc || o.flags.confirmAdler

/-- What the machine has (`is_x86_feature_detected!`, `target_arch`, decoder.rs:448-463, 606-611). -/
structure Machine where
  sse2 : Bool
  sse3 : Bool
  sse41 : Bool
  avx : Bool
  avx2 : Bool
  neon : Bool

/-- `use_sse2` (decoder.rs:441-467). -/
def DecOpts.useSse2 (m : Machine) (o : DecOpts) : Bool :=
  if !(o.flags.sse2 || o.flags.useUnsafe) then false else if m.sse2 then true else false

/-- `use_sse3` (decoder.rs:474-499). -/
def DecOpts.useSse3 (m : Machine) (o : DecOpts) : Bool :=
  if !(o.flags.sse3 || o.flags.useUnsafe) then false else if m.sse3 then true else false

/-- `use_sse41` (decoder.rs:506-531). -/
def DecOpts.useSse41 (m : Machine) (o : DecOpts) : Bool :=
  if !(o.flags.sse41 || o.flags.useUnsafe) then false else if m.sse41 then true else false

/-- `use_avx` (decoder.rs:538-563). -/
def DecOpts.useAvx (m : Machine) (o : DecOpts) : Bool :=
  if !(o.flags.avx || o.flags.useUnsafe) then false else if m.avx then true else false

/-- `use_avx2` (decoder.rs:570-595). -/
def DecOpts.useAvx2 (m : Machine) (o : DecOpts) : Bool :=
  if !(o.flags.avx2 || o.flags.useUnsafe) then false else if m.avx2 then true else false

/-- `use_neon` (decoder.rs:598-613). -/
def DecOpts.useNeon (m : Machine) (o : DecOpts) : Bool :=
  if !(o.flags.neon || o.flags.useUnsafe) then false else if m.neon then true else false

end Zune.Options
