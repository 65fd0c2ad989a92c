/-
Model of the colour space conversion of `crates/zune-image/src/core_filters/colorspace.rs` and of the part of
`crates/zune-image/src/traits.rs` around it (`OperationsTrait::execute`, `confirm_invariants`, `EncoderTrait::encode`,
`encode_to_result`).
-/
import Verif.Imageprocs.PixelModel
import Verif.Image.DepthModel

namespace Zune.Color
open Zune.Imageprocs (ColorSpace separate frameSlice imageSlices)
open Zune.Depth (BitDepth Samples F32 convert)

/-- The errors; `panic` stands for every `unwrap`, `assert!` and index out of bounds. -/
inductive Err where
  | components | dimensions | unsupportedColorspace | generic | panic
  deriving DecidableEq, Repr

/-- The parts of `Image` used here: `metadata` (colour space, depth, dimensions, alpha state) and the channels of each frame. -/
structure Image where
  cs : ColorSpace
  depth : BitDepth
  width : Nat
  height : Nat
  premultiplied : Bool
  frames : List (List Samples)
  deriving DecidableEq, Repr

/-- `BitDepth::size_of` (bit_depth.rs:145-152). -/
def sizeOf : BitDepth → Nat
  | .eight => 1 | .sixteen => 2 | .float32 => 4

/-- `Channel::len`: length in bytes. -/
def byteLen : Samples → Nat
  | .u8 l => l.length
  | .u16 l => 2 * l.length
  | .f32 l => 4 * l.length

/-- `Image::channels_ref(true)` (image.rs:142-149, frame.rs:265-272). -/
def colorChannels (i : Image) : Option (List Samples) :=
  (imageSlices i.cs true i.frames).map fun l => (l.map fun t => t.2.1).flatten

/-- `confirm_invariants` (traits.rs:220-251). -/
def confirm (i : Image) : Except Err Unit :=
  if i.frames.any fun f => f.length != i.cs.numComponents then .error .components
  else
    match colorChannels i with
    | none => .error .panic
    | some l => if l.any fun c => byteLen c != sizeOf i.depth * i.width * i.height then .error .dimensions else .ok ()

/-- `OperationsTrait::execute` (traits.rs:145-196) for operations with the default `supported_colorspaces` and all bit types.
    `ALL_COLORSPACES` is every colour space but `Unknown` and `MultiBand`, and `MultiBand` only causes a warning. -/
def execute (impl : Image → Except Err Image) (i : Image) : Except Err Image :=
  if i.cs = .Unknown then .error .unsupportedColorspace
  else
    match confirm i with
    | .error e => .error e
    | .ok _ =>
      match impl i with
      | .error e => .error e
      | .ok j =>
        match confirm j with
        | .error e => .error e
        | .ok _ => .ok j

/-! ### Grayscale -/

/-- `convert_rgb_to_grayscale_scalar` (grayscale/scalar.rs:10-33) on one pixel; the coefficients are the values of
    `(c * 32768.0 + 0.5) as u32`. -/
def greyU8 (max : Nat) (r g b : UInt8) : UInt8 :=
  let g1 := (r.toNat * 64 * 9794 + 2 ^ 14) >>> 15
  let g2 := (g.toNat * 64 * 19235 + 2 ^ 14) >>> 15
  let g3 := (b.toNat * 64 * 3736 + 2 ^ 14) >>> 15
  UInt8.ofNat (min ((g1 + g2 + g3) / 64) max)

/-- `convert_rgb_to_grayscale_scalar_u16` (grayscale/scalar.rs:44-67) on one pixel. -/
def greyU16 (max : Nat) (r g b : UInt16) : UInt16 :=
  let g1 := (r.toNat * 64 * 641882862 + 2 ^ 30) >>> 31
  let g2 := (g.toNat * 64 * 1260572901 + 2 ^ 30) >>> 31
  let g3 := (b.toNat * 64 * 244813136 + 2 ^ 30) >>> 31
  UInt16.ofNat (min ((g1 + g2 + g3) / 64) max)

/-- The loop over four slices (scalar.rs:19-32, 53-66): as many pixels as the shortest of the four, the rest of `out` stays. -/
def greyLoop {α : Type} (f : α → α → α → α) : List α → List α → List α → List α → List α
  | r :: rs, g :: gs, b :: bs, _ :: out => f r g b :: greyLoop f rs gs bs out
  | _, _, _, out => out

/-- `_mm_mulhrs_epi16` on non-negative values. -/
def mulhrs (a b : Nat) : Nat := (a * b / 2 ^ 14 + 1) / 2

/-- `_mm_packus_epi16` on one lane: signed 16 bit to unsigned 8 bit with saturation. -/
def packus (x : Nat) : UInt8 := if x % 2 ^ 16 ≥ 2 ^ 15 then 0 else UInt8.ofNat (min (x % 2 ^ 16) 255)

/-- One lane of the loop body of sse41.rs:40-71 and avx2.rs:35-74 (the same operations, on 8 or 16 lanes; in the AVX2 version
    `packus` and `permute4x64::<0b00_00_11_00>` put the lanes back in order). -/
def greyLane (r g b : UInt8) : UInt8 :=
  let r := (r.toNat <<< 6) % 2 ^ 16
  let g := (g.toNat <<< 6) % 2 ^ 16
  let b := (b.toNat <<< 6) % 2 ^ 16
  packus ((((mulhrs r 9794 + mulhrs g 19235) % 2 ^ 16 + mulhrs b 3736) % 2 ^ 16) >>> 6)

/-- The instruction set chosen at run time (grayscale.rs:27-47). -/
inductive Isa where
  | scalar | sse41 | avx2
  deriving DecidableEq, Repr

/-- `CHUNK_SIZE` (sse41.rs:23, avx2.rs:19). -/
def Isa.lanes : Isa → Nat
  | .scalar => 1 | .sse41 => 8 | .avx2 => 16

/-- `convert_rgb_to_grayscale_u8_sse41` (sse41.rs:25-86) and `convert_rgb_to_grayscale_u8_avx2` (avx2.rs:21-88): the iterator
    chain zips `r`, `b`, `g` and names the elements `r_chunk`, `g_chunk`, `b_chunk`. -/
def greySimd (n : Nat) (r g b out : List UInt8) : List UInt8 :=
  let whole := r.length / n * n
  let main := greyLoop greyLane (r.take whole) (b.take whole) (g.take whole) (out.take whole)
  if r.length % n = 0 then main ++ out.drop whole
  else
    let start := r.length - r.length % n
    let cStart := r.length - r.length % n / 3
    main ++ greyLoop (greyU8 255) (r.drop cStart) (g.drop cStart) (b.drop cStart) (out.drop start)

/-- `rgb_to_grayscale_u8` (grayscale.rs:24-50). -/
def greyAllU8 (isa : Isa) (max : Nat) (r g b out : List UInt8) : List UInt8 :=
  match isa with
  | .scalar => greyLoop (greyU8 max) r g b out
  | isa => greySimd isa.lanes r g b out

/-! ### Conversions -/

/-- What the conversions use that is not modelled: the instruction set, and the functions computing in floating point
    (`convert_rgb_to_cmyk`, `convert_cmyk_to_rgb` for 16 bits and floats, HSL, HSV, grayscale of floats). -/
structure Env where
  isa : Isa
  greyF32 : F32 → F32 → F32 → F32
  rgbToCmyk : Image → Except Err Image
  cmykToRgb : Image → Except Err Image
  rgbToHsl : Image → Except Err Image
  hslToRgb : Image → Except Err Image
  rgbToHsv : Image → Except Err Image
  hsvToRgb : Image → Except Err Image

/-- A channel of `bytes` bytes filled with the largest value (conversion_functions.rs:20-41; `new_with_length` takes bytes). -/
def opaqueChannel (d : BitDepth) (bytes : Nat) : Samples :=
  match d with
  | .eight => .u8 (List.replicate bytes 255)
  | .sixteen => .u16 (List.replicate (bytes / 2) 65535)
  | .float32 => .f32 (List.replicate (bytes / 4) (Depth.ofNat 1))

/-- `convert_adding_opaque_alpha` (conversion_functions.rs:15-54). -/
def addOpaqueAlpha (i : Image) : Except Err Image :=
  match colorChannels i with
  | none => .error .panic
  | some [] => .error .panic
  | some (c :: _) => .ok { i with frames := i.frames.map fun f => f ++ [opaqueChannel i.depth (byteLen c)] }

/-- The bodies of the three arms of `convert_rgb_to_grayscale` (conversion_functions.rs:78-160) up to the choice of alpha. -/
def greyChannel (env : Env) (d : BitDepth) (size : Nat) : List Samples → Option Samples
  | .u8 r :: .u8 g :: .u8 b :: _ =>
    if d = .eight then some (.u8 (greyAllU8 env.isa 255 r g b (List.replicate size 0))) else none
  | .u16 r :: .u16 g :: .u16 b :: _ =>
    if d = .sixteen then some (.u16 (greyLoop (greyU16 65535) r g b (List.replicate (size / 2) 0))) else none
  | .f32 r :: .f32 g :: .f32 b :: _ =>
    if d = .float32 then some (.f32 (greyLoop env.greyF32 r g b (List.replicate (size / 4) (Depth.ofNat 0)))) else none
  | _ => none

/-- The loop body of `convert_rgb_to_grayscale` on one frame (conversion_functions.rs:75-162); `none` is a panic. -/
def greyFrame (env : Env) (cs dst : ColorSpace) (preserveAlpha : Bool) (d : BitDepth) (size : Nat) (f : List Samples) :
    Option (List Samples) :=
  match frameSlice cs (!preserveAlpha) f with
  | none => none
  | some (_, channel, _) =>
    match greyChannel env d size channel with
    | none => none
    | some out =>
      if preserveAlpha && cs.hasAlpha then channel[3]?.map fun a => [out, a]
      else if dst.hasAlpha then some [out, opaqueChannel d size]
      else some [out]

/-- `convert_rgb_to_grayscale` (conversion_functions.rs:56-167); the final `assert_ne!` fails for an image without frames. -/
def rgbToGrey (env : Env) (dst : ColorSpace) (preserveAlpha : Bool) (i : Image) : Except Err Image :=
  if i.cs = .Luma ∨ i.cs = .LumaA then .ok i
  else
    match i.frames.mapM (greyFrame env i.cs dst preserveAlpha i.depth (i.width * i.height * sizeOf i.depth)) with
    | none => .error .panic
    | some fs => if fs = [] then .error .panic else .ok { i with frames := fs }

/-- `swap(0, 2)` and the conditional `pop` of `convert_rgb_bgr` on one frame (conversion_functions.rs:172-183). -/
def swapFrame (drop : Bool) : List Samples → Option (List Samples)
  | a :: b :: c :: t =>
    let f := c :: b :: a :: t
    if drop then (if f.dropLast.length = 3 then some f.dropLast else none) else some f
  | _ => none

/-- `convert_rgb_bgr` (conversion_functions.rs:169-192). -/
def rgbBgr (src dst : ColorSpace) (i : Image) : Except Err Image :=
  match i.frames.mapM (swapFrame (decide ((src = .BGRA ∨ src = .RGBA) ∧ (dst = .RGB ∨ dst = .BGR)))) with
  | none => .error .panic
  | some fs =>
    if (src = .BGR ∨ src = .RGB) ∧ (dst = .RGBA ∨ dst = .BGRA) then addOpaqueAlpha { i with frames := fs }
    else .ok { i with frames := fs }

/-- `pop().unwrap()` on one frame. -/
def popFrame (f : List Samples) : Option (List Samples) := if f = [] then none else some f.dropLast

/-- `pop_channel` (conversion_functions.rs:396-401). -/
def popChannel (i : Image) : Except Err Image :=
  match i.frames.mapM popFrame with
  | none => .error .panic
  | some fs => .ok { i with frames := fs }

/-- `pop().unwrap()` followed by `insert(0, ..)` (conversion_functions.rs:407-408, 421-422). -/
def rotateFrame (f : List Samples) : Option (List Samples) :=
  match f.getLast? with
  | none => none
  | some a => some (a :: f.dropLast)

/-- The loops of `convert_rgb_to_argb` and `convert_rgba_to_argb_or_vice_versa` (conversion_functions.rs:405-409, 419-423). -/
def rotate (i : Image) : Except Err Image :=
  match i.frames.mapM rotateFrame with
  | none => .error .panic
  | some fs => .ok { i with frames := fs }

/-- `convert_rgb_to_argb` (conversion_functions.rs:402-411). -/
def rgbToArgb (i : Image) : Except Err Image :=
  match addOpaqueAlpha i with
  | .error e => .error e
  | .ok i => rotate i

/-- `convert_rgba_to_argb_or_vice_versa` (conversion_functions.rs:413-425). -/
def rgbaArgb (i : Image) : Except Err Image :=
  if i.cs = .RGBA ∨ i.cs = .ARGB then rotate i else .error .panic

/-- The loop body of `convert_luma_to_rgb` (conversion_functions.rs:431-456). -/
def lumaFrame (color out : ColorSpace) (f : List Samples) : Except Err (List Samples) :=
  match f with
  | [] => .error .panic
  | l :: t =>
    if color = .Luma then .ok (l :: t ++ [l, l])
    else if color = .LumaA then
      if out.hasAlpha then .ok (l :: l :: l :: t) else .ok (l :: l :: l :: t).dropLast
    else .error .generic

/-- `convert_luma_to_rgb` (conversion_functions.rs:427-458). -/
def lumaToRgb (out : ColorSpace) (i : Image) : Except Err Image :=
  match i.frames.mapM (lumaFrame i.cs out) with
  | .error e => .error e
  | .ok fs => .ok { i with frames := fs }

/-- `blinn_8x8` (rgb_to_cmyk.rs:3-6). -/
def blinn (x y : UInt8) : UInt8 :=
  let t := x.toNat * y.toNat + 128
  UInt8.ofNat ((t + t >>> 8) >>> 8)

/-- `cmyk_to_rgb_u8` (rgb_to_cmyk.rs:17-30) on one colour channel and `k`; the three colours are treated alike. -/
def cmykLoop : List UInt8 → List UInt8 → List UInt8
  | c :: cs, k :: ks => blinn c k :: cmykLoop cs ks
  | cs, _ => cs

/-- The loop body of `convert_cmyk_to_rgb` for 8 bits (conversion_functions.rs:257-292); simplified: the Rust loop stops at the
    shortest of the four channels (they have equal length in an image that passed `confirm_invariants`, since CMYK has no
    alpha channel). -/
def cmykFrame : List Samples → Option (List Samples)
  | [.u8 c, .u8 m, .u8 y, .u8 k] => some [.u8 (cmykLoop c k), .u8 (cmykLoop m k), .u8 (cmykLoop y k)]
  | _ => none

/-- `convert_cmyk_to_rgb` (conversion_functions.rs:254-298) with target RGB. -/
def cmykToRgb (env : Env) (i : Image) : Except Err Image :=
  if i.depth = .eight then
    match i.frames.mapM cmykFrame with
    | none => .error .panic
    | some fs => .ok { i with frames := fs }
  else env.cmykToRgb i

/-- The assignment `image.set_colorspace(..)`. -/
def setCs (cs : ColorSpace) : Except Err Image → Except Err Image
  | .error e => .error e
  | .ok i => .ok { i with cs := cs }

/-- The arms of `execute_impl` for images in RGB (colorspace.rs:74-88). -/
def fromRgb (env : Env) (dst : ColorSpace) (i : Image) : Except Err Image :=
  match dst with
  | .RGBA => addOpaqueAlpha i
  | .Luma => rgbToGrey env dst dst.hasAlpha i
  | .LumaA => rgbToGrey env dst dst.hasAlpha i
  | .CMYK => env.rgbToCmyk i
  | .BGR => rgbBgr .RGB dst i
  | .BGRA => rgbBgr .RGB dst i
  | .ARGB => rgbToArgb i
  | .HSL => env.rgbToHsl i
  | .HSV => env.rgbToHsv i
  | _ => .error .generic

/-- The arms for images in RGBA (colorspace.rs:89-107). -/
def fromRgba (env : Env) (dst : ColorSpace) (i : Image) : Except Err Image :=
  match dst with
  | .RGB => popChannel i
  | .BGR => rgbBgr .RGBA dst i
  | .BGRA => rgbBgr .RGBA dst i
  | .ARGB => rgbaArgb i
  | .LumaA => rgbToGrey env dst dst.hasAlpha i
  | .Luma => rgbToGrey env dst dst.hasAlpha i
  | .HSV => env.rgbToHsv i
  | .HSL => env.rgbToHsl i
  | .CMYK =>
    match popChannel i with
    | .error e => .error e
    | .ok i => env.rgbToCmyk i
  | _ => .error .generic

/-- `execute_impl` (colorspace.rs:65-189) for images in RGB and RGBA, the only ones for which the recursive calls of
    `convert_color` are made (the recursion of the Rust code is unrolled here: it has depth one). -/
def impl1 (env : Env) (dst : ColorSpace) (i : Image) : Except Err Image :=
  if i.cs = dst then .ok i
  else
    match i.cs with
    | .RGB => setCs dst (fromRgb env dst i)
    | .RGBA => setCs dst (fromRgba env dst i)
    | _ => .error .generic

/-- `Image::convert_color` (image.rs:575-577) for images in RGB and RGBA. -/
def convertColor1 (env : Env) (dst : ColorSpace) (i : Image) : Except Err Image := execute (impl1 env dst) i

/-- `image.set_colorspace(via); image.convert_color(to)` after a first conversion. -/
def andThen (env : Env) (via dst : ColorSpace) (r : Except Err Image) : Except Err Image :=
  match setCs via r with
  | .error e => .error e
  | .ok i => convertColor1 env dst i

/-- `execute_impl` (colorspace.rs:65-189). -/
def impl (env : Env) (dst : ColorSpace) (i : Image) : Except Err Image :=
  if i.cs = dst then .ok i
  else
    match i.cs with
    | .RGB => setCs dst (fromRgb env dst i)
    | .RGBA => setCs dst (fromRgba env dst i)
    | .Luma =>
      match dst with
      | .RGB => setCs dst (lumaToRgb dst i)
      | .LumaA => setCs dst (addOpaqueAlpha i)
      | _ => setCs dst (andThen env .RGB dst (lumaToRgb .RGB i))
    | .LumaA =>
      match dst with
      | .RGB => setCs dst (lumaToRgb dst i)
      | .RGBA => setCs dst (lumaToRgb dst i)
      | .Luma => setCs dst (popChannel i)
      | _ => setCs dst (andThen env .RGBA dst (lumaToRgb .RGBA i))
    | .CMYK => setCs dst (andThen env .RGB dst (cmykToRgb env i))
    | .BGR => setCs dst (andThen env .RGB dst (rgbBgr .BGR .RGB i))
    | .BGRA => setCs dst (andThen env .RGBA dst (rgbBgr .BGRA .RGBA i))
    | .ARGB => setCs dst (andThen env .RGBA dst (rgbaArgb i))
    | .HSL => setCs dst (andThen env .RGB dst (env.hslToRgb i))
    | .HSV => setCs dst (andThen env .RGB dst (env.hsvToRgb i))
    | _ => .error .generic

/-- `ColorspaceConv::new(to).execute(image)`, which is `Image::convert_color` (image.rs:575-577). -/
def convertColor (env : Env) (dst : ColorSpace) (i : Image) : Except Err Image := execute (impl env dst) i

/-! ### Encoding -/

/-- `Depth::execute_impl` (depth.rs:109-211) over all frames (`channels_mut(false)` are all channels when the number of channels
    is right, which `execute` has checked). -/
def depthImpl (dst : BitDepth) (i : Image) : Except Err Image :=
  if i.depth = dst then .ok i
  else
    match i.frames.mapM fun f => f.mapM (convert i.depth dst) with
    | none => .error .panic
    | some fs => .ok { i with depth := dst, frames := fs }

/-- `Depth::new(dst).execute(image)`. -/
def convertDepth (dst : BitDepth) (i : Image) : Except Err Image := execute (depthImpl dst) i

/-- The required methods of `EncoderTrait` (traits.rs:254-428); `inner` gives the bytes `encode_inner` writes to the sink. -/
structure Encoder where
  colorspaces : List ColorSpace
  depths : List BitDepth
  defaultCs : ColorSpace → ColorSpace
  defaultDepth : BitDepth → BitDepth
  inner : Image → Except Err (List UInt8)

/-- `EncoderTrait::encode` (traits.rs:309-368): what is written to the sink. -/
def encode (env : Env) (e : Encoder) (i : Image) : Except Err (List UInt8) :=
  match confirm i with
  | .error e => .error e
  | .ok _ =>
    if i.cs ∉ e.colorspaces ∨ i.depth ∉ e.depths ∨ i.premultiplied then
      match (if i.cs ∉ e.colorspaces then convertColor env (e.defaultCs i.cs) i else .ok i) with
      | .error e => .error e
      | .ok j =>
        match (if i.depth ∉ e.depths then convertDepth (e.defaultDepth i.depth) j else .ok j) with
        | .error e => .error e
        | .ok j =>
          match confirm j with
          | .error e => .error e
          | .ok _ => e.inner j
    else e.inner i

/-- `EncoderTrait::encode_to_result` (traits.rs:387-395): the field `data` of the result. -/
def encodeToResult (env : Env) (e : Encoder) (i : Image) : Except Err (List UInt8) :=
  match encode env e i with
  | .error e => .error e
  | .ok _ => .ok []

/-! ### The encoders -/

/-- `EncoderTrait for FarbFeldEncoder` (codecs/farbfeld.rs:129-147). -/
def farbfeldEncoder (inner : Image → Except Err (List UInt8)) : Encoder :=
  ⟨[.RGBA], [.sixteen], fun _ => .RGBA, fun _ => .sixteen, inner⟩

/-- `EncoderTrait for HdrEncoder` (codecs/hdr.rs:108-126). -/
def hdrEncoder (inner : Image → Except Err (List UInt8)) : Encoder :=
  ⟨[.RGB], [.float32], fun _ => .RGB, fun _ => .float32, inner⟩

/-- `EncoderTrait for JpegEncoder` (codecs/jpeg.rs:212-235); the default colour space is that of the trait (traits.rs:418-420). -/
def jpegEncoder (inner : Image → Except Err (List UInt8)) : Encoder :=
  ⟨[.Luma, .RGB, .RGBA, .YCbCr, .YCCK, .CMYK], [.eight], fun _ => .RGB, fun _ => .eight, inner⟩

/-- `default_depth` of the PNG, JPEG XL and PPM encoders (png.rs:231-236, jpeg_xl.rs:102-107, ppm.rs:81-86). -/
def deepDepth : BitDepth → BitDepth
  | .sixteen => .sixteen | .float32 => .sixteen | _ => .eight

/-- `EncoderTrait for JxlEncoder` (codecs/jpeg_xl.rs:85-107); default colour space as in traits.rs:418-420. -/
def jxlEncoder (inner : Image → Except Err (List UInt8)) : Encoder :=
  ⟨[.Luma, .LumaA, .RGBA, .RGB], [.eight, .sixteen], fun _ => .RGB, deepDepth, inner⟩

/-- `EncoderTrait for PngEncoder` (codecs/png.rs:214-236); default colour space as in traits.rs:418-420. -/
def pngEncoder (inner : Image → Except Err (List UInt8)) : Encoder :=
  ⟨[.Luma, .LumaA, .RGB, .RGBA], [.eight, .sixteen], fun _ => .RGB, deepDepth, inner⟩

/-- `EncoderTrait for PPMEncoder` (codecs/ppm.rs:61-86); default colour space as in traits.rs:418-420. -/
def ppmEncoder (inner : Image → Except Err (List UInt8)) : Encoder :=
  ⟨[.RGB, .Luma, .RGBA, .LumaA], [.sixteen, .eight], fun _ => .RGB, deepDepth, inner⟩

/-- `EncoderTrait for QoiEncoder` (codecs/qoi.rs:120-145). -/
def qoiEncoder (inner : Image → Except Err (List UInt8)) : Encoder :=
  ⟨[.RGBA, .RGB], [.eight], fun cs => if cs.hasAlpha then .RGBA else .RGB, fun _ => .eight, inner⟩

end Zune.Color
