import Verif.Common.Bytes

/-!
# zune-jpeg: colour conversion (model)

Model of `crates/zune-jpeg/src/color_convert/scalar.rs`, `color_convert/avx.rs` (`color_convert.rs`
chooses between them) and of the per-line conversions of `worker.rs`.

Samples (`i16`) and intermediate values (`i32`) are integers.  The `i32` arithmetic cannot
overflow for any `i16` inputs; the only `i16` operation, `cr - 128`, is wrapped explicitly.
-/

namespace Zune.Jpeg

/-- Wrap to `i16`: the `cr - 128` of color_convert/scalar.rs:54-55 (release build) and avx.rs:190-191. -/
def wrap16 (x : Int) : Int := (x + 32768) % 65536 - 32768

/-- `clamp` (color_convert/scalar.rs:27-29): to 0..255, `as u8`. -/
def clampU8 (a : Int) : UInt8 := UInt8.ofNat (max 0 (min 255 a)).toNat

/-- `as u8` on an `i16` (worker.rs:143 and others): the low eight bits. -/
def lowByte (a : Int) : UInt8 := UInt8.ofNat (a % 256).toNat

/-- The `r`, `g`, `b` of color_convert/scalar.rs:59-64 after `clamp`. -/
structure Rgb where
  r : UInt8
  g : UInt8
  b : UInt8
  deriving DecidableEq, Repr

/-- The body of the loops of `ycbcr_to_rgba_inner_16_scalar` (color_convert/scalar.rs:54-64) and of
`ycbcr_to_rgb_inner_16_scalar` (103-113), which have the same text, with the constants of lines
15-22. -/
def ycbcrPixel (y cb cr : Int) : Rgb :=
  let cr := wrap16 (cr - 128)
  let cb := wrap16 (cb - 128)
  let y0 := y * 16384 + 8191
  let r := (y0 + cr * 22970) / 2 ^ 14
  let g := (y0 + cr * (-11700) + cb * (-5638)) / 2 ^ 14
  let b := (y0 + cb * 29032) / 2 ^ 14
  ⟨clampU8 r, clampU8 g, clampU8 b⟩

/-- The output layouts of the YCbCr conversion (color_convert.rs:95-101). -/
inductive Layout where
  | rgb | rgba | bgr | bgra
  deriving DecidableEq, Repr

/-- `num_components` of the output colour space (worker.rs:298). -/
def Layout.n : Layout → Nat
  | .rgb | .bgr => 3
  | .rgba | .bgra => 4

/-- The stores of one pixel (color_convert/scalar.rs:66-76 and 115-123). -/
def Layout.store : Layout → Rgb → List UInt8
  | .rgb, p => [p.r, p.g, p.b]
  | .rgba, p => [p.r, p.g, p.b, 255]
  | .bgr, p => [p.b, p.g, p.r]
  | .bgra, p => [p.b, p.g, p.r, 255]

/-- `ycbcr_to_rgb_inner_16_scalar`, `ycbcr_to_rgba_inner_16_scalar` (color_convert/scalar.rs:38-79,
86-128) at position 0, the only position used (worker.rs:326, 345, 363): the bytes written. -/
def conv16Scalar (l : Layout) (y cb cr : List Int) : List UInt8 :=
  ((y.zip (cb.zip cr)).map fun (y, cb, cr) => l.store (ycbcrPixel y cb cr)).flatten

/-! ## AVX2 -/

/-- The lanes of a register picked by a list of lane numbers; the shuffles of avx.rs are given by such lists. -/
def gather {α} (l : List α) (idx : List Nat) : List α := idx.filterMap fun i => l[i]?

/-- `_mm256_unpacklo_epi8(a, b)` (avx.rs:184, 266, 269): in each 128-bit half, the first eight bytes of `a` and `b`
alternately. -/
def unpackLo8 {α} (a b : List α) : List α :=
  gather (a ++ b) [0, 32, 1, 33, 2, 34, 3, 35, 4, 36, 5, 37, 6, 38, 7, 39,
    16, 48, 17, 49, 18, 50, 19, 51, 20, 52, 21, 53, 22, 54, 23, 55]

/-- `_mm256_unpackhi_epi8(a, b)` (avx.rs:185, 267, 270). -/
def unpackHi8 {α} (a b : List α) : List α :=
  gather (a ++ b) [8, 40, 9, 41, 10, 42, 11, 43, 12, 44, 13, 45, 14, 46, 15, 47,
    24, 56, 25, 57, 26, 58, 27, 59, 28, 60, 29, 61, 30, 62, 31, 63]

/-- `_mm256_unpacklo_epi16(a, b)` (avx.rs:187) on sixteen lanes. -/
def unpackLo16 {α} (a b : List α) : List α :=
  gather (a ++ b) [0, 16, 1, 17, 2, 18, 3, 19, 8, 24, 9, 25, 10, 26, 11, 27]

/-- `_mm256_unpackhi_epi16(a, b)` (avx.rs:188) on sixteen lanes. -/
def unpackHi16 {α} (a b : List α) : List α :=
  gather (a ++ b) [4, 20, 5, 21, 6, 22, 7, 23, 12, 28, 13, 29, 14, 30, 15, 31]

/-- The lane order of `_mm256_packus_epi32(a, b)` (avx.rs:228-230; eight lanes each, sixteen out). -/
def packOrder32 {α} (a b : List α) : List α :=
  gather (a ++ b) [0, 1, 2, 3, 8, 9, 10, 11, 4, 5, 6, 7, 12, 13, 14, 15]

/-- The lane order of `_mm256_packus_epi16(a, b)` (avx.rs:103-105, 263-264; sixteen lanes each, thirty-two out). -/
def packOrder16 {α} (a b : List α) : List α :=
  gather (a ++ b) [0, 1, 2, 3, 4, 5, 6, 7, 16, 17, 18, 19, 20, 21, 22, 23,
    8, 9, 10, 11, 12, 13, 14, 15, 24, 25, 26, 27, 28, 29, 30, 31]

/-- `_mm256_permute4x64_epi64::<{shuffle(3, 1, 2, 0)}>` on bytes (avx.rs:107-109): quarters 0, 2, 1, 3. -/
def permute4x64 {α} (a : List α) : List α :=
  gather a [0, 1, 2, 3, 4, 5, 6, 7, 16, 17, 18, 19, 20, 21, 22, 23,
    8, 9, 10, 11, 12, 13, 14, 15, 24, 25, 26, 27, 28, 29, 30, 31]

/-- `_mm256_shuffle_epi8(a, m)` (avx.rs:124-126) for a mask without negative entries: within each half. -/
def shuffle8 {α} (a : List α) (m : List Nat) : List α :=
  gather a (m ++ m.map (· + 16))

/-- `_mm256_blendv_epi8(a, b, m)` (avx.rs:137-139): `b` where the mask is set. -/
def blendv {α} (a b : List α) (m : List Bool) : List α :=
  (a.zip (b.zip (m ++ m))).map fun (a, b, m) => if m then b else a

/-- `_mm256_permute2x128_si256::<k>(a, b)` (avx.rs:141-142, 273-279): each half of the result is
one of the four halves, or sixteen times the byte zero `z` if bit 3 of its control is set. -/
def permute2x128 {α} (z : α) (k : Nat) (a b : List α) : List α :=
  let half (s : Nat) : List α :=
    if s / 8 % 2 = 1 then List.replicate 16 z else ((a ++ b).drop (16 * (s % 4))).take 16
  half (k % 16) ++ half (k / 16 % 16)

/-- `_mm256_blend_epi32::<0b1111_0000>(a, b)` (avx.rs:281-283): the low half of `a`, the high half of `b`. -/
def blendHalves {α} (a b : List α) : List α := a.take 16 ++ b.drop 16

/-- One lane of `_mm256_packus_epi32` (avx.rs:228-230): `i32` to `u16` with saturation, read back as `i16`. -/
def packus32 (a : Int) : Int := wrap16 (max 0 (min 65535 a))

/-- One lane of `_mm256_packus_epi16` (avx.rs:103-105, 263-264): `i16` to `u8` with saturation. -/
def packus16 (a : Int) : UInt8 := UInt8.ofNat (max 0 (min 255 a)).toNat

/-- `_mm256_madd_epi16` (avx.rs:193-208): products of neighbouring `i16` lanes added in pairs.  (Simplified: the
sum is not wrapped to 32 bits; it overflows only if all four factors are -32768.) -/
def madd : List Int → Int × Int → List Int
  | a :: b :: t, k => (a * k.1 + b * k.2) :: madd t k
  | _, _ => []

/-- `_mm256_slli_epi16::<8>(cb)` followed by `_mm256_or_si256(.., cr)` (avx.rs:181-182), split
into bytes: the low byte is that of `cr`, the high byte the low byte of `cb` combined with the
high byte of `cr`. -/
def uvBytes (cb cr : Int) : List Nat :=
  [(cr % 256).toNat, (cb % 256).toNat ||| (cr / 256 % 256).toNat]

/-- Bytes back to `i16` lanes, little endian (the registers of avx.rs:184-185). -/
def lanes16 : List Nat → List Int
  | a :: b :: t => wrap16 (a + 256 * b) :: lanes16 t
  | _ => []

/-- `ycbcr_to_rgb_baseline_no_clamp` (avx.rs:158-233): sixteen `i16` lanes for each colour. -/
def avxBase (y cb cr : List Int) : List Int × List Int × List Int :=
  let uv8 : List Nat := ((cb.zip cr).map fun (cb, cr) => uvBytes cb cr).flatten
  let zero8 : List Nat := List.replicate 32 0
  let zero16 : List Int := List.replicate 16 0
  let uvLo := lanes16 (unpackLo8 uv8 zero8)
  let uvHi := lanes16 (unpackHi8 uv8 zero8)
  let yLo := unpackLo16 y zero16
  let yHi := unpackHi16 y zero16
  let uvLo := uvLo.map fun x => wrap16 (x - 128)
  let uvHi := uvHi.map fun x => wrap16 (x - 128)
  let yLo := (madd yLo (16384, 0)).map (· + 8191)
  let yHi := (madd yHi (16384, 0)).map (· + 8191)
  let sh (c : List Int) (y : List Int) : List Int := (c.zip y).map fun (c, y) => (c + y) / 2 ^ 14
  let rLo := sh (madd uvLo (22970, 0)) yLo
  let rHi := sh (madd uvHi (22970, 0)) yHi
  let gLo := sh (madd uvLo (-11700, -5638)) yLo
  let gHi := sh (madd uvHi (-11700, -5638)) yHi
  let bLo := sh (madd uvLo (0, 29032)) yLo
  let bHi := sh (madd uvHi (0, 29032)) yHi
  (packOrder32 (rLo.map packus32) (rHi.map packus32),
   packOrder32 (gLo.map packus32) (gHi.map packus32),
   packOrder32 (bLo.map packus32) (bHi.map packus32))

/-- `sh_r`, `sh_g`, `sh_b` (avx.rs:111-122). -/
def shuffleMasks : List Nat × List Nat × List Nat :=
  ([0, 11, 6, 1, 12, 7, 2, 13, 8, 3, 14, 9, 4, 15, 10, 5],
   [5, 0, 11, 6, 1, 12, 7, 2, 13, 8, 3, 14, 9, 4, 15, 10],
   [10, 5, 0, 11, 6, 1, 12, 7, 2, 13, 8, 3, 14, 9, 4, 15])

/-- `m0`, `m1` (avx.rs:128-135): true for -1. -/
def blendMasks : List Bool × List Bool :=
  ([false, true, false, false, true, false, false, true, false, false, true, false, false, true, false, false],
   [false, false, true, false, false, true, false, false, true, false, false, true, false, false, true, false])

/-- The byte shuffling of `ycbcr_to_rgb_avx2_1` (avx.rs:103-145) after the saturation to bytes;
`z` is the byte zero. -/
def interleaveRgb {α} (z : α) (r g b : List α) : List α :=
  let zs := List.replicate 16 z
  let r := permute4x64 (packOrder16 r zs)
  let g := permute4x64 (packOrder16 g zs)
  let b := permute4x64 (packOrder16 b zs)
  let r0 := shuffle8 r shuffleMasks.1
  let g0 := shuffle8 g shuffleMasks.2.1
  let b0 := shuffle8 b shuffleMasks.2.2
  let p0 := blendv (blendv r0 g0 blendMasks.1) b0 blendMasks.2
  let p1 := blendv (blendv g0 b0 blendMasks.1) r0 blendMasks.2
  let p2 := blendv (blendv b0 r0 blendMasks.1) g0 blendMasks.2
  let rgb0 := permute2x128 z 32 p0 p1
  let rgb1 := permute2x128 z 48 p2 p0
  rgb0 ++ rgb1.take 16

/-- The byte shuffling of `ycbcr_to_rgba_unsafe` (avx.rs:263-289); `z` is the byte zero and
`o` the byte 255.  The controls (`shuffle`, avx.rs:295-297) zero one half of each of `i`, `j`, `k`, `l`,
which the blends then leave out. -/
def interleaveRgba {α} (z o : α) (r g b : List α) : List α :=
  let c := packOrder16 r g
  let d := packOrder16 b (List.replicate 16 o)
  let e := unpackLo8 c d
  let f := unpackHi8 c d
  let g := unpackLo8 e f
  let h := unpackHi8 e f
  let i := permute2x128 z 0b11100100 g h
  let j := permute2x128 z 0b01101100 g h
  let k := permute2x128 z 0b11100001 g h
  let l := permute2x128 z 0b00111001 g h
  blendHalves i j ++ blendHalves k l

/-- `ycbcr_to_rgb_avx2` and `ycbcr_to_rgba_avx2` (avx.rs:86-148, 236-292): the bytes written.
The RGB variant ignores `offset` and stores at the start of `out`; its callers pass 0. -/
def conv16Avx (alpha : Bool) (y cb cr : List Int) : List UInt8 :=
  let p := avxBase y cb cr
  let r := p.1.map packus16
  let g := p.2.1.map packus16
  let b := p.2.2.map packus16
  if alpha then interleaveRgba 0 255 r g b else interleaveRgb 0 r g b

/-- `choose_ycbcr_to_rgb_convert_func` (color_convert.rs:64-102).  (NEON: `conv16OnNeon`, NeonModel.lean.) -/
def conv16 (avx2 : Bool) (l : Layout) : List Int → List Int → List Int → List UInt8 :=
  match avx2, l with
  | true, .rgb => conv16Avx false
  | true, .rgba => conv16Avx true
  | _, _ => conv16Scalar l

/-! ## Lines (worker.rs) -/

/-- `a[off..off+b.len()].copy_from_slice(b)` (worker.rs:328, 372); `none` is the panic of the slice. -/
def copyInto (a : List UInt8) (off : Nat) (b : List UInt8) : Option (List UInt8) :=
  if off + b.length ≤ a.length then some (a.take off ++ b ++ a.drop (off + b.length)) else none

/-- The loop over lines that every conversion of `worker.rs` starts with, for example
`output.chunks_exact_mut(width * 3).zip(mcu_block[0].chunks_exact(padded_width))…`
(worker.rs:138-141, 170-175, 244-247, 261-267, 305-310): it runs while the output has `stride` bytes
and each plane `padded` samples.  `none` is a panic: of `chunks_exact` for a length of zero, or of
the body. -/
def lineLoop (stride padded : Nat) (body : List (List Int) → List UInt8 → Option (List UInt8)) :
    Nat → List (List Int) → List UInt8 → Option (List UInt8)
  | 0, _, out => some out
  | fuel + 1, planes, out =>
    if stride = 0 ∨ padded = 0 then none
    else if stride ≤ out.length ∧ planes.all (fun p => decide (padded ≤ p.length)) then
      match body (planes.map (List.take padded)) (out.take stride) with
      | none => none
      | some done =>
        match lineLoop stride padded body fuel (planes.map (List.drop padded)) (out.drop stride) with
        | none => none
        | some rest => some (done ++ rest)
    else some out

/-- `for (pix, ..) in pix_w.chunks_exact_mut(k).zip(..)` (worker.rs:142, 176, 194-200, 221, 248, 268-274):
pixel by pixel while the output has `k` bytes and every plane a sample; the rest of the output
stays. -/
def pixelLoop (k : Nat) (f : List UInt8 → List Int → List UInt8) :
    Nat → List (List Int) → List UInt8 → List UInt8
  | 0, _, out => out
  | fuel + 1, planes, out =>
    if k ≤ out.length ∧ planes.all (fun p => !p.isEmpty) then
      f (out.take k) (planes.filterMap List.head?) ++
        pixelLoop k f fuel (planes.map List.tail) (out.drop k)
    else out

/-- A conversion made of the two loops, as in worker.rs:138-147, 170-181, 187-206, 216-225, 244-254, 261-284. -/
def pixelLines (stride padded k : Nat) (f : List UInt8 → List Int → List UInt8)
    (planes : List (List Int)) (out : List UInt8) : Option (List UInt8) :=
  lineLoop stride padded (fun p o => some (pixelLoop k f (o.length + 1) p o)) (out.length + 1) planes out

/-- `y_out[0..min(len, 16)].copy_from_slice(&y_width[0..min(len, 16)])` into sixteen zeroes
(worker.rs:313-322). -/
def first16 (p : List Int) : List Int :=
  p.take 16 ++ List.replicate (16 - min p.length 16) 0

/-- The main loop of `color_convert_ycbcr` (worker.rs:334-347): sixteen pixels at a time while
all planes and the output have a full chunk. -/
def conv16Loop (k : List Int → List Int → List Int → List UInt8) (n : Nat) :
    Nat → List Int → List Int → List Int → List UInt8 → List UInt8
  | 0, _, _, _, out => out
  | fuel + 1, y, cb, cr, out =>
    if 16 ≤ y.length ∧ 16 ≤ cb.length ∧ 16 ≤ cr.length ∧ 16 * n ≤ out.length then
      k (y.take 16) (cb.take 16) (cr.take 16) ++
        conv16Loop k n fuel (y.drop 16) (cb.drop 16) (cr.drop 16) (out.drop (16 * n))
    else out

/-- The body of the line loop of `color_convert_ycbcr` (worker.rs:311-372); `none` is a panic.
(Simplified: `temp` starts as 64 zeroes for each line instead of once, line 302.  The difference
shows only if `padded_width < width`, because otherwise the bytes of `temp` that are read are written
first.) -/
def ycbcrBody (k : List Int → List Int → List Int → List UInt8) (n width : Nat)
    (y cb cr : List Int) (out : List UInt8) : Option (List UInt8) :=
  let temp : List UInt8 := List.replicate 64 0
  if width < 16 then
    match copyInto temp 0 (k (first16 y) (first16 cb) (first16 cr)) with
    | none => none
    | some temp => if width * n ≤ 64 then copyInto out 0 (temp.take (width * n)) else none
  else
    let out := conv16Loop k n (out.length + 1) y cb cr out
    if y.length < width - 16 ∨ cb.length < width - 16 ∨ cr.length < width - 16 then none
    else
      let y' := y.drop (width - 16)
      let cb' := cb.drop (width - 16)
      let cr' := cr.drop (width - 16)
      let temp :=
        if 16 ≤ y'.length ∧ 16 ≤ cb'.length ∧ 16 ≤ cr'.length then
          copyInto temp 0 (k (y'.take 16) (cb'.take 16) (cr'.take 16))
        else some temp
      match temp with
      | none => none
      | some temp =>
        if (width - 16) * n + 16 * n ≤ out.length then
          copyInto out ((width - 16) * n) (temp.take (16 * n))
        else none

/-- `color_convert_ycbcr` (worker.rs:294-374). -/
def ycbcrLines (avx2 : Bool) (l : Layout) (width padded : Nat) (y cb cr : List Int)
    (out : List UInt8) : Option (List UInt8) :=
  lineLoop (width * l.n) padded
    (fun p o => match p with
      | [y, cb, cr] => ycbcrBody (conv16 avx2 l) l.n width y cb cr o
      | _ => none)
    (out.length + 1) [y, cb, cr] out

/-- `blinn_8x8` (worker.rs:25-28). -/
def blinn (x y : UInt8) : UInt8 :=
  let t := x.toNat * y.toNat + 128
  UInt8.ofNat ((t + t / 2 ^ 8) / 2 ^ 8)

/-- The pixel of `ycbcr_to_grayscale` (color_convert/scalar.rs:135-137). -/
def greyPixel (_ : List UInt8) (s : List Int) : List UInt8 :=
  match s with
  | [y] => [lowByte y]
  | _ => []

/-- The pixel of `convert_luma_to_rgb` (worker.rs:142-146). -/
def lumaRgbPixel (_ : List UInt8) (s : List Int) : List UInt8 :=
  match s with
  | [y] => [lowByte y, lowByte y, lowByte y]
  | _ => []

/-- The pixel of `convert_luma_to_rgba` (worker.rs:156-161). -/
def lumaRgbaPixel (_ : List UInt8) (s : List Int) : List UInt8 :=
  match s with
  | [y] => [lowByte y, lowByte y, lowByte y, 255]
  | _ => []

/-- The pixel of `copy_removing_padding` (worker.rs:176-180), `copy_removing_padding_4x` (201-204) and
`copy_removing_padding_generic` (221-224): each sample to a byte, in the order of the planes. -/
def copyPixel (_ : List UInt8) (s : List Int) : List UInt8 := s.map lowByte

/-- The pixel of `color_convert_cymk_to_rgb` (worker.rs:275-282). -/
def cmykPixel (_ : List UInt8) (s : List Int) : List UInt8 :=
  match s with
  | [c, m, y, k] => [blinn (lowByte c) (lowByte k), blinn (lowByte m) (lowByte k),
      blinn (lowByte y) (lowByte k)]
  | _ => []

/-- The pixel of `color_convert_ycck_to_rgb` (worker.rs:249-252): the first three bytes of `pix`
are replaced. -/
def ycckPixel (pix : List UInt8) (s : List Int) : List UInt8 :=
  match pix, s with
  | r :: g :: b :: rest, [k] =>
    blinn (255 - r) (lowByte k) :: blinn (255 - g) (lowByte k) :: blinn (255 - b) (lowByte k) :: rest
  | _, _ => []

/-- `color_convert_ycck_to_rgb::<N>` (worker.rs:232-255).  The second loop takes lines of `width * 3`
bytes whatever `N` is (line 245). -/
def ycckLines (avx2 : Bool) (l : Layout) (width padded : Nat) (y cb cr k : List Int)
    (out : List UInt8) : Option (List UInt8) :=
  match ycbcrLines avx2 l width padded y cb cr out with
  | none => none
  | some out => pixelLines (width * 3) padded l.n ycckPixel [k] out

/-- `color_convert_cymk_to_rgb::<N>` (worker.rs:258-285).  A pixel of the output has three bytes
whatever `N` is (line 269). -/
def cmykLines (n width padded : Nat) (planes : List (List Int)) (out : List UInt8) :
    Option (List UInt8) :=
  pixelLines (width * n) padded 3 cmykPixel planes out

/-- `input_colorspace`: the values the decoder sets (decoder.rs:194, 464; headers.rs:249, 256, 481-483;
misc.rs:210, 309, 331). -/
inductive InSpace where
  | luma | ycbcr | rgb | cmyk | ycck | multi (n : Nat)
  deriving DecidableEq, Repr

/-- `output_colorspace`.  (Simplified: only the colour spaces that occur in worker.rs:36-122, and
`LumaA`, which the catch-all of line 90 admits.) -/
inductive OutSpace where
  | luma | lumaA | ycbcr | cmyk | ycck | layout (l : Layout)
  deriving DecidableEq, Repr

/-- Outcome of `color_convert` other than success (worker.rs:91-94, 125-130), or a panic. -/
inductive CErr where
  | multiband | unimplemented | panic
  deriving DecidableEq, Repr

/-- A panic (worker.rs:328, 352-354, 370) as an error value. -/
def orPanic (o : Option (List UInt8)) : Except CErr (List UInt8) :=
  match o with
  | none => .error .panic
  | some l => .ok l

/-- `color_convert` (worker.rs:31-133).  `p0 … p3` are `unprocessed`; missing planes are empty. -/
def colorConvert (avx2 : Bool) (i : InSpace) (o : OutSpace) (width padded : Nat)
    (p0 p1 p2 p3 : List Int) (out : List UInt8) : Except CErr (List UInt8) :=
  match i, o with
  | .ycbcr, .ycbcr | .rgb, .layout .rgb =>
    orPanic (pixelLines (width * 3) padded 3 copyPixel [p0, p1, p2] out)
  | .cmyk, .cmyk | .ycck, .ycck =>
    orPanic (pixelLines (width * 4) padded 4 copyPixel [p0, p1, p2, p3] out)
  | .ycbcr, .luma | .luma, .luma => orPanic (pixelLines width padded 1 greyPixel [p0] out)
  | .ycbcr, .layout l => orPanic (ycbcrLines avx2 l width padded p0 p1 p2 out)
  | .ycck, .layout .rgb => orPanic (ycckLines avx2 .rgb width padded p0 p1 p2 p3 out)
  | .ycck, .layout .rgba => orPanic (ycckLines avx2 .rgba width padded p0 p1 p2 p3 out)
  | .cmyk, .layout .rgb => orPanic (cmykLines 3 width padded [p0, p1, p2, p3] out)
  | .cmyk, .layout .rgba => orPanic (cmykLines 4 width padded [p0, p1, p2, p3] out)
  | .multi n, _ =>
    if n = 2 then orPanic (pixelLines (width * 2) padded 2 copyPixel [p0, p1] out)
    else .error .multiband
  | .luma, .layout .rgb => orPanic (pixelLines (width * 3) padded 3 lumaRgbPixel [p0] out)
  | .luma, .layout .rgba => orPanic (pixelLines (width * 4) padded 4 lumaRgbaPixel [p0] out)
  | _, _ => .error .unimplemented

end Zune.Jpeg
