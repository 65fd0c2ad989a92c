/- PNG row post-processing: bit expansion, palettes, tRNS and alpha (model). -/
import Verif.Png.Filters

namespace Zune.Png

/-- crates/zune-png/src/enums.rs:148-155 `PngColor` (`Unknown` never survives `parse_ihdr`). -/
inductive Color | luma | palette | lumaA | rgb | rgba
  deriving DecidableEq, Repr

/-- crates/zune-png/src/enums.rs:164-173 `PngColor::num_components`. -/
def Color.comps : Color → Nat
  | .luma => 1 | .palette => 1 | .lumaA => 2 | .rgb => 3 | .rgba => 4

/-- crates/zune-png/src/enums.rs:174-176 `PngColor::has_alpha`. -/
def Color.hasAlpha : Color → Bool
  | .lumaA => true | .rgba => true | _ => false

/-- crates/zune-png/src/decoder.rs:38-55 `PLTEEntry`: red, green, blue, alpha. -/
structure Entry where
  red : UInt8 := 0
  green : UInt8 := 0
  blue : UInt8 := 0
  alpha : UInt8 := 255
  deriving DecidableEq, Repr

/-- Failures of the pixel path: an `Err` value of the source, or an abort (`panic!`, `unreachable!`, a slice index out of range). -/
inductive Err | generic | zlib | badCrc | signature | panic | unmodelled
  deriving DecidableEq, Repr

/-- `input.chunks_exact(k).zip(out.chunks_exact_mut(m))`, each output chunk replaced by `f` of the input chunk: the loops of
    crates/zune-png/src/utils.rs:95-110, 140-150, 164-176, 189-192, 205-210 and 325-349.  The bytes of a last incomplete chunk stay. -/
def zipChunks (k m : Nat) (f : List UInt8 → List UInt8) (input out : List UInt8) : List UInt8 :=
  if h : 0 < k ∧ k ≤ input.length ∧ m ≤ out.length then
    f (input.take k) ++ zipChunks k m f (input.drop k) (out.drop m)
  else out
termination_by input.length
decreasing_by simp only [List.length_drop]; omega

/-- crates/zune-png/src/utils.rs:87-112 `expand_palette` (the table always has 256 entries, so the index is in range). -/
def expandPalette (pal : List Entry) (n : Nat) (input out : List UInt8) : List UInt8 :=
  if n = 3 then
    zipChunks 1 3 (fun c => let e := pal.getD ((c.headD 0).toNat % 256) {}; [e.red, e.green, e.blue]) input out
  else if n = 4 then
    zipChunks 1 4 (fun c => let e := pal.getD ((c.headD 0).toNat % 256) {}; [e.red, e.green, e.blue, e.alpha]) input out
  else out

/-- `u16::to_ne_bytes`; `le` says whether the machine is little endian. -/
def neBytes (le : Bool) (v : Nat) : List UInt8 := if le then leBytes 2 v else beBytes 2 v

/-- crates/zune-png/src/utils.rs:127 `DEPTH_SCALE_TABLE`. -/
def depthScale (d : Nat) : UInt8 := [0, 0xff, 0x55, 0, 0x11, 0, 0, 0, 1].getD d 0

/-- crates/zune-png/src/utils.rs:183-187 and 195-201, the key byte for images of up to 8 bits. -/
def key8 (d v : Nat) : UInt8 := UInt8.ofNat (v &&& 255 &&& ((1 <<< d) - 1)) * depthScale d

/-- crates/zune-png/src/utils.rs:122-215 `expand_trns`: the 16-bit instance is used for depth 16.
    `key` holds `trns_bytes` (`u16` values).  Other colours are `unreachable!()`. -/
def expandTrns (le : Bool) (color : Color) (d : Nat) (key : List Nat) (input out : List UInt8) : Except Err (List UInt8) :=
  if d = 16 then
    match color with
    | .luma =>
      let k := neBytes le (key.getD 0 0)
      .ok (zipChunks 2 4 (fun c => c ++ if k ≠ c then [255, 255] else [0, 0]) input out)
    | .rgb =>
      let all := neBytes le (key.getD 0 0) ++ neBytes le (key.getD 1 0) ++ neBytes le (key.getD 2 0)
      .ok (zipChunks 6 8 (fun c => c ++ if all ≠ c then [255, 255] else [0, 0]) input out)
    | _ => .error .panic
  else
    match color with
    | .luma =>
      let k := key8 d (key.getD 0 0)
      .ok (zipChunks 1 2 (fun c => [c.headD 0, (if c.headD 0 ≠ k then 1 else 0) * 255]) input out)
    | .rgb =>
      let m := [key8 d (key.getD 0 0), key8 d (key.getD 1 0), key8 d (key.getD 2 0)]
      .ok (zipChunks 3 4 (fun c => c ++ [255 * if c ≠ m then 1 else 0]) input out)
    | _ => .error .panic

/-- The samples of one packed byte, most significant first, times `scale`: the unrolled assignments of
    crates/zune-png/src/utils.rs:252-259, 280-283, 304-305 and the remainder formulas at lines 266-267, 290-291 and 312-313. -/
def unpackByte (d : Nat) (scale b : UInt8) : List UInt8 :=
  (List.range (8 / d)).map fun j => scale * ((b >>> UInt8.ofNat (8 - d * (j + 1))) &&& UInt8.ofNat (2 ^ d - 1))

/-- crates/zune-png/src/utils.rs:236-316: whole output chunks first, then the remainder from one further input byte. -/
def unpackLoop (d : Nat) (scale : UInt8) : List UInt8 → List UInt8 → List UInt8
  | [], out => out
  | b :: input, out =>
    if 8 / d ≤ out.length then unpackByte d scale b ++ unpackLoop d scale input (out.drop (8 / d))
    else (unpackByte d scale b).take out.length

/-- crates/zune-png/src/utils.rs:218-317 `expand_bits_to_byte` (`out[..width * out_n]` is in range for the callers' buffers). -/
def expandBits (width d n : Nat) (plte : Bool) (input out : List UInt8) : List UInt8 :=
  if d = 1 ∨ d = 2 ∨ d = 4 then
    let scale : UInt8 := if plte then 1 else if d = 1 then 0xFF else if d = 2 then 0x55 else 0x11
    unpackLoop d scale input (out.take (width * n)) ++ out.drop (width * n)
  else out

/-- crates/zune-png/src/utils.rs:322-352 `add_alpha` (a palette image reaching it aborts). -/
def addAlpha (color : Color) (d : Nat) (input out : List UInt8) : Except Err (List UInt8) :=
  match color, d == 16 with
  | .luma, false => .ok (zipChunks 1 2 (fun c => c ++ [255]) input out)
  | .luma, true => .ok (zipChunks 2 4 (fun c => c ++ [255, 255]) input out)
  | .rgb, false => .ok (zipChunks 3 4 (fun c => c ++ [255]) input out)
  | .rgb, true => .ok (zipChunks 6 8 (fun c => c ++ [255, 255]) input out)
  | _, _ => .error .panic

/-- The decoder state the pixel path reads: header fields, palette (`seen_ptle` is `plte.isSome`), colour key (`seen_trns`;
    for palette images the key bytes are in the palette's alpha values), the option `png_add_alpha_channel`, machine order and
    selected instruction set. -/
structure Ctx where
  color : Color
  depth : Nat
  plte : Option (List Entry) := none
  trns : Option (List Nat) := none
  wantAlpha : Bool := false
  le : Bool := true
  isa : Isa := .scalar

/-- crates/zune-png/src/decoder.rs:994-995 `add_alpha_channel`. -/
def Ctx.addAlphaChannel (c : Ctx) : Bool := c.wantAlpha && !c.color.hasAlpha

/-- crates/zune-png/src/decoder.rs:270-303 `colorspace().num_components()`. -/
def Ctx.outComps (c : Ctx) : Nat :=
  if c.wantAlpha then (match c.color with | .luma | .lumaA => 2 | _ => 4)
  else if c.trns.isNone then (match c.color with | .palette => 3 | .luma => 1 | .lumaA => 2 | .rgb => 3 | .rgba => 4)
  else (match c.color with | .luma | .lumaA => 2 | _ => 4)

/-- crates/zune-png/src/decoder.rs:937 `bytes`. -/
def Ctx.bytes (c : Ctx) : Nat := if c.depth = 16 then 2 else 1

/-- crates/zune-png/src/decoder.rs:973-986 `width_stride`: bytes of a packed row. -/
def Ctx.stride (c : Ctx) (width : Nat) : Nat := (width * c.color.comps * c.depth + 7) / 8

/-- crates/zune-png/src/decoder.rs:964-970 `components`: the filter's distance to the left neighbour. -/
def Ctx.bpp (c : Ctx) : Nat := if c.depth < 8 then 1 else c.color.comps * c.bytes

/-- crates/zune-png/src/decoder.rs:980 `out_chunk_size`. -/
def Ctx.outStride (c : Ctx) (width : Nat) : Nat := width * c.outComps * c.bytes

/-- crates/zune-png/src/decoder.rs:992-997 `will_post_process`. -/
def Ctx.willPost (c : Ctx) : Bool := c.trns.isSome || c.plte.isSome || decide (c.depth < 8) || c.addAlphaChannel

/-- crates/zune-png/src/decoder.rs:1115-1138 and 1222-1245: the transparency key of non-palette pictures. -/
def trnsStep (c : Ctx) (scratch row : List UInt8) : Except Err (List UInt8) :=
  match c.trns with
  | some key => if c.color ≠ .palette then expandTrns c.le c.color c.depth key scratch row else .ok row
  | none => .ok row

/-- crates/zune-png/src/decoder.rs:1140-1177 and 1246-1264: the palette, or else the opaque alpha channel. -/
def paletteStep (c : Ctx) (scratch row : List UInt8) : Except Err (List UInt8) :=
  match c.plte, c.color with
  | some pal, .palette => .ok (expandPalette pal (if c.trns.isSome || c.addAlphaChannel then 4 else 3) scratch row)
  | _, _ => if c.addAlphaChannel then addAlpha c.color c.depth scratch row else .ok row

/-- crates/zune-png/src/decoder.rs:1115-1177 and 1222-1264: what follows the unpacking. -/
def postTail (c : Ctx) (scratch row : List UInt8) : Except Err (List UInt8 × List UInt8) := do
  let row ← trnsStep c scratch row
  let row ← paletteStep c scratch row
  .ok (scratch, row)

/-- The post-processing of one row, crates/zune-png/src/decoder.rs:1072-1178 (rows before the last) and 1181-1265 (last row);
    `extra` is `extra_transform`, the only difference between the two copies.  `scratch` is `self.previous_stride`. -/
def post (c : Ctx) (extra : Bool) (width : Nat) (scratch row : List UInt8) : Except Err (List UInt8 × List UInt8) :=
  let ws := c.stride width
  if c.depth < 8 then
    if extra then postTail c (expandBits width c.depth c.color.comps c.plte.isSome row scratch) row
    else
      let s := row.take ws ++ scratch.drop ws
      postTail c s (expandBits width c.depth c.color.comps c.plte.isSome s row)
  else postTail c (row.take ws ++ scratch.drop ws) row

/-- The row loop of crates/zune-png/src/decoder.rs:1004-1179 and the last row at 1181-1265.  `out` is the part of the output buffer
    from the current row on, `prev` the previous row as reconstructed (it is post-processed only after the current row has been
    reconstructed from it), `acc` the finished rows. -/
def rowLoop (c : Ctx) (width : Nat) :
    Nat → List UInt8 → Option (List UInt8) → List UInt8 → List UInt8 → List UInt8 → Except Err (List UInt8 × List UInt8)
  | 0, _, prev, scratch, out, acc =>
    match prev with
    | none => .ok (acc ++ out, scratch)
    | some p =>
      if c.willPost then do
        let (scratch, p) ← post c (c.plte.isSome || c.trns.isSome) width scratch p
        .ok (acc ++ p ++ out, scratch)
      else .ok (acc ++ p ++ out, scratch)
  | h + 1, data, prev, scratch, out, acc =>
    let chunk := data.take (c.stride width + 1)
    match unfilterRow c.isa (chunk.headD 0) c.bpp prev (chunk.drop 1) (out.take (c.outStride width)) with
    | none => .error .generic
    | some cur =>
      match prev with
      | none => rowLoop c width h (data.drop (c.stride width + 1)) (some cur) scratch (out.drop (c.outStride width)) acc
      | some p =>
        if c.willPost then do
          let (scratch, p) ← post c (c.plte.isSome || c.trns.isSome || c.addAlphaChannel) width scratch p
          rowLoop c width h (data.drop (c.stride width + 1)) (some cur) scratch (out.drop (c.outStride width)) (acc ++ p)
        else rowLoop c width h (data.drop (c.stride width + 1)) (some cur) scratch (out.drop (c.outStride width)) (acc ++ p)

/-- crates/zune-png/src/decoder.rs:931-1268 `create_png_image_raw`: the output buffer and the scratch row afterwards.
    The buffer must hold `height` rows, otherwise the source aborts (`out.split_at_mut`, `current[0..out_chunk_size]`). -/
def createRaw (c : Ctx) (data : List UInt8) (width height : Nat) (scratch out : List UInt8) :
    Except Err (List UInt8 × List UInt8) :=
  if data.length < c.stride width * height + height then .error .generic
  else if out.length < c.outStride width * height then .error .panic
  else
    let scratch := if c.willPost && scratch.length < c.outStride width
      then scratch ++ List.replicate (c.outStride width - scratch.length) 0 else scratch
    rowLoop c width height data none scratch out []

end Zune.Png
