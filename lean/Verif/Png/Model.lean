/- PNG files: the encoder and the chunk level of the decoder (model). -/
import Verif.Png.Adam7
import Verif.Bytestream.Stream
import Verif.Inflate.Props

namespace Zune.Png

open Zune.Stream

/-! ### Encoder -/

/-- crates/zune-png/src/encoder.rs:22-30 `PngEncoder` and the `EncoderOptions` it reads.  The depth is 8 or 16 bits.  `gamma` stands
    for the value `(gamma * 100000.0) as u32` of crates/zune-png/src/headers/writers.rs:50 (float arithmetic is not modelled). -/
structure EncOpts where
  width : Nat
  height : Nat
  /-- `Luma`, `RGB`, `LumaA` or `RGBA`; others abort in `write_ihdr` -/
  color : Color
  /-- `options.depth()` is 16 bits instead of 8 -/
  deep : Bool := false
  exif : Option (List UInt8) := none
  gamma : Option Nat := none

/-- `options.depth().size_of()`, crates/zune-core/src/bit_depth.rs. -/
def EncOpts.size (o : EncOpts) : Nat := if o.deep then 2 else 1

/-- crates/zune-png/src/constants.rs:4 `PNG_SIGNATURE`. -/
def signature : Nat := 9894494448401390090

/-- Name of the IHDR chunk, crates/zune-png/src/decoder.rs:337-354. -/
def nIHDR : List UInt8 := [0x49, 0x48, 0x44, 0x52]
/-- Name of the PLTE chunk, crates/zune-png/src/decoder.rs:337-354. -/
def nPLTE : List UInt8 := [0x50, 0x4c, 0x54, 0x45]
/-- Name of the IDAT chunk, crates/zune-png/src/decoder.rs:337-354. -/
def nIDAT : List UInt8 := [0x49, 0x44, 0x41, 0x54]
/-- Name of the IEND chunk, crates/zune-png/src/decoder.rs:337-354. -/
def nIEND : List UInt8 := [0x49, 0x45, 0x4e, 0x44]
/-- Name of the tRNS chunk, crates/zune-png/src/decoder.rs:337-354. -/
def ntRNS : List UInt8 := [0x74, 0x52, 0x4e, 0x53]
/-- Name of the gAMA chunk, crates/zune-png/src/decoder.rs:337-354. -/
def ngAMA : List UInt8 := [0x67, 0x41, 0x4d, 0x41]
/-- Name of the eXIf chunk, crates/zune-png/src/decoder.rs:337-354. -/
def neXIf : List UInt8 := [0x65, 0x58, 0x49, 0x66]
/-- Name of the acTL chunk, crates/zune-png/src/decoder.rs:337-354. -/
def nacTL : List UInt8 := [0x61, 0x63, 0x54, 0x4c]
/-- Name of the fcTL chunk, crates/zune-png/src/decoder.rs:337-354. -/
def nfcTL : List UInt8 := [0x66, 0x63, 0x54, 0x4c]
/-- Name of the tIME chunk, crates/zune-png/src/decoder.rs:337-354. -/
def ntIME : List UInt8 := [0x74, 0x49, 0x4d, 0x45]
/-- Name of the iCCP chunk, crates/zune-png/src/decoder.rs:337-354. -/
def niCCP : List UInt8 := [0x69, 0x43, 0x43, 0x50]
/-- Name of the iTXt chunk, crates/zune-png/src/decoder.rs:337-354. -/
def niTXt : List UInt8 := [0x69, 0x54, 0x58, 0x74]
/-- Name of the zTXt chunk, crates/zune-png/src/decoder.rs:337-354. -/
def nzTXt : List UInt8 := [0x7a, 0x54, 0x58, 0x74]
/-- Name of the tEXt chunk, crates/zune-png/src/decoder.rs:337-354. -/
def ntEXt : List UInt8 := [0x74, 0x45, 0x58, 0x74]

/-- crates/zune-png/src/headers/writers.rs:94-113 `write_chunk`: the CRC is computed over the name and continued over the data. -/
def writeChunk (name data : List UInt8) : List UInt8 :=
  beBytes 4 data.length ++ name ++ data ++
    beBytes 4 (0xffffffff ^^^ Inflate.crc32 data (Inflate.crc32 name 0xffffffff))

/-- crates/zune-png/src/headers/writers.rs:65-92 `write_header_fn`; `data` is what `func` writes.  The CRC code and tables
    (crates/zune-png/src/crc.rs, crc/crc_tables.rs) are identical to those of zune-inflate, whose model is used. -/
def writeHeaderFn (name data : List UInt8) : List UInt8 :=
  beBytes 4 ((name ++ data).length - 4) ++ (name ++ data) ++ beBytes 4 (Inflate.calcCrc (name ++ data))

/-- crates/zune-png/src/headers/writers.rs:16-39 `write_ihdr` (`none`: `unreachable!()`). -/
def ihdr (o : EncOpts) : Option (List UInt8) :=
  let color : Option UInt8 := match o.color with
    | .luma => some 0 | .rgb => some 2 | .lumaA => some 4 | .rgba => some 6 | .palette => none
  color.map fun k => beBytes 4 o.width ++ beBytes 4 o.height ++ [if o.deep then 16 else 8, k, 0, 0, 0]

/-- crates/zune-png/src/encoder.rs:54-72 `encode_headers`. -/
def encodeHeaders (o : EncOpts) : Option (List UInt8) := do
  let h ← ihdr o
  some (beBytes 8 signature ++ writeHeaderFn nIHDR h ++
    (match o.exif with | some e => writeHeaderFn neXIf e | none => []) ++
    (match o.gamma with | some g => writeHeaderFn ngAMA (beBytes 4 g) | none => []))

/-- crates/zune-png/src/encoder.rs:108-112 `calculate_scanline_size`. -/
def EncOpts.scanline (o : EncOpts) : Nat := o.width * o.size * o.color.comps

/-- The loop of `add_filters`, crates/zune-png/src/encoder.rs:131-152, from row `i` on: `n` rows are left. -/
def filterRows (o : EncOpts) (data : List UInt8) : Nat → Nat → List UInt8
  | 0, _ => []
  | n + 1, i =>
    let l := o.scanline
    let prev := if 0 < i then ((data.take (i * l)).drop ((i - 1) * l)) else []
    let cur := (data.drop (i * l)).take l
    filterScanline cur prev (chooseFilter prev) (o.color.comps * o.size) ++ filterRows o data n (i + 1)

/-- `slice.chunks(n)`. -/
def chunks (n : Nat) (l : List UInt8) : List (List UInt8) :=
  if h : n = 0 ∨ l = [] then [] else l.take n :: chunks n (l.drop n)
termination_by l.length
decreasing_by
  have := List.length_pos_iff.mpr (fun e => h (.inr e))
  rw [List.length_drop]; omega

/-- crates/zune-png/src/encoder.rs:74-106 `encode`, with `write_idat_chunks` (155-173).  `.error .generic`: wrong amount of data or
    an overflow of the size; `.error .panic`: palette images, or an abort of the zlib encoder. -/
def encode (o : EncOpts) (data : List UInt8) : Except Err (List UInt8) :=
  let size := o.width * o.height * o.size * o.color.comps
  if 2 ^ 64 ≤ size ∨ data.length ≠ size then .error .generic
  else
    match encodeHeaders o, Inflate.encodeZlib (filterRows o data o.height 0) with
    | some h, some z => .ok (h ++ (chunks 8192 z).flatMap (writeChunk nIDAT) ++ writeHeaderFn nIEND [])
    | _, _ => .error .panic

/-! ### Decoder -/

/-- The `DecoderOptions` read by the PNG decoder (crates/zune-core/src/options/decoder.rs); `toLE` is `byte_endian() == LE`.
    `le` (the machine is little endian) and `isa` (the instruction set found) belong to the machine. -/
structure DecOpts where
  maxWidth : Nat := 2 ^ 14
  maxHeight : Nat := 2 ^ 14
  confirmCrc : Bool := false
  confirmAdler : Bool := false
  strict : Bool := false
  wantAlpha : Bool := false
  strip : Bool := false
  toLE : Bool := false
  le : Bool := true
  isa : Isa := .scalar

/-- What the headers leave behind: the fields of `PngDecoder`, crates/zune-png/src/decoder.rs:176-213, that matter for still pictures.
    `gamma` is the 32-bit number in the file. -/
structure St where
  seenHdr : Bool := false
  width : Nat := 0
  height : Nat := 0
  depth : Nat := 0
  color : Color := .luma
  adam7 : Bool := false
  palette : List Entry := []
  seenPlte : Bool := false
  key : List Nat := [0, 0, 0, 0]
  seenTrns : Bool := false
  idat : List UInt8 := []
  exif : Option (List UInt8) := none
  gamma : Option Nat := none
  deriving DecidableEq, Repr

/-- `get_u16_be`, `get_u32_be` (macro at crates/zune-core/src/bytestream/reader.rs:358-424). -/
def getBe (k : Nat) (s : List UInt8) : Nat × List UInt8 := let r := orZero k s; (beVal r.1, r.2)

/-- crates/zune-png/src/decoder.rs:323-382 `read_chunk_header`: length, name and the stream behind the name. -/
def readChunkHeader (o : DecOpts) (s : List UInt8) : Except Err (Nat × List UInt8 × List UInt8) :=
  match be 4 s with
  | none => .error .generic
  | some (len, s) =>
    match exact 4 s with
    | none => .error .generic
    | some (name, s) =>
      if s.length < len + 4 then .error .generic
      else
        let crc := beVal ((s.drop len).take 4)
        if o.confirmCrc ∧ crc ≠ Inflate.calcCrc (name ++ s.take len) then .error .badCrc
        else .ok (len, name, s)

/-- crates/zune-png/src/enums.rs:177-187 `PngColor::from_int`. -/
def Color.ofByte (b : UInt8) : Option Color :=
  if b = 0 then some .luma else if b = 2 then some .rgb else if b = 3 then some .palette
  else if b = 4 then some .lumaA else if b = 6 then some .rgba else none

/-- crates/zune-png/src/headers/readers.rs:20-134 `parse_ihdr`. -/
def parseIhdr (o : DecOpts) (st : St) (len : Nat) (s : List UInt8) : Except Err (St × List UInt8) :=
  if st.seenHdr then .error .generic
  else if len ≠ 13 then .error .generic
  else
    let (w, s) := getBe 4 s
    let (h, s) := getBe 4 s
    if w = 0 ∨ h = 0 then .error .generic
    else if w > o.maxWidth then .error .generic
    else if h > o.maxHeight then .error .generic
    else
      let (depth, s) := u8 s
      let (color, s) := u8 s
      match Color.ofByte color with
      | none => .error .generic
      | some color =>
        if ¬ (depth = 1 ∨ depth = 2 ∨ depth = 4 ∨ depth = 8 ∨ (depth = 16 ∧ color ≠ .palette)) then .error .generic
        else
          let (comp, s) := u8 s
          if comp ≠ 0 then .error .generic
          else
            let (filter, s) := u8 s
            if 4 < filter then .error .generic
            else
              let (inter, s) := u8 s
              if 1 < inter then .error .generic
              else .ok ({ st with seenHdr := true, width := w, height := h, depth := depth.toNat, color := color,
                                  adam7 := inter = 1 }, skip 4 s)

/-- The loop of crates/zune-png/src/headers/readers.rs:146-150. -/
def readEntries : Nat → List Entry → List UInt8 → List Entry × List UInt8
  | n + 1, e :: es, s =>
    let (r, s) := u8 s
    let (g, s) := u8 s
    let (b, s) := u8 s
    let (es, s) := readEntries n es s
    ({ e with red := r, green := g, blue := b } :: es, s)
  | _, es, s => (es, s)

/-- crates/zune-png/src/headers/readers.rs:136-156 `parse_plte`. -/
def parsePlte (st : St) (len : Nat) (s : List UInt8) : Except Err (St × List UInt8) :=
  if len % 3 ≠ 0 then .error .generic
  else
    let pal := st.palette.take 256 ++ List.replicate (256 - st.palette.length) {}
    let (pal, s) := readEntries (len / 3) pal s
    .ok ({ st with palette := pal, seenPlte := true }, skip 4 s)

/-- crates/zune-png/src/headers/readers.rs:158-180 `parse_idat`; the frame list holds exactly the frame made by `parse_ihdr` (a file
    whose first chunk is not IHDR is rejected before). -/
def parseIdat (st : St) (len : Nat) (s : List UInt8) : Except Err (St × List UInt8) :=
  match exact len s with
  | none => .error .generic
  | some (d, s) => .ok ({ st with idat := st.idat ++ d }, skip 4 s)

/-- The loop of crates/zune-png/src/headers/readers.rs:204-206. -/
def readAlphas : Nat → List Entry → List UInt8 → List Entry × List UInt8
  | n + 1, e :: es, s =>
    let (a, s) := u8 s
    let (es, s) := readAlphas n es s
    ({ e with alpha := a } :: es, s)
  | _, es, s => (es, s)

/-- crates/zune-png/src/headers/readers.rs:182-218 `parse_trns`. -/
def parseTrns (st : St) (len : Nat) (s : List UInt8) : Except Err (St × List UInt8) :=
  match st.color with
  | .luma =>
    let (a, s) := getBe 2 s
    .ok ({ st with key := st.key.set 0 a, seenTrns := true }, skip 4 s)
  | .rgb =>
    let (a, s) := getBe 2 s
    let (b, s) := getBe 2 s
    let (c, s) := getBe 2 s
    .ok ({ st with key := ((st.key.set 0 a).set 1 b).set 2 c, seenTrns := true }, skip 4 s)
  | .palette =>
    if st.palette = [] then .error .generic
    else if st.palette.length < len then .error .generic
    else
      let (pal, s) := readAlphas len st.palette s
      .ok ({ st with palette := pal, seenTrns := true }, skip 4 s)
  | _ => .error .generic

/-- crates/zune-png/src/headers/readers.rs:219-238 `parse_gama`. -/
def parseGama (o : DecOpts) (st : St) (len : Nat) (s : List UInt8) : Except Err (St × List UInt8) :=
  if o.strict ∧ len ≠ 4 then .error .generic
  else
    let (g, s) := getBe 4 s
    .ok ({ st with gamma := some g }, skip 4 s)

/-- crates/zune-png/src/headers/readers.rs:295-320 `parse_exif`.  The `unwrap` cannot fail: `read_chunk_header` has looked behind the
    data already. -/
def parseExif (o : DecOpts) (st : St) (len : Nat) (s : List UInt8) : Except Err (St × List UInt8) :=
  let d := s.take len
  if ([73, 73, 42, 0] : List UInt8).isPrefixOf d ∨ ([77, 77, 0, 42] : List UInt8).isPrefixOf d then
    .ok ({ st with exif := some d }, skip (len + 4) s)
  else if o.strict then .error .generic
  else .ok (st, skip (len + 4) s)

/-- crates/zune-png/src/options.rs:16-40 `default_chunk_handler`. -/
def defaultChunk (st : St) (len : Nat) (name s : List UInt8) : Except Err (St × List UInt8) :=
  if (name.headD 0) &&& 32 = 0 then .error .generic else .ok (st, skip (len + 4) s)

/-- The `match` of crates/zune-png/src/decoder.rs:425-467 `parse_header`, without IEND.  Not modelled (`unmodelled`; acTL and fcTL are in `AnimModel.lean`): acTL, fcTL, tIME,
    iCCP, iTXt, zTXt, tEXt. -/
def dispatch (o : DecOpts) (st : St) (len : Nat) (name s : List UInt8) : Except Err (St × List UInt8) :=
  if name = nIHDR then parseIhdr o st len s
  else if name = nPLTE then parsePlte st len s
  else if name = nIDAT then parseIdat st len s
  else if name = ntRNS then parseTrns st len s
  else if name = ngAMA then parseGama o st len s
  else if name = neXIf then parseExif o st len s
  else if name ∈ [nacTL, nfcTL, ntIME, niCCP, niTXt, nzTXt, ntEXt] then .error .unmodelled
  else defaultChunk st len name s

/-- crates/zune-png/src/decoder.rs:425-474 `parse_header`, without IEND. -/
def parseHeader (o : DecOpts) (st : St) (len : Nat) (name s : List UInt8) : Except Err (St × List UInt8) :=
  match dispatch o st len name s with
  | .error e => .error e
  | .ok r => if r.1.seenHdr then .ok r else .error .generic

/-- The loop of crates/zune-png/src/decoder.rs:406-420; every turn reads at least eight bytes, so the number of bytes bounds the turns. -/
def headerLoop (o : DecOpts) : Nat → St → List UInt8 → Except Err (St × List UInt8)
  | 0, _, _ => .error .generic
  | fuel + 1, st, s =>
    match readChunkHeader o s with
    | .error e => .error e
    | .ok (len, name, s) =>
      if name = nIEND then (if st.seenHdr then .ok (st, s) else .error .generic)
      else
        match parseHeader o st len name s with
        | .error e => .error e
        | .ok (st, s) => headerLoop o fuel st s

/-- crates/zune-png/src/decoder.rs:389-423 `decode_headers`. -/
def decodeHeaders (o : DecOpts) (s : List UInt8) : Except Err (St × List UInt8) :=
  match be 8 s with
  | none => .error .generic
  | some (sig, s) =>
    if sig ≠ signature then .error .signature
    else if (s.drop 4).take 4 ≠ nIHDR then .error .generic
    else headerLoop o s.length {} s

/-- The pixel format the row code sees. -/
def St.ctx (o : DecOpts) (st : St) : Ctx :=
  { color := st.color, depth := st.depth, plte := if st.seenPlte then some st.palette else none,
    trns := if st.seenTrns then some st.key else none, wantAlpha := o.wantAlpha, le := o.le, isa := o.isa }

/-- crates/zune-png/src/utils.rs:18-24 `convert_be_to_ne_scalar` on a little endian machine (the SSE and AVX versions are not modelled). -/
def swapPairs : List UInt8 → List UInt8
  | a :: b :: l => b :: a :: swapPairs l
  | l => l

/-- Decompression, crates/zune-png/src/decoder.rs:1273-1309 `inflate`: the limit passed to `zlib`.  Overflow of the size hint is not
    modelled (it needs pictures of more than 2^60 bytes). -/
def St.zopts (o : DecOpts) (st : St) : Inflate.Options :=
  { limit := (st.width + 1) * st.height * (if st.depth = 16 then 2 else 1) * st.color.comps + 4 * st.height, confirm := o.confirmAdler }

/-- crates/zune-png/src/decoder.rs:615-668 `decode_into_inner` for the first frame, into a zeroed buffer of the right size.
    `zlib` stands for `zune_inflate::DeflateDecoder::decode_zlib`. -/
def decodeInner (zlib : Inflate.Options → List UInt8 → Except Inflate.Err (List UInt8)) (o : DecOpts) (st : St) :
    Except Err (List UInt8) := do
  let c := st.ctx o
  let n := st.width * st.height * c.outComps * c.bytes
  let out := List.replicate n 0
  match zlib (st.zopts o) st.idat with
  | .error _ => .error .zlib
  | .ok data =>
    let out ← if st.adam7 then decodeInterlaced c st.width st.height data [] out
      else (do let r ← createRaw c data st.width st.height [] out; .ok r.1)
    .ok (if st.depth = 16 ∧ o.toLE ∧ o.le then swapPairs out else out)

/-- The in-place loop of crates/zune-png/src/decoder.rs:701-707 (`out[i] = out[2 * i]`), before the truncation. -/
def everyOther : List UInt8 → List UInt8
  | a :: _ :: l => a :: everyOther l
  | l => l

/-- crates/zune-png/src/decoder.rs:683-713 `decode_raw`: header information and bytes.  A picture size beyond `usize` aborts at the
    `unwrap`. -/
def decodeRaw (zlib : Inflate.Options → List UInt8 → Except Inflate.Err (List UInt8)) (o : DecOpts) (s : List UInt8) :
    Except Err (St × List UInt8) := do
  let (st, _) ← decodeHeaders o s
  if 2 ^ 64 ≤ st.width * st.height * (st.ctx o).outComps * (st.ctx o).bytes then .error .panic
  else do
    let out ← decodeInner zlib o st
    .ok (st, if st.depth = 16 ∧ o.strip then everyOther out else out)

end Zune.Png
