/-
Model of the frame level of the JPEG XL encoder (`crates/zune-jpegxl/src/encoder.rs`): sampling, the sections of the frame, the header, and the
output.

Channels of an area have a writer (or counters) each and do not interact, so they are modelled one after the other although the source goes row by
row; the groups have writers of their own as well, so it makes no difference whether threads are used (lines 1253-1293) or not.  Panics
are `none` until the end.  Capacities of vectors (`reserve`, line 1076) and log messages are left out.
-/
import Verif.Jxl.DescModel

namespace Zune.Jxl

/-- What the encoder reads of `EncoderOptions` (encoder.rs:1085-1091): `bytes` is 1 for `BitDepth::Eight` and 2 for `BitDepth::Sixteen`;
    `channels` is 1, 2, 3 or 4 for `Luma`, `LumaA`, `RGB` and `RGBA`, the supported colour spaces (errors.rs:38-43).  Other depths and
    colour spaces are refused (lines 1070, 1093-1095) and not modelled. -/
structure Opts where
  width : Nat
  height : Nat
  bytes : Nat
  channels : Nat
  effort : Nat
deriving Repr, DecidableEq

/-- `has_alpha` of the four colour spaces (zune-core/src/colorspace.rs:75-77, used at encoder.rs:1468). -/
def Opts.alpha (o : Opts) : Bool := o.channels == 2 || o.channels == 4

/-- `stride` (encoder.rs:1091). -/
def Opts.stride (o : Opts) : Nat := o.bytes * o.width * o.channels

/-- `calculate_expected_input` (encoder.rs:1597-1606); the products are checked in `encode`. -/
def Opts.expected (o : Opts) : Nat := o.width * o.bytes * o.height * o.channels

/-- `num_groups_x`, `num_groups_y` (encoder.rs:1119-1120). -/
def Opts.groupsX (o : Opts) : Nat := (o.width + 255) / 256
/-- See `groupsX`. -/
def Opts.groupsY (o : Opts) : Nat := (o.height + 255) / 256

/-- `num_dc_groups_x * num_dc_groups_y` (encoder.rs:1121-1122). -/
def Opts.dcGroups (o : Opts) : Nat := ((o.width + 2047) / 2048) * ((o.height + 2047) / 2048)

/-- `one_group` (encoder.rs:1127). -/
def Opts.oneGroup (o : Opts) : Bool := o.groupsX == 1 && o.groupsY == 1

/-! ### Samples -/

/-- The part of `process_image_area` that reads one row of one channel (encoder.rs:769-771, 793-865); `none` if the slice starts behind the
    data.  Every pixel has a sample for each channel. -/
def sampleRow (o : Opts) (data : List UInt8) (c start xs : Nat) : Option (List (BitVec (16 * o.bytes))) :=
  if start ≤ data.length then some ((fillRow (16 * o.bytes) o.bytes o.channels (data.drop start) xs).map (·.getD c 0)) else none

/-- The rows of channel `c` that `process_image_area` reads (encoder.rs:768-771). -/
def sampleRows (o : Opts) (data : List UInt8) (c x0 y0 xs ys : Nat) : Option (List (List (BitVec (16 * o.bytes)))) :=
  (List.range ys).mapM fun y => sampleRow o data c (o.stride * (y0 + y) + x0 * o.channels * o.bytes) xs

/-- The area sampled in group `g` (encoder.rs:1129-1136): `x0`, `y0`, `xs` and the number of rows after the first.  `effort` is at most 127
    (line 1089). -/
def Opts.sampleArea (o : Opts) (g : Nat) : Nat × Nat × Nat × Nat :=
  let effort := min o.effort 127
  let xg := g % o.groupsX
  let yg := g / o.groupsX
  let yOffset := yg * 256
  let yMax := min (o.height - yg * 256) 256
  let yBegin := yOffset + (yMax - 2 * effort) / 2
  let yCount := min (2 * effort * yMax / 256) (yOffset + yMax - yBegin - 1)
  let xMax := min (o.width - xg * 256) 256 / chunkSize * chunkSize
  (xg * 256, yBegin, xMax, yCount)

/-- The area of group `g` (encoder.rs:1219-1226): `x0`, `y0`, `xs`, `ys`. -/
def Opts.groupArea (o : Opts) (g : Nat) : Nat × Nat × Nat × Nat :=
  let xg := g % o.groupsX
  let yg := g / o.groupsX
  (xg * 256, yg * 256, min (o.width - xg * 256) 256, min (o.height - yg * 256) 256)

/-! ### Counting -/

/-- Adding one to a counter (encoder.rs:123, 128, 143); `none` if there is no such counter. -/
def bump (l : List Nat) (i : Nat) : Option (List Nat) := if i < l.length then some (l.set i (l.getD i 0 + 1)) else none

/-- `ChunkSampleCollector::encode_rle` (encoder.rs:119-129); `none` also for the subtraction at line 124. -/
def countRun (n : List Nat × List Nat) (run : Nat) : Option (List Nat × List Nat) :=
  if run = 0 then some n
  else do
    let raw ← bump n.1 0
    if run < lz77MinLength + 1 then none
    let lz ← bump n.2 (hybridLz77 (run - (lz77MinLength + 1))).1
    return (raw, lz)

/-- `ChunkSampleCollector::chunk` (encoder.rs:132-145). -/
def countCall (n : List Nat × List Nat) (k : Call) : Option (List Nat × List Nat) := do
  let n ← countRun n k.run
  let raw ← k.residuals.foldlM (fun raw r => bump raw (hybrid000 r).1) n.1
  return (raw, n.2)

/-- `collect_samples` (encoder.rs:711-746) of group `g` for channel `c`; `finalize` does nothing (lines 611-613). -/
def collectSamples (o : Opts) (data : List UInt8) (c : Nat) (n : List Nat × List Nat) (g : Nat) : Option (List Nat × List Nat) := do
  let (x0, y0, xs, rowCount) := o.sampleArea g
  let rows ← sampleRows o data c x0 y0 xs (1 + rowCount)
  (area 1 xs rows).calls.foldlM countCall n

/-- The counts of channel `c` (encoder.rs:1124-1149). -/
def channelCounts (o : Opts) (data : List UInt8) (c : Nat) : Option (List Nat × List Nat) :=
  if c < o.channels then
    (List.range (o.groupsY * o.groupsX)).foldlM (collectSamples o data c) (List.replicate numRaw 0, List.replicate numLz77 0)
  else some (List.replicate numRaw 0, List.replicate numLz77 0)

/-- `num_symbols` (bit_depth.rs:165-171, 208-210). -/
def Opts.numSymbols (o : Opts) : Nat := if o.bytes = 1 then (if o.channels > 2 then 11 else 10) else 19

/-- `base_raw_counts` (encoder.rs:1151-1157). -/
def Opts.baseRaw (o : Opts) : List Nat :=
  [3843, 852, 1270, 1214, 1014, 727, 481, 300, 159, 51, 5, 1, 1, 1, 1, 1, 1, 1, 1].take o.numSymbols ++ List.replicate (numRaw - o.numSymbols) 0

/-- `base_lz77_counts` (encoder.rs:1165-1168). -/
def baseLz77 : List Nat :=
  [29, 27, 25, 23, 21, 21, 19, 18, 21, 17, 16, 15, 15, 14, 13, 13, 137, 98, 61, 34, 1, 1, 1, 1, 1, 1, 1, 1, 0, 0, 0, 0, 0]

/-- The counts a code is built from (encoder.rs:1159-1163, 1170-1174). -/
def scaled (counts base : List Nat) : List Nat := List.zipWith (fun r b => (r <<< 8) + b) counts base

/-- The code of channel `c`, one of four (encoder.rs:1151-1180). -/
def channelCode (o : Opts) (data : List UInt8) (c : Nat) : Option PrefixCode := do
  let (raw, lz) ← channelCounts o data c
  PrefixCode.new o.bytes (scaled raw o.baseRaw) (scaled lz baseLz77)

/-- All four codes (encoder.rs:1175-1180). -/
def codes (o : Opts) (data : List UInt8) : Option (List PrefixCode) := (List.range 4).mapM (channelCode o data)

/-! ### Sections -/

/-- The tree (encoder.rs:921-930): tokens and extra bits, number of bits first. -/
def treeSymbols : List (Nat × Nat) := [(2, 0b00), (2, 0b10), (3, 0b001), (3, 0b101), (4, 0b0011), (4, 0b0111)]

/-- `indices` (encoder.rs:921-923). -/
def treeIndices : List Nat := [1, 2, 1, 4, 1, 0, 0, 5, 0, 0, 0, 0, 5, 0, 0, 0, 0, 5, 0, 0, 0, 0, 5, 0, 0, 0]

/-- `prepare_dc_global_common` (encoder.rs:904-963) up to the codes. -/
def dcPreface : List (Nat × Nat) :=
  [(1, 1), (1, 1), (1, 0)] ++
  [(1, 1), (2, 0), (1, 1), (4, 0), (6, 0b100011), (2, 1), (2, 3), (2, 0), (2, 1), (2, 2), (2, 3), (1, 0)] ++
  treeIndices.map (treeSymbols.getD · (0, 0)) ++
  [(1, 1), (2, 0b00), (4, 0b1010), (4, 4), (3, 0), (3, 0)] ++
  [(1, 1), (2, 3), (3, 4), (3, 3), (3, 2), (3, 1), (3, 0)] ++
  [(1, 1), (4, 0), (4, 0), (4, 0), (4, 0), (4, 0), (5, 1)] ++
  [(1, 1), (4, 8), (8, 256), (1, 1), (4, 8), (8, 256), (1, 1), (4, 8), (8, 256), (1, 1), (4, 8), (8, 256)] ++
  [(2, 1), (2, 0), (1, 1)]

/-- `prepare_dc_global_common` and `prepare_dc_global` (encoder.rs:904-971, 1027-1034): the arguments of `put_bits`. -/
def dcBits (o : Opts) (codes : List PrefixCode) : Option (List (Nat × Nat)) := do
  let descriptions ← codes.mapM PrefixCode.describe
  return dcPreface ++ descriptions.flatten ++ [(1, 1), (1, 1)] ++
    (if o.channels > 2 then [(2, 0b01), (2, 0b00), (5, 0b00000), (2, 0b00)] else [(2, 0b00)])

/-- `prepare_dc_global` (encoder.rs:1021-1038) on a fresh writer. -/
def dcGlobal (o : Opts) (codes : List PrefixCode) : Option BitWriter := do
  let b ← BitWriter.new.allocate (100000 + if o.oneGroup then o.width * o.height * 16 else 0)
  let b ← b.puts (← dcBits o codes)
  if o.oneGroup then return b else b.zeroPad

/-- `max_encoded_bits_per_sample` (bit_depth.rs:161-163, 205-207). -/
def Opts.maxBits (o : Opts) : Nat := if o.bytes = 1 then 16 else 24

/-- `write_a_c_section` (encoder.rs:974-1019) for channel `c` of group `g`, which has writer `b`. -/
def acChannel (o : Opts) (data : List UInt8) (codes : List PrefixCode) (g c : Nat) (b : BitWriter) : Option BitWriter := do
  let (x0, y0, xs, ys) := o.groupArea g
  let b ← if o.oneGroup && c == 0 then some b else b.allocate (xs * ys * o.maxBits + 4)
  let b ← if !o.oneGroup && c == 0 then b.puts [(1, 1), (1, 1), (2, 0)] else some b
  let rows ← sampleRows o data c x0 y0 xs ys
  let code ← codes[c]?
  b.puts (channelBits code (area 0 xs rows))

/-- `write_a_c_section` (encoder.rs:974-1019) for the four writers of group `g`. -/
def acSection (o : Opts) (data : List UInt8) (codes : List PrefixCode) (writers : List BitWriter) (g : Nat) : Option (List BitWriter) := do
  let used ← (List.range o.channels).mapM fun c => do acChannel o data codes g c (← writers[c]?)
  return used ++ writers.drop o.channels

/-- Four new writers (encoder.rs:1188-1193). -/
def freshWriters : List BitWriter := List.replicate 4 BitWriter.new

/-- The `group_data` of `encode_inner` (encoder.rs:1182-1310): `num_groups` lists of four writers. -/
def groupData (o : Opts) (data : List UInt8) (codes : List PrefixCode) : Option (List (List BitWriter)) := do
  let first := (← dcGlobal o codes) :: freshWriters.tail
  if o.oneGroup then return [← acSection o data codes first 0]
  else
    let groups ← (List.range (o.groupsX * o.groupsY)).mapM (acSection o data codes freshWriters)
    return first :: List.replicate (1 + o.dcGroups) freshWriters ++ groups

/-! ### Header and output -/

/-- `group_sizes[i]` (encoder.rs:1457-1466). -/
def sectionSize (o : Opts) (writers : List BitWriter) : Nat :=
  (((writers.take o.channels).map fun b => b.pos * 8 + b.left).sum + 7) / 8

/-- `write_header` (encoder.rs:1477-1492) without the ratio; `none` is the failed assertion. -/
def sizeBits (size : Nat) : Option (List (Nat × Nat)) :=
  if 1 < size ∧ size < 2 ^ 30 then
    some (if size - 1 < 2 ^ 9 then [(2, 0), (9, size - 1)]
      else if size - 1 < 2 ^ 13 then [(2, 1), (13, size - 1)]
      else if size - 1 < 2 ^ 18 then [(2, 2), (18, size - 1)]
      else [(2, 3), (30, size - 1)])
  else none

/-- The image header (encoder.rs:1498-1545) after the sizes. -/
def metadataBits (o : Opts) : List (Nat × Nat) :=
  [(1, 0), (1, 0), (1, 0)] ++
  (if o.bytes = 1 then [(2, 0)] else [(2, 0b11), (6, 8 * o.bytes - 1)]) ++
  (if 8 * o.bytes ≤ 14 then [(1, 1)] else [(1, 0)]) ++
  (if o.alpha then [(2, 1), (1, 1)] else [(2, 0)]) ++
  [(1, 0)] ++
  (if o.channels > 2 then [(1, 1)] else [(1, 0), (1, 0), (2, 1), (2, 1), (1, 0), (2, 0b10), (4, 11), (2, 1)]) ++
  [(2, 0b00), (1, 1)]

/-- The frame header (encoder.rs:1548-1574), called with `is_last`. -/
def frameBits (o : Opts) : List (Nat × Nat) :=
  [(1, 0), (2, 0b00), (1, 1), (2, 0b00), (1, 0), (2, 0b00)] ++
  (if o.alpha then [(2, 0b00)] else []) ++
  [(2, 0b01), (2, 0b00), (1, 0), (2, 0b00)] ++
  (if o.alpha then [(2, 0b00)] else []) ++
  [(1, 1), (2, 0b00), (1, 0), (1, 0), (2, 0), (2, 0b00), (2, 0b00), (1, 0)]

/-- One entry of the table of contents (encoder.rs:1577-1593).  The subtractions of lines 1584 and 1587 are made on larger sizes only. -/
def tocBits (size : Nat) : List (Nat × Nat) :=
  if size < 2 ^ 10 then [(2, 0b00), (10, size)]
  else if size - 1024 < 2 ^ 14 then [(2, 0b01), (14, size - 1024)]
  else if size - 17408 < 2 ^ 22 then [(2, 0b10), (22, size - 17408)]
  else [(2, 0b11), (30, size - 4211712)]

/-- `prepare_header` (encoder.rs:1447-1595) on a fresh writer, called with `add_image_header`. -/
def prepareHeader (o : Opts) (sizes : List Nat) : Option BitWriter := do
  let b ← BitWriter.new.allocate (1000 + sizes.length * 32)
  let h ← sizeBits o.height
  let w ← sizeBits o.width
  let b ← b.puts ([(16, 0x0AFF), (1, 0)] ++ h ++ [(3, 0)] ++ w ++ metadataBits o)
  let b ← b.zeroPad
  let b ← b.puts (frameBits o)
  let b ← b.zeroPad
  let b ← b.puts (sizes.flatMap tocBits)
  b.zeroPad

/-- One iteration of the loop of `fast_lossless_write_output` (encoder.rs:1394-1424) for writer `b`; `last` is the condition of line 1420
    that this was the header or the last channel of a group.  `none` for a flush without room, a slice out of range, or the assertion in `put_bytes`.
    `bit_writer_byte_pos` is zero at the beginning of each iteration. -/
def emit (out : SinkWriter) (b : BitWriter) (last : Bool) : Option SinkWriter := do
  let b ← if b.left > 0 then b.flush else some b
  if b.pos > b.dest.length then none
  let out ← out.putBytes (b.dest.take b.pos)
  let out := if b.left ≠ 0 then out.put b.left b.buf else out
  let out := out.flush
  return if last && out.left != 0 then out.put (8 - out.left) 0 else out

/-- The writers of one section (encoder.rs:1394-1424). -/
def emitAll (out : SinkWriter) : List BitWriter → Option SinkWriter
  | [] => some out
  | b :: t => do
    let out ← emit out b t.isEmpty
    emitAll out t

/-- `fast_lossless_write_output` (encoder.rs:1372-1426): header, then the writers in use of every section. -/
def writeOutput (o : Opts) (header : BitWriter) (groups : List (List BitWriter)) : Option (List UInt8) := do
  let out ← emit (SinkWriter.new []) header true
  let out ← groups.foldlM (fun out ws => emitAll out (ws.take o.channels)) out
  let out := out.flush
  if out.left ≠ 0 then none
  return out.dest

/-- `JxlEncodeErrors` as far as it occurs, and panics. -/
inductive EncodeError
  | zeroWidth
  | zeroHeight
  | lengthMismatch
  | panic
deriving Repr, DecidableEq

/-- The part of `encode` that can panic (encoder.rs:1067-1079). -/
def encodeBody (o : Opts) (data : List UInt8) : Option (List UInt8) := do
  let codes ← codes o data
  let groups ← groupData o data codes
  let header ← prepareHeader o (groups.map (sectionSize o))
  writeOutput o header groups

/-- `JxlSimpleEncoder::encode` (encoder.rs:1058-1080) into a vector.  The products of `calculate_expected_input` panic when they
    exceed `usize` (lines 1096-1101 cannot fail after 1059-1064). -/
def encode (o : Opts) (data : List UInt8) : Except EncodeError (List UInt8) :=
  if o.width ≤ 1 then .error .zeroWidth
  else if o.height ≤ 1 then .error .zeroHeight
  else if o.expected ≥ 2 ^ 64 then .error .panic
  else if o.expected ≠ data.length then .error .lengthMismatch
  else match encodeBody o data with
    | some out => .ok out
    | none => .error .panic

end Zune.Jxl
