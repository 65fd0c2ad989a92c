import Verif.Jpeg.HuffModel
import Verif.Jpeg.IdctModel
import Verif.Jpeg.ColorModel

/-!
# Model of the reading of JPEG headers (zune-jpeg/src/headers.rs, decoder.rs:355-605, components.rs:85-182)

From the first byte of the file to the end of the first scan header.

The stream is the list of the bytes not yet read.  (Simplified: the reader is a `ZCursor` over a
slice; a position past the end of the slice is the empty list, every later read then fails or
gives 0 just as at the end.)
-/

namespace Zune.Jpeg

/-- Bytes not yet read. -/
abbrev Bytes := List UInt8

/-- Ways in which the reading of headers stops. -/
inductive HdrErr where
  /-- Too few bytes. -/
  | io
  /-- An error of the decoder itself. -/
  | bad
  /-- An index outside an array. -/
  | panic
  /-- The model's bound on the number of rounds of a loop (does not happen in the code). -/
  | fuel
  deriving DecidableEq, Repr

/-- Result of a step of the reading. -/
abbrev Hd (α : Type) := Except HdrErr α

/-- `read_u8_err` (zune-core/src/bytestream/reader.rs:217-221). -/
def u8e : Bytes → Hd (Nat × Bytes)
  | [] => .error .io
  | b :: s => .ok (b.toNat, s)

/-- `get_u16_be_err` (zune-core/src/bytestream/reader.rs:358-; no_std_readers.rs:71-83). -/
def u16e : Bytes → Hd (Nat × Bytes)
  | a :: b :: s => .ok (a.toNat * 256 + b.toNat, s)
  | _ => .error .io

/-- `get_u16_be`: 0 when there are not two bytes (no_std_readers.rs:85-95). -/
def u16z : Bytes → Nat × Bytes
  | a :: b :: s => (a.toNat * 256 + b.toNat, s)
  | s => (0, s)

/-- `read_u8`: 0 at the end of the stream (no_std_readers.rs:54-58). -/
def u8z : Bytes → Nat × Bytes
  | [] => (0, [])
  | b :: s => (b.toNat, s)

/-- `read_exact_bytes` of `n` bytes (no_std_readers.rs:60-69). -/
def exactly (n : Nat) (s : Bytes) : Hd (Bytes × Bytes) :=
  if n ≤ s.length then .ok (s.take n, s.drop n) else .error .io

/-- `peek_at(0, n)` (zune-core/src/bytestream/reader.rs:230-255).  (Simplified: the limit of 20 MiB
is left out, the lengths asked for here are below 65536.) -/
def peek (n : Nat) (s : Bytes) : Hd Bytes :=
  if n ≤ s.length then .ok (s.take n) else .error .io

/-- `Components` as far as the headers set it (components.rs:85-182): `id`, `horizontal_sample`,
`vertical_sample`, `quantization_table_number`, `dc_huff_table`, `ac_huff_table`. -/
structure HComp where
  id : Nat
  h : Nat
  v : Nat
  tq : Nat
  td : Nat
  ta : Nat
  deriving DecidableEq, Repr

/-- `ICCChunk` (decoder.rs:74-78). -/
structure IccChunk where
  seq : Nat
  num : Nat
  data : Bytes
  deriving DecidableEq, Repr

/-- The fields of `JpegDecoder` set by the headers (decoder.rs:82-159, initial values 167-205).  The number of components
(`info.components`) is kept apart from `components`. -/
structure Hdr where
  /-- `qt_tables`, in row major order -/
  qt : Nat → Option (List Nat) := fun _ => none
  /-- `dc_huffman_tables` -/
  dc : Nat → Option Huff := fun _ => none
  /-- `ac_huffman_tables` -/
  ac : Nat → Option Huff := fun _ => none
  width : Nat := 0
  height : Nat := 0
  /-- `info.components` -/
  ncomp : Nat := 0
  comps : List HComp := []
  /-- `seen_sof` -/
  seen : Bool := false
  /-- `is_progressive` -/
  prog : Bool := false
  /-- `input_colorspace` -/
  space : InSpace := .ycbcr
  /-- `restart_interval` -/
  restart : Nat := 0
  todo : Nat := 0x7fffffff
  /-- `num_scans`: the number of components in the scan -/
  ns : Nat := 0
  /-- `z_order` -/
  zorder : List Nat := [0, 0, 0, 0]
  /-- `scan_subsampled` -/
  sub : Bool := false
  /-- `spec_start` -/
  ss : Nat := 0
  /-- `spec_end` -/
  se : Nat := 0
  /-- `succ_high` -/
  ah : Nat := 0
  /-- `succ_low` -/
  al : Nat := 0
  exif : Option Bytes := none
  xmp : Option Bytes := none
  iptc : Option Bytes := none
  /-- `multi_picture_information` -/
  mpf : Option Bytes := none
  /-- `gain_map_info` -/
  gain : List Bytes := []
  /-- `icc_data` -/
  icc : List IccChunk := []
  /-- `is_mjpeg` -/
  mjpeg : Bool := false

/-- The options read here: `max_width`, `max_height`, `strict_mode`. -/
structure HdrOpts where
  maxW : Nat
  maxH : Nat
  strict : Bool

/-- Assignment to an entry of an array of tables. -/
def upd {α : Type} (t : Nat → Option α) (i : Nat) (v : α) : Nat → Option α :=
  fun j => if j = i then some v else t j

/-- Number of codes of each size: `num_symbols` (headers.rs:47, 61); entry 0 stays 0. -/
def countsOf (c : Bytes) : Nat → Nat
  | 0 => 0
  | l + 1 => (c[l]?.getD 0).toNat

/-- The 256 symbols: `symbols` (headers.rs:80-84), zero after those read. -/
def symbolsOf (v : Bytes) : Nat → Nat := fun i => (v[i]?.getD 0).toNat

/-- Errors of `HuffmanTable::new`, seen from the headers. -/
def ofHuff : Except HuffErr Huff → Hd Huff
  | .ok t => .ok t
  | .error .bad => .error .bad
  | .error .panic => .error .panic

/-- The loop of `parse_huffman` (headers.rs:39-108), `len` being `dht_length`.  (The
`is_progressive` given to `HuffmanTable::new` is not used there, huffman.rs:90.) -/
def dhtLoop : Nat → Nat → Hdr → Bytes → Hd (Hdr × Bytes)
  | 0, _, _, _ => .error .fuel
  | f + 1, len, d, s =>
    if len ≤ 16 then if 0 < len then .error .bad else .ok (d, s)
    else (u8e s).bind fun (info, s) =>
      if 4 ≤ info % 16 then .error .bad
      else if 1 < info / 16 % 16 then .error .bad
      else (exactly 16 s).bind fun (c, s) =>
        let sum := (c.map (·.toNat)).sum
        if 256 < sum then .error .bad
        else if len - 17 < sum then .error .bad
        else (exactly sum s).bind fun (v, s) =>
          (ofHuff (Huff.new (countsOf c) (symbolsOf v) (decide (info / 16 % 16 = 0)))).bind fun t =>
            dhtLoop f (len - 17 - sum)
              (if info / 16 % 16 = 0 then { d with dc := upd d.dc (info % 16) t }
               else { d with ac := upd d.ac (info % 16) t }) s

/-- `parse_huffman` (headers.rs:29-111). -/
def parseDht (d : Hdr) (s : Bytes) : Hd (Hdr × Bytes) :=
  (u16e s).bind fun (n, s) => if n < 2 then .error .bad else dhtLoop (n - 1) (n - 2) d s

/-- The values of a table (headers.rs:137-163): 64 bytes, or 64 numbers of two bytes, most
significant first. -/
def qtValues (prec : Nat) (s : Bytes) : Hd (List Nat × Bytes) :=
  if prec = 0 then (exactly 64 s).bind fun (v, s) => .ok (v.map (·.toNat), s)
  else if prec = 1 then (exactly 128 s).bind fun (v, s) =>
    .ok ((List.range 64).map fun i => (v[2 * i]?.getD 0).toNat * 256 + (v[2 * i + 1]?.getD 0).toNat, s)
  else .error .bad

/-- `un_zig_zag` (headers.rs:631-643). -/
def unZig (a : List Nat) : List Nat :=
  (List.range 64).foldl (fun out i => out.set (unZigzag.getD i 0) (a.getD i 0)) (List.replicate 64 0)

/-- The loop of `parse_dqt` (headers.rs:125-173), `len` being `qt_length`.  `(precision_value + 1)
as u16` is at most 1025. -/
def dqtLoop : Nat → Nat → Hdr → Bytes → Hd (Hdr × Bytes)
  | 0, _, _, _ => .error .fuel
  | f + 1, len, d, s =>
    if len = 0 then .ok (d, s)
    else (u8e s).bind fun (info, s) =>
      if len < 64 * (info / 16 + 1) + 1 then .error .bad
      else (qtValues (info / 16) s).bind fun (v, s) =>
        if 4 ≤ info % 16 then .error .bad
        else dqtLoop f (len - (64 * (info / 16 + 1) + 1)) { d with qt := upd d.qt (info % 16) (unZig v) } s

/-- `parse_dqt` (headers.rs:115-176). -/
def parseDqt (d : Hdr) (s : Bytes) : Hd (Hdr × Bytes) :=
  (u16e s).bind fun (n, s) => if n < 2 then .error .bad else dqtLoop (n - 1) (n - 2) d s

/-- `is_power_of_two` for the numbers 0 to 4 left by the checks before. -/
def isPow2 (n : Nat) : Bool := n = 1 || n = 2 || n = 4

/-- `Components::from` (components.rs:85-182). -/
def compFrom (a : Bytes) (pos : Nat) : Hd HComp :=
  let b := fun i => (a[i]?.getD 0).toNat
  if 4 ≤ pos then .error .bad
  else if 4 < b 1 / 16 then .error .bad
  else if 4 < b 1 % 16 then .error .bad
  else if 4 ≤ b 2 then .error .bad
  else if isPow2 (b 1 / 16) = false then .error .bad
  else if b 1 % 16 = 0 then .error .bad
  else .ok { id := b 0, h := b 1 / 16, v := b 1 % 16, tq := b 2, td := 0, ta := 0 }

/-- The components of the frame header (headers.rs:265-273): `n` of them from position `pos` on. -/
def sofComps : Nat → Nat → Bytes → Hd (List HComp × Bytes)
  | 0, _, s => .ok ([], s)
  | n + 1, pos, s =>
    (exactly 3 s).bind fun (a, s) => (compFrom a pos).bind fun c =>
      (sofComps n (pos + 1) s).bind fun (cs, s) => .ok (c :: cs, s)

/-- The colour space after the number of components is known (headers.rs:245-257). -/
def sofSpace (n : Nat) (sp : InSpace) : InSpace :=
  if n = 1 then .luma else if n = 4 ∧ sp = .ycbcr then .cmyk else sp

/-- `parse_start_of_frame` (headers.rs:180-281). -/
def parseSof (o : HdrOpts) (d : Hdr) (s : Bytes) : Hd (Hdr × Bytes) :=
  if d.seen then .error .bad
  else (u16e s).bind fun (len, s) => (u8e s).bind fun (p, s) =>
    if p ≠ 8 then .error .bad
    else (u16e s).bind fun (h, s) => (u16e s).bind fun (w, s) =>
      if o.maxW < w then .error .bad
      else if o.maxH < h then .error .bad
      else if w = 0 ∨ h = 0 then .error .bad
      else (u8e s).bind fun (n, s) =>
        if n = 0 then .error .bad
        else if len ≠ 8 + 3 * n then .error .bad
        else (sofComps n 0 s).bind fun (cs, s) =>
          .ok ({ d with height := h, width := w, ncomp := n, comps := cs, seen := true,
                        space := sofSpace n d.space }, s)

/-- The search for a component by its name (headers.rs:334-342), from `j` on; indexing past the
end of `components` panics. -/
def findComp (cs : List HComp) (n id : Nat) : Nat → Nat → Hd Nat
  | 0, j => .ok j
  | f + 1, j =>
    if j < n then
      match cs[j]? with
      | none => .error .panic
      | some c => if c.id = id then .ok j else findComp cs n id f (j + 1)
    else .ok j

/-- The components of a scan header (headers.rs:319-367), `n` of them from the `i`-th on; `ids` are
the names already seen. -/
def sosComps : Nat → Nat → List Nat → Hdr → Bytes → Hd (Hdr × Bytes)
  | 0, _, _, d, s => .ok (d, s)
  | n + 1, i, ids, d, s =>
    (u8e s).bind fun (id, s) =>
      if id ∈ ids then .error .bad
      else (u8e s).bind fun (y, s) =>
        (findComp d.comps d.ncomp id d.ncomp 0).bind fun j =>
          if j = d.ncomp then .error .bad
          else match d.comps[j]? with
            | none => .error .panic
            | some c =>
              if i < 4 then
                sosComps n (i + 1) (ids ++ [id])
                  { d with comps := d.comps.set j { c with td := y / 16 % 16, ta := y % 16 },
                           zorder := d.zorder.set i j,
                           sub := d.sub || decide (c.v ≠ 1) || decide (c.h ≠ 1) } s
              else .error .panic

/-- `parse_sos` (headers.rs:284-426).  The final `skip` (line 415) is of 0 bytes, the length having
been checked at line 297. -/
def parseSos (d : Hdr) (s : Bytes) : Hd (Hdr × Bytes) :=
  (u16e s).bind fun (ls, s) => (u8e s).bind fun (ns, s) =>
    if ls ≠ 6 + 2 * ns then .error .bad
    else if ns < 1 ∨ 5 ≤ ns then .error .bad
    else if d.ncomp = 0 then .error .bad
    else (sosComps ns 0 [] { d with ns := ns, sub := false } s).bind fun (d, s) =>
      (u8e s).bind fun (ss, s) => (u8e s).bind fun (se, s) => (u8e s).bind fun (b, s) =>
        if 63 < se then .error .bad
        else if 63 < ss then .error .bad
        else if 13 < b / 16 then .error .bad
        else if 13 < b % 16 then .error .bad
        else .ok ({ d with ss := ss, se := se, ah := b / 16, al := b % 16 }, s)

/-- `b"Exif\x00\x00"` (headers.rs:522). -/
def exifTag : Bytes := [69, 120, 105, 102, 0, 0]

/-- `b"http://ns.adobe.com/xap/1.0/\0"` (headers.rs:511). -/
def xmpTag : Bytes := "http://ns.adobe.com/xap/1.0/".toList.map (fun c => UInt8.ofNat c.toNat) ++ [0]

/-- `b"Photoshop 3.0\0"` (headers.rs:432). -/
def iptcTag : Bytes := "Photoshop 3.0".toList.map (fun c => UInt8.ofNat c.toNat) ++ [0]

/-- `b"ICC_PROFILE\0"` (headers.rs:561). -/
def iccTag : Bytes := "ICC_PROFILE".toList.map (fun c => UInt8.ofNat c.toNat) ++ [0]

/-- `b"urn:iso:std:iso:ts:21496:-1\0"` (headers.rs:550). -/
def hdrTag : Bytes := "urn:iso:std:iso:ts:21496:-1".toList.map (fun c => UInt8.ofNat c.toNat) ++ [0]

/-- `b"MPF\0"` (headers.rs:551). -/
def mpfTag : Bytes := [77, 80, 70, 0]

/-- `b"Adobe"` (headers.rs:467). -/
def adobeTag : Bytes := [65, 100, 111, 98, 101]

/-- `b"AVI1\0"` (decoder.rs:532). -/
def aviTag : Bytes := [65, 86, 73, 49, 0]

/-- `length > tag.len() && peek_at(0, tag.len())? == tag` (headers.rs:442, 522, 531-532, 579, 610). -/
def tagged (tag : Bytes) (len : Nat) (s : Bytes) : Hd Bool :=
  if tag.length < len then (peek tag.length s).bind fun b => .ok (decide (b = tag)) else .ok false

/-- `parse_app13` (headers.rs:429-454). -/
def parseApp13 (d : Hdr) (s : Bytes) : Hd (Hdr × Bytes) :=
  let (n, s) := u16z s
  if n < 2 then .error .bad
  else (tagged iptcTag (n - 2) s).bind fun t =>
    if t then
      (peek (n - 2 - iptcTag.length) (s.drop iptcTag.length)).bind fun v =>
        .ok ({ d with iptc := some v }, (s.drop iptcTag.length).drop (n - 2 - iptcTag.length))
    else .ok (d, s.drop (n - 2))

/-- `parse_app14` (headers.rs:457-503). -/
def parseApp14 (d : Hdr) (s : Bytes) : Hd (Hdr × Bytes) :=
  let (n, s) := u16z s
  if n < 2 then .error .bad
  else (peek 5 s).bind fun b =>
    if b = adobeTag then
      if n < 14 then .error .bad
      else
        let (t, s) := u8z ((s.drop 6).drop 5)
        if t = 0 then .ok ({ d with space := .cmyk }, s.drop (n - 14))
        else if t = 1 then .ok ({ d with space := .ycbcr }, s.drop (n - 14))
        else if t = 2 then .ok ({ d with space := .ycck }, s.drop (n - 14))
        else .error .bad
    else .ok (d, s.drop n)

/-- `parse_app1` (headers.rs:508-545). -/
def parseApp1 (d : Hdr) (s : Bytes) : Hd (Hdr × Bytes) :=
  let (n, s) := u16z s
  if n < 2 then .error .bad
  else (tagged exifTag (n - 2) s).bind fun t =>
    if t then
      (peek (n - 2 - exifTag.length) (s.drop exifTag.length)).bind fun v =>
        .ok ({ d with exif := some v }, (s.drop exifTag.length).drop (n - 2 - exifTag.length))
    else (tagged xmpTag (n - 2) s).bind fun t =>
      if t then
        (peek (n - 2 - xmpTag.length) (s.drop xmpTag.length)).bind fun v =>
          .ok ({ d with xmp := some v }, (s.drop xmpTag.length).drop (n - 2 - xmpTag.length))
      else .ok (d, s.drop (n - 2))

/-- `length > 14 && peek_at(0, 12)? == b"ICC_PROFILE\0"` (headers.rs:561). -/
def iccTagged (len : Nat) (s : Bytes) : Hd Bool :=
  if 14 < len then (peek 12 s).bind fun b => .ok (decide (b = iccTag)) else .ok false

/-- The gain map branch of `parse_app2` (headers.rs:580-609, 624), `len` bytes after the tag. -/
def gainMap (d : Hdr) (len : Nat) (s : Bytes) : Hd (Hdr × Bytes) :=
  if len = 4 then .ok ({ d with gain := d.gain ++ [[]] }, (u16z (u16z s).2).2)
  else if 4 < len then (peek len s).bind fun v => .ok ({ d with gain := d.gain ++ [v] }, s.drop len)
  else .ok (d, s.drop len)

/-- `parse_app2` (headers.rs:547-627). -/
def parseApp2 (d : Hdr) (s : Bytes) : Hd (Hdr × Bytes) :=
  let (n, s) := u16z s
  if n < 2 then .error .bad
  else (iccTagged (n - 2) s).bind fun t =>
    if t then
      let (q, s) := u8z (s.drop 12)
      let (m, s) := u8z s
      (peek (n - 2 - 14) s).bind fun v =>
        .ok ({ d with icc := d.icc ++ [{ seq := q, num := m, data := v }] }, s.drop (n - 2 - 14))
    else (tagged hdrTag (n - 2) s).bind fun t =>
      if t then gainMap d (n - 2 - hdrTag.length) (s.drop hdrTag.length)
      else (tagged mpfTag (n - 2) s).bind fun t =>
        if t then
          (peek (n - 2 - mpfTag.length) (s.drop mpfTag.length)).bind fun v =>
            .ok ({ d with mpf := some v }, (s.drop mpfTag.length).drop (n - 2 - mpfTag.length))
        else .ok (d, s.drop (n - 2))

/-- The branch for `APP(0)` (decoder.rs:520-541). -/
def parseApp0 (d : Hdr) (s : Bytes) : Hd (Hdr × Bytes) :=
  (u16e s).bind fun (n, s) =>
    if n < 2 then .error .bad
    else if 5 < n then
      (exactly 5 s).bind fun (b, s) =>
        .ok ({ d with mjpeg := d.mjpeg || decide (b = aviTag) }, s.drop (n - 5 - 2))
    else .ok (d, s.drop (n - 2))

/-- The branch for `DRI` (decoder.rs:569-580). -/
def parseDri (d : Hdr) (s : Bytes) : Hd (Hdr × Bytes) :=
  (u16e s).bind fun (n, s) =>
    if n ≠ 4 then .error .bad
    else (u16e s).bind fun (r, s) => .ok ({ d with restart := r, todo := r }, s)

/-- The branch for all other markers (decoder.rs:587-602). -/
def parseOther (d : Hdr) (s : Bytes) : Hd (Hdr × Bytes) :=
  (u16e s).bind fun (n, s) => if n < 2 then .error .bad else .ok (d, s.drop (n - 2))

/-- `parse_marker_inner` (decoder.rs:492-605) after `Marker::from_u8` (marker.rs:59-91), which never
gives `None` and names no start of frame marker but C0, C1 and C2. -/
def parseMarker (o : HdrOpts) (m : Nat) (d : Hdr) (s : Bytes) : Hd (Hdr × Bytes) :=
  if m = 0xC0 ∨ m = 0xC1 then parseSof o d s
  else if m = 0xC2 then parseSof o { d with prog := true } s
  else if m = 0xE0 then parseApp0 d s
  else if m = 0xE1 then parseApp1 d s
  else if m = 0xE2 then parseApp2 d s
  else if m = 0xDB then parseDqt d s
  else if m = 0xC4 then parseDht d s
  else if m = 0xDA then parseSos d s
  else if m = 0xD9 then .error .bad
  else if m = 0xCC ∨ m = 0xDC then .error .bad
  else if m = 0xDD then parseDri d s
  else if m = 0xEE then parseApp14 d s
  else if m = 0xED then parseApp13 d s
  else parseOther d s

/-- The loop over fill bytes (decoder.rs:408-411): `last_byte`, `m` and the stream after it. -/
def fillLoop (last m : Nat) : Bytes → Hd (Nat × Nat × Bytes)
  | [] => if m = 255 ∨ m = 0 then .error .io else .ok (last, m, [])
  | b :: s => if m = 255 ∨ m = 0 then fillLoop m b.toNat s else .ok (last, m, b :: s)

/-- The check of decoder.rs:397. -/
def skipFill (last m : Nat) (s : Bytes) : Hd (Nat × Nat × Bytes) :=
  if (m = 255 ∨ m = 0) ∧ last = 255 then fillLoop last m s else .ok (last, m, s)

/-- After the first scan header (decoder.rs:457-465): components named R, G, B are RGB. -/
def finishHdr (d : Hdr) : Hdr :=
  if d.comps.map (·.id) = [82, 71, 66] then { d with space := .rgb } else d

/-- The loop of `decode_headers_internal` (decoder.rs:389-488): `last` is `last_byte`, `cnt` is
`bytes_before_marker`.  (Simplified: `cnt`, an `i32`, does not overflow; that would take 2 GiB
without a marker.) -/
def hdrLoop (o : HdrOpts) : Nat → Nat → Nat → Hdr → Bytes → Hd (Hdr × Bytes)
  | 0, _, _, _, _ => .error .fuel
  | f + 1, last, cnt, d, s =>
    (u8e s).bind fun (m, s) => (skipFill last m s).bind fun (last, m, s) =>
      if last = 255 then
        if 3 < cnt ∧ o.strict = true then .error .bad
        else (parseMarker o m d s).bind fun (d, s) =>
          if m = 0xDA then .ok (finishHdr d, s) else hdrLoop o f m 1 d s
      else hdrLoop o f m (cnt + 1) d s

/-- `decode_headers_internal` (decoder.rs:355-490) of a new decoder (decoder.rs:159-208).
(Simplified: the choice of the colour conversion function, lines 367-378, is left out.) -/
def decodeHeaders (o : HdrOpts) (s : Bytes) : Hd (Hdr × Bytes) :=
  (u16e s).bind fun (n, s) =>
    if n ≠ 0xFFD8 then .error .bad else hdrLoop o (s.length + 1) 0 0 {} s

/-- `ColorSpace::num_components` (zune-core/src/colorspace.rs:64-73) of the colour spaces that occur. -/
def InSpace.num : InSpace → Nat
  | .luma => 1
  | .ycbcr | .rgb => 3
  | .cmyk | .ycck => 4
  | .multi n => n

/-- The final choice of the colour space in `setup_component_params` (misc.rs:209-211, 299-343) for a
frame of `n` components; `none` is the error of strict mode.  (The two parts are apart in the code, with
nothing in between that touches the colour space.) -/
def settleSpace (strict : Bool) (n : Nat) (sp : InSpace) : Option InSpace :=
  let sp := if n = 3 ∧ sp = .cmyk then .rgb else sp
  if n < sp.num then
    if sp = .ycck then some .ycbcr
    else if strict then none
    else if 0 < n then some (.multi n) else some sp
  else some sp

/-- The check and filing of the chunks (decoder.rs:632-648); `num` is the number of chunks. -/
def iccFile (num : Nat) : List IccChunk → (Nat → Option Bytes) → Option (Nat → Option Bytes)
  | [], t => some t
  | c :: cs, t =>
    if c.num ≠ num then none
    else if c.seq = 0 then none
    else if (t c.seq).isSome then none
    else iccFile num cs (upd t c.seq c.data)

/-- The assembly (decoder.rs:651-658): entries `k` to `k + n - 1`. -/
def iccJoin (t : Nat → Option Bytes) : Nat → Nat → Option Bytes
  | 0, _ => some []
  | n + 1, k => (t k).bind fun v => (iccJoin t n (k + 1)).map (v ++ ·)

/-- `icc_profile` (decoder.rs:620-661) after the headers have been read. -/
def iccProfile (cs : List IccChunk) : Option Bytes :=
  if cs.length = 0 ∨ 255 ≤ cs.length then none
  else (iccFile cs.length cs fun _ => none).bind fun t => iccJoin t cs.length 1

end Zune.Jpeg
