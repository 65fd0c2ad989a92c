/-
Model of `crates/zune-qoi`: encoder and decoder at byte level.
-/
import Verif.Bytestream.Model

namespace Zune.Qoi
open Zune.Bytestream

/-- A pixel, `[u8; 4]` in the code (encoder.rs:142, decoder.rs:272). -/
structure Px where
  r : UInt8
  g : UInt8
  b : UInt8
  a : UInt8
deriving DecidableEq, Repr

/-- The two colorspaces QOI supports (encoder.rs:107-117, decoder.rs:160-164). -/
inductive Cs where | rgb | rgba
deriving DecidableEq, Repr

/-- `ColorSpace::num_components` (zune-core/src/colorspace.rs) restricted to RGB and RGBA. -/
def Cs.n : Cs → Nat | .rgb => 3 | .rgba => 4

/-- Starting pixel `[0,0,0,255]` (encoder.rs:142-143, decoder.rs:272). -/
def pxStart : Px := ⟨0, 0, 0, 255⟩

/-- Zeroed cache entry (encoder.rs:140, decoder.rs:270). -/
def pxZero : Px := ⟨0, 0, 0, 0⟩

/-- `px[0..SIZE]` (decoder.rs:279,310). -/
def Px.bytes (p : Px) : Cs → List UInt8
  | .rgb => [p.r, p.g, p.b]
  | .rgba => [p.r, p.g, p.b, p.a]

/-- `px[0..channel_count].copy_from_slice(pix_chunk)` over `chunks_exact` (encoder.rs:149-150): the successive values of
    `px`; an incomplete last chunk is ignored. -/
def pixelsOf (cs : Cs) (alpha : UInt8) : List UInt8 → List Px
  | r :: g :: b :: t =>
    match cs with
    | .rgb => ⟨r, g, b, alpha⟩ :: pixelsOf cs alpha t
    | .rgba =>
      match t with
      | a :: t' => ⟨r, g, b, a⟩ :: pixelsOf cs alpha t'
      | [] => []
  | _ => []

/-! ### Encoder -/

/-- Colour cache position (encoder.rs:165-169). -/
def encHash (p : Px) : Nat :=
  (p.r.toNat * 3 + p.g.toNat * 5 + p.b.toNat * 7 + p.a.toNat * 11) % 64

/-- `(lo..=hi).contains(&v)`. -/
def inRange (lo hi v : UInt8) : Bool := decide (lo ≤ v ∧ v ≤ hi)

/-- Bytes written for a pixel that differs from the previous one (encoder.rs:171-209). -/
def encPixel (idx : Nat → Px) (prev p : Px) : List UInt8 :=
  if idx (encHash p) = p then [0x00 ||| UInt8.ofNat (encHash p)]
  else if p.a = prev.a then
    let vr := p.r - prev.r
    let vg := p.g - prev.g
    let vb := p.b - prev.b
    let vgr := vr - vg
    let vgb := vb - vg
    if !inRange 2 253 vr && !inRange 2 253 vg && !inRange 2 253 vb then
      [(0x40 : UInt8) ||| (vr + 2) <<< (4 : UInt8) ||| (vg + 2) <<< (2 : UInt8) ||| (vb + 2)]
    else if !inRange 8 247 vgr && !inRange 32 223 vg && !inRange 8 247 vgb then
      [0x80 ||| (vg + 32), (vgr + 8) <<< (4 : UInt8) ||| (vgb + 8)]
    else [0xfe, p.r, p.g, p.b]
  else [0xff, p.r, p.g, p.b, p.a]

/-- Cache after a pixel that differs from the previous one (encoder.rs:171-174).  The 64-entry array is modelled as a
    function on indices. -/
def encIndex (idx : Nat → Px) (p : Px) : Nat → Px :=
  if idx (encHash p) = p then idx else fun i => if i = encHash p then p else idx i

/-- `QOI_OP_RUN | (run - 1)` (encoder.rs:156,161,215). -/
def runByte (run : Nat) : UInt8 := 0xc0 ||| UInt8.ofNat (run - 1)

/-- Main loop (encoder.rs:149-216): `run` pixels equal to `prev` are pending. -/
def encBody (idx : Nat → Px) (prev : Px) (run : Nat) : List Px → List UInt8
  | [] => if run > 0 then [runByte run] else []
  | p :: ps =>
    if p = prev then
      if run + 1 = 62 then runByte 62 :: encBody idx p 0 ps
      else encBody idx p (run + 1) ps
    else
      (if run > 0 then [runByte run] else []) ++ encPixel idx prev p ++ encBody (encIndex idx p) p 0 ps

/-- Encoder errors (errors.rs), payloads dropped. -/
inductive EncErr where | length | dimensions
deriving DecidableEq, Repr

/-- `QoiEncoder::encode` (encoder.rs:75-125 for the header, 135-223) on an unbounded sink.  Unsupported colorspaces are not
    representable in `Cs`. -/
def encode (w h : Nat) (cs : Cs) (data : List UInt8) : Except EncErr (List UInt8) :=
  if data.length ≠ w * h * cs.n then .error .length
  else if w > 2 ^ 32 - 1 then .error .dimensions
  else if h > 2 ^ 32 - 1 then .error .dimensions
  else .ok ([0x71, 0x6f, 0x69, 0x66] ++ beBytes 4 w ++ beBytes 4 h ++ [UInt8.ofNat cs.n, 0]
      ++ encBody (fun _ => pxZero) pxStart 0 (pixelsOf cs 255 data) ++ beBytes 8 1)

/-! ### Decoder -/

/-- Decoder options used by QOI (zune-core/src/options/decoder.rs: max_width, max_height, strict_mode). -/
structure Opts where
  maxW : Nat
  maxH : Nat
  strict : Bool
deriving DecidableEq, Repr

/-- Decoder errors, payloads dropped. -/
inductive DecErr where
  | magic | width | height | zeroWidth | zeroHeight | channels | layout | io (e : IoErr) | buffer | trailer
deriving DecidableEq, Repr

/-- Header fields stored in the decoder (decoder.rs:28-40 region): dimensions and colorspace. -/
structure Header where
  w : Nat
  h : Nat
  cs : Cs
deriving DecidableEq, Repr

/-- `decode_headers` (decoder.rs:119-186); the sRGB/linear flag is dropped after validation. -/
def decodeHeaders (o : Opts) (c : Cursor) : Except DecErr Header × Cursor :=
  match c.readExact 4 with
  | (.error e, c) => (.error (.io e), c)
  | (.ok magic, c) =>
    if magic ≠ [0x71, 0x6f, 0x69, 0x66] then (.error .magic, c)
    else
      let (w, c) := c.getInt .be 4
      let (h, c) := c.getInt .be 4
      let (ch, c) := c.readU8
      let (lay, c) := c.readU8
      if w > o.maxW then (.error .width, c)
      else if h > o.maxH then (.error .height, c)
      else if w = 0 then (.error .zeroWidth, c)
      else if h = 0 then (.error .zeroHeight, c)
      else if ch ≠ 3 ∧ ch ≠ 4 then (.error .channels, c)
      else if lay ≠ 0 ∧ lay ≠ 1 ∧ o.strict then (.error .layout, c)
      else (.ok ⟨w, h, if ch = 3 then .rgb else .rgba⟩, c)

/-- The multiply based hash (decoder.rs:312-319) on a little endian target: `v` is the pixel read as `u32`,
    `swap_bytes() as u8` is the most significant byte. -/
def decHash (p : Px) : Nat :=
  let v : BitVec 64 := (p.a.toBitVec ++ p.b.toBitVec ++ p.g.toBitVec ++ p.r.toBitVec : BitVec 32).setWidth 64
  let s : BitVec 64 := ((v <<< 32) ||| v) &&& 0xFF00FF0000FF00FF#64
  ((s * 0x030007000005000B#64).extractLsb' 56 8 &&& 63#8).toNat

/-- Decoder loop state (decoder.rs:270-274) with the stream. -/
structure DSt where
  idx : Nat → Px
  px : Px
  run : Nat
  cur : Cursor

/-- `slice[i]` on the fixed-size arrays returned by the fixed reads. -/
def at0 (l : List UInt8) (i : Nat) : UInt8 := (l[i]?).getD 0

/-- Pixel, run and stream after reading one chunk (decoder.rs:281-307). -/
def decChunk (s : DSt) : Px × Nat × Cursor :=
  let (chunk, c) := s.cur.readU8
  let px := s.px
  if chunk = 0xfe then
    let (b, c) := c.readOrZero 3
    (⟨at0 b 0, at0 b 1, at0 b 2, px.a⟩, 0, c)
  else if chunk = 0xff then
    let (b, c) := c.readOrZero 4
    (⟨at0 b 0, at0 b 1, at0 b 2, at0 b 3⟩, 0, c)
  else if chunk &&& 0xc0 = 0x00 then (s.idx (chunk.toNat &&& 63), 0, c)
  else if chunk &&& 0xc0 = 0x40 then
    (⟨px.r + (((chunk >>> (4 : UInt8)) &&& (3 : UInt8)) - 2), px.g + (((chunk >>> (2 : UInt8)) &&& (3 : UInt8)) - 2), px.b + ((chunk &&& (3 : UInt8)) - 2), px.a⟩, 0, c)
  else if chunk &&& 0xc0 = 0x80 then
    let (b2, c) := c.readU8
    let vg := (chunk &&& 0x3f) - 32
    (⟨px.r + ((vg - 8) + ((b2 >>> (4 : UInt8)) &&& (0xf : UInt8))), px.g + vg, px.b + ((vg - 8) + (b2 &&& 0xf)), px.a⟩, 0, c)
  else if chunk &&& 0xc0 = 0xc0 then (px, (chunk &&& 0x3f).toNat, c)
  else (px, 0, c)

/-- One iteration of the pixel loop (decoder.rs:276-322). -/
def decStep (s : DSt) : DSt :=
  if s.run > 0 then { s with run := s.run - 1 }
  else
    let (px, run, c) := decChunk s
    ⟨fun i => if i = decHash px then px else s.idx i, px, run, c⟩

/-- The pixel loop over `n` chunks of the output buffer (decoder.rs:276-322). -/
def decPixels : Nat → DSt → List Px × DSt
  | 0, s => ([], s)
  | n + 1, s =>
    let s := decStep s
    let (ps, s') := decPixels n s
    (s.px :: ps, s')

/-- `decode_inner_generic` (decoder.rs:265-337) on an output buffer of `buf.length` bytes: the buffer contents afterwards. -/
def decodeInner (o : Opts) (cs : Cs) (c : Cursor) (buf : List UInt8) : Except DecErr (List UInt8) × Cursor :=
  let n := buf.length / cs.n
  let (ps, s) := decPixels n ⟨fun _ => pxZero, pxStart, 0, c⟩
  match s.cur.readExact 8 with
  | (.error e, c) => (.error (.io e), c)
  | (.ok l, c) =>
    if l ≠ [0, 0, 0, 0, 0, 0, 0, 1] ∧ o.strict then (.error .trailer, c)
    else (.ok ((ps.map (·.bytes cs)).flatten ++ buf.drop (n * cs.n)), c)

/-- `decode_into` after the headers have been decoded (decoder.rs:246-264). -/
def decodeInto (o : Opts) (hd : Header) (c : Cursor) (buf : List UInt8) : Except DecErr (List UInt8) × Cursor :=
  if buf.length < hd.w * hd.h * hd.cs.n then (.error .buffer, c)
  else decodeInner o hd.cs c buf

/-- `decode` (decoder.rs:222-231) on a fresh decoder: dimensions, colorspace and pixels.  The overflow panic of
    `output_buffer_size` (decoder.rs:196-205) is outside the model (unbounded naturals). -/
def decode (o : Opts) (data : List UInt8) : Except DecErr (Header × List UInt8) :=
  match decodeHeaders o (Cursor.new data) with
  | (.error e, _) => .error e
  | (.ok hd, c) =>
    match decodeInto o hd c (List.replicate (hd.w * hd.h * hd.cs.n) 0) with
    | (.error e, _) => .error e
    | (.ok px, _) => .ok (hd, px)

end Zune.Qoi
