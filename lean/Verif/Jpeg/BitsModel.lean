import Verif.Jpeg.HuffModel
import Verif.Jpeg.IdctModel
import Verif.Bytestream.Stream

/-!
# zune-jpeg: entropy coded segments (model)

Model of `crates/zune-jpeg/src/bitstream.rs`: the bit reader and the decoding of one block.
`u64` buffers are `Nat` below `2^64`; shifts to the left are cut to 64 bits explicitly.
-/

namespace Zune.Jpeg

open Zune.Stream (u8)

/-- Errors of the bit stream functions. -/
inductive JErr where
  /-- "Unknown marker in bit stream" (bitstream.rs:220). -/
  | unknownMarker
  /-- "Bad Huffman Code" (bitstream.rs:94). -/
  | badCode
  /-- "Code length … more than bits left" (bitstream.rs:102). -/
  | shortBits
  /-- "No more bytes left in stream before marker" (bitstream.rs:382). -/
  | noBytes
  /-- "Marker found where not expected in refine bit" (bitstream.rs:543, 680). -/
  | refineMarker
  /-- "Bad Huffman code, corrupt JPEG?" (bitstream.rs:652). -/
  | badRefine
  /-- "Can't merge DC and AC corrupt jpeg" (mcu_prog.rs:237, 352). -/
  | mergedScan
  /-- `unwrap` of an absent AC table (bitstream.rs:376). -/
  | panic
deriving DecidableEq

/-- `BitStream` (bitstream.rs:111-132) together with the reader it is used with.
(Simplified: the reader, an argument of the source functions, is the list of bytes not read yet;
the marker is its byte, `Marker::from_u8` never returning `None` (marker.rs:59-89).  The fields of
progressive scans other than `eob_run` are arguments of the functions that use them.) -/
structure Bs where
  /-- `buffer`. -/
  buffer : Nat
  /-- `aligned_buffer`. -/
  aligned : Nat
  /-- `bits_left`. -/
  left : Nat
  /-- `marker`. -/
  marker : Option UInt8
  /-- `eob_run`. -/
  eobRun : Nat
  /-- `overread_by`. -/
  over : Nat
  /-- `seen_eoi`. -/
  seenEoi : Bool
  /-- The reader. -/
  rest : List UInt8
deriving DecidableEq

/-- `BitStream::new` (bitstream.rs:137-150) over a reader. -/
def Bs.new (rest : List UInt8) : Bs :=
  { buffer := 0, aligned := 0, left := 0, marker := none, eobRun := 0, over := 0, seenEoi := false,
    rest := rest }

/-- `Marker::from_u8(n)` is not `UNKNOWN` (marker.rs:59-89). -/
def knownMarker (n : UInt8) : Bool :=
  n ∈ [0xFE, 0xC0, 0xC1, 0xC2, 0xC4, 0xCC, 0xD0, 0xD1, 0xD2, 0xD3, 0xD4, 0xD5, 0xD6, 0xD7, 0xD8,
    0xD9, 0xDA, 0xDB, 0xDC, 0xDD, 0xE0, 0xE1, 0xE2, 0xED, 0xEE]

/-- `has_zero` (bitstream.rs:782-786). -/
def hasZero (v : BitVec 32) : Bool :=
  ~~~((((v &&& 0x7F7F7F7F#32) + 0x7F7F7F7F#32) ||| v) ||| 0x7F7F7F7F#32) != 0#32

/-- `has_byte` (bitstream.rs:788-792); `!0_u32 / 255` is `0x01010101`. -/
def hasByte (b : BitVec 32) (val : UInt8) : Bool :=
  hasZero (b ^^^ (0x01010101#32 * BitVec.ofNat 32 val.toNat))

/-- The byte after `FF`, fill bytes `FF` skipped (bitstream.rs:201-207); 0 at the end of the data
(`read_u8`).  (The source tests for 0 before the loop as well, which changes nothing.) -/
def nextByte : List UInt8 → UInt8 × List UInt8
  | [] => (0, [])
  | b :: t => if b = 0xFF then nextByte t else (b, t)

/-- `buffer << (64 - bits_left)` on `u64`. -/
def align (buffer left : Nat) : Nat := buffer * 2 ^ (64 - left) % 2 ^ 64

/-- The macro `refill!` (bitstream.rs:187-237): take one byte.  The boolean tells whether the
function goes on (`true`) or returns `Ok(false)`. -/
def Bs.refillByte (s : Bs) : Except JErr (Bool × Bs) :=
  let b := (u8 s.rest).1
  let rest := (u8 s.rest).2
  let over := s.over + (if rest.isEmpty then 1 else 0)
  let buffer := (s.buffer * 2 ^ 8 % 2 ^ 64) ||| b.toNat
  let left := s.left + 8
  if b = 0xFF then
    let next := nextByte rest
    if next.1 = 0 then
      .ok (true, { s with buffer := buffer, left := left, over := over, rest := next.2 })
    else
      let buffer := buffer / 2 ^ 8
      let left := left - 8
      let aligned := if left ≠ 0 then align buffer left else s.aligned
      let s' := { s with buffer := buffer, left := left, over := over, rest := next.2,
                         aligned := aligned, marker := some next.1 }
      if knownMarker next.1 then
        if next.1 = 0xD9 then
          let buffer := buffer * 2 ^ 8 % 2 ^ 64
          .ok (false, { s' with buffer := buffer, left := left + 8,
                                aligned := align buffer (left + 8) })
        else .ok (false, s')
      else .error .unknownMarker
  else .ok (true, { s with buffer := buffer, left := left, over := over, rest := rest })

/-- Taking bytes until the function returns or `n` were taken (bitstream.rs:281-286), then
aligning. -/
def Bs.refillBytes : Nat → Bs → Except JErr Bs
  | 0, s => .ok { s with aligned := align s.buffer s.left }
  | n + 1, s =>
    match s.refillByte with
    | .error e => .error e
    | .ok (true, s') => Bs.refillBytes n s'
    | .ok (false, s') => .ok s'

/-- `refill` (bitstream.rs:178-289).  (Simplified: the returned boolean, which no caller uses, is
dropped; `read_fixed_bytes_or_error::<4>` followed by `rewind(4)` leaves the reader unchanged.) -/
def Bs.refill (s : Bs) : Except JErr Bs :=
  if s.left < 32 then
    if s.marker.isSome ∨ 0 < s.over ∨ s.seenEoi then
      let buffer := s.buffer * 2 ^ 32 % 2 ^ 64
      .ok { s with buffer := buffer, left := s.left + 32, aligned := align buffer (s.left + 32) }
    else
      match Stream.exact 4 s.rest with
      | some (bytes, rest) =>
        if hasByte (BitVec.ofNat 32 (beVal bytes)) 255 then s.refillBytes 4
        else
          let buffer := (s.buffer * 2 ^ 32 % 2 ^ 64) ||| beVal bytes
          .ok { s with buffer := buffer, left := s.left + 32,
                       aligned := align buffer (s.left + 32), rest := rest }
      | none => s.refillBytes 4
  else .ok s

/-- `peek_bits` (bitstream.rs:490-492). -/
def Bs.peek (s : Bs) (n : Nat) : Nat := s.aligned / 2 ^ (64 - n)

/-- `drop_bits` (bitstream.rs:496-502). -/
def Bs.drop (s : Bs) (n : Nat) : Bs :=
  { s with left := s.left - n, aligned := s.aligned * 2 ^ n % 2 ^ 64 }

/-- `get_bits` (bitstream.rs:507-514): rotate, keep the low bits; `bits_left` wraps at 256. -/
def Bs.get (s : Bs) (n : Nat) : Nat × Bs :=
  let rot := s.aligned * 2 ^ n % 2 ^ 64 + s.aligned / 2 ^ (64 - n)
  (rot % 2 ^ n, { s with aligned := rot, left := (s.left + 256 - n) % 256 })

/-- `get_bit` (bitstream.rs:557-562). -/
def Bs.bit (s : Bs) : Nat × Bs := (s.aligned / 2 ^ 63, s.drop 1)

/-- `reset` (bitstream.rs:766-772). -/
def Bs.reset (s : Bs) : Bs :=
  { s with left := 0, marker := none, buffer := 0, aligned := 0, eobRun := 0 }

/-- `decode_huff!` (bitstream.rs:61-106). -/
def Bs.huff (s : Bs) (t : Huff) : Except JErr (Nat × Bs) :=
  match t.decode (s.peek 16) with
  | none => .error .badCode
  | some (sym, len) => if s.left < len then .error .shortBits else .ok (sym, s.drop len)

/-- `get_bits` and `huff_extend` (bitstream.rs:317-319, 410-411). -/
def Bs.extra (s : Bs) (n : Nat) : I32 × Bs :=
  (huffExtend (BitVec.ofNat 32 (s.get n).1) (BitVec.ofNat 32 n), (s.get n).2)

/-- `decode_dc` (bitstream.rs:300-325): returns the new prediction. -/
def Bs.decodeDc (s : Bs) (t : Huff) (pred : I32) : Except JErr (I32 × Bs) :=
  match (if s.left < 32 then s.refill else .ok s) with
  | .error e => .error e
  | .ok s =>
    match s.huff t with
    | .error e => .error e
    | .ok (sym, s) =>
      if sym ≠ 0 then .ok (pred + (s.extra sym).1, (s.extra sym).2) else .ok (pred, s)

/-- `discard_dc` (bitstream.rs:329-351). -/
def Bs.discardDc (s : Bs) (t : Huff) : Except JErr Bs :=
  match (if s.left < 32 then s.refill else .ok s) with
  | .error e => .error e
  | .ok s =>
    match s.huff t with
    | .error e => .error e
    | .ok (sym, s) => if sym ≠ 0 then .ok (s.get sym).2 else .ok s

/-- `UN_ZIGZAG[i] & 63`. -/
def zz (i : Nat) : Nat := unZigzag.getD i 0 % 64

/-- `block[i] = v` on an array of 64 coefficients (a function of the index). -/
def setAt {α} (b : Nat → α) (i : Nat) (v : α) : Nat → α := fun j => if j = i then v else b j

/-- One turn of the AC loop (bitstream.rs:391-424): `inl` the function returns, `inr` it goes on
with the next position. -/
def Bs.acStep (t : Huff) (fast : Nat → Int) (qt : Nat → I32) (pos : Nat) (s : Bs)
    (block : Nat → I32) : Except JErr ((Nat × Bs × (Nat → I32)) ⊕ (Nat × Bs × (Nat → I32))) :=
  match s.refill with
  | .error e => .error e
  | .ok s =>
    let f := fast (s.peek 9)
    if f ≠ 0 then
      let pos := pos + (f / 16 % 16).toNat
      let tpos := zz (min pos 63)
      .ok (.inr (pos + 1, s.drop (f % 16).toNat,
        setAt block tpos (BitVec.ofInt 32 (f / 256) * qt tpos)))
    else
      match s.huff t with
      | .error e => .error e
      | .ok (sym, s) =>
        let r := sym / 16
        let m := sym % 16
        if m ≠ 0 then
          let pos := pos + r
          let tpos := zz (pos % 64)
          .ok (.inr (pos + 1, (s.extra m).2, setAt block tpos ((s.extra m).1 * qt tpos)))
        else if r ≠ 15 then .ok (.inl (pos, s, block))
        else .ok (.inr (pos + 16, s, block))

/-- The AC loop (bitstream.rs:391-429).  The fuel bounds the turns: each moves the position on. -/
def Bs.acLoop (t : Huff) (fast : Nat → Int) (qt : Nat → I32) : Nat → Nat → Bs → (Nat → I32) →
    Except JErr (Nat × Bs × (Nat → I32))
  | 0, _, s, block => .ok (64, s, block)
  | fuel + 1, pos, s, block =>
    if pos < 64 then
      match Bs.acStep t fast qt pos s block with
      | .error e => .error e
      | .ok (.inl r) => .ok r
      | .ok (.inr (pos, s, block)) => Bs.acLoop t fast qt fuel pos s block
    else .ok (64, s, block)

/-- What `decode_mcu_block` leaves behind. -/
structure BlockOut where
  /-- Returned length. -/
  len : Nat
  /-- The stream. -/
  s : Bs
  /-- The coefficients. -/
  block : Nat → I32
  /-- `dc_prediction`. -/
  pred : I32

/-- `decode_mcu_block` (bitstream.rs:368-430).  `*dc_prediction * qt_table[0]` is the wrapping
product of builds without overflow checks. -/
def Bs.decodeBlock (s : Bs) (dc ac : Huff) (qt : Nat → I32) (block : Nat → I32) (pred : I32) :
    Except JErr BlockOut :=
  match ac.acLookup with
  | none => .error .panic
  | some fast =>
    if s.left < 1 ∧ s.marker.isSome then .error .noBytes
    else match s.decodeDc dc pred with
      | .error e => .error e
      | .ok (pred, s) =>
        match Bs.acLoop ac fast qt 63 1 s (setAt block 0 (pred * qt 0)) with
        | .error e => .error e
        | .ok (len, s, block) => .ok { len := len, s := s, block := block, pred := pred }

/-- One turn of the loop of `discard_mcu_block` (bitstream.rs:451-482). -/
def Bs.skipStep (t : Huff) (fast : Nat → Int) (pos : Nat) (s : Bs) :
    Except JErr ((Nat × Bs) ⊕ (Nat × Bs)) :=
  match s.refill with
  | .error e => .error e
  | .ok s =>
    let f := fast (s.peek 9)
    if f ≠ 0 then
      .ok (.inr (pos + (f / 16 % 16).toNat + 1, s.drop (f % 16).toNat))
    else
      match s.huff t with
      | .error e => .error e
      | .ok (sym, s) =>
        let r := sym / 16
        let m := sym % 16
        if m ≠ 0 then .ok (.inr (pos + r + 1, (s.get m).2))
        else if r ≠ 15 then .ok (.inl (pos, s))
        else .ok (.inr (pos + 16, s))

/-- The loop of `discard_mcu_block` (bitstream.rs:451-484). -/
def Bs.skipLoop (t : Huff) (fast : Nat → Int) : Nat → Nat → Bs → Except JErr (Nat × Bs)
  | 0, _, s => .ok (64, s)
  | fuel + 1, pos, s =>
    if pos < 64 then
      match Bs.skipStep t fast pos s with
      | .error e => .error e
      | .ok (.inl r) => .ok r
      | .ok (.inr (pos, s)) => Bs.skipLoop t fast fuel pos s
    else .ok (64, s)

/-- `discard_mcu_block` (bitstream.rs:436-485). -/
def Bs.discardBlock (s : Bs) (dc ac : Huff) : Except JErr (Nat × Bs) :=
  match ac.acLookup with
  | none => .error .panic
  | some fast =>
    match s.discardDc dc with
    | .error e => .error e
    | .ok s => Bs.skipLoop ac fast 63 1 s

end Zune.Jpeg
