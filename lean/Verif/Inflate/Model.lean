/-
Model of the zlib encoder (`crates/zune-inflate/src/encoder.rs`) and of the block loop, the stored blocks and the zlib and gzip
wrappers of the decoder (`crates/zune-inflate/src/decoder.rs`).  Huffman coded blocks enter as a parameter `huff`; see `Huffman.lean`.
-/
import Verif.Inflate.Bits

namespace Zune.Inflate

/-! ### Encoder -/

/-- `write_zlib_header` (encoder.rs:136-149); the level hint of the only strategy is 0. -/
def zlibHeader : List UInt8 :=
  let hdr := (8 <<< 8) ||| (7 <<< 12)
  let hdr := hdr ||| (0 <<< 6)
  let hdr := hdr ||| (31 - hdr % 31)
  beBytes 2 hdr

/-- The loop of `encode_no_compression` (encoder.rs:174-210) over the input that is left. -/
def storedBlocks (data : List UInt8) : List UInt8 :=
  if data.length ≤ 65535 then
    UInt8.ofNat 1 :: (leBytes 2 data.length ++ leBytes 2 (65535 - data.length) ++ data)
  else
    UInt8.ofNat 0 :: (leBytes 2 65535 ++ leBytes 2 (65535 - 65535) ++ data.take 65535) ++ storedBlocks (data.drop 65535)
termination_by data.length
decreasing_by simp; omega

/-- `encode_no_compression` (encoder.rs:155-211). -/
def encodeStored (data : List UInt8) : List UInt8 :=
  if data = [] then UInt8.ofNat 1 :: leBytes 4 0xffff0000 else storedBlocks data

/-- `encode_zlib` (encoder.rs:223-240).  The output vector has a fixed length and is written front to back; `none` stands for the
    out-of-bounds abort that happens when the bytes do not fit. -/
def encodeZlib (data : List UInt8) : Option (List UInt8) :=
  let extra := 40 * ((data.length + 41) / 40)
  let out := zlibHeader ++ encodeStored data ++ beBytes 4 (adler32 data)
  if out.length ≤ data.length + extra then some out else none

/-! ### Decoder -/

/-- Errors (errors.rs); `fuel` is not an error of the code, it marks an evaluation of the model that was cut short. -/
inductive Err where
  | insufficientData
  | generic
  | corruptData
  | outputLimitExceeded
  | mismatchedCrc
  | mismatchedAdler
  | panic
  | fuel
deriving Repr, DecidableEq

/-- `DeflateOptions` (decoder.rs:34-69).  `size_hint` only decides how often the output vector grows. -/
structure Options where
  limit : Nat := 2 ^ 30
  confirm : Bool := true
deriving Repr, DecidableEq

/-- Stored block (decoder.rs:566-648).  The output vector is resized, zero filled and truncated by the code; the model keeps the
    bytes written so far, `out`.  `pre` is `self.position`, the length of the container header in front of the stream.
    Panics: slicing `data[start..start + len]` cannot fail after the check, and the subtraction in the new position is a `panic`. -/
def stored (o : Options) (data : List UInt8) (pre : Nat) (b : Bits) (out : List UInt8) : Except Err (Bits × List UInt8) :=
  if b.over > b.left >>> 3 then .error .generic
  else
    let b := b.drop (b.left &&& 7)
    let r := b.get 16
    let len := r.1
    let s := r.2.get 16
    let nlen := s.1
    let b := s.2
    if len ≠ 65535 - nlen then .error .generic
    else
      let start := b.position + pre + b.over
      if data.length ≤ (start + len) - 1 then .error .corruptData
      else if out.length > o.limit then .error .outputLimitExceeded
      else if b.pos < b.left >>> 3 then .error .panic
      else
        .ok ({ b with pos := len + (b.pos - (b.left >>> 3)) }.reset, out ++ (data.drop start).take len)

variable {σ : Type}

/-- The block loop of `start_deflate_block_inner` (decoder.rs:556-1112).  `huff` decodes the body of a Huffman block; `σ` is what
    the decoder keeps from block to block (its tables).  Each pass uses one unit of `fuel`. -/
def blocks (o : Options) (data : List UInt8) (pre : Nat) (huff : σ → Nat → Bits → List UInt8 → Except Err (σ × Bits × List UInt8)) :
    Nat → σ → Bits → List UInt8 → Except Err (Bits × List UInt8)
  | 0, _, _, _ => .error .fuel
  | fuel + 1, st, b, out =>
    let b := b.refill
    let r := b.get 1
    let last := r.1 == 1
    let t := r.2.get 2
    let b := t.2
    if t.1 = 0 then
      match stored o data pre b out with
      | .error e => .error e
      | .ok (b, out) => if last then .ok (b, out) else blocks o data pre huff fuel st b out
    else if t.1 = 3 then .error .generic
    else
      match huff st t.1 b out with
      | .error e => .error e
      | .ok (st, b, out) =>
        if b.over > b.left >>> 3 then .error .corruptData
        else if last then .ok (b, out) else blocks o data pre huff fuel st b out

/-- `start_deflate_block_inner` (decoder.rs:545-1121): reader over the data behind the container header, then the blocks.
    Returns the final reader too, since the wrappers look at it. -/
def inflate (o : Options) (huff : σ → Nat → Bits → List UInt8 → Except Err (σ × Bits × List UInt8)) (init : σ) (fuel : Nat)
    (data : List UInt8) (pre : Nat) : Except Err (Bits × List UInt8) :=
  blocks o data pre huff fuel init (Bits.new (data.drop pre)).refill []

/-- `decode_zlib` (decoder.rs:251-335). -/
def decodeZlib (o : Options) (huff : σ → Nat → Bits → List UInt8 → Except Err (σ × Bits × List UInt8)) (init : σ) (fuel : Nat)
    (data : List UInt8) : Except Err (List UInt8) :=
  match data with
  | cmf :: flg :: _ =>
    if data.length < 2 + 4 then .error .insufficientData
    else if cmf.toNat &&& 0xf ≠ 8 then .error .generic
    else if cmf.toNat >>> 4 > 7 then .error .generic
    else if (cmf.toNat * 256 + flg.toNat) % 31 ≠ 0 then .error .generic
    else
      match inflate o huff init fuel data 2 with
      | .error e => .error e
      | .ok (b, out) =>
        if o.confirm then
          let outPos := b.position + 2 + b.over
          if outPos + 4 ≤ data.length then
            if beVal ((data.drop outPos).take 4) ≠ adler32 out then .error .mismatchedAdler else .ok out
          else .error .insufficientData
        else .ok out
  | _ => .error .insufficientData

/-- The loops over a zero terminated name or comment (decoder.rs:424-438 and 441-455), over the rest of the data from position `p`;
    returns the position behind the zero. -/
def skipZ : List UInt8 → Nat → Option Nat
  | [], _ => none
  | x :: t, p => if x = 0 then some (p + 1) else skipZ t (p + 1)

/-- The footer of `decode_gzip` (decoder.rs:469-506).  `data.len()` is compared with the 32-bit ISIZE field as it is. -/
def gzipFooter (o : Options) (data : List UInt8) (outPos : Nat) (out : List UInt8) : Except Err (List UInt8) :=
  let size : Except Err (List UInt8) :=
    if outPos + 4 + 4 ≤ data.length then
      if out.length ≠ leVal ((data.drop (outPos + 4)).take 4) then .error .generic else .ok out
    else .error .insufficientData
  if o.confirm then
    if outPos + 4 ≤ data.length then
      if leVal ((data.drop outPos).take 4) ≠ 0xffffffff ^^^ crc32 out 0xffffffff then .error .mismatchedCrc else size
    else .error .insufficientData
  else size

/-- `decode_gzip` from the position behind the fixed header on (decoder.rs:400-509). -/
def gzipRest (o : Options) (huff : σ → Nat → Bits → List UInt8 → Except Err (σ × Bits × List UInt8)) (init : σ) (fuel : Nat)
    (data : List UInt8) (flg : Nat) : Except Err (List UInt8) :=
  if flg &&& 0xe0 ≠ 0 then .error .corruptData
  else
    -- extra field (decoder.rs:406-420)
    let p1 : Except Err Nat :=
      if flg &&& 4 ≠ 0 then
        if data.length < 10 + 2 then .error .panic
        else
          let xlen := leVal ((data.drop 10).take 2)
          if data.length - 12 < xlen + 8 then .error .corruptData else .ok (12 + xlen)
      else .ok 10
    match p1 with
    | .error e => .error e
    | .ok p1 =>
      match (if flg &&& 8 ≠ 0 then skipZ (data.drop p1) p1 else some p1) with
      | none => .error .insufficientData
      | some p2 =>
        match (if flg &&& 16 ≠ 0 then skipZ (data.drop p2) p2 else some p2) with
        | none => .error .insufficientData
        | some p3 =>
          let p4 := if flg &&& 2 ≠ 0 then p3 + 2 else p3
          if p4 + 8 > data.length then .error .insufficientData
          else
            match inflate o huff init fuel data p4 with
            | .error e => .error e
            | .ok (b, out) => gzipFooter o data (b.position + p4 + b.over) out

/-- `decode_gzip` (decoder.rs:361-509). -/
def decodeGzip (o : Options) (huff : σ → Nat → Bits → List UInt8 → Except Err (σ × Bits × List UInt8)) (init : σ) (fuel : Nat)
    (data : List UInt8) : Except Err (List UInt8) :=
  if data.length < 18 then .error .insufficientData
  else
    match data with
    | id1 :: id2 :: cm :: flg :: _ =>
      if id1 ≠ 0x1f then .error .corruptData
      else if id2 ≠ 0x8b then .error .corruptData
      else if cm ≠ 8 then .error .corruptData
      else gzipRest o huff init fuel data flg.toNat
    | _ => .error .panic

end Zune.Inflate
