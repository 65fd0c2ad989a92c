/-
Model of `crates/zune-jpegxl/src/bit_writer.rs`: the two bit writers of the JPEG XL encoder and its integer tokens.

The debug assertions of the source (`nbits < 56`, fewer than 64 pending bits) are not modelled; the theorems assume `nbits ≤ 56`, under
which they hold (C51 proves the second one).
-/
import Verif.Common.Lsb

namespace Zune.Jxl

/-- `BitWriter` (bit_writer.rs:20-25).  `left` is `bits_in_buffer`, `buf` the `u64` buffer. -/
structure BitWriter where
  left : Nat
  buf : Nat
  pos : Nat
  dest : List UInt8
deriving Repr, DecidableEq

/-- `BitWriter::new` (bit_writer.rs:47-54). -/
def BitWriter.new : BitWriter := ⟨0, 0, 0, []⟩

/-- `BitWriter::allocate` (bit_writer.rs:64-67); `none` is the failed assertion that nothing was allocated before. -/
def BitWriter.allocate (b : BitWriter) (maxBits : Nat) : Option BitWriter :=
  if b.dest.isEmpty then some { b with dest := List.replicate (maxBits / 8 + 64) 0 } else none

/-- `BitWriter::flush` (bit_writer.rs:31-44).  `none` is the panic of the slice `dest[position..position + 8]`. -/
def BitWriter.flush (b : BitWriter) : Option BitWriter :=
  if b.pos + 8 ≤ b.dest.length then
    some { dest := b.dest.take b.pos ++ (leBytes 8 b.buf ++ b.dest.drop (b.pos + 8)),
           buf := b.buf >>> (b.left &&& 56),
           pos := b.pos + ((b.left &&& 56) >>> 3),
           left := b.left &&& 7 }
  else none

/-- Last statements of `put_bits` (bit_writer.rs:84-88 and 152-157): merge `nbits` bits above the pending ones.  The shift amount is taken
    modulo 64, as an optimised build does. -/
def merge (buf left nbits bit : Nat) : Nat := (buf ||| ((((1 <<< nbits) - 1) &&& bit) <<< (left % 64))) % 2 ^ 64

/-- `BitWriter::put_bits` (bit_writer.rs:75-89). -/
def BitWriter.put (b : BitWriter) (nbits bit : Nat) : Option BitWriter := do
  let b ← if b.left + nbits > 56 then b.flush else some b
  return { b with buf := merge b.buf b.left nbits bit, left := b.left + nbits }

/-- `BitWriter::zero_pad` (bit_writer.rs:92-99). -/
def BitWriter.zeroPad (b : BitWriter) : Option BitWriter := do
  let b ← b.flush
  if b.left ≠ 0 then b.put (8 - b.left) 0 else return b

/-- A sequence of calls of `put_bits`, each given by (nbits, bit), as the encoder makes them (for instance encoder.rs:914-971). -/
def BitWriter.puts (b : BitWriter) : List (Nat × Nat) → Option BitWriter
  | [] => some b
  | p :: t => do
    let b ← b.put p.1 p.2
    b.puts t

/-- `BorrowingBitWriter` (bit_writer.rs:104-109); `dest` is what has been written to the sink, which is taken not to fail.  `position`
    is never read and left out. -/
structure SinkWriter where
  left : Nat
  buf : Nat
  dest : List UInt8
deriving Repr, DecidableEq

/-- `BorrowingBitWriter::new` (bit_writer.rs:133-140). -/
def SinkWriter.new (out : List UInt8) : SinkWriter := ⟨0, 0, out⟩

/-- `BorrowingBitWriter::flush` (bit_writer.rs:113-130). -/
def SinkWriter.flush (b : SinkWriter) : SinkWriter :=
  { dest := b.dest ++ (leBytes 8 b.buf).take ((b.left &&& 56) >>> 3),
    buf := b.buf >>> (b.left &&& 56),
    left := b.left &&& 7 }

/-- `put_bits_no_flush` (bit_writer.rs:162-173). -/
def SinkWriter.putNoFlush (b : SinkWriter) (nbits bit : Nat) : SinkWriter :=
  { b with buf := merge b.buf b.left nbits bit, left := b.left + nbits }

/-- `BorrowingBitWriter::put_bits` (bit_writer.rs:144-159). -/
def SinkWriter.put (b : SinkWriter) (nbits bit : Nat) : SinkWriter :=
  (if b.left + nbits > 56 then b.flush else b).putNoFlush nbits bit

/-- The loop over exact chunks of seven bytes and the remainder after it (bit_writer.rs:201-225). -/
def SinkWriter.putChunks (b : SinkWriter) (l : List UInt8) : SinkWriter :=
  if 7 ≤ l.length then (b.putNoFlush 56 (leVal (l.take 7))).flush.putChunks (l.drop 7)
  else (if l.isEmpty then b else b.put (l.length * 8) (leVal l)).flush
termination_by l.length
decreasing_by simp; omega

/-- `put_bytes` (bit_writer.rs:175-228).  `none` is the failed assertion at line 182. -/
def SinkWriter.putBytes (b : SinkWriter) (l : List UInt8) : Option SinkWriter :=
  if b.left &&& 7 = 0 then
    let b := b.flush
    if b.left = 0 then some { b with dest := b.dest ++ l } else none
  else some (b.flush.putChunks l)

/-- `leading_zeros` of a `u32` that is not zero. -/
def leadingZeros (x : Nat) : Nat := 31 - x.log2

/-- `encode_hybrid_uint_lz77` (bit_writer.rs:231-240): token, number of extra bits, extra bits. -/
def hybridLz77 (value : Nat) : Nat × Nat × Nat :=
  let n := 31 - leadingZeros (value ||| 1)
  let token := if value < 16 then value else 16 + n - 4
  let nbits := if value < 16 then 0 else n
  let bits := if value < 16 then 0 else value - 1 <<< nbits
  (token, nbits, bits)

/-- `encode_hybrid_unit_000` (bit_writer.rs:242-251). -/
def hybrid000 (value : Nat) : Nat × Nat × Nat :=
  let n := 31 - leadingZeros (value ||| 1)
  let token := if value ≠ 0 then n + 1 else 0
  let nbits := if value ≠ 0 then n else 0
  let bits := if value ≠ 0 then value - 1 <<< n else 0
  (token, nbits, bits)

end Zune.Jxl
