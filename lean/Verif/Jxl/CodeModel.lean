/-
Model of the prefix codes of the JPEG XL encoder (`crates/zune-jpegxl/src/encoder.rs`): choice of code lengths, canonical codes, and the
bits written for residuals and runs.

Failed assertions, slices out of range and subtractions below zero give `none`.  `u64` sums of frequencies are taken as natural numbers (an
image would need more than 2^45 pixels to overflow them).
-/
import Verif.Jxl.WriterModel
import Verif.Jxl.AreaModel

namespace Zune.Jxl

/-- `K_NUM_RAW_SYMBOLS` (encoder.rs:31). -/
def numRaw : Nat := 19

/-- `K_NUM_LZ77` (encoder.rs:32). -/
def numLz77 : Nat := 33

/-! ### Code lengths -/

/-- What the first loop of `compute_code_lengths_non_zero` reads for one symbol: frequency and limits. -/
structure Sym where
  freq : Nat
  lo : Nat
  hi : Nat
deriving Repr, DecidableEq

/-- One update of the table (encoder.rs:459-464). -/
def dynStep (prev : List Nat) (f bits delta : Nat) (next : List Nat) (off : Nat) : List Nat :=
  next.set (off + delta) (min (prev.getD off 0 + f * bits) (next.getD (off + delta) 0))

/-- The loops over `bits` and `off` for one symbol (encoder.rs:455-466): row `sym + 1` of the table from row `sym`. -/
def dynRow (p inf : Nat) (prev : List Nat) (s : Sym) : List Nat :=
  (List.range' s.lo (s.hi + 1 - s.lo)).foldl
    (fun next bits => (List.range (2 ^ p - 2 ^ (p - bits) + 1)).foldl (dynStep prev s.freq bits (2 ^ (p - bits))) next)
    (List.replicate (2 ^ p + 1) inf)

/-- All rows, last one first (encoder.rs:446-467). -/
def dynRows (p inf : Nat) : List Sym → List (List Nat) → List (List Nat)
  | [], rows => rows
  | s :: t, rows => dynRows p inf t (dynRow p inf (rows.headD []) s :: rows)

/-- The search for the number of bits of one symbol (encoder.rs:479-490): the first that explains the cost. -/
def pickBits (p : Nat) (row prev : List Nat) (s : Sym) (off : Nat) : Option Nat :=
  (List.range' s.lo (s.hi + 1 - s.lo)).find? fun bits =>
    decide (2 ^ (p - bits) ≤ off) && row.getD off 0 == prev.getD (off - 2 ^ (p - bits)) 0 + s.freq * bits

/-- The walk back through the table (encoder.rs:474-491): symbols and rows last first; the lengths come out in order.  A symbol for which
    no number of bits fits keeps its entry 0 and `off` stays. -/
def walkBack (p : Nat) : List Sym → List (List Nat) → Nat → List Nat → Option (List Nat)
  | [], _, _, acc => some acc
  | s :: t, row :: prev :: rows, off, acc =>
    if off = 0 then none
    else
      match pickBits p row prev s off with
      | some bits => walkBack p t (prev :: rows) (off - 2 ^ (p - bits)) (bits :: acc)
      | none => walkBack p t (prev :: rows) off (0 :: acc)
  | _ :: _, _, _, _ => none

/-- `compute_code_lengths_non_zero_impl` (encoder.rs:440-492).  `none` for a shift by less than nothing (line 456) and for the assertion at
    line 472. -/
def lengthsImpl (syms : List Sym) (p inf : Nat) : Option (List Nat) :=
  if syms.any (fun s => decide (s.hi > p)) then none
  else
    let rows := dynRows p inf syms [(List.replicate (2 ^ p + 1) inf).set 0 0]
    if (rows.headD []).getD (2 ^ p) 0 = inf then none else walkBack p syms.reverse rows (2 ^ p) []

/-- `compute_code_lengths_non_zero` (encoder.rs:409-438). -/
def lengthsNonZero (syms : List Sym) : Option (List Nat) :=
  if syms.any (fun s => s.freq == 0) then none
  else
    let syms := syms.map fun s => if s.lo < 1 then { s with lo := 1 } else s
    if syms.any (fun s => decide (s.lo > s.hi)) then none
    else
      let precision := syms.foldl (fun p s => max s.hi p) 0
      let shortest := syms.foldl (fun p s => min s.lo p) 255
      if precision < shortest - 1 then none
      else
        let p := precision - (shortest - 1)
        lengthsImpl syms p ((syms.map Sym.freq).sum * p)

/-- Putting the lengths of the used symbols back (encoder.rs:524-531). -/
def spread : List Sym → List Nat → List Nat
  | [], _ => []
  | s :: t, ls => if s.freq ≠ 0 then ls.headD 0 :: spread t ls.tail else 0 :: spread t ls

/-- `compute_code_lengths` (encoder.rs:494-532); the list holds the first `n` symbols. -/
def codeLengths (syms : List Sym) : Option (List Nat) := do
  if syms.length > numLz77 then none
  let ls ← lengthsNonZero (syms.filter fun s => s.freq != 0)
  return spread syms ls

/-! ### Canonical codes -/

/-- `K_NIBBLE_LOOKUP` (encoder.rs:341-346). -/
def nibbleLookup : List Nat := [0b0000, 0b1000, 0b0100, 0b1100, 0b0010, 0b1010, 0b0110, 0b1110, 0b0001, 0b1001, 0b0101, 0b1101, 0b0011, 0b1011, 0b0111, 0b1111]

/-- `bit_reverse` (encoder.rs:339-354) for a `u16`. -/
def bitReverse (nbits bits : Nat) : Nat :=
  let rev16 := (nibbleLookup.getD ((bits >>> 0) &&& 0xF) 0 <<< 12) ||| (nibbleLookup.getD ((bits >>> 4) &&& 0xF) 0 <<< 8) |||
    (nibbleLookup.getD ((bits >>> 8) &&& 0xF) 0 <<< 4) ||| (nibbleLookup.getD ((bits >>> 12) &&& 0xF) 0 <<< 0)
  rev16 >>> 1 >>> (16 - nbits - 1)

/-- The loop over lengths (encoder.rs:382-385): `code` for length `i`, a `u16` (an optimised build wraps where a checked one aborts).  The
    number of symbols of length 0 takes part. -/
def nextCode (counts : Nat → Nat) : Nat → Nat
  | 0 => 0
  | i + 1 => ((nextCode counts i + counts i) * 2) % 65536

/-- The loops that hand out codes (encoder.rs:387-403): codes and the state of `next_code` afterwards. -/
def assign (next : Nat → Nat) : List Nat → List Nat × (Nat → Nat)
  | [] => ([], next)
  | n :: t =>
    let r := assign (fun i => if i = n then (next i + 1) % 65536 else next i) t
    (bitReverse n (next n) :: r.1, r.2)

/-- `compute_canonical_code` (encoder.rs:358-404). -/
def canonicalCode (first second : List Nat) : Option (List Nat × List Nat) :=
  if first.all (fun n => decide (n < 15) && decide (n ≤ 8) && decide (n > 0)) && second.all (fun n => decide (n ≤ 15)) then
    let a := assign (nextCode fun l => (first ++ second).count l) first
    some (a.1.map (· % 256), (assign a.2 second).1)
  else none

/-! ### The code of a channel -/

/-- `PrefixCode` (encoder.rs:152-159). -/
structure PrefixCode where
  rawNbits : List Nat
  rawBits : List Nat
  lz77Nbits : List Nat
  lz77Bits : List Nat
  cacheBits : List Nat
  cacheNbits : List Nat
deriving Repr, DecidableEq

/-- `JxlBitEncoder::KMIN_RAW_LENGTH` and `KMAX_RAW_LENGTH` (bit_depth.rs:137-140, 182-184), for one and two input bytes. -/
def rawLimits (bytes : Nat) : List (Nat × Nat) :=
  if bytes = 1 then
    [(0, 7), (0, 7), (0, 7), (0, 7), (0, 7), (0, 7), (0, 7), (0, 7), (0, 7), (0, 7), (0, 7), (0, 10), (0, 255), (0, 255), (0, 255), (0, 255), (0, 255),
      (0, 255), (0, 255), (0, 255)]
  else
    [(0, 7), (0, 7), (0, 7), (0, 7), (0, 7), (0, 7), (0, 7), (0, 7), (0, 7), (0, 7), (0, 7), (0, 7), (0, 7), (8, 8), (8, 8), (8, 8), (8, 8),
      (8, 8), (8, 8), (7, 10)]

/-- Dropping trailing zeros: the loops of encoder.rs:179-181, 205-207 and 317-319. -/
def usedLength (l : List Nat) : Nat := (l.reverse.dropWhile (· == 0)).length

/-- The frequencies with their limits, as `compute_code_lengths` receives them. -/
def withLimits (freqs : List Nat) (limits : List (Nat × Nat)) : List Sym := List.zipWith (fun f l => ⟨f, l.1, l.2⟩) freqs limits

/-- `PrefixCode::new` (encoder.rs:163-252) for `bytes` input bytes. -/
def PrefixCode.new (bytes : Nat) (rawCounts lz77Counts : List Nat) : Option PrefixCode := do
  let nraw := usedLength rawCounts
  let level1 ← codeLengths (withLimits (rawCounts.take nraw ++ [lz77Counts.sum]) (rawLimits bytes))
  let top := level1.getD nraw 0
  if top > 15 then none
  let nlz := usedLength lz77Counts
  let level2 ← codeLengths (withLimits (lz77Counts.take nlz) (List.replicate numLz77 (0, 15 - top)))
  let raw := level1.take nraw
  let lz := level2.map (fun n => if n ≠ 0 then top + n else 0) ++ List.replicate (numLz77 - nlz) 0
  let (rawBits, lzBits) ← canonicalCode raw lz
  let raw := raw ++ List.replicate (numRaw - nraw) 0
  let rawBits := rawBits ++ List.replicate (numRaw - nraw) 0
  let cache := (List.range 32).map fun i =>
    let (token, nbits, bits) := hybridLz77 i
    ((((bits <<< lz.getD token 0) ||| lzBits.getD token 0) <<< raw.getD 0 0) ||| rawBits.getD 0 0, lz.getD token 0 + nbits + raw.getD 0 0)
  return ⟨raw, rawBits, lz, lzBits, cache.map (·.1), cache.map (·.2)⟩

/-! ### Writing -/

/-- `encode_chunk` (bit_depth.rs:99-122) for one residual: the arguments of `put_bits`.  `bits << raw_nbits` is a `u32`. -/
def residualBits (c : PrefixCode) (residual : Nat) : Nat × Nat :=
  let (token, nbits, bits) := hybrid000 residual
  (c.rawNbits.getD token 0 + (nbits &&& 0xFF), c.rawBits.getD token 0 ||| ((bits <<< c.rawNbits.getD token 0) % 2 ^ 32))

/-- `ChunkEncoder::encode_rle` (encoder.rs:559-582): the arguments of `put_bits`, if it is called.  `wbits` is a `u32`. -/
def runBits (c : PrefixCode) (count : Nat) : List (Nat × Nat) :=
  if count = 0 then []
  else
    let count := count - (lz77MinLength + 1)
    if count < 32 then [(c.cacheNbits.getD count 0, c.cacheBits.getD count 0)]
    else
      let (token, nbits, bits) := hybridLz77 count
      let wbits := (bits <<< c.lz77Nbits.getD token 0) % 2 ^ 32 ||| c.lz77Bits.getD token 0
      let wbits := (wbits <<< c.rawNbits.getD 0 0) % 2 ^ 32 ||| c.rawBits.getD 0 0
      [(c.lz77Nbits.getD token 0 + (nbits &&& 0xFF) + c.rawNbits.getD 0 0, wbits)]

/-- `ChunkEncoder::chunk` (encoder.rs:583-590). -/
def callBits (c : PrefixCode) (k : Call) : List (Nat × Nat) := runBits c k.run ++ k.residuals.map (residualBits c)

/-- Everything a channel writes: the calls made by the row processor and `finalize` (encoder.rs:591-593, 706-708). -/
def channelBits (c : PrefixCode) (p : Proc) : List (Nat × Nat) := p.calls.flatMap (callBits c) ++ runBits c p.run

end Zune.Jxl
