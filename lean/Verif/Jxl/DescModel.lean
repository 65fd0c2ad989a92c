/-
Model of `PrefixCode::write_to` (`crates/zune-jpegxl/src/encoder.rs:253-334`): the description of a prefix code in the stream.
-/
import Verif.Jxl.CodeModel

namespace Zune.Jxl

/-- `code_length_counts` (encoder.rs:254-263): how often each code length is going to be written, and a guess for symbol 17. -/
def clCounts (c : PrefixCode) : List Nat :=
  (List.range 18).map fun l => (if l = 17 then 3 + 2 * (numLz77 - 1) else 0) + c.rawNbits.count l + c.lz77Nbits.count l

/-- `code_length_order` (encoder.rs:282-283). -/
def clOrder : List Nat := [1, 2, 3, 4, 0, 5, 17, 6, 16, 7, 8, 9, 10, 11, 12, 13, 14, 15]

/-- `code_length_length_nbits` and `code_length_length_bits` (encoder.rs:285-286); the index is at most 5, the limit of lines 267-268. -/
def clCode : List (Nat × Nat) := [(2, 0), (4, 7), (3, 3), (2, 2), (2, 1), (4, 15)]

/-- `PrefixCode::write_to` (encoder.rs:253-334): the arguments of `put_bits` in order.  `none` is a panic: a length out of the tables (lines
    258, 262), no code length code (line 270), or no length of a run token at all (line 317). -/
def PrefixCode.describe (c : PrefixCode) : Option (List (Nat × Nat)) := do
  if (c.rawNbits ++ c.lz77Nbits).any (fun l => decide (18 ≤ l)) then none
  let cl ← codeLengths (withLimits (clCounts c) (List.replicate 18 (0, 5)))
  let n := usedLength (clOrder.map fun s => cl.getD s 0)
  let (_, bits) ← canonicalCode [] cl
  let sym := fun l => (cl.getD l 0, bits.getD l 0)
  if usedLength c.lz77Nbits = 0 then none
  return (2, 0) :: ((clOrder.take n).map (fun s => clCode.getD (cl.getD s 0) (0, 0)) ++ (c.rawNbits.map sym ++
    ([sym 17, (3, 0b010), sym 17, (3, 0b000), sym 17, (3, 0b010)] ++ (c.lz77Nbits.take (usedLength c.lz77Nbits)).map sym)))

end Zune.Jxl
