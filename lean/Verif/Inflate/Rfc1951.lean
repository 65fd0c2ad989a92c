/-
The deflate format, from RFC 1951: symbols, extra bits and copies (3.2.5), the static codes (3.2.6), the header of dynamic blocks (3.2.7),
stored blocks (3.2.4) and sequences of blocks (3.2.3).  `Prefix.word` is the canonical code of 3.2.2, `lsb` writes a number with the least
significant bit first (3.1.1).  Nothing here refers to the decoder.
-/
import Verif.Common.Lsb
import Verif.Common.Prefix

namespace Zune.Rfc1951

open Prefix (Used word weight)

/-- Extra bits of the length code `s`, 257 to 285. -/
def lengthExtra (s : Nat) : Nat := if s < 265 ∨ s = 285 then 0 else (s - 261) / 4

/-- The smallest length of the length code `s`. -/
def lengthBase (s : Nat) : Nat :=
  if s = 285 then 258 else if s < 265 then s - 254 else ((s - 261) % 4 + 4) * 2 ^ ((s - 261) / 4) + 3

/-- Extra bits of the distance code `d`, 0 to 29. -/
def distExtra (d : Nat) : Nat := if d < 2 then 0 else d / 2 - 1

/-- The smallest distance of the distance code `d`. -/
def distBase (d : Nat) : Nat := if d < 2 then d + 1 else (d % 2 + 2) * 2 ^ (d / 2 - 1) + 1

example : (List.range 29).map (fun i => lengthBase (257 + i)) =
    [3, 4, 5, 6, 7, 8, 9, 10, 11, 13, 15, 17, 19, 23, 27, 31, 35, 43, 51, 59, 67, 83, 99, 115, 131, 163, 195, 227, 258] := by decide
example : (List.range 30).map distBase = [1, 2, 3, 4, 5, 7, 9, 13, 17, 25, 33, 49, 65, 97, 129, 193, 257, 385, 513, 769, 1025, 1537, 2049, 3073,
    4097, 6145, 8193, 12289, 16385, 24577] := by decide

/-- Copying `n` bytes from `d` bytes back, one at a time. -/
def lz (out : List UInt8) (d : Nat) : Nat → List UInt8
  | 0 => out
  | n + 1 => lz (out ++ (out.drop (out.length - d)).take 1) d n

example : lz [1, 2, 3] 2 5 = [1, 2, 3, 2, 3, 2, 3, 2] := by decide

/-- A code without gaps: the words are at most 15 bits long and fill the code space. -/
def Full (lens : List Nat) : Prop := (∀ l ∈ lens, l ≤ 15) ∧ weight 15 lens = 2 ^ 15

/-- A code with a single word, of one bit. -/
def One (lens : List Nat) : Prop := ∃ s, lens.getD s 0 = 1 ∧ ∀ t, Used lens t → t = s

/-- Codes that occur in valid streams. -/
def Code (lens : List Nat) : Prop := Full lens ∨ One lens

/-- The symbols of a block, `ll` and `dl` being the lengths of its codes: from the bits and the output before it to those after it. -/
inductive Symbols (ll dl : List Nat) : List Bool → List UInt8 → List Bool → List UInt8 → Prop
  | stop (bits : List Bool) (out : List UInt8) : Used ll 256 → Symbols ll dl (word ll 256 ++ bits) out bits out
  | lit (x : UInt8) {bits rest : List Bool} {out out' : List UInt8} : Used ll x.toNat → Symbols ll dl bits (out ++ [x]) rest out' →
      Symbols ll dl (word ll x.toNat ++ bits) out rest out'
  | copy (s x d y : Nat) {bits rest : List Bool} {out out' : List UInt8} : 257 ≤ s → s ≤ 285 → Used ll s → x < 2 ^ lengthExtra s →
      d ≤ 29 → Used dl d → y < 2 ^ distExtra d → distBase d + y ≤ out.length →
      Symbols ll dl bits (lz out (distBase d + y) (lengthBase s + x)) rest out' →
      Symbols ll dl (word ll s ++ (lsb (lengthExtra s) x ++ (word dl d ++ (lsb (distExtra d) y ++ bits)))) out rest out'

/-- The sequence of code lengths in a dynamic header, coded with the code of lengths `pl`: from the bits and the lengths before to those after. -/
inductive Lengths (pl : List Nat) (total : Nat) : List Bool → List Nat → List Bool → List Nat → Prop
  | stop (bits : List Bool) (lens : List Nat) : lens.length = total → Lengths pl total bits lens bits lens
  | plain (s : Nat) {bits rest : List Bool} {lens all : List Nat} : s < 16 → Used pl s → Lengths pl total bits (lens ++ [s]) rest all →
      Lengths pl total (word pl s ++ bits) lens rest all
  | again (x v : Nat) {bits rest : List Bool} {lens all : List Nat} : lens.getLast? = some v → x < 4 → Used pl 16 →
      Lengths pl total bits (lens ++ List.replicate (3 + x) v) rest all → Lengths pl total (word pl 16 ++ (lsb 2 x ++ bits)) lens rest all
  | zeros (x : Nat) {bits rest : List Bool} {lens all : List Nat} : x < 8 → Used pl 17 →
      Lengths pl total bits (lens ++ List.replicate (3 + x) 0) rest all → Lengths pl total (word pl 17 ++ (lsb 3 x ++ bits)) lens rest all
  | manyZeros (x : Nat) {bits rest : List Bool} {lens all : List Nat} : x < 128 → Used pl 18 →
      Lengths pl total bits (lens ++ List.replicate (11 + x) 0) rest all → Lengths pl total (word pl 18 ++ (lsb 7 x ++ bits)) lens rest all

/-- The order in which the lengths of the code length code are stored. -/
def order : List Nat := [16, 17, 18, 0, 8, 7, 9, 6, 10, 5, 11, 4, 12, 3, 13, 2, 14, 1, 15]

/-- The lengths of the code length code, when the first ones in that order are `v`. -/
def lengthsFrom (v : List Nat) : List Nat := (List.range 19).map fun s => v.getD (order.idxOf s) 0

/-- The header of a dynamic block: `HLIT`, `HDIST`, `HCLEN`, the code length code, and the lengths of the two codes. -/
inductive Header : List Bool → List Nat → List Nat → List Bool → Prop
  | mk (hlit hdist : Nat) (v : List Nat) (all : List Nat) (bits rest : List Bool) : hlit < 32 → hdist < 32 → 4 ≤ v.length → v.length ≤ 19 →
      (∀ l ∈ v, l < 8) → Code (lengthsFrom v) → Lengths (lengthsFrom v) (257 + hlit + (1 + hdist)) bits [] rest all →
      Header (lsb 5 hlit ++ (lsb 5 hdist ++ (lsb 4 (v.length - 4) ++ (v.flatMap (lsb 3) ++ bits)))) (all.take (257 + hlit))
        (all.drop (257 + hlit)) rest

/-- The lengths of the static literal/length code. -/
def staticLitLen : List Nat := List.replicate 144 8 ++ List.replicate 112 9 ++ List.replicate 24 7 ++ List.replicate 8 8

/-- The lengths of the static distance code. -/
def staticDist : List Nat := List.replicate 32 5

/-- The bits of a byte string from the bit `p` on. -/
def bitsAt (src : List UInt8) (p : Nat) : List Bool := (bytesLsb src).drop p

/-- One block at the bit `p` of a byte string, `fin` being its final flag: from the output before it to the bit and the output behind it.  A
    dynamic block has lengths that satisfy `ok`, and a stored block that is not the final one starts where `room` allows it; for the RFC itself
    neither is a restriction. -/
inductive Block (ok : List Nat → List Nat → Prop) (room : Nat → Prop) (src : List UInt8) (fin : Bool) : Nat → List UInt8 → Nat → List UInt8 → Prop
  | stored (p q : Nat) (out payload : List UInt8) (bits : List Bool) (rest : List UInt8) : bitsAt src p = fin :: (lsb 2 0 ++ bits) →
      p + 3 ≤ 8 * q → 8 * q < p + 3 + 8 → payload.length < 65536 →
      src.drop q = leBytes 2 payload.length ++ leBytes 2 (65535 - payload.length) ++ payload ++ rest → (fin = false → room p) →
      Block ok room src fin p out (8 * (q + 4 + payload.length)) (out ++ payload)
  | static (p r : Nat) (out out' : List UInt8) (bits : List Bool) : bitsAt src p = fin :: (lsb 2 1 ++ bits) → r ≤ 8 * src.length →
      Symbols staticLitLen staticDist bits out (bitsAt src r) out' → Block ok room src fin p out r out'
  | dynamic (p r : Nat) (ll dl : List Nat) (out out' : List UInt8) (bits bits' : List Bool) : bitsAt src p = fin :: (lsb 2 2 ++ bits) →
      r ≤ 8 * src.length → Header bits ll dl bits' → Code ll → (Code dl ∨ ∀ l ∈ dl, l = 0) → ok ll dl →
      Symbols ll dl bits' out (bitsAt src r) out' → Block ok room src fin p out r out'

/-- A sequence of blocks up to a final one, from the bit `p` and the output before it to the bit and the output behind it. -/
inductive Stream (ok : List Nat → List Nat → Prop) (room : Nat → Prop) (src : List UInt8) : Nat → List UInt8 → Nat → List UInt8 → Prop
  | last {p r : Nat} {out out' : List UInt8} : Block ok room src true p out r out' → Stream ok room src p out r out'
  | cons {p q r : Nat} {out mid out' : List UInt8} : Block ok room src false p out q mid → Stream ok room src q mid r out' → Stream ok room src p out r out'

end Zune.Rfc1951
