/-
Specification for C74: how the description of a prefix code is read, after RFC 7932 (Brotli), section 3.5 "Complex Prefix Codes", which JPEG XL
takes over.  Descriptions of simple codes (section 3.4) and codes with a single symbol are left out.
-/
import Verif.Common.Prefix

namespace Zune.Jxl.Rfc7932

open Prefix (weight word Used)

/-- The order in which the lengths of the code length code are given. -/
def order : List Nat := [1, 2, 3, 4, 0, 5, 17, 6, 16, 7, 8, 9, 10, 11, 12, 13, 14, 15]

/-- The fixed code for these lengths, in the order in which the bits come: 0 is `00`, 1 is `0111`, 2 is `011`, 3 is `10`, 4 is `01` and 5 is
    `1111`, to be read from the right. -/
def fixedWord : Nat → List Bool
  | 0 => [false, false]
  | 1 => [true, true, true, false]
  | 2 => [true, true, false]
  | 3 => [false, true]
  | 4 => [true, false]
  | _ => [true, true, true, true]

/-- `CodeLens space order bits cl rest`: with `space` of 32 parts of the code space still free, the lengths `cl` for the first symbols of `order`
    are read from `bits`, and `rest` remains.  Reading stops when the space is used up. -/
inductive CodeLens : Nat → List Nat → List Bool → List (Nat × Nat) → List Bool → Prop
  | full (order : List Nat) (rest : List Bool) : CodeLens 0 order rest [] rest
  | next (space s l : Nat) (order : List Nat) (bits : List Bool) (cl : List (Nat × Nat)) (rest : List Bool) : l ≤ 5 →
      0 < (if l = 0 then 0 else 2 ^ (5 - l)) + space → CodeLens space order bits cl rest →
      CodeLens ((if l = 0 then 0 else 2 ^ (5 - l)) + space) (s :: order) (fixedWord l ++ bits) ((s, l) :: cl) rest

/-- The lengths of the code length code, for the symbols 0 to 17; symbols that were not reached have none. -/
def table (cl : List (Nat × Nat)) : List Nat := (List.range 18).map fun s => (cl.lookup s).getD 0

/-- What came last: a length, a repetition of a length so many times, or so many zeros. -/
inductive Last where
  | length
  | same (n : Nat)
  | zeros (n : Nat)

/-- `SymLens cl prev last space n bits lens rest`: with the code length code `cl`, the last length other than zero `prev`, `space` of 2^15
    parts still free and `n` symbols still to come, the lengths `lens` are read from `bits`, and `rest` remains.  A repetition that
    follows one of its kind turns a count of `k` into `4 * (k - 2)` or `8 * (k - 2)` plus what it says itself. -/
inductive SymLens (cl : List Nat) : Nat → Last → Nat → Nat → List Bool → List Nat → List Bool → Prop
  | full (prev : Nat) (last : Last) (n : Nat) (rest : List Bool) : SymLens cl prev last 0 n rest (List.replicate n 0) rest
  | length (prev : Nat) (last : Last) (space n l : Nat) (bits : List Bool) (lens : List Nat) (rest : List Bool) : l ≤ 15 → Used cl l →
      0 < (if l = 0 then 0 else 2 ^ (15 - l)) + space → SymLens cl (if l = 0 then prev else l) .length space n bits lens rest →
      SymLens cl prev last ((if l = 0 then 0 else 2 ^ (15 - l)) + space) (n + 1) (word cl l ++ bits) (l :: lens) rest
  | same (prev : Nat) (last : Last) (space n x k : Nat) (bits : List Bool) (lens : List Nat) (rest : List Bool) : Used cl 16 → x < 4 →
      0 < k * 2 ^ (15 - prev) + space →
      k = (match last with | .same m => 4 * (m - 2) + (3 + x) - m | _ => 3 + x) →
      SymLens cl prev (.same (match last with | .same m => m + k | _ => k)) space n bits lens rest →
      SymLens cl prev last (k * 2 ^ (15 - prev) + space) (n + k) (word cl 16 ++ (lsb 2 x ++ bits)) (List.replicate k prev ++ lens) rest
  | zeros (prev : Nat) (last : Last) (space n x k : Nat) (bits : List Bool) (lens : List Nat) (rest : List Bool) : Used cl 17 → x < 8 →
      0 < space → k = (match last with | .zeros m => 8 * (m - 2) + (3 + x) - m | _ => 3 + x) →
      SymLens cl prev (.zeros (match last with | .zeros m => m + k | _ => k)) space n bits lens rest →
      SymLens cl prev last space (n + k) (word cl 17 ++ (lsb 3 x ++ bits)) (List.replicate k 0 ++ lens) rest

/-- `Describes n bits lens rest`: a complex prefix code for `n` symbols with the code lengths `lens` is read from `bits`, and `rest` remains. -/
def Describes (n : Nat) (bits : List Bool) (lens : List Nat) (rest : List Bool) : Prop :=
  ∃ skip cl bits1 bits2, skip < 4 ∧ skip ≠ 1 ∧ bits = lsb 2 skip ++ bits1 ∧ CodeLens 32 (order.drop skip) bits1 cl bits2 ∧ weight 5 (table cl) = 32 ∧
    SymLens (table cl) 8 .length (2 ^ 15) n bits2 lens rest

end Zune.Jxl.Rfc7932
