/- What the box blur, mirror and contrast stretch filters should do (specification of C80 to C82).  Nothing here refers to the model. -/
import Mathlib.Data.List.Basic
import Mathlib.Data.List.Range

namespace Zune.Imageprocs

/-- Sample `c` of a row continued beyond its ends by its first and last sample. -/
def sampleAt (row : List Nat) (c : Int) : Nat := row[(max 0 (min c (row.length - 1))).toNat]?.getD 0

/-- Sum of the samples at most `r` away from `c`. -/
def boxSum (row : List Nat) (r : Nat) (c : Int) : Nat := ((List.range (2 * r + 1)).map fun j => sampleAt row (c + (j : Nat) - r)).sum

/-- Mean of the samples at most `r` away from `c`. -/
def boxMean (row : List Nat) (r : Nat) (c : Int) : Nat := boxSum row r c / (2 * r + 1)

/-- The linear map of [lower, upper] to [0, maximum], rounded down. -/
def linear (maximum lower upper p : Nat) : Nat := maximum * (p - lower) / (upper - lower)

end Zune.Imageprocs
