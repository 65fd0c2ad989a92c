/- What padding and the filters over a neighbourhood should do (specification of C78 and C79).  Nothing here refers to the model. -/
import Verif.Common.Loops

namespace Zune.Imageprocs

/-- Sample (y, x) of a `w` × `h` picture continued beyond its border by its nearest border samples. -/
def ext {α : Type} (l : List α) (w h : Nat) (y x : Int) : Option α :=
  l[(max 0 (min y (h - 1))).toNat * w + (max 0 (min x (w - 1))).toNat]?

/-- The samples at most `r` rows and `r` columns away from (y, x), row by row. -/
def neighbours {α : Type} (l : List α) (w h r y x : Nat) : List α :=
  (grid (2 * r + 1) (2 * r + 1)).filterMap fun p => ext l w h (y + p.1 - r) (x + p.2 - r)

/-- `v` is the smallest element. -/
def IsMin (l : List Nat) (v : Nat) : Prop := v ∈ l ∧ ∀ u ∈ l, v ≤ u

/-- `v` is the largest element. -/
def IsMax (l : List Nat) (v : Nat) : Prop := v ∈ l ∧ ∀ u ∈ l, u ≤ v

/-- `v` has position `k` (counted from zero) after sorting. -/
def IsRank (l : List Nat) (k v : Nat) : Prop := (l.mergeSort (· ≤ ·))[k]? = some v

/-- `v` is the median of a list of odd length. -/
def IsMedian (l : List Nat) (v : Nat) : Prop := IsRank l ((l.length - 1) / 2) v

end Zune.Imageprocs
