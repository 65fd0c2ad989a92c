import Verif.Inflate.HcModel
import Verif.Inflate.Rfc1951

/-!
# zune-inflate: the hash chain match finder (specification)

What a list of sequences stands for, with the copies of RFC 1951.
-/

namespace Zune.Inflate.Hc

/-- What the sequences stand for: literals from the source, then a copy. -/
def replay (src : List UInt8) : List UInt8 → List Sequence → Option (List UInt8)
  | out, [] => some out
  | out, s :: l =>
    let out := out ++ (src.drop s.start).take s.ll
    if 1 ≤ s.ol ∧ s.ol ≤ out.length then replay src (Rfc1951.lz out s.ol s.ml) l else none

example : replay [7, 8, 9, 7, 8, 9, 7, 5] [] [⟨0, 3, 4, 3⟩, ⟨7, 1, 0, 1⟩] = some [7, 8, 9, 7, 8, 9, 7, 5] := by decide

end Zune.Inflate.Hc
