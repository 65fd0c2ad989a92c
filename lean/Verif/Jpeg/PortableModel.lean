import Verif.Jpeg.UpsampleModel

/-!
# zune-jpeg: portable SIMD upsampling (model)

Model of `crates/zune-jpeg/src/upsampler/portable_simd.rs`, which `choose_*_upsample_function` (upsampler.rs:97-163) returns when the
crate is built with the feature `portable_simd`.

The operations of `std::simd` are modelled lane by lane from their documentation; that model is trusted.
-/

namespace Zune.Jpeg

/-- First vector of `Simd::interleave` (upsampler/portable_simd.rs:47): the lower halves interleaved. -/
def interLo (a b : List Int) : List Int := (List.zipWith (fun x y => [x, y]) (a.take 8) (b.take 8)).flatten

/-- Second vector of `Simd::interleave` (upsampler/portable_simd.rs:47): the upper halves interleaved. -/
def interHi (a b : List Int) : List Int := (List.zipWith (fun x y => [x, y]) (a.drop 8) (b.drop 8)).flatten

/-- `upsample16` of `upsample_horizontal_simd` (upsampler/portable_simd.rs:37-51): eighteen samples to thirty-two. `*`, `+` of `Simd`
wrap around, `>>` is the arithmetic shift. -/
def hPort16 (w : List Int) : List Int :=
  let prev := w.take 16
  let curr := (w.drop 1).take 16
  let next := (w.drop 2).take 16
  let common := curr.map fun x => wrap16 (wrap16 (x * 3) + 2)
  let even := List.zipWith (fun x y => wrap16 (x + y) / 2 ^ 2) common prev
  let odd := List.zipWith (fun x y => wrap16 (x + y) / 2 ^ 2) common next
  interLo even odd ++ interHi even odd

/-- The loop over `input.windows(18).step_by(16)` and `output[2..].chunks_exact_mut(32)`
(upsampler/portable_simd.rs:53-59). -/
def hPortLoop : Nat → List Int → List Int → List Int
  | 0, _, out => out
  | fuel + 1, input, out =>
    if 18 ≤ input.length ∧ 32 ≤ out.length then
      hPort16 (input.take 18) ++ hPortLoop fuel (input.drop 16) (out.drop 32)
    else out

/-- The remainder (upsampler/portable_simd.rs:62-67): the last eighteen samples once more, written before the last two places. -/
def hPortRest (input out : List Int) : List Int :=
  if 18 ≤ input.length ∧ 32 ≤ out.length - 2 then
    out.take (out.length - 2 - 32) ++ hPort16 (input.drop (input.length - 18)) ++ out.drop (out.length - 2)
  else out

/-- `upsample_horizontal_simd` (upsampler/portable_simd.rs:14-72). -/
def upHPort (input out : List Int) : Option (List Int) :=
  if input.length * 2 = out.length ∧ 2 < input.length then
    if input.length < 18 then upHScalar input out
    else
      match hFirst input out with
      | none => none
      | some out =>
        hLast input (hPortRest input (out.take 2 ++ hPortLoop (input.length + 1) input (out.drop 2)))
  else none

/-- One output of `upsample16` of `upsample_vertical_simd` (upsampler/portable_simd.rs:97-113). -/
def vPort16 (input other : List Int) : List Int :=
  List.zipWith (fun x y => wrap16 (wrap16 (wrap16 (x * 3) + 2) + y) / 2 ^ 2) input other

/-- The loop over chunks of sixteen (upsampler/portable_simd.rs:115-130), for one of the two output rows. -/
def vPortLoop : Nat → List Int → List Int → List Int → List Int
  | 0, _, _, out => out
  | fuel + 1, input, other, out =>
    if 16 ≤ input.length ∧ 16 ≤ other.length ∧ 16 ≤ out.length then
      vPort16 (input.take 16) (other.take 16) ++ vPortLoop fuel (input.drop 16) (other.drop 16) (out.drop 16)
    else out

/-- The remainder (upsampler/portable_simd.rs:134-144): the last sixteen of each row, for one of the two output rows. -/
def vPortRest (input other out : List Int) : List Int :=
  if 16 ≤ input.length ∧ 16 ≤ other.length ∧ 16 ≤ out.length then
    out.take (out.length - 16) ++ vPort16 (input.drop (input.length - 16)) (other.drop (other.length - 16))
  else out

/-- `upsample_vertical_simd` (upsampler/portable_simd.rs:74-145). (Simplified as `upVAvx`: the two output rows are filled one after the other.) -/
def upVPort (input near far out : List Int) : Option (List Int) :=
  if input.length * 2 = out.length ∧ near.length = input.length ∧ far.length = input.length then
    if input.length < 16 then upVScalar input near far out
    else
      let middle := out.length / 2
      let fuel := input.length + 1
      let top := vPortLoop fuel input near (out.take middle)
      let bottom := vPortLoop fuel input far (out.drop middle)
      some (vPortRest input near top ++ vPortRest input far bottom)
  else none

/-- `upsample_hv_simd` (upsampler/portable_simd.rs:147-168). (Simplified as `upHV`: the scratch space is not returned.) -/
def upHVPort (input near far scratch out : List Int) : Option (List Int) :=
  if input.length * 4 = out.length ∧ input.length * 2 = scratch.length then
    match upVPort input near far scratch with
    | none => none
    | some s =>
      let half := s.length / 2
      let outHalf := out.length / 2
      match upHPort (s.take half) (out.take outHalf), upHPort (s.drop half) (out.drop outHalf) with
      | some a, some b => some (a ++ b)
      | _, _ => none
  else none

end Zune.Jpeg
