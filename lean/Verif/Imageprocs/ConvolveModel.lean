/-
Model of `convolve` of `crates/zune-imageprocs` on 8 and 16 bit samples.  `m` is the largest sample; `f32` arithmetic is that of `Common/Float`;
weights and scale are numbers (NaN and infinities, overflow to infinity included, are not modelled).
-/
import Verif.Imageprocs.AreaModel
import Verif.Imageprocs.ToneModel

namespace Zune.Imageprocs
open Zune.Float (rnd)

/-- `in_array.iter().zip(weights).map(..).sum::<f32>()` (convolve.rs:137-141). -/
def weightedSum (ws : List Rat) (win : List Nat) : Rat :=
  (win.zip ws).foldl (fun acc (p : Nat × Rat) => rnd 24 (acc + rnd 24 (p.1 * p.2))) 0

/-- `convolve_3x3_inner`, `convolve_5x5_inner`, `convolve_7x7_inner` (convolve.rs:131-177), which have the same text.  The clamp after the cast changes nothing and is
    left out. -/
def convolveInner (m : Nat) (ws : List Rat) (scale : Rat) (win : List Nat) : Nat := toSample m (rnd 24 (weightedSum ws win * scale))

/-- `convolve_3x3`, `convolve_5x5`, `convolve_7x7` (convolve.rs:180-244) with radius `r`; `spatial_NxN` (convolve.rs:291-335) has the text of `spatial`. -/
def convolveSize (m r : Nat) (ws : List Rat) (scale : Rat) (l out : List Nat) (w h : Nat) : Option (List Nat) := do
  let padded ← padReplicate 0 l w h r r
  spatialLoop (fun (_ : Unit) win => some (convolveInner m ws scale win, ())) padded out r w h ()

/-- `convolve` (convolve.rs:247-286); `none` is a panic, `some none` the error. -/
def convolve (m : Nat) (ws : List Rat) (scale : Rat) (l out : List Nat) (w h : Nat) : Option (Option (List Nat)) :=
  if ws.length = 9 then (convolveSize m 1 ws scale l out w h).map some
  else if ws.length = 25 then (convolveSize m 2 ws scale l out w h).map some
  else if ws.length = 49 then (convolveSize m 3 ws scale l out w h).map some
  else some none

/-- What `execute_impl` does to a channel (convolve.rs:84-122): the result goes to a new channel of zeroes. -/
def convolveChannel (m : Nat) (ws : List Rat) (scale : Rat) (l : List Nat) (w h : Nat) : Option (Option (List Nat)) :=
  convolve m ws scale l (List.replicate l.length 0) w h

end Zune.Imageprocs
