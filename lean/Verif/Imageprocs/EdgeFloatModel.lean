/-
Model of the edge filters of `crates/zune-imageprocs` (`sobel`, `scharr`, `prewitt`) on channels of `f32`.
Samples are rational numbers, each operation is followed by the rounding `rnd 24` of IEEE 754 (exponents are not limited: no overflow to
infinity, no subnormal numbers, no NaN).  `none` stands for a panic.
-/
import Verif.Imageprocs.EdgeModel
import Verif.Common.FloatSqrt

namespace Zune.Imageprocs
open Zune.Float

/-- `(f32::from(a) * u) + (f32::from(b) * v)` (the right sides at sobel.rs:113-115, 122-124, scharr.rs:159-161, 168-170, prewitt.rs:28-30, 37-39). -/
def pairF (a u b v : Rat) : Rat := rnd 24 (rnd 24 (a * u) + rnd 24 (b * v))

/-- `let mut sum = 0.0; sum += p; sum += q; sum += r` (e.g. sobel.rs:112-115). -/
def sum3F (p q r : Rat) : Rat := rnd 24 (rnd 24 (rnd 24 (0 + p) + q) + r)

/-- The nine samples of the array `c: &[T; 9]` (sobel.rs:102). -/
structure Win9 where
  (c0 c1 c2 c3 c4 c5 c6 c7 c8 : Rat)

/-- `sum_a` (sobel.rs:112-115, scharr.rs:158-161, prewitt.rs:27-30).  The last factor of Scharr is 30 in the source. -/
def EdgeOp.sumAF : EdgeOp → Win9 → Rat
  | .sobel, c => sum3F (pairF c.c0 (-1) c.c2 1) (pairF c.c3 (-2) c.c5 2) (pairF c.c6 (-1) c.c7 1)
  | .scharr, c => sum3F (pairF c.c0 (-3) c.c2 3) (pairF c.c3 (-10) c.c5 10) (pairF c.c6 (-3) c.c7 30)
  | .prewitt, c => sum3F (pairF c.c0 1 c.c2 (-1)) (pairF c.c3 1 c.c5 (-1)) (pairF c.c6 1 c.c7 (-1))

/-- `sum_b` (sobel.rs:121-124, scharr.rs:167-170, prewitt.rs:36-39). -/
def EdgeOp.sumBF : EdgeOp → Win9 → Rat
  | .sobel, c => sum3F (pairF c.c0 (-1) c.c1 (-2)) (pairF c.c2 (-1) c.c6 1) (pairF c.c7 2 c.c8 1)
  | .scharr, c => sum3F (pairF c.c0 (-3) c.c1 (-10)) (pairF c.c2 (-3) c.c6 3) (pairF c.c7 10 c.c8 3)
  | .prewitt, c => sum3F (pairF c.c0 1 c.c1 1) (pairF c.c2 1 c.c6 (-1)) (pairF c.c7 (-1) c.c8 (-1))

/-- `T::from_f32(((sum_a * sum_a) + (sum_b * sum_b)).sqrt())` with `T = f32` (sobel.rs:126, scharr.rs:172, prewitt.rs:41; traits.rs:199-201). -/
def magnitudeF (a b : Rat) : Rat := fsqrt 24 (rnd 24 (rnd 24 (a * a) + rnd 24 (b * b)))

/-- `sobel_inner_f32` (sobel.rs:102-127), `scharr_inner_f32` (scharr.rs:148-173), `prewitt_inner_f32` (prewitt.rs:17-42); the window is an
    array of nine samples. -/
def EdgeOp.innerF (op : EdgeOp) : List Rat → Option Rat
  | [c0, c1, c2, c3, c4, c5, c6, c7, c8] =>
    let c : Win9 := ⟨c0, c1, c2, c3, c4, c5, c6, c7, c8⟩
    some (magnitudeF (op.sumAF c) (op.sumBF c))
  | _ => none

/-- `sobel_float` (sobel.rs:172-181), `scharr_float` (scharr.rs:218-227), `prewitt_float` (prewitt.rs:87-96). -/
def edgeFloat (op : EdgeOp) (l out : List Rat) (w h : Nat) : Option (List Rat) := do
  let padded ← padReplicate 0 l w h 1 1
  spatialLoop (fun (_ : Unit) win => (op.innerF win).map fun v => (v, ())) padded out 1 w h ()

/-- What `execute_impl` does to a channel of `f32` (sobel.rs:62-85): the result goes to a new channel of zeroes. -/
def edgeChannelF (op : EdgeOp) (l : List Rat) (w h : Nat) : Option (List Rat) :=
  edgeFloat op l (List.replicate l.length 0) w h

end Zune.Imageprocs
