/-
Model of the edge filters of `crates/zune-imageprocs` (`sobel`, `scharr`, `prewitt`) on 8 and 16 bit samples.
A channel is a row-major list of samples; `none` stands for a panic.  Arithmetic of `i32` wraps (release builds) where it can overflow.
The versions for `f32` channels are in `EdgeFloatModel.lean`.
-/
import Verif.Imageprocs.AreaModel
import Mathlib.Data.Int.DivMod

namespace Zune.Imageprocs

/-- The three operations (sobel.rs:45, scharr.rs:43, prewitt.rs). -/
inductive EdgeOp
  | sobel
  | scharr
  | prewitt
deriving Repr, DecidableEq

/-- `sum_a` (sobel.rs:146-149, scharr.rs:192-195, prewitt.rs:61-64); `c` is the window of nine samples.  (No overflow: at most 32 times a
    sample of 16 bits.) -/
def EdgeOp.sumA : EdgeOp → (Nat → Int) → Int
  | .sobel, c => (c 0 * -1 + c 2 * 1) + (c 3 * -2 + c 5 * 2) + (c 6 * -1 + c 7 * 1)
  | .scharr, c => (c 0 * -3 + c 2 * 3) + (c 3 * -10 + c 5 * 10) + (c 6 * -3 + c 7 * 3)
  | .prewitt, c => (c 0 * 1 + c 2 * -1) + (c 3 * 1 + c 5 * -1) + (c 6 * 1 + c 7 * -1)

/-- `sum_b` (sobel.rs:155-158, scharr.rs:201-204, prewitt.rs:70-73). -/
def EdgeOp.sumB : EdgeOp → (Nat → Int) → Int
  | .sobel, c => (c 0 * -1 + c 1 * -2) + (c 2 * -1 + c 6 * 1) + (c 7 * 2 + c 8 * 1)
  | .scharr, c => (c 0 * -3 + c 1 * -10) + (c 2 * -3 + c 6 * 3) + (c 7 * 10 + c 8 * 3)
  | .prewitt, c => (c 0 * 1 + c 1 * 1) + (c 2 * 1 + c 6 * -1) + (c 7 * -1 + c 8 * -1)

/-- `(sum_a * sum_a) + (sum_b * sum_b)` in `i32` (sobel.rs:160). -/
def squares32 (a b : Int) : Int := ((a * a).bmod (2 ^ 32) + (b * b).bmod (2 ^ 32)).bmod (2 ^ 32)

/-- The integer part of the root of `n < 4 ^ k` (part of sobel.rs:160), one bit after the other; `r` is the part found so far. -/
def rootBits (n : Nat) : Nat → Nat → Nat
  | 0, r => r
  | k + 1, r => rootBits n k (if (r + 2 ^ k) * (r + 2 ^ k) ≤ n then r + 2 ^ k else r)

/-- `T::from_f64(f64::from(n).sqrt())` (sobel.rs:160, scharr.rs:206, prewitt.rs:75, traits.rs:115-117): the root of a negative number is NaN, which is
    cast to 0; casts saturate and drop the fraction.  (Simplified: the integer part of the rounded root is computed as the integer root; `c99_root`
    shows that they are equal.) -/
def rootCast (bits : Nat) (n : Int) : Nat := if n < 0 then 0 else min (2 ^ bits - 1) (rootBits n.toNat 16 0)

/-- `sobel_inner_i32` (sobel.rs:136-161), `scharr_inner_i32` (scharr.rs:182-207), `prewitt_inner_i32` (prewitt.rs:51-76). -/
def EdgeOp.inner (op : EdgeOp) (bits : Nat) (win : List Nat) : Nat :=
  let c : Nat → Int := fun i => (win.getD i 0 : Nat)
  rootCast bits (squares32 (op.sumA c) (op.sumB c))

/-- `sobel_int` (sobel.rs:192-201), `scharr_int` (scharr.rs:238-247), `prewitt_int` (prewitt.rs:107-116); `spatial_NxN` (spatial.rs:153-194) has the text of `spatial`. -/
def edgeInt (bits : Nat) (op : EdgeOp) (l out : List Nat) (w h : Nat) : Option (List Nat) := do
  let padded ← padReplicate 0 l w h 1 1
  spatialLoop (fun (_ : Unit) win => some (op.inner bits win, ())) padded out 1 w h ()

/-- What `execute_impl` does to a channel (sobel.rs:62-85): the result goes to a new channel of zeroes. -/
def edgeChannel (bits : Nat) (op : EdgeOp) (l : List Nat) (w h : Nat) : Option (List Nat) :=
  edgeInt bits op l (List.replicate l.length 0) w h

end Zune.Imageprocs
