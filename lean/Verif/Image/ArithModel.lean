/-
Model of the sum and the difference of pictures (`crates/zune-image/src/ops.rs`).
-/
import Verif.Image.ColorModel

namespace Zune.Arith

open Zune.Imageprocs (ColorSpace imageSlices putBack)
open Zune.Depth (BitDepth Samples F32)
open Zune.Color (Image)

/-- The loops `for_each` over two zipped iterators that write to the first (for example ops.rs:67-70): what has no partner stays. -/
def zipKeep {α : Type} (f : α → α → α) : List α → List α → List α
  | [], _ => []
  | xs, [] => xs
  | x :: xs, y :: ys => f x y :: zipKeep f xs ys

/-- The three closures of an operator. -/
structure Closures where
  u8 : UInt8 → UInt8 → UInt8
  u16 : UInt16 → UInt16 → UInt16
  f32 : F32 → F32 → F32

/-- `Add` (ops.rs:70, 85, 100); the sum of floats is a parameter. -/
def add (f : F32 → F32 → F32) : Closures where
  u8 x y := if x.toNat + y.toNat < 256 then x + y else 255
  u16 x y := if x.toNat + y.toNat < 65536 then x + y else 65535
  f32 := f

/-- `Sub` (ops.rs:130, 145, 160); the difference of floats is a parameter. -/
def sub (f : F32 → F32 → F32) : Closures where
  u8 x y := if y.toNat ≤ x.toNat then x - y else 0
  u16 x y := if y.toNat ≤ x.toNat then x - y else 0
  f32 := f

/-- The body of the loops over channels (for example ops.rs:64-70); `reinterpret_as(…).unwrap()` panics for channels of another type. -/
def onChannel (a : Closures) : BitDepth → Samples → Samples → Option Samples
  | .eight, .u8 x, .u8 y => some (.u8 (zipKeep a.u8 x y))
  | .sixteen, .u16 x, .u16 y => some (.u16 (zipKeep a.u16 x y))
  | .float32, .f32 x, .f32 y => some (.f32 (zipKeep a.f32 x y))
  | _, _, _ => none

/-- The loops over channels (for example ops.rs:59-63). -/
def onChannels (a : Closures) (d : BitDepth) : List Samples → List Samples → Option (List Samples)
  | [], _ => some []
  | xs, [] => some xs
  | x :: xs, y :: ys =>
    match onChannel a d x y with
    | none => none
    | some z => (onChannels a d xs ys).map fun l => z :: l

/-- `add` and `sub` (ops.rs:52-107, 112-167) with `check_full_compatibility` (22-46); `none` is a panic. (Simplified: `channels_ref` selects what `channels_mut` does,
image.rs:142-149, 155-162.) -/
def combine (a : Closures) (i j : Image) : Option Image :=
  if i.depth ≠ j.depth then none
  else if (i.width, i.height) ≠ (j.width, j.height) then none
  else if i.cs ≠ j.cs then none
  else
    match imageSlices i.cs true i.frames, imageSlices j.cs true j.frames with
    | some l, some r =>
      (onChannels a i.depth (l.map fun t => t.2.1).flatten (r.map fun t => t.2.1).flatten).map fun out => { i with frames := putBack l out }
    | _, _ => none

end Zune.Arith
