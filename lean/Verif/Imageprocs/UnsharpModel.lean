/-
Model of `unsharpen` as a whole (crates/zune-imageprocs/src/unsharpen.rs), with and without threads, on top of the models of the gaussian blur and of the masking step.
A channel is a row-major list of samples; `none` stands for a panic.
-/
import Verif.Imageprocs.GaussModel
import Verif.Imageprocs.MixModel

namespace Zune.Imageprocs

/-- `gaussian_blur_u8` (gaussian_blur.rs:310-366) and `gaussian_blur_u16` (215-246) with what is left in the scratch space; the scalar transpose. -/
def gaussianBlurS (checks : Bool) (bits : Nat) (radii : List Nat) (img scratch : List Nat) (w h : Nat) : Option (List Nat × List Nat) :=
  (gaussPass bits img scratch w radii).bind fun p =>
    (transposeScalar checks 0 p.2 p.1 w h).bind fun t =>
      (gaussPass bits t p.2 h radii).bind fun q => (transposeScalar checks 0 q.2 q.1 h w).map fun r => (r, q.2)

/-- The step for one sample (unsharpen.rs:241-250, 193-205) on numbers. -/
def unsharpStep (bits thr o b : Nat) : Nat :=
  if bits = 8 then (unsharpen8 (UInt8.ofNat thr) (UInt8.ofNat o) (UInt8.ofNat b)).toNat
  else (unsharpen16 (UInt16.ofNat thr) (UInt16.ofNat o) (UInt16.ofNat b)).toNat

/-- `unsharpen_u8` (unsharpen.rs:229-252), `unsharpen_u16` (181-207): the channel, and the two buffers afterwards; `copy_from_slice` panics when the lengths
    differ.  `radii` is what `create_box_gauss` makes of sigma. -/
def unsharpenChannel (checks : Bool) (bits thr : Nat) (radii : List Nat) (w h : Nat) (channel blur scratch : List Nat) : Option (List Nat × List Nat × List Nat) :=
  if blur.length ≠ channel.length then none
  else (gaussianBlurS checks bits radii channel scratch w h).map fun r => (List.zipWith (unsharpStep bits thr) channel r.1, r.1, r.2)

/-- The threshold with threads (unsharpen.rs:136, 119): clamped to 8 bits. -/
def threadThreshold (bits thr : Nat) : Nat := if bits = 8 then min thr 255 else thr

/-- The threshold without threads (unsharpen.rs:92, 74): `as u8`. -/
def seqThreshold (bits thr : Nat) : Nat := if bits = 8 then thr % 256 else thr

/-- `execute_impl` with threads (unsharpen.rs:102-152) on the channels `channels_mut(true)` gives: every channel has its own buffers. (Simplified: floats, which are
    refused, are left out; threads do not share anything, so their order does not matter, C27.) -/
def unsharpThreads (checks : Bool) (bits thr : Nat) (radii : List Nat) (w h : Nat) (chs : List (List Nat)) : Option (List (List Nat)) :=
  chs.mapM fun c =>
    (unsharpenChannel checks bits (threadThreshold bits thr) radii w h c (List.replicate (w * h) 0) (List.replicate (w * h) 0)).map fun r => r.1

/-- The loop without threads (unsharpen.rs:68-79, 86-97): the buffers are used again for the next channel. -/
def unsharpLoop (checks : Bool) (bits thr : Nat) (radii : List Nat) (w h : Nat) : List (List Nat) → List Nat → List Nat → Option (List (List Nat))
  | [], _, _ => some []
  | c :: cs, blur, scratch =>
    match unsharpenChannel checks bits thr radii w h c blur scratch with
    | none => none
    | some (c', blur, scratch) => (unsharpLoop checks bits thr radii w h cs blur scratch).map fun l => c' :: l

/-- `execute_impl` without threads (unsharpen.rs:59-101). -/
def unsharpSeq (checks : Bool) (bits thr : Nat) (radii : List Nat) (w h : Nat) (chs : List (List Nat)) : Option (List (List Nat)) :=
  unsharpLoop checks bits (seqThreshold bits thr) radii w h chs (List.replicate (w * h) 0) (List.replicate (w * h) 0)

end Zune.Imageprocs
