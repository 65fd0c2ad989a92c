/-
Model of the making of pictures: `Image::fill`, `from_fn`, `from_u8`, `from_u16`, `from_f32`, `modify_pixels_mut`, `==`
(`crates/zune-image/src/image.rs`) and of `u16_to_native_endian`, `u16_to_big_endian` (`frame.rs`).

As in `Verif.Image.SplitModel` a channel is represented by its typed contents and the model is generic in the type of a sample where the
code is.  A panic is `none`.  Channels without bytes, whose allocation is not allowed (see C28), are not treated differently here.
-/
import Verif.Image.SplitModel
import Verif.Common.Bytes

namespace Zune.Make

open Zune.Split (deinterleave gather)

variable {α : Type}

/-- `Frame` (frame.rs:33-37). -/
structure Frame (α : Type) where
  channels : List (List α)
  numerator : Nat
  denominator : Nat
  deriving DecidableEq, Repr

/-- `Image` (image.rs:34-37). (Simplified: of the metadata only dimensions and number of components of the colour space are kept; the depth is
the type `α`.) -/
structure Image (α : Type) where
  frames : List (Frame α)
  width : Nat
  height : Nat
  comps : Nat
  deriving DecidableEq, Repr

/-- `Image::new` (image.rs:52-67) with `Frame::new` (frame.rs:116-122). -/
def newImage (channels : List (List α)) (width height comps : Nat) : Image α := ⟨[⟨channels, 1, 1⟩], width, height, comps⟩

/-- `==` of images (image.rs:39-43): that of the frames (frame.rs:32). -/
def imageEq [DecidableEq α] (a b : Image α) : Bool := decide (b.frames = a.frames)

/-- `Image::fill` (image.rs:265-274) with `Channel::from_elm` (channel.rs:365-375); `width * height` overflows with a panic, as
with overflow checks. -/
def fill (pixel : α) (comps width height : Nat) : Option (Image α) :=
  if width * height < 2 ^ 64 then
    some (newImage (List.replicate comps (List.replicate (width * height) pixel)) width height comps)
  else none

/-- `checked_mul` (image.rs:587-597) with `depth` 1. -/
def checkedMul (width height comps : Nat) : Option Nat :=
  if width * height < 2 ^ 64 ∧ width * height * comps < 2 ^ 64 then some (width * height * comps) else none

/-- `Image::from_u8`, `from_u16`, `from_f32` (image.rs:403-477); `three` as in `deinterleave`. -/
def fromPixels (z : α) (three : List α → List α → List α → List α → Except Split.Err (List α × List α × List α))
    (pixels : List α) (width height comps : Nat) : Option (Image α) :=
  match checkedMul width height comps with
  | none => none
  | some expected =>
    if pixels.length = expected then
      match deinterleave z three comps pixels with
      | .ok channels => some (newImage channels width height comps)
      | .error _ => none
    else none

/-- The positions the double loops go through (image.rs:367-368, 542-543): `(y, x)`. -/
def raster (width height : Nat) : List (Nat × Nat) :=
  (List.range height).flatMap fun y => (List.range width).map fun x => (y, x)

/-- Writing a pixel, an array of four, to the first `m` channels (image.rs:373-375, 556-560). -/
def storePixel (m pos : Nat) (px : Fin 4 → α) (cs : List (List α)) : List (List α) :=
  cs.mapIdx fun i c => if h : i < m ∧ i < 4 then c.set pos (px ⟨i, h.2⟩) else c

/-- The loops of `from_fn_inner` (image.rs:365-377). The function gets the array `pxs` as the last call left it. -/
def fnLoop (func : Nat → Nat → (Fin 4 → α) → Fin 4 → α) (width : Nat) :
    List (Nat × Nat) → (Fin 4 → α) → List (List α) → Option (List (List α))
  | [], _, cs => some cs
  | (y, x) :: l, pxs, cs =>
    let pxs := func y x pxs
    if cs.all (fun c => y * width + x < c.length) then fnLoop func width l pxs (storePixel cs.length (y * width + x) pxs cs)
    else none

/-- `Image::from_fn` (image.rs:319-331) and `from_fn_inner` (image.rs:338-380); `z` is the default value of a sample. -/
def fromFn (z : α) (width height comps : Nat) (func : Nat → Nat → (Fin 4 → α) → Fin 4 → α) : Option (Image α) :=
  if comps = 1 ∨ comps = 2 ∨ comps = 3 ∨ comps = 4 then
    (fnLoop func width (raster width height) (fun _ => z) (List.replicate comps (List.replicate (width * height) z))).map fun cs =>
      newImage cs width height comps
  else none

/-- One pixel of `modify_pixels_mut` (image.rs:544-560): the references to the samples of the first channels, to fresh defaults for the others. -/
def modifyPixel (z : α) (func : Nat → Nat → (Fin 4 → α) → Fin 4 → α) (comps width y x : Nat) (cs : List (List α)) : Option (List (List α)) :=
  let pos := y * width + x
  let m := min comps 4
  if (cs.take m).all (fun c => pos < c.length) then
    let px : Fin 4 → α := fun i => if i.val < m then ((cs[i.val]?).bind fun c => c[pos]?).getD z else z
    some (storePixel m pos (func y x px) cs)
  else none

/-- The loops over a frame (image.rs:542-562). -/
def modifyLoop (z : α) (func : Nat → Nat → (Fin 4 → α) → Fin 4 → α) (comps width : Nat) : List (Nat × Nat) → List (List α) → Option (List (List α))
  | [], cs => some cs
  | (y, x) :: l, cs => (modifyPixel z func comps width y x cs).bind (modifyLoop z func comps width l)

/-- `modify_pixels_mut` on one frame (image.rs:535-563); `channels_mut` slices the first channels (frame.rs:288-295). -/
def modifyFrame (z : α) (func : Nat → Nat → (Fin 4 → α) → Fin 4 → α) (im : Image α) (fr : Frame α) : Option (Frame α) :=
  if im.comps ≤ fr.channels.length then
    (modifyLoop z func im.comps im.width (raster im.width im.height) fr.channels).map fun cs => { fr with channels := cs }
  else none

/-- `Image::modify_pixels_mut` (image.rs:526-565). (Simplified: the type is the right one.) -/
def modifyPixels (z : α) (func : Nat → Nat → (Fin 4 → α) → Fin 4 → α) (im : Image α) : Option (Image α) :=
  (im.frames.mapM (modifyFrame z func im)).map fun fs => { im with frames := fs }

/-- What is written over zeros: the chunks in front, the rest stays zero (frame.rs:431-490, 518-576). -/
def over (length : Nat) (bytes : List UInt8) : List UInt8 := bytes ++ List.replicate (length - bytes.length) 0

/-- `u16_to_native_endian` (frame.rs:410-492) and `u16_to_big_endian` (frame.rs:504-578), which differ in `enc`, `to_ne_bytes` or `to_be_bytes`,
and in `n`, the number of channels or of components. (Simplified: the chunks the loops fill are written as the list of their bytes; more than four
components are modelled for as many channels only.) -/
def u16Bytes (enc : UInt16 → List UInt8) (n : Nat) (cs : List (List UInt16)) : Option (List UInt8) :=
  match cs with
  | [] => none
  | a :: rest =>
    let length := 2 * a.length * n
    match n, rest with
    | 1, _ => some (over length (a.flatMap enc))
    | 2, b :: _ => some (over length ((a.zip b).flatMap fun p => enc p.1 ++ enc p.2))
    | 3, b :: c :: _ => some (over length (((a.zip b).zip c).flatMap fun p => enc p.1.1 ++ (enc p.1.2 ++ enc p.2)))
    | 4, b :: c :: d :: _ =>
      some (over length ((((a.zip b).zip c).zip d).flatMap fun p => enc p.1.1.1 ++ (enc p.1.1.2 ++ (enc p.1.2 ++ enc p.2))))
    | n, rest =>
      if 4 < n ∧ rest.length + 1 = n then (gather (a :: rest) a.length).map fun l => over length (l.flatMap enc)
      else none

/-- `u16::to_be_bytes` (frame.rs:525). -/
def be16 (v : UInt16) : List UInt8 := beBytes 2 v.toNat

/-- `u16::to_ne_bytes` (frame.rs:431) on a little endian machine. -/
def ne16 (v : UInt16) : List UInt8 := leBytes 2 v.toNat

end Zune.Make
