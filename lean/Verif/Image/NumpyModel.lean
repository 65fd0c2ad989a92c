/-
Model of pictures made from and turned into numpy arrays (`crates/zune-python/src/py_image.rs`, `crates/zune-python/src/py_image/numpy_bindings.rs`).
An array is its shape and its elements in C order.
-/
import Verif.Image.MakeModel

namespace Zune.Numpy

open Zune.Make (Image Frame fromPixels)
open Zune.Split (swizzle split3 three Isa)

/-- What a function of the binding does: return, raise an exception or panic. -/
inductive Res (β : Type) where
  | ok (b : β)
  | err
  | panic
  deriving DecidableEq

variable {α F G : Type}

/-- Width, height and components for the shape of an array (py_image.rs:655, 661, 702-724, 805-806, 844, 881-883); `sug` is the number of components of the colour space asked for, which is not
looked at for arrays of two dimensions. (Simplified: which colour space it is is left out.) -/
def sizes (shape : List Nat) (sug : Option Nat) : Option (Nat × Nat × Nat) :=
  match shape with
  | [h, w] => some (w, h, 1)
  | [h, w, c] =>
    if c = 1 ∨ c = 2 ∨ c = 3 ∨ c = 4 then
      match sug with
      | none => some (w, h, c)
      | some k => if k ≠ c then none else some (w, h, c)
    else none
  | _ => none

/-- The elements of an array by type; floats of 32 and 64 bits are any types. -/
inductive Data (F G : Type) where
  | u8 (l : List UInt8)
  | u16 (l : List UInt16)
  | f32 (l : List F)
  | f64 (l : List G)
  | u32 (l : List UInt32)
  | other

/-- The picture by depth. -/
inductive Img (F : Type) where
  | u8 (im : Image UInt8)
  | u16 (im : Image UInt16)
  | f32 (im : Image F)

/-- A panic in the making of the picture. -/
def orPanic {β γ : Type} (f : β → γ) : Option β → Res γ
  | none => .panic
  | some b => .ok (f b)

/-- `from_numpy` (py_image.rs:800-885) with `convert_2d` (654-696) and `convert_3d` (699-782). (Simplified: the array is contiguous and not borrowed elsewhere.) -/
def fromNumpy (isa : Isa) (zero : F) (cast : G → F) (shape : List Nat) (data : Data F G) (sug : Option Nat) : Res (Img F) :=
  match sizes shape sug with
  | none => .err
  | some (w, h, n) =>
    match data with
    | .u8 l => orPanic .u8 (fromPixels 0 (three isa) l w h n)
    | .u16 l => orPanic .u16 (fromPixels 0 (fun l a b c => .ok (split3 l a b c)) l w h n)
    | .f32 l => orPanic .f32 (fromPixels zero (fun l a b c => .ok (split3 l a b c)) l w h n)
    | .f64 l => orPanic .f32 (fromPixels zero (fun l a b c => .ok (split3 l a b c)) (l.map cast) w h n)
    | .u32 _ => .err
    | .other => .err

/-- The loop over frames (numpy_bindings.rs:48-54) over what is left of the array. -/
def toFrames (size : Nat) : List (Frame α) → List α → Res (List α)
  | [], out => .ok out
  | fr :: l, out =>
    if out.length < size then .ok out
    else
      match swizzle fr.channels (out.take size) with
      | .error .panic => .panic
      | .error _ => .err
      | .ok (c, _) =>
        match toFrames size l (out.drop size) with
        | .ok r => .ok (c ++ r)
        | .err => .err
        | .panic => .panic

/-- `to_numpy_generic` (numpy_bindings.rs:18-118): shape and elements; `init` is what the new array contains. (Simplified: all channels are taken for `channels_ref(colorspace, false)`, and they
have the type of the depth.) -/
def toNumpy (init : List α) (im : Image α) : Res (List Nat × List α) :=
  if 1 < im.frames.length then
    if im.height * im.width * im.comps = 0 then .panic
    else
      match toFrames (im.height * im.width * im.comps) im.frames init with
      | .ok r => .ok ([im.frames.length, im.height, im.width, im.comps], r)
      | .err => .err
      | .panic => .panic
  else
    match im.frames with
    | [] => .panic
    | fr :: _ =>
      if im.comps = 1 then
        match fr.channels with
        | [] => .panic
        | c :: _ => if init.length = c.length then .ok ([im.height, im.width], c) else .panic
      else
        match swizzle fr.channels init with
        | .error .panic => .panic
        | .error _ => .err
        | .ok (r, _) => .ok ([im.height, im.width, im.comps], r)

end Zune.Numpy
