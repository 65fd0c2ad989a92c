/-
Model of operations on pictures through the C interface (`exec_imgproc`, `zil_imgproc_blend`, `crates/zune-capi/src/improc.rs`) and of `OperationsTrait::execute`
(`crates/zune-image/src/traits.rs`), which the library uses instead.
-/
import Verif.Capi.InfoModel
import Verif.Image.ColorModel

namespace Zune.Capi

open Zune.Imageprocs (ColorSpace)
open Zune.Depth (BitDepth Samples)

/-- An operation (traits.rs:98-196): what it supports, and `execute_impl`, which gives the picture it leaves behind and whether it succeeds. -/
structure Op where
  colors : List ColorSpace
  depths : List BitDepth
  impl : Color.Image → Color.Image × Bool

/-- The check of the colour space (traits.rs:149-172): pictures of many bands pass. -/
def Op.takes (op : Op) : ColorSpace → Bool
  | .MultiBand _ => true
  | cs => decide (cs ∈ op.colors)

/-- Whether `confirm_invariants` (traits.rs:220-251) is content. -/
def sound (i : Color.Image) : Bool :=
  match Color.confirm i with
  | .ok _ => true
  | .error _ => false

/-- `OperationsTrait::execute` (traits.rs:145-196): the picture afterwards and whether there was no error. -/
def Op.execute (op : Op) (i : Color.Image) : Color.Image × Bool :=
  if op.takes i.cs = false then (i, false)
  else if i.depth ∉ op.depths then (i, false)
  else if sound i = false then (i, false)
  else if (op.impl i).2 = false then ((op.impl i).1, false)
  else ((op.impl i).1, sound (op.impl i).1)

/-- `exec_imgproc` (improc.rs:27-49); `none` is a null picture, `p` the address of the status. -/
def execOp (op : Op) (image : Option Color.Image) (p : Nat) (h : Heap) : Except Fault (Option Color.Image × Heap) :=
  if p = 0 then .ok (image, h)
  else
    match image with
    | none => (report true p .imageIsNull h).map fun g => (none, g)
    | some i =>
      if (op.impl i).2 then .ok (some (op.impl i).1, h)
      else (report true p .operationError h).map fun g => (some (op.impl i).1, g)

/-- `zil_imgproc_blend` (improc.rs:119-135); `blend` makes the operation of the second picture. -/
def execBlend (blend : Color.Image → Op) (image1 image2 : Option Color.Image) (p : Nat) (h : Heap) : Except Fault (Option Color.Image × Heap) :=
  if p = 0 then .ok (image1, h)
  else
    match image2 with
    | none => (report true p .imageIsNull h).map fun g => (image1, g)
    | some i => execOp (blend i) image1 p h

/-- `Invert` (invert.rs:50-76). (Simplified: 8 bit pictures in colour spaces without alpha; others fail here.) -/
def invertOp : Op where
  colors := [.RGB, .RGBA, .LumaA, .Luma]
  depths := [.eight, .sixteen, .float32]
  impl i :=
    if i.depth = .eight then
      ({ i with frames := i.frames.map fun f => f.map fun c =>
          match c with
          | .u8 l => .u8 (l.map fun v => 255 - v)
          | c => c }, true)
    else (i, false)

end Zune.Capi
