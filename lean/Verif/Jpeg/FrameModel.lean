import Verif.Jpeg.UpsampleModel

/-!
# Model of the setup of a baseline frame (zune-jpeg/src/misc.rs, decoder.rs, mcu.rs)

From the sampling factors of the frame header to the buffers and numbers that `post_process` works with.
Not modelled here: quantisation tables, the checks of the colour space, a single component with sampling
factors other than one (mcu.rs:129-136), components spread over several scans (mcu.rs:167-181, 286-288).
-/

namespace Zune.Jpeg

/-- `horizontal_sample` and `vertical_sample` of a component (components.rs:105-106). -/
structure Factor where
  h : Nat
  v : Nat
  deriving DecidableEq, Repr

/-- `usize::div_ceil` (misc.rs:222, 224). -/
def divCeil (a b : Nat) : Nat := (a + b - 1) / b

/-- `h_max` after all components (misc.rs:216); it starts at 1 (decoder.rs:175). -/
def hMax (fs : List Factor) : Nat := fs.foldl (fun m f => max m f.h) 1

/-- `v_max` after all components (misc.rs:218); it starts at 1 (decoder.rs:176). -/
def vMax (fs : List Factor) : Nat := fs.foldl (fun m f => max m f.v) 1

/-- `sample_ratio` (decoder.rs:860-884). -/
def ratioOf (hMax vMax : Nat) (f : Factor) : Ratio :=
  match hMax / f.h, vMax / f.v with
  | 1, 1 => .none
  | 2, 1 => .h
  | 1, 2 => .v
  | 2, 2 => .hv
  | a, b => .generic a b

/-- `fix_an_annoying_bug` (misc.rs:268-287); `y` is the first component (the one named `Y`,
components.rs:93-94). -/
def fixOf (y : Factor) (isY : Bool) (f : Factor) : Nat :=
  if (y.h = 2 ∨ y.v = 2) ∧ isY = false ∧ (f.h ≠ 1 ∨ f.v ≠ 1) then 2 else 1

/-- The loop over the components (misc.rs:213-250; decoder.rs:859-887): `width_stride` is computed with the
`h_max` of the components so far, `m`; the rest with the final values. -/
def compsLoop (width hm vm : Nat) (y : Factor) : Bool → Nat → List Factor → List Comp
  | _, _, [] => []
  | isY, m, f :: t =>
    Comp.setup (ratioOf hm vm f) f.v (f.h * (divCeil width (max m f.h * 8) * 8)) (fixOf y isY f) [] ::
      compsLoop width hm vm y false (max m f.h) t

/-- The components before the first MCU row. -/
def setupComps (width : Nat) (fs : List Factor) : List Comp :=
  match fs with
  | [] => []
  | y :: _ => compsLoop width (hMax fs) (vMax fs) y true 1 fs

/-- `sub_sample_ratio` (decoder.rs:835-857). -/
def subSampleOf (hm vm : Nat) : Ratio :=
  match hm, vm with
  | 1, 1 => .none
  | 1, 2 => .v
  | 2, 1 => .h
  | 2, 2 => .hv
  | a, b => .generic a b

/-- `calculate_padded_width` (misc.rs:362-376). -/
def paddedWidth (width : Nat) : Ratio → Nat
  | .none | .v => (width + 7) / 8 * 8
  | .h | .hv => (width + 15) / 16 * 16
  | .generic h _ => (width + (h * 8 - 1)) / (h * 8) * (h * 8)

/-- `num_components` of the output colour space (zune-core/src/colorspace.rs:64-73). -/
def OutSpace.comps : OutSpace → Nat
  | .luma => 1
  | .lumaA => 2
  | .ycbcr => 3
  | .cmyk | .ycck => 4
  | .layout l => l.n

/-- `color_convert` as called with the samples of a line: missing planes are empty (mcu.rs:775-794). -/
def convOf (avx2 : Bool) (i : InSpace) (o : OutSpace) (width padded : Nat) (ls : List (List Int))
    (buf : List UInt8) : Option (List UInt8) :=
  match colorConvert avx2 i o width padded (ls[0]?.getD []) (ls[1]?.getD []) (ls[2]?.getD []) (ls[3]?.getD []) buf with
  | .ok r => some r
  | .error _ => none

/-- The numbers that `post_process` is called with (mcu.rs:95-139, 189-191, 246-256). -/
def framePost (avx2 : Bool) (i : InSpace) (o : OutSpace) (width height : Nat) (fs : List Factor) : Post :=
  let hm := hMax fs
  let vm := vMax fs
  let inter := decide (hm ≠ 1 ∨ vm ≠ 1)
  let sub := subSampleOf hm vm
  let tall := inter && decide (1 < fs.length ∧ o.comps = 1 ∧ (sub = .v ∨ sub = .hv))
  let rows := if inter then divCeil height (vm * 8) else (height + 7) / 8
  let padded := paddedWidth width sub
  { avx2 := avx2
    coeff := if tall then 2 else 1
    vMax := vm
    interleaved := inter
    outLuma := decide (o = .luma)
    subSample := sub
    mcuHeight := if tall then rows * vm / hm else rows
    padded := padded
    line := width * o.comps
    scratch := List.replicate (if inter then (setupComps width fs).head?.elim 0 (·.stride) else 0) 0
    conv := convOf avx2 i o width padded }

end Zune.Jpeg
