/-
Model of `image_transfer` and `resize` of `crates/zune-imageprocs` on 8 and 16 bit samples.  `m` is the largest sample, `none` stands for a panic.
`f32` arithmetic is that of `Common/Float`; infinities and NaN are not modelled.  The functions `powf`, `log10` and the kernels that use `sin` are parameters.
-/
import Verif.Imageprocs.ToneModel
import Verif.Imageprocs.AreaModel

namespace Zune.Imageprocs
open Zune.Float (rnd)

/-! ### Transfer functions -/

/-- `TransferFunction` (image_transfer/trc.rs:262-285). -/
inductive Transfer
  | srgb | rec709 | gamma2p2 | gamma2p8 | smpte428 | log100 | log100Sqrt10 | bt1361 | smpte240 | iec61966 | linear
deriving DecidableEq

/-- The shape of `srgb_to_linear`, `rec709_to_linear`, `smpte240_to_linear` and their inverses (trc.rs:13-65, 83-107): a line below the threshold, then a power. -/
def twoPart (t : Rat) (low high : Rat → Rat) (x : Rat) : Rat :=
  if x < 0 then 0 else if x < t then low x else if x < 1 then high x else 1

/-- `((gamma + a) / b).powf(e)` (trc.rs:19, 47, 89). -/
def powTo (pow : Rat → Rat → Rat) (a b e x : Rat) : Rat := pow (rnd 24 (rnd 24 (x + a) / b)) e

/-- `b * linear.powf(e) - a` (trc.rs:33, 61, 103). -/
def powFrom (pow : Rat → Rat → Rat) (a b e x : Rat) : Rat := rnd 24 (rnd 24 (b * pow x e) - a)

/-- The constants 0.0030412825601275209, 0.0550107189475866 and 1.0550107189475866 of sRGB (trc.rs:16-33). -/
def srgbT : Rat := rnd 24 (30412825601275209 / 10 ^ 19)
/-- See `srgbT` (trc.rs:19, 33). -/
def srgbA : Rat := rnd 24 (550107189475866 / 10 ^ 16)
/-- See `srgbT` (trc.rs:19, 33). -/
def srgbB : Rat := rnd 24 (10550107189475866 / 10 ^ 16)

/-- The constants 0.018053968510807, 0.09929682680944 and 1.09929682680944 of Rec.709 (trc.rs:44-61). -/
def recT : Rat := rnd 24 (18053968510807 / 10 ^ 15)
/-- See `recT` (trc.rs:47, 61). -/
def recA : Rat := rnd 24 (9929682680944 / 10 ^ 14)
/-- See `recT` (trc.rs:47, 61). -/
def recB : Rat := rnd 24 (109929682680944 / 10 ^ 14)

/-- The constants 0.022821585529445, 0.111572195921731 and 1.111572195921731 of SMPTE 240 (trc.rs:86-103). -/
def smpteT : Rat := rnd 24 (22821585529445 / 10 ^ 15)
/-- See `smpteT` (trc.rs:89, 103). -/
def smpteA : Rat := rnd 24 (111572195921731 / 10 ^ 15)
/-- See `smpteT` (trc.rs:89, 103). -/
def smpteB : Rat := rnd 24 (1111572195921731 / 10 ^ 15)

/-- The exponents `1.0 / 0.45` and `0.45` (trc.rs:47, 61). -/
def recE : Rat := rnd 24 (1 / rnd 24 (45 / 100))

/-- `pure_gamma_function` (trc.rs:187-195). -/
def pureGamma (pow : Rat → Rat → Rat) (x g : Rat) : Rat := if x ≤ 0 then 0 else if x ≥ 1 then 1 else pow x g

/-- `trc_linear` (trc.rs:223-225). -/
def trcLinear (v : Rat) : Rat := min (min v 1) 0

/-- `linearize` (trc.rs:326-340) with the functions it calls (trc.rs:13-23, 41-51, 69-72, 83-93, 121-129, 133-141, 171-183, 205-207, 217-219, 223-225, 229-243).
    `Iec61966` is modelled for `gamma` of at least 0 only, `Bt1361` too. -/
def linearize (pow : Rat → Rat → Rat) : Transfer → Rat → Rat
  | .srgb, x => twoPart (rnd 24 (rnd 24 (1292 / 100) * srgbT)) (fun x => rnd 24 (x * rnd 24 (1 / rnd 24 (1292 / 100)))) (powTo pow srgbA srgbB (rnd 24 (24 / 10))) x
  | .rec709, x => twoPart (rnd 24 (45 / 10 * recT)) (fun x => rnd 24 (x * rnd 24 (10 / 45))) (powTo pow recA recB recE) x
  | .gamma2p2, x => pureGamma pow x (rnd 24 (22 / 10))
  | .gamma2p8, x => pureGamma pow x (rnd 24 (28 / 10))
  | .smpte428, x => rnd 24 (pow (max x 0) (rnd 24 (26 / 10)) * rnd 24 (1 / rnd 24 (91655527974030934 / 10 ^ 17)))
  | .log100, x => if x ≤ 0 then rnd 24 (rnd 24 (1 / 100) / 2) else pow 10 (rnd 24 (2 * rnd 24 (min x 1 - 1)))
  | .log100Sqrt10, x => if x ≤ 0 then rnd 24 (rnd 24 (316227766 / 10 ^ 11) / 2) else pow 10 (rnd 24 (25 / 10 * rnd 24 (min x 1 - 1)))
  | .bt1361, x => twoPart (rnd 24 (45 / 10 * recT)) (fun x => rnd 24 (x / (45 / 10))) (powTo pow recA recB recE) x
  | .smpte240, x => twoPart (rnd 24 (4 * smpteT)) (fun x => rnd 24 (x / 4)) (powTo pow smpteA smpteB recE) x
  | .iec61966, x => if x < rnd 24 (45 / 10 * recT) then rnd 24 (x / (45 / 10)) else powTo pow recA recB recE x
  | .linear, x => trcLinear x

/-- `gamma` (trc.rs:343-357) with the functions it calls (trc.rs:27-37, 55-65, 76-79, 97-107, 111-117, 145-151, 155-167, 199-201, 211-213, 223-225, 247-255);
    likewise. -/
def gammaOf (pow : Rat → Rat → Rat) (log : Rat → Rat) : Transfer → Rat → Rat
  | .srgb, x => twoPart srgbT (fun x => rnd 24 (x * rnd 24 (1292 / 100))) (powFrom pow srgbA srgbB (rnd 24 (1 / rnd 24 (24 / 10)))) x
  | .rec709, x => twoPart recT (fun x => rnd 24 (x * (45 / 10))) (powFrom pow recA recB (rnd 24 (45 / 100))) x
  | .gamma2p2, x => pureGamma pow x (rnd 24 (1 / rnd 24 (22 / 10)))
  | .gamma2p8, x => pureGamma pow x (rnd 24 (1 / rnd 24 (28 / 10)))
  | .smpte428, x => pow (rnd 24 (rnd 24 (91655527974030934 / 10 ^ 17) * max x 0)) (rnd 24 (1 / rnd 24 (26 / 10)))
  | .log100, x => if x ≤ rnd 24 (1 / 100) then 0 else rnd 24 (1 + rnd 24 (log (min x 1) / 2))
  | .log100Sqrt10, x => if x ≤ rnd 24 (316227766 / 10 ^ 11) then 0 else rnd 24 (1 + rnd 24 (log (min x 1) / (25 / 10)))
  | .bt1361, x => twoPart recT (fun x => rnd 24 (x * (45 / 10))) (powFrom pow recA recB (rnd 24 (45 / 100))) x
  | .smpte240, x => twoPart smpteT (fun x => rnd 24 (x * 4)) (powFrom pow smpteA smpteB (rnd 24 (45 / 100))) x
  | .iec61966, x => if x < recT then rnd 24 (x * (45 / 10)) else powFrom pow recA recB (rnd 24 (45 / 100)) x
  | .linear, x => trcLinear x

/-- An entry of the tables (image_transfer.rs:128-162); `f` is `linearize` or `gamma`. -/
def lutEntry (m : Nat) (f : Rat → Rat) (i : Nat) : Nat := toSample m (min (rnd 24 (f (rnd 24 (i * rnd 24 (1 / m))) * m)) m)

/-- The conversion of a channel by a table (image_transfer.rs:76-91). -/
def transferChannel (m : Nat) (f : Rat → Rat) (img : List Nat) : Option (List Nat) :=
  let lut := (List.range (m + 1)).map (lutEntry m f)
  img.mapM fun x => lut[x]?

/-! ### Bilinear resizing -/

/-- `w_ratio`, `h_ratio` (resize/bilinear.rs:18-19). -/
def biRatio (inn out : Nat) : Rat := rnd 24 (rnd 24 (1 / rnd 24 out) * rnd 24 inn)

/-- The two positions and the fraction between for one coordinate (bilinear.rs:24-31, 34-48). -/
def biPos (larger : Bool) (inn : Nat) (ratio : Rat) (x : Nat) : Nat × Nat × Rat :=
  let nx := rnd 24 (rnd 24 x * ratio)
  let x0 := ⌊nx⌋.toNat
  let x1 := min (x0 + 1) (inn - 1)
  let x0 := if larger then min x0 (inn - 1) else x0
  (x0, x1, rnd 24 (nx - rnd 24 x0))

/-- `interpolated_pixel` (bilinear.rs:55-58). -/
def biMix (p00 p10 p01 p11 : Nat) (a b : Rat) : Rat :=
  rnd 24 (rnd 24 (rnd 24 (rnd 24 (rnd 24 (p00 * rnd 24 (1 - a)) * rnd 24 (1 - b)) + rnd 24 (rnd 24 (p10 * a) * rnd 24 (1 - b))) +
    rnd 24 (rnd 24 (p01 * rnd 24 (1 - a)) * b)) + rnd 24 (rnd 24 (p11 * a) * b))

/-- The inner loop body (bilinear.rs:50-60). -/
def biSample (m : Nat) (img : List Nat) (w : Nat) (px py : Nat × Nat × Rat) : Option Nat := do
  let p00 ← img[py.1 * w + px.1]?
  let p10 ← img[py.1 * w + px.2.1]?
  let p01 ← img[py.2.1 * w + px.1]?
  let p11 ← img[py.2.1 * w + px.2.1]?
  return toSample m (biMix p00 p10 p01 p11 px.2.2 py.2.2)

/-- `bilinear_impl` (bilinear.rs:11-63); the output, which has `ow * oh` samples, is written in order. -/
def bilinearResize (m : Nat) (img : List Nat) (w h ow oh : Nat) : Option (List Nat) := do
  let rw := biRatio w ow
  let rh := biRatio h oh
  let larger := decide (rw < 1 ∧ rh < 1)
  let rows ← (List.range oh).mapM fun y => (List.range ow).mapM fun x => biSample m img w (biPos larger w rw x) (biPos larger h rh y)
  return rows.flatten

/-! ### Separable kernels -/

/-- `ConvKernel` (resize/seperable_kernel.rs:359-363): the weights that are used, and the first position; the last is that of the last weight. -/
structure ConvKernel where
  start : Nat
  weights : List Rat
deriving DecidableEq

/-- Sequential sum as by `+=` and `sum::<f32>()`. -/
def fsum (l : List Rat) : Rat := l.foldl (fun s x => rnd 24 (s + x)) 0

/-- The loop body of `precompute_kernels` (seperable_kernel.rs:374-408); `a` is the radius.  `none` where indices would become negative or the array of weights be
    exceeded, or where there is no position (then the code takes meaningless bounds). -/
def convKernel (k : Rat → Rat) (a inn : Nat) (ratio : Rat) (x : Nat) : Option ConvKernel :=
  let src := rnd 24 (rnd 24 (rnd 24 (x + 1 / 2) * ratio) - 1 / 2)
  let center := ⌊src⌋
  let start := max (-(a : Int) + 1) (-center)
  let stop := min (a : Int) (inn - center - 1)
  if stop < start ∨ stop - start + 1 > 6 ∨ center + start < 0 then none
  else
    let ws := (List.range (stop - start + 1).toNat).map fun (i : Nat) => k (rnd 24 ((center + start + i : Int) - src))
    let sum := fsum ws
    let ws := if sum > 0 then ws.map fun w => rnd 24 (w * rnd 24 (1 / sum)) else ws
    some ⟨(center + start).toNat, ws⟩

/-- The ratio (seperable_kernel.rs:32, 41). -/
def kRatio (inn out : Nat) : Rat := rnd 24 (rnd 24 inn / rnd 24 out)

/-- The sum of a kernel over a row or column of samples or intermediate values (seperable_kernel.rs:127-206, 220-224, 243-250, 269-347). -/
def lineSum (k : ConvKernel) (line : List Rat) : Option Rat := do
  let xs ← (List.range k.weights.length).mapM fun i => line[k.start + i]?
  return fsum (List.zipWith (fun p w => rnd 24 (p * w)) xs k.weights)

/-- Column `x` of a picture of width `w` (as indexed in seperable_kernel.rs:223, 248). -/
def columnOf (img : List Rat) (w x : Nat) : List Rat := (chunksOf w img).filterMap fun r => r[x]?

/-- Horizontal pass (seperable_kernel.rs:122-210, 257-353) on exact samples. -/
def passH (ks : List ConvKernel) (img : List Rat) (w : Nat) : Option (List Rat) := do
  let rows ← (chunksOf w img).mapM fun row => ks.mapM fun k => lineSum k row
  return rows.flatten

/-- Vertical pass (seperable_kernel.rs:212-229, 231-255). -/
def passV (ks : List ConvKernel) (img : List Rat) (w : Nat) : Option (List Rat) := do
  let rows ← ks.mapM fun k => (List.range w).mapM fun x => lineSum k (columnOf img w x)
  return rows.flatten

/-- The horizontal kernels if the width changes (seperable_kernel.rs:25-36) and their pass. -/
def stepH (k : Rat → Rat) (a w ow : Nat) (img : List Rat) : Option (List Rat) :=
  if w = ow then some img else ((List.range ow).mapM (convKernel k a w (kRatio w ow))).bind fun ks => passH ks img w

/-- The vertical kernels if the height changes (seperable_kernel.rs:38-47) and their pass. -/
def stepV (k : Rat → Rat) (a ow h oh : Nat) (img : List Rat) : Option (List Rat) :=
  if h = oh then some img else ((List.range oh).mapM (convKernel k a h (kRatio h oh))).bind fun ks => passV ks img ow

/-- `PrecomputedKernels::new` and `resample_separable` (seperable_kernel.rs:25-54, 56-229). -/
def separable (m : Nat) (k : Rat → Rat) (a : Nat) (img : List Nat) (w h ow oh : Nat) : Option (List Nat) :=
  if w = ow ∧ h = oh then some img
  else (stepH k a w ow (img.map fun (v : Nat) => (v : Rat))).bind fun y => (stepV k a ow h oh y).bind fun z => some (z.map (toSample m))

/-- `bicubic_kernel` (seperable_kernel.rs:445-466) in exact arithmetic. -/
def bicubicExact (b c x : Rat) : Rat :=
  let x := |x|
  if x < 1 then ((12 - 9 * b - 6 * c) * x ^ 3 + (-18 + 12 * b + 6 * c) * x ^ 2 + (6 - 2 * b)) / 6
  else if x < 2 then ((-b - 6 * c) * x ^ 3 + (6 * b + 30 * c) * x ^ 2 + (-12 * b - 48 * c) * x + (8 * b + 24 * c)) / 6
  else 0

/-- `bicubic_kernel` (seperable_kernel.rs:445-466). -/
def bicubicKernel (b c x : Rat) : Rat :=
  let x := |x|
  let x2 := rnd 24 (x * x)
  let x3 := rnd 24 (x2 * x)
  if x < 1 then
    rnd 24 (rnd 24 (rnd 24 (rnd 24 (rnd 24 (rnd 24 (12 - rnd 24 (9 * b)) - rnd 24 (6 * c)) * x3) + rnd 24 (rnd 24 (rnd 24 (-18 + rnd 24 (12 * b)) + rnd 24 (6 * c)) * x2)) +
      rnd 24 (6 - rnd 24 (2 * b))) / 6)
  else if x < 2 then
    rnd 24 (rnd 24 (rnd 24 (rnd 24 (rnd 24 (rnd 24 (-b - rnd 24 (6 * c)) * x3) + rnd 24 (rnd 24 (rnd 24 (6 * b) + rnd 24 (30 * c)) * x2)) +
      rnd 24 (rnd 24 (rnd 24 (-12 * b) - rnd 24 (48 * c)) * x)) + rnd 24 (rnd 24 (8 * b) + rnd 24 (24 * c))) / 6)
  else 0

/-- `ratio_dimensions_smaller` (resize.rs:230-240): `f64` arithmetic. -/
def ratioSmaller (ow oh nw nh : Nat) : Nat × Nat :=
  let rw := rnd 53 (rnd 53 ow / rnd 53 nw)
  let rh := rnd 53 (rnd 53 oh / rnd 53 nh)
  let p := if rh < rw then rw else rh
  (⌊rnd 53 (rnd 53 ow / p)⌋.toNat, ⌊rnd 53 (rnd 53 oh / p)⌋.toNat)

/-- `ratio_dimensions_larger` (resize.rs:250-260): the same text. -/
def ratioLarger (ow oh nw nh : Nat) : Nat × Nat :=
  let rw := rnd 53 (rnd 53 ow / rnd 53 nw)
  let rh := rnd 53 (rnd 53 oh / rnd 53 nh)
  let p := if rh < rw then rw else rh
  (⌊rnd 53 (rnd 53 ow / p)⌋.toNat, ⌊rnd 53 (rnd 53 oh / p)⌋.toNat)

end Zune.Imageprocs
