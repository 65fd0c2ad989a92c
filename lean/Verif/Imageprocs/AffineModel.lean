/-
Model of `affine` (crates/zune-imageprocs/src/affine.rs) for 8 and 16 bit samples.
A channel is a row-major list of samples; `none` stands for a panic.  f32 arithmetic has unlimited exponents and no NaN (`rnd 24`).
-/
import Verif.Imageprocs.ResizeModel

namespace Zune.Imageprocs
open Zune.Float (rnd)

/-- `AffineTransform` (affine.rs:11-23). -/
structure Affine where
  a : Rat
  b : Rat
  c : Rat
  d : Rat
  tx : Rat
  ty : Rat
deriving DecidableEq

/-- `AffineTransform::identity` (affine.rs:30-39). -/
def Affine.identity : Affine := ⟨1, 0, 0, 1, 0, 0⟩

/-- `AffineTransform::rotation` (affine.rs:42-54); sine and cosine are parameters. -/
def Affine.rotation (cos sin : Rat) : Affine := ⟨cos, -sin, sin, cos, 0, 0⟩

/-- `AffineTransform::translation` (affine.rs:57-66). -/
def Affine.translation (tx ty : Rat) : Affine := ⟨1, 0, 0, 1, tx, ty⟩

/-- `AffineTransform::scale` (affine.rs:69-78). -/
def Affine.scale (sx sy : Rat) : Affine := ⟨sx, 0, 0, sy, 0, 0⟩

/-- `AffineTransform::shear` (affine.rs:81-90). -/
def Affine.shear (shx shy : Rat) : Affine := ⟨1, shx, shy, 1, 0, 0⟩

/-- `x * y + z * u` in f32 (affine.rs:95-98, 107-108, 280-281). -/
def dot2 (x y z u : Rat) : Rat := rnd 24 (rnd 24 (x * y) + rnd 24 (z * u))

/-- `AffineTransform::then` (affine.rs:93-102). -/
def Affine.after (s o : Affine) : Affine where
  a := dot2 s.a o.a s.b o.c
  b := dot2 s.a o.b s.b o.d
  c := dot2 s.c o.a s.d o.c
  d := dot2 s.c o.b s.d o.d
  tx := rnd 24 (dot2 s.a o.tx s.b o.ty + s.tx)
  ty := rnd 24 (dot2 s.c o.tx s.d o.ty + s.ty)

/-- `AffineTransform::transform_point` (affine.rs:105-110). -/
def Affine.point (t : Affine) (p : Rat × Rat) : Rat × Rat :=
  (rnd 24 (dot2 t.a p.1 t.b p.2 + t.tx), rnd 24 (dot2 t.c p.1 t.d p.2 + t.ty))

/-- `det` (affine.rs:114). -/
def Affine.det (t : Affine) : Rat := rnd 24 (rnd 24 (t.a * t.d) - rnd 24 (t.b * t.c))

/-- `AffineTransform::inverse` (affine.rs:113-128); `none` is the result `None`. -/
def Affine.inverse (t : Affine) : Option Affine :=
  if |t.det| < 1 / 2 ^ 23 then none
  else
    let i := rnd 24 (1 / t.det)
    some ⟨rnd 24 (t.d * i), rnd 24 (-t.b * i), rnd 24 (-t.c * i), rnd 24 (t.a * i),
      rnd 24 (rnd 24 (rnd 24 (t.b * t.ty) - rnd 24 (t.d * t.tx)) * i), rnd 24 (rnd 24 (rnd 24 (t.c * t.tx) - rnd 24 (t.a * t.ty)) * i)⟩

/-- The transformed corners (affine.rs:201-214, 251-262). -/
def Affine.corners (t : Affine) (w h : Nat) : List (Rat × Rat) :=
  [t.point (0, 0), t.point (rnd 24 w, 0), t.point (0, rnd 24 h), t.point (rnd 24 w, rnd 24 h)]

/-- `min_x`, `min_y` after the loop over the corners (affine.rs:208-219, 258-265): the least of four numbers. -/
def least4 : List Rat → Rat
  | [a, b, c, d] => min (min (min a b) c) d
  | _ => 0

/-- `max_x`, `max_y` after the loop over the corners (affine.rs:208-219). -/
def most4 : List Rat → Rat
  | [a, b, c, d] => max (max (max a b) c) d
  | _ => 0

/-- `get_affine_output_dimensions` (affine.rs:197-225). -/
def affineDims (w h : Nat) (t : Affine) : Nat × Nat :=
  let xs := (t.corners w h).map Prod.fst
  let ys := (t.corners w h).map Prod.snd
  (⌈rnd 24 (most4 xs - least4 xs)⌉.toNat, ⌈rnd 24 (most4 ys - least4 ys)⌉.toNat)

/-- `src_x`, `src_y` (affine.rs:268-281) for the inverse `inv` and the corner (`mx`, `my`): `tx` and `ty` are those of the inverse. -/
def affineSource (inv : Affine) (mx my : Rat) (ox oy : Nat) : Rat × Rat :=
  let y := rnd 24 (rnd 24 oy + my)
  let x := rnd 24 (rnd 24 ox + mx)
  inv.point (x, y)

/-- The body of the inner loop (affine.rs:283-308); a sample that is not written is the largest one (line 240).  (Simplified: width and height are not 0.) -/
def affineSample (m : Nat) (img : List Nat) (w h : Nat) (p : Rat × Rat) : Option Nat :=
  if 0 ≤ p.1 ∧ p.1 < rnd 24 ((w - 1 : Nat) : Rat) ∧ 0 ≤ p.2 ∧ p.2 < rnd 24 ((h - 1 : Nat) : Rat) then
    let x0 := ⌊p.1⌋.toNat
    let y0 := ⌊p.2⌋.toNat
    biSample m img w (x0, x0 + 1, rnd 24 (p.1 - rnd 24 x0)) (y0, y0 + 1, rnd 24 (p.2 - rnd 24 y0))
  else some m

/-- `affine_transform_channel` (affine.rs:228-311) into a channel of `ow * oh` zeroes. -/
def affineChannel (m : Nat) (img : List Nat) (w h ow oh : Nat) (t : Affine) : Option (List Nat) :=
  match t.inverse with
  | none => some (List.replicate (ow * oh) 0)
  | some inv =>
    let mx := least4 ((t.corners w h).map Prod.fst)
    let my := least4 ((t.corners w h).map Prod.snd)
    ((List.range oh).mapM fun oy => (List.range ow).mapM fun ox => affineSample m img w h (affineSource inv mx my ox oy)).map List.flatten

/-- What `execute_impl` (affine.rs:136-189) does to a channel: `none` is the error for transformations without inverse, `some none` a panic. -/
def affine (m : Nat) (img : List Nat) (w h : Nat) (t : Affine) : Option (Option (Nat × Nat × List Nat)) :=
  match t.inverse with
  | none => none
  | some _ =>
    let d := affineDims w h t
    some ((affineChannel m img w h d.1 d.2 t).map fun out => (d.1, d.2, out))

end Zune.Imageprocs
