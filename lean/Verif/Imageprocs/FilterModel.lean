/-
Model of `box_blur` (8 and 16 bit samples), `mirror` and `stretch_contrast` (8 and 16 bit) of `crates/zune-imageprocs`.
A channel is a row-major list of samples; `none` stands for a panic.  Arithmetic of machine integers wraps (release builds) where it can overflow.
-/
import Verif.Imageprocs.AreaModel

namespace Zune.Imageprocs
variable {α : Type}

/-! ### `box_blur` -/

/-- The values of `accumulator` in one of the three loops of `box_blur_inner` (box_blur.rs:244-245, 266-267, 291-292); the list holds for each step what is
    added and what is subtracted.  32 bit arithmetic, which wraps. -/
def slideSums (acc : Nat) : List (Nat × Nat) → List Nat
  | [] => []
  | (a, s) :: t =>
    let acc' := (acc + a + (2 ^ 32 - s)) % 2 ^ 32
    acc' :: slideSums acc' t

/-- Storing successive values from position `i` on (box_blur.rs:247, 278, 294), which fit. -/
def writeFrom (out : List α) (i : Nat) (vals : List α) : List α := out.take i ++ vals ++ out.drop (i + vals.length)

/-- `T::from_u32(fastdiv_u32(accumulator, m_radius))` (box_blur.rs:247, 278, 294, traits.rs:111-113). -/
def boxQuot (bits d acc : Nat) : Nat := fastdivU32 acc (computeModU32 d) % 2 ^ bits

/-- The body of the loop of `box_blur_inner` for one row (box_blur.rs:233-295).  The windows of `stride_in[1..]` end in `row[d]`, `row[d + 1]`, …;
    `window_slide` is `row[0]`, `row[1]`, …. -/
def boxRow (bits d : Nat) (row out : List Nat) : Option (List Nat) := do
  let half := (d + 1) / 2
  let first ← row.head?
  let last ← row.getLast?
  let acc0 := ((row.take half).sum + (half - 1) * first) % 2 ^ 32
  let s1 := slideSums acc0 (((row.drop half).take (half - 1)).map fun a => (a, first))
  let out := writeFrom out 0 (s1.map (boxQuot bits d))
  let s2 := slideSums (s1.getLastD acc0) ((row.drop d).zip row)
  let out := writeFrom out (half - 1) (s2.map (boxQuot bits d))
  let s3 := slideSums (s2.getLastD (s1.getLastD acc0)) (((row.drop (row.length - half)).take half).map fun a => (last, a))
  return writeFrom out (row.length - half) (s3.map (boxQuot bits d))

/-- `box_blur_inner` (box_blur.rs:191-297). -/
def boxInner (bits : Nat) (img out : List Nat) (w r : Nat) : Option (List Nat) :=
  if w ≤ 1 ∨ r * 2 + 1 ≤ 1 then some out
  else do
    let rows ← ((chunksOf w img).zip (chunksOf w out)).mapM fun p => boxRow bits (min (r * 2 + 1) w) p.1 p.2
    return rows.flatten ++ out.drop (rows.length * w)

/-- The radius that is used (box_blur.rs:146-148, 163-166). -/
def boxRadius (r : Nat) : Nat := if r % 2 = 0 then r + 1 else r

/-- `box_blur_u8` with `bits = 8`, `box_blur_u16` with `bits = 16` (box_blur.rs:138-153, 155-171); the scalar transpose. -/
def boxBlur (checks : Bool) (bits : Nat) (img scratch : List Nat) (w h r : Nat) : Option (List Nat) :=
  if w = 0 ∨ r ≤ 1 then some img
  else do
    let s1 ← boxInner bits img scratch w (boxRadius r)
    let i1 ← transposeScalar checks 0 s1 img w h
    let s2 ← boxInner bits i1 s1 h (boxRadius r)
    transposeScalar checks 0 s2 i1 h w

/-- What `BoxBlur::execute_impl` does to a channel with threads (box_blur.rs:60-96): a new scratch space for each channel. -/
def boxBlurChannel (checks : Bool) (bits : Nat) (img : List Nat) (w h r : Nat) : Option (List Nat) :=
  boxBlur checks bits img (List.replicate (w * h) 0) w h r

/-! ### `mirror` -/

/-- `MirrorMode` (mirror.rs:20-57). -/
inductive MirrorMode
  | north
  | south
  | east
  | west
deriving Repr, DecidableEq

/-- The body of the loop over rows (mirror.rs:136-152). -/
def mirrorRow (mode : MirrorMode) (w : Nat) (row : List α) : List α :=
  let left := row.take (w / 2)
  let right := row.drop (w / 2)
  match mode with
  | .west => left ++ (left.take right.length ++ right.reverse.drop left.length).reverse
  | .east => (right.reverse.take left.length ++ left.drop right.length) ++ right
  | _ => row

/-- The chunks of `l.rchunks_exact(n)` (mirror.rs:161); `n` is not zero where it is used. -/
def rchunksOf (n : Nat) (l : List α) : List (List α) := (List.range (l.length / n)).map fun i => (l.drop (l.length - (i + 1) * n)).take n

/-- `mirror` (mirror.rs:134-170).  Chunks of length zero and a split after the end panic. -/
def mirror (l : List α) (w h : Nat) (mode : MirrorMode) : Option (List α) :=
  if w = 0 then none
  else if mode = .east ∨ mode = .west then
    some (((chunksOf w l).map (mirrorRow mode w)).flatten ++ l.drop (l.length / w * w))
  else if l.length < w * (h / 2) then none
  else
    let top := l.take (w * (h / 2))
    let bottom := l.drop (w * (h / 2))
    let tops := chunksOf w top
    let bottoms := rchunksOf w bottom
    if mode = .north then
      some (top ++ bottom.take (bottom.length - bottoms.length * w) ++ (tops.take bottoms.length ++ bottoms.drop tops.length).reverse.flatten)
    else some ((bottoms.take tops.length ++ tops.drop bottoms.length).flatten ++ top.drop (tops.length * w) ++ bottom)

/-! ### `stretch_contrast` -/

/-- The body of the loop (stretch_contrast.rs:122-132); `maximum` is the largest sample, `len` as in line 110.  32 bit product, which wraps. -/
def stretchPixel (bits lower upper maximum len p : Nat) : Nat :=
  if p ≥ upper then 2 ^ bits - 1
  else if p ≤ lower then 0
  else fastdivU32 (maximum * (p - lower) % 2 ^ 32) (computeModU32 len) % 2 ^ bits

/-- `stretch_contrast` (stretch_contrast.rs:99-134) with `bits` 8 or 16; `none` is the error.  (The sum in `len` saturates at `u32::MAX`, which the difference
    of two samples does not reach.) -/
def stretchContrast (bits : Nat) (l : List Nat) (lower upper : Nat) : Option (List Nat) :=
  if upper < lower then none
  else some (l.map (stretchPixel bits lower upper (2 ^ bits - 1) (min (upper - lower + 1) (2 ^ 32 - 1))))

end Zune.Imageprocs
