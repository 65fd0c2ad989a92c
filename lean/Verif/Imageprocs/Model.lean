/-
Model of the geometric operations of `crates/zune-imageprocs` on one channel (a row-major list of samples).
`none` stands for a panic.
-/
import Verif.Common.Loops

namespace Zune.Imageprocs
variable {α : Type}

/-- `flip` (flip.rs:139-160): the two halves are zipped, the second one backwards, and swapped element by element. -/
def flip (l : List α) : List α :=
  let half := l.length / 2
  swapAll l ((List.range (min half (l.length - half))).map fun t => (t, l.length - 1 - t))

/-- `vertical_flip` (flip.rs:174-192): rows of the first half (`chunks_exact_mut`) are exchanged with the rows of the second
    half taken from the end (`rchunks_exact_mut`).  The exchange through `stride` is a swap of the two rows.
    `chunks_exact` panics when the width is zero. -/
def verticalFlip (l : List α) (w : Nat) : Option (List α) :=
  if w = 0 then none
  else
    let half := l.length / 2
    let rows := min (half / w) ((l.length - half) / w)
    some (swapAll l ((grid rows w).map fun (r, c) => (r * w + c, l.length - (r + 1) * w + c)))

/-- `flop` (flip.rs:204-219): asserts that the width divides the length. -/
def flop (l : List α) (w : Nat) : Option (List α) :=
  if w = 0 ∨ l.length % w ≠ 0 then none
  else some (swapAll l ((grid (l.length / w) (min (w / 2) (w - w / 2))).map fun (y, x) => (y * w + x, y * w + (w - 1 - x))))

/-- `rotate_180` (rotate.rs:167-179): rows of the first half swapped with rows of the second half, last one first; the rows of
    the second half are counted from `len / 2`. -/
def rotate180 (l : List α) (w : Nat) : Option (List α) :=
  if w = 0 then none
  else
    let half := l.length / 2
    let m := (l.length - half) / w
    let rows := min (half / w) m
    some (swapAll l ((grid rows w).map fun (r, c) => (r * w + c, half + (m - 1 - r) * w + c)))

/-- Pixels of `in_image.chunks_exact(width)` with their row and column (rotate.rs:239-242, 251-252). -/
def rowPixels (l : List α) (w : Nat) : List ((Nat × Nat) × α) :=
  (grid (l.length / w) w).filterMap fun (y, x) => (l[y * w + x]?).map fun v => ((y, x), v)

/-- `rotate_90` (rotate.rs:236-248) into `out`; `height - y - 1` underflows (panics) if there are more rows than `h`. -/
def rotate90 (l out : List α) (w h : Nat) : Option (List α) :=
  if w = 0 ∨ l.length / w > h then none
  else some (setAll out ((rowPixels l w).map fun ((y, x), v) => (x * h + (h - y - 1), v)))

/-- `rotate_270` (rotate.rs:250-259) into `out`. -/
def rotate270 (l out : List α) (w h : Nat) : Option (List α) :=
  if w = 0 then none
  else some (setAll out ((rowPixels l w).map fun ((y, x), v) => ((w - x - 1) * h + y, v)))

/-- What `Rotate::execute_impl` does to one channel for the quarter turns (rotate.rs:70-112), `size` being the number of bytes of
    a sample: the new channel holds `new_width*new_height` *bytes* (rotate.rs:73-74), i.e. `w*h/size` samples.
    Simplification: a byte count that is not a multiple of the sample size makes `reinterpret_as_mut` fail; modelled as `none`.
    Other angles are in `OrientModel.lean`. -/
def rotateChannel (size : Nat) (angle : Nat) (dflt : α) (l : List α) (w h : Nat) : Option (List α) :=
  if (w * h) % size ≠ 0 then none
  else
    let out := List.replicate (w * h / size) dflt
    if angle = 180 then
      if out.length ≠ l.length then none else rotate180 l w   -- `copy_from_slice` panics on a length mismatch
    else if angle = 90 then rotate90 l out w h
    else if angle = 270 then rotate270 l out w h
    else none

/-- One tile of `transpose_scalar` (scalar.rs:43-63): fill the 8x8 scratch from rows `8i..8i+8`, columns `8j..8j+8`, then store
    its rows in the output.  `temp` keeps its previous contents where it is not overwritten. -/
def transposeTile (l : List α) (w h i j : Nat) (st : List α × List α) : List α × List α :=
  let temp := setAll st.2 ((grid 8 8).filterMap fun (k, m) => (l[8 * i * w + j * 8 + k * w + m]?).map fun v => (m * 8 + k, v))
  let out := setAll st.1 ((grid 8 8).filterMap fun (m, k) => (temp[m * 8 + k]?).map fun v => (j * h * 8 + i * 8 + m * h + k, v))
  (out, temp)

/-- `for i in lo..hi`, where `lo` is `none` when its computation wrapped around to `usize::MAX`. -/
def remRange (n : Nat) : Option Nat := if n - n % 8 = 0 then none else some (n - n % 8 - 1)

/-- `transpose_scalar` (transpose/scalar.rs:9-79).  `checks` tells whether overflow checks are compiled in (debug builds): then
    the wrapping of `rem_w`/`rem_h` panics; otherwise (release) the loop range is empty.  `dflt` is `T::default()`. -/
def transposeScalar (checks : Bool) (dflt : α) (l out : List α) (w h : Nat) : Option (List α) :=
  if l.length ≠ w * h ∨ out.length ≠ w * h ∨ w = 0 then none
  else
    let (out, _) := (grid (l.length / (8 * w)) (w / 8)).foldl (fun st (i, j) => transposeTile l w h i j st)
      (out, List.replicate 64 dflt)
    if checks ∧ (remRange w = none ∨ remRange h = none) then none
    else
      let rows := match remRange h with
        | none => []
        | some s => (grid (h - s) w).filterMap fun (i, j) => (l[(s + i) * w + j]?).map fun v => (j * h + (s + i), v)
      let out := setAll out rows
      let cols := match remRange w with
        | none => []
        | some s => (grid (w - s) h).filterMap fun (i, j) => (l[j * w + (s + i)]?).map fun v => ((s + i) * h + j, v)
      some (setAll out cols)

/-- `crop` (crop.rs:213-232) into `out`. -/
def crop (l : List α) (iw : Nat) (out : List α) (ow oh x y : Nat) : List α :=
  if iw = 0 ∨ ow = 0 then out
  else
    let rows := min (min (l.length / iw - y) oh) (out.length / ow)
    if x + ow ≤ iw then
      setAll out ((grid rows ow).filterMap fun (r, c) => (l[(y + r) * iw + (x + c)]?).map fun v => (r * ow + c, v))
    else out

/-- `Crop::execute_impl` on one channel (crop.rs:127-176): a zeroed channel of the new size, then `crop`. -/
def cropChannel (dflt : α) (l : List α) (iw ow oh x y : Nat) : List α :=
  crop l iw (List.replicate (ow * oh) dflt) ow oh x y

end Zune.Imageprocs
