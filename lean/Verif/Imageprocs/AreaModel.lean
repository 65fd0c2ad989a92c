/-
Model of the operations of `crates/zune-imageprocs` that look at the neighbourhood of a pixel: `pad`, `spatial`, `spatial_ops` and `median`.
A channel is a row-major list of samples; `none` stands for a panic.

Samples of `u8` and `u16` channels are natural numbers below `2 ^ bits`; arithmetic of these types wraps (release builds) where it can overflow.
-/
import Verif.Imageprocs.PixelModel
import Verif.Imageprocs.Model

namespace Zune.Imageprocs
variable {α σ : Type}

/-- `l[start..start + n]` (spatial.rs:135, median.rs:315): `none` if the slice is out of range. -/
def sliceAt (l : List α) (start n : Nat) : Option (List α) :=
  if start + n ≤ l.length then some ((l.drop start).take n) else none

/-- `l[i] = v` (spatial.rs:145, median.rs:324): `none` if the index is out of range. -/
def putAt (l : List α) (i : Nat) (v : α) : Option (List α) := if i < l.length then some (l.set i v) else none

/-- The chunks of `l.chunks_exact(n)` (median.rs:158, pad.rs:103, 156); `n` is not zero where it is used. -/
def chunksOf (n : Nat) (l : List α) : List (List α) := (List.range (l.length / n)).map fun i => (l.drop (i * n)).take n

/-! ### `pad` -/

/-- One output row of `replicate` (pad.rs:147-149, 158-160, 166-168); `row` is not empty. -/
def padRow (padX : Nat) (row : List α) : Option (List α) :=
  match row.head?, row.getLast? with
  | some a, some z => some (List.replicate padX a ++ row ++ List.replicate padX z)
  | _, _ => none

/-- `out[start..end].copy_from_slice(in_pix)` (pad.rs:105), where `row` has the length of the slice. -/
def fillRow (dflt : α) (padX : Nat) (row : List α) : List α := List.replicate padX dflt ++ row ++ List.replicate padX dflt

/-- `no_fill` (pad.rs:87-108).  The output is kept as the list of its rows.  `chunks_exact` panics for a length of zero. -/
def padConstant (dflt : α) (l : List α) (w h padX padY : Nat) : Option (List α) :=
  if w = 0 then none
  else
    let blank := List.replicate (h + padY * 2) (List.replicate (w + padX * 2) dflt)
    let src := chunksOf w l
    some ((blank.mapIdx fun i r =>
      if padY ≤ i ∧ i < padY + h then (src[i - padY]?.map (fillRow dflt padX)).getD r else r).flatten)

/-- The loop over the first rows of `replicate` (pad.rs:145-150). -/
def padTop (padX padY : Nat) (l : List α) (w : Nat) (rows : List (List α)) : Option (List (List α)) := do
  let first ← sliceAt l 0 w
  let out ← padRow padX first
  return rows.mapIdx fun i r => if i < padY then out else r

/-- The loop over the rows of the picture (pad.rs:152-161). -/
def padMiddle (padX padY : Nat) (l : List α) (w h : Nat) (rows : List (List α)) : Option (List (List α)) := do
  let src ← (chunksOf w l).mapM (padRow padX)
  return rows.mapIdx fun i r => if padY ≤ i ∧ i < padY + h then src[i - padY]?.getD r else r

/-- The loop over the last rows (pad.rs:164-169). -/
def padBottom (padX padY : Nat) (l : List α) (w : Nat) (rows : List (List α)) : Option (List (List α)) := do
  let last ← sliceAt l (l.length - w) w
  let out ← padRow padX last
  return rows.mapIdx fun i r => if rows.length ≤ i + padY then out else r

/-- `replicate` (pad.rs:110-171).  The output is kept as the list of its rows. -/
def padReplicate (dflt : α) (l : List α) (w h padX padY : Nat) : Option (List α) := do
  if w = 0 then none
  let rows := List.replicate (h + padY * 2) (List.replicate (w + padX * 2) dflt)
  let rows ← padTop padX padY l w rows
  let rows ← padMiddle padX padY l w h rows
  let rows ← padBottom padX padY l w rows
  return rows.flatten

/-! ### `spatial` -/

/-- `local_storage` for the output pixel in row `iy`, column `ix` (spatial.rs:130-141, median.rs:309-320); `n` is `radius_size` and `w` the
    width of the padded channel. -/
def window (l : List α) (w n iy ix : Nat) : Option (List α) := do
  let rows ← (List.range n).mapM fun ky => sliceAt l ((iy + ky) * w + ix) n
  return rows.flatten

/-- `spatial` (spatial.rs:106-148) and `spatial_median` (median.rs:285-327), which have the same text except that the function of the second keeps a
    state; `y - radius_loop` and `x - radius_loop` run through the rows and columns of the output.  Prefetching is left out. -/
def spatialLoop (f : σ → List α → Option (α × σ)) (padded out : List α) (r w h : Nat) (st : σ) : Option (List α) :=
  if (r * 2 + h) * (r * 2 + w) ≠ padded.length then none
  else ((grid h w).foldlM (fun (acc : List α × σ) (p : Nat × Nat) => do
      let win ← window padded (r * 2 + w) (2 * r + 1) p.1 p.2
      let (v, st) ← f acc.2 win
      let out ← putAt acc.1 (p.1 * w + p.2) v
      return (out, st)) (out, st)).map fun (acc : List α × σ) => acc.1

/-! ### `spatial_ops` -/

/-- `SpatialOperations` (spatial_ops.rs:18-29). -/
inductive SpatialOp
  | contrast
  | maximum
  | gradient
  | minimum
  | mean
deriving Repr, DecidableEq

/-- The loop of `find_min` (spatial_ops.rs:48-57) and of the two functions after it. -/
def findMin (bits : Nat) (l : List Nat) : Nat := l.foldl (fun m d => if d < m then d else m) (2 ^ bits - 1)

/-- The loop of `find_max` (spatial_ops.rs:102-111) and of the two functions before it. -/
def findMax (l : List Nat) : Nat := l.foldl (fun m d => if d > m then d else m) 0

/-- `find_contrast` (spatial_ops.rs:59-79): `maximum + minimum` wraps, adding one saturates. -/
def findContrast (bits : Nat) (l : List Nat) : Nat :=
  let mx := findMax l
  let mn := findMin bits l
  (mx - mn) / min ((mx + mn) % 2 ^ bits + 1) (2 ^ bits - 1)

/-- `find_gradient` (spatial_ops.rs:81-99). -/
def findGradient (bits : Nat) (l : List Nat) : Nat := findMax l - findMin bits l

/-- `find_mean` (spatial_ops.rs:114-127): a sum in `u32`, which wraps, and a division, cast to the type of the samples. -/
def findMean (bits : Nat) (l : List Nat) : Nat := (l.sum % 2 ^ 32) / l.length % 2 ^ bits

/-- The function chosen by `spatial_ops` (spatial_ops.rs:179-185). -/
def SpatialOp.fn (bits : Nat) : SpatialOp → List Nat → Nat
  | .contrast => findContrast bits
  | .maximum => findMax
  | .gradient => findGradient bits
  | .minimum => findMin bits
  | .mean => findMean bits

/-- `spatial_ops` (spatial_ops.rs:141-188). -/
def spatialOps (bits : Nat) (op : SpatialOp) (l out : List Nat) (r w h : Nat) : Option (List Nat) := do
  let padded ← padReplicate 0 l w h r r
  spatialLoop (fun (_ : Unit) win => some (op.fn bits win, ())) padded out r w h ()

/-- What `SpatialOps::execute_impl` does to a channel (spatial.rs:47-71): the result goes to a new channel of zeroes. -/
def spatialChannel (bits : Nat) (op : SpatialOp) (l : List Nat) (r w h : Nat) : Option (List Nat) :=
  spatialOps bits op l (List.replicate l.length 0) r w h

/-! ### `median` -/

/-- `histogram[v] += 1` (median.rs:149, 160, 231, 242).  (Simplified: counters do not wrap; a window has less than 2^32 samples.) -/
def histAdd (hist : List Nat) (v : Nat) : Option (List Nat) := hist[v]?.map fun c => hist.set v (c + 1)

/-- `histogram[v] -= 1` (median.rs:154, 236); `none` also for going below zero. -/
def histDrop (hist : List Nat) (v : Nat) : Option (List Nat) :=
  match hist[v]? with
  | some (c + 1) => some (hist.set v c)
  | _ => none

/-- The search for the median (median.rs:165-175, 247-257) from value `i` on with `acc` samples so far. -/
def searchMedian (pos : Nat) : List Nat → Nat → Nat → Nat
  | [], _, _ => 0
  | c :: t, i, acc => if acc + c ≥ pos then i else searchMedian pos t (i + 1) (acc + c)

/-- The variables that `func` keeps (median.rs:125-136, 209-218). -/
structure MedianState where
  hist : List Nat
  dropped : List Nat
  counter : Nat

/-- `func` (median.rs:138-189, 220-271); `n` is `radius_size`, `w` the width. -/
def medianStep (bits n w : Nat) (st : MedianState) (win : List Nat) : Option (Nat × MedianState) := do
  let hist ← if st.counter % w = 0 then win.foldlM histAdd (List.replicate (2 ^ bits) 0)
    else do
      let hist ← st.dropped.foldlM histDrop st.hist
      let last ← (chunksOf n win).mapM (·.getLast?)
      last.foldlM histAdd hist
  let firsts ← (chunksOf n win).mapM (·.head?)
  let dropped := firsts.take st.dropped.length ++ st.dropped.drop firsts.length
  return (searchMedian (win.length / 2) hist 0 0, ⟨hist, dropped, st.counter + 1⟩)

/-- `median_u8` with `bits = 8`, `median_u16` with `bits = 16` (median.rs:111-201, 203-283). -/
def median (bits : Nat) (l out : List Nat) (r w h : Nat) : Option (List Nat) := do
  let padded ← padReplicate 0 l w h r r
  spatialLoop (medianStep bits (2 * r + 1) w) padded out r w h ⟨List.replicate (2 ^ bits) 0, List.replicate (2 * r + 1) 0, 0⟩

/-- What `Median::execute_impl` does to a channel (median.rs:75-102). -/
def medianChannel (bits : Nat) (l : List Nat) (r w h : Nat) : Option (List Nat) :=
  if r < 2 then some l else median bits l (List.replicate l.length 0) r w h

end Zune.Imageprocs
