/- PNG scanline filters: the decoder's reconstruction functions (scalar, SSE and portable SIMD variants) and the encoder's filters. -/
import Verif.Common.Bytes
import Verif.Common.Loops

namespace Zune.Png

/-- `for i in lo..hi { c[i] = g(i, c) }`: the element loops of crates/zune-png/src/filters/de_filter.rs (lines 46-48, 57-68,
    100-102, 106-109, …).  A store outside the buffer is dropped; in the source it would abort, every loop here stays in range. -/
def fillLoop (g : Nat → List UInt8 → UInt8) (lo hi : Nat) (c : List UInt8) : List UInt8 :=
  (List.range' lo (hi - lo)).foldl (fun c i => c.set i (g i c)) c

/-- Reading `row[i]`.  Out of range the source aborts; the theorems only use rows which are long enough. -/
def at' (row : List UInt8) (i : Nat) : UInt8 := row.getD i 0

/-- crates/zune-png/src/filters/de_filter.rs:242-258 `paeth` (the arithmetic is `i32`; all values lie in `[-510, 765]`). -/
def paeth (a b c : UInt8) : UInt8 :=
  let thresh : Int := (c.toNat : Int) * 3 - ((a.toNat : Int) + (b.toNat : Int))
  let lo : UInt8 := if a < b then a else b
  let hi : UInt8 := if a < b then b else a
  let t0 : UInt8 := if (hi.toNat : Int) ≤ thresh then lo else c
  if thresh ≤ (lo.toNat : Int) then hi else t0

/-- The overflow-free average of crates/zune-png/src/filters/de_filter.rs:65. -/
def avg (a b : UInt8) : UInt8 := (a &&& b) + ((a ^^^ b) >>> 1)

/-- crates/zune-png/src/filters/de_filter.rs:10-69 `handle_avg`, the scalar path (lines 43-68). -/
def handleAvg (prev raw cur : List UInt8) (n : Nat) : List UInt8 :=
  if raw.length < n ∨ cur.length < n then cur else
  let cur := fillLoop (fun i _ => at' raw i + (at' prev i >>> 1)) 0 n cur
  if n > 8 then cur else
  fillLoop (fun i c => at' raw i + avg (at' c (i - n)) (at' prev i)) n (min (min cur.length raw.length) prev.length) cur

/-- crates/zune-png/src/filters/de_filter.rs:72-110 `handle_sub`, the scalar path (lines 99-109). -/
def handleSub (raw cur : List UInt8) (n : Nat) : List UInt8 :=
  if cur.length < n ∨ raw.length < n then cur else
  let cur := fillLoop (fun i _ => at' raw i) 0 n cur
  fillLoop (fun i c => at' raw i + at' c (i - n)) n (min cur.length raw.length) cur

/-- crates/zune-png/src/filters/de_filter.rs:113-189 `handle_paeth`, the scalar path (lines 169-188). -/
def handlePaeth (prev raw cur : List UInt8) (n : Nat) : List UInt8 :=
  if raw.length < n ∨ cur.length < n then cur else
  let cur := fillLoop (fun i _ => at' raw i + paeth 0 (at' prev i) 0) 0 n cur
  if n > 8 then cur else
  fillLoop (fun i c => at' raw i + paeth (at' c (i - n)) (at' prev i) (at' prev (i - n))) n
    (min (min cur.length raw.length) prev.length) cur

/-- crates/zune-png/src/filters/de_filter.rs:191-195 `handle_up`: `raw.zip(current).zip(prev_row)`. -/
def handleUp : List UInt8 → List UInt8 → List UInt8 → List UInt8
  | u :: prev, f :: raw, _ :: cur => (f + u) :: handleUp prev raw cur
  | _, _, cur => cur

/-- crates/zune-png/src/filters/de_filter.rs:201-217 `handle_paeth_first`. -/
def handlePaethFirst (raw cur : List UInt8) (n : Nat) : List UInt8 :=
  if raw.length < n ∨ cur.length < n then cur else
  let cur := fillLoop (fun i _ => at' raw i) 0 n cur
  fillLoop (fun i c => at' raw i + paeth (at' c (i - n)) 0 0) n (min cur.length raw.length) cur

/-- crates/zune-png/src/filters/de_filter.rs:223-239 `handle_avg_first`. -/
def handleAvgFirst (raw cur : List UInt8) (n : Nat) : List UInt8 :=
  if raw.length < n ∨ cur.length < n then cur else
  let cur := fillLoop (fun i _ => at' raw i) 0 n cur
  fillLoop (fun i c => at' raw i + (at' c (i - n) >>> 1)) n (min cur.length raw.length) cur

/-! ### SIMD variants

    A vector is the list of its first `SIZE` lanes.  Every intrinsic used acts lane by lane (`unpacklo`/`packus` pair byte `i`
    with word `i`), and only the lanes below `SIZE` are ever copied out, so the other lanes are left out. -/

/-- crates/zune-png/src/filters/sse4.rs:175-189 `de_filter_sub_generic_sse2` and
    crates/zune-png/src/filters/portable_simd.rs:4-18 `defilter_sub_generic`; `d` is the vector of the previous pixel. -/
def subSimd (size : Nat) (d raw cur : List UInt8) : List UInt8 :=
  if h : 0 < size ∧ size ≤ raw.length ∧ size ≤ cur.length then
    let o := List.zipWith (· + ·) (raw.take size) d
    o ++ subSimd size o (raw.drop size) (cur.drop size)
  else cur
termination_by raw.length
decreasing_by simp only [List.length_drop]; omega

/-- One byte lane of `_mm_avg_epu8(a,b) - ((a ^ b) & 1)`, crates/zune-png/src/filters/sse4.rs:313-315:
    `_mm_avg_epu8` is `(a + b + 1) >> 1` computed without overflow. -/
def avgSse (a b : UInt8) : UInt8 := UInt8.ofNat ((a.toNat + b.toNat + 1) / 2) - ((a ^^^ b) &&& 1)

/-- crates/zune-png/src/filters/sse4.rs:282-323 `defilter_avg_sse2_inner` (with `f = avgSse`) and
    crates/zune-png/src/filters/portable_simd.rs:20-49 `defilter_avg_generic` (with `f = avg`). -/
def avgSimd (f : UInt8 → UInt8 → UInt8) (size : Nat) (d prev raw cur : List UInt8) : List UInt8 :=
  if h : 0 < size ∧ size ≤ prev.length ∧ size ≤ raw.length ∧ size ≤ cur.length then
    let o := List.zipWith (· + ·) (raw.take size) (List.zipWith f d (prev.take size))
    o ++ avgSimd f size o (prev.drop size) (raw.drop size) (cur.drop size)
  else cur
termination_by raw.length
decreasing_by simp only [List.length_drop]; omega

/-- `_mm_abs_epi16` on one lane, used at crates/zune-png/src/filters/sse4.rs:238-257. -/
def abs16 (x : BitVec 16) : BitVec 16 := if x.slt 0 then -x else x

/-- `_mm_min_epi16` on one lane, used at crates/zune-png/src/filters/sse4.rs:238-257. -/
def min16 (x y : BitVec 16) : BitVec 16 := if x.slt y then x else y

/-- One 16-bit lane of crates/zune-png/src/filters/sse4.rs:238-257 (`_mm_sub_epi16` … `if_then_else`): the selected neighbour.
    The lanes hold zero-extended bytes. -/
def paethSse (a b c : UInt8) : UInt8 :=
  let wa := a.toBitVec.zeroExtend 16
  let wb := b.toBitVec.zeroExtend 16
  let wc := c.toBitVec.zeroExtend 16
  let pa := wb - wc
  let pb := wa - wc
  let pc := pa + pb
  let pa := abs16 pa
  let pb := abs16 pb
  let pc := abs16 pc
  let smallest := min16 pc (min16 pa pb)
  if smallest = pa then a else if smallest = pb then b else c

/-- One lane of crates/zune-png/src/filters/portable_simd.rs:72-83: same comparisons, the minimum taken in another order. -/
def paethPortable (a b c : UInt8) : UInt8 :=
  let wa := a.toBitVec.zeroExtend 16
  let wb := b.toBitVec.zeroExtend 16
  let wc := c.toBitVec.zeroExtend 16
  let pa := wb - wc
  let pb := wa - wc
  let pc := pa + pb
  let pa := abs16 pa
  let pb := abs16 pb
  let pc := abs16 pc
  let smallest := min16 (min16 pa pb) pc
  let p := if smallest = pb then b else c
  if smallest = pa then a else p

/-- crates/zune-png/src/filters/sse4.rs:213-266 `de_filter_paeth_sse41_inner` (with `f = paethSse`) and
    crates/zune-png/src/filters/portable_simd.rs:52-92 `defilter_paeth_generic` (with `f = paethPortable`); `d` is the vector of the
    previous pixel, `b` that of the pixel above it.  The 16-bit lanes of `d` hold bytes, so they are kept as bytes here. -/
def paethSimd (f : UInt8 → UInt8 → UInt8 → UInt8) (size : Nat) (d b prev raw cur : List UInt8) : List UInt8 :=
  if h : 0 < size ∧ size ≤ prev.length ∧ size ≤ raw.length ∧ size ≤ cur.length then
    let c := b
    let b := prev.take size
    let nearest := List.zipWith (fun p c => f p.1 p.2 c) (List.zip d b) c
    let o := List.zipWith (· + ·) (raw.take size) nearest
    o ++ paethSimd f size o b (prev.drop size) (raw.drop size) (cur.drop size)
  else cur
termination_by raw.length
decreasing_by simp only [List.length_drop]; omega

/-- Which implementation the build and the CPU select (crates/zune-png/src/filters/de_filter.rs:17-41 and the same blocks in the other
    two functions). -/
inductive Isa | scalar | sse | portable
  deriving DecidableEq, Repr

/-- The widths the SIMD variants are instantiated for, crates/zune-png/src/filters/de_filter.rs:20-23. -/
def simdSize (n : Nat) : Bool := n == 3 || n == 4 || n == 6 || n == 8

/-- crates/zune-png/src/filters/de_filter.rs:10-69 `handle_avg` with its dispatch. -/
def doAvg (isa : Isa) (prev raw cur : List UInt8) (n : Nat) : List UInt8 :=
  if raw.length < n ∨ cur.length < n then cur else
  match isa, simdSize n with
  | .portable, true => avgSimd avg n (List.replicate n 0) prev raw cur
  | .sse, true => avgSimd avgSse n (List.replicate n 0) prev raw cur
  | _, _ => handleAvg prev raw cur n

/-- crates/zune-png/src/filters/de_filter.rs:72-110 `handle_sub` with its dispatch. -/
def doSub (isa : Isa) (raw cur : List UInt8) (n : Nat) : List UInt8 :=
  if cur.length < n ∨ raw.length < n then cur else
  match isa, simdSize n with
  | .scalar, _ => handleSub raw cur n
  | _, true => subSimd n (List.replicate n 0) raw cur
  | _, false => handleSub raw cur n

/-- crates/zune-png/src/filters/de_filter.rs:113-189 `handle_paeth` with its dispatch. -/
def doPaeth (isa : Isa) (prev raw cur : List UInt8) (n : Nat) : List UInt8 :=
  if raw.length < n ∨ cur.length < n then cur else
  match isa, simdSize n with
  | .portable, true => paethSimd paethPortable n (List.replicate n 0) (List.replicate n 0) prev raw cur
  | .sse, true => paethSimd paethSse n (List.replicate n 0) (List.replicate n 0) prev raw cur
  | _, _ => handlePaeth prev raw cur n

/-- One step of the row loop of crates/zune-png/src/decoder.rs:1026-1070: the filter byte is mapped (`FilterMethod::from_int`,
    crates/zune-png/src/enums.rs:89-98; the first row uses the variants without a previous row, decoder.rs:1035-1052) and the row is
    reconstructed into `cur`, the row of the output buffer.  `prev = none` is the first row; `none` is "Unknown filter". -/
def unfilterRow (isa : Isa) (t : UInt8) (n : Nat) (prev : Option (List UInt8)) (raw cur : List UInt8) :
    Option (List UInt8) :=
  match prev with
  | none =>
    if t = 0 ∨ t = 2 then some (raw ++ cur.drop raw.length)
    else if t = 1 then some (doSub isa raw cur n)
    else if t = 3 then some (handleAvgFirst raw cur n)
    else if t = 4 then some (handlePaethFirst raw cur n)
    else none
  | some prev =>
    if t = 0 then some (raw ++ cur.drop raw.length)
    else if t = 1 then some (doSub isa raw cur n)
    else if t = 2 then some (handleUp prev raw cur)
    else if t = 3 then some (doAvg isa prev raw cur n)
    else if t = 4 then some (doPaeth isa prev raw cur n)
    else none

/-! ### Encoder filters -/

/-- crates/zune-png/src/filters/filter.rs:9-19 `sub_filter` (`output` is as long as `input`). -/
def subFilter (input : List UInt8) (n : Nat) : List UInt8 :=
  input.take n ++ List.zipWith (fun x a => x - a) (input.drop n) input

/-- crates/zune-png/src/filters/filter.rs:21-28 `up_filter` (all three slices have the same length). -/
def upFilter (input up : List UInt8) : List UInt8 := List.zipWith (fun x u => x - u) input up

/-- crates/zune-png/src/filters.rs:18-24 `choose_compression_filter`: None for the first row, Up for all others. -/
def chooseFilter (prev : List UInt8) : UInt8 := if prev.isEmpty then 0 else 2

/-- crates/zune-png/src/filters.rs:26-41 `filter_scanline` (the filter byte and the filtered row; the Sub arm is never selected by
    `choose_compression_filter`). -/
def filterScanline (input prev : List UInt8) (filter : UInt8) (n : Nat) : List UInt8 :=
  filter :: (if filter = 0 then input else if filter = 1 then subFilter input n else upFilter input prev)

namespace Spec

/-! PNG specification (RFC 2083 section 6), over the integers. -/

/-- The byte `bpp` before position `i`, 0 to the left of the row. -/
def before (row : List UInt8) (bpp i : Nat) : Nat := if bpp ≤ i then (row.getD (i - bpp) 0).toNat else 0

/-- The byte at position `i`; a missing row above counts as zero. -/
def above (row : List UInt8) (i : Nat) : Nat := (row.getD i 0).toNat

/-- RFC 2083 6.6 `PaethPredictor`. -/
def paeth (a b c : Nat) : Nat :=
  let p : Int := a + b - c
  let pa := (p - a).natAbs
  let pb := (p - b).natAbs
  let pc := (p - c).natAbs
  if pa ≤ pb ∧ pa ≤ pc then a else if pb ≤ pc then b else c

/-- The prediction of filter type `t`. -/
def predict (t a b c : Nat) : Nat :=
  match t with
  | 1 => a
  | 2 => b
  | 3 => (a + b) / 2
  | 4 => paeth a b c
  | _ => 0

/-- The filtered row: each byte minus its prediction, modulo 256.  `prev = []` for the first row. -/
def filterRow (t bpp : Nat) (prev row : List UInt8) : List UInt8 :=
  row.mapIdx fun i x =>
    UInt8.ofNat ((x.toNat + 256 - predict t (before row bpp i) (above prev i) (before prev bpp i)) % 256)

end Spec

end Zune.Png
