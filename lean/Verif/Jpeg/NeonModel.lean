import Verif.Jpeg.IdctModel
import Verif.Jpeg.UpsampleModel

/-!
# zune-jpeg: NEON kernels (model)

Model of `crates/zune-jpeg/src/idct/neon.rs`, `unsafe_utils_neon.rs`, `color_convert/neon64.rs` and
`upsampler/neon.rs`, which replace the scalar functions on aarch64.

The NEON instructions are modelled lane by lane from the Arm manual; that model is trusted.
-/

namespace Zune.Jpeg

/-! ## Inverse transform -/

/-- `int32x4_t`: four lanes (unsafe_utils_neon.rs:18). -/
abbrev Q32 := Fin 4 → I32

/-- `YmmRegister` (unsafe_utils_neon.rs:18-30): `int32x4x2_t`. Its `+`, `-` and `*` (`map2`, lines 38-46, 83-142) are those of
pairs and functions. -/
abbrev Ymm4 := Q32 × Q32

/-- `YmmRegister::from(i32)` (unsafe_utils_neon.rs:168-179). -/
def dupN (k : I32) : Ymm4 := (fun _ => k, fun _ => k)

/-- `const_shl` (unsafe_utils_neon.rs:57-68). -/
def shlN (a : Ymm4) (n : Nat) : Ymm4 := (fun l => a.1 l <<< n, fun l => a.2 l <<< n)

/-- `const_shra` (unsafe_utils_neon.rs:70-80). -/
def shraN (a : Ymm4) (n : Nat) : Ymm4 := (fun l => (a.1 l).sshiftRight n, fun l => (a.2 l).sshiftRight n)

/-- `all_zero` (unsafe_utils_neon.rs:48-55): the greatest lane of the `or` of both halves, as `u32`, is 0. -/
def allZeroN (a : Ymm4) : Bool :=
  0 == (List.finRange 4).foldl (fun m l => max m (a.1 l ||| a.2 l).toNat) 0

/-- The `BitOr` of registers (unsafe_utils_neon.rs:144-155). -/
def orN (a b : Ymm4) : Ymm4 := (fun l => a.1 l ||| b.1 l, fun l => a.2 l ||| b.2 l)

/-- `YmmRegister::load` of eight entries from index `8*r` (unsafe_utils_neon.rs:20-36, neon.rs:71-78). -/
def loadN (v : Block) (r : Fin 8) : Ymm4 := (![v r 0, v r 1, v r 2, v r 3], ![v r 4, v r 5, v r 6, v r 7])

/-- `vtrn1q_s64` on registers of four `i32` (unsafe_utils_neon.rs:194-201). -/
def vtrn1q64 {α} (a b : Fin 4 → α) : Fin 4 → α := ![a 0, a 1, b 0, b 1]

/-- `vtrn2q_s64` on registers of four `i32` (unsafe_utils_neon.rs:204-211). -/
def vtrn2q64 {α} (a b : Fin 4 → α) : Fin 4 → α := ![a 2, a 3, b 2, b 3]

/-- `vtrnq_s32` (unsafe_utils_neon.rs:193, 203). -/
def vtrnq32 {α} (a b : Fin 4 → α) : (Fin 4 → α) × (Fin 4 → α) := (![a 0, b 0, a 2, b 2], ![a 1, b 1, a 3, b 3])

/-- `transpose4` (unsafe_utils_neon.rs:188-218). -/
def transpose4 {α} (v : Fin 4 → Fin 4 → α) : Fin 4 → Fin 4 → α :=
  let w0 := vtrnq32 (vtrn1q64 (v 0) (v 2)) (vtrn1q64 (v 1) (v 3))
  let w1 := vtrnq32 (vtrn2q64 (v 0) (v 2)) (vtrn2q64 (v 1) (v 3))
  ![w0.1, w0.2, w1.1, w1.2]

/-- `transpose` (unsafe_utils_neon.rs:226-265): the upper right and lower left quarters are exchanged, then each quarter is transposed. -/
def transposeN {α} (v : Fin 8 → (Fin 4 → α) × (Fin 4 → α)) : Fin 8 → (Fin 4 → α) × (Fin 4 → α) :=
  let ul := transpose4 ![(v 0).1, (v 1).1, (v 2).1, (v 3).1]
  let ur := transpose4 ![(v 4).1, (v 5).1, (v 6).1, (v 7).1]
  let ll := transpose4 ![(v 0).2, (v 1).2, (v 2).2, (v 3).2]
  let lr := transpose4 ![(v 4).2, (v 5).2, (v 6).2, (v 7).2]
  ![(ul 0, ur 0), (ul 1, ur 1), (ul 2, ur 2), (ul 3, ur 3), (ll 0, lr 0), (ll 1, lr 1), (ll 2, lr 2), (ll 3, lr 3)]

/-- `dct_pass!` (neon.rs:131-186). -/
def dctPassN (bias : I32) (scale : Nat) (row : Fin 8 → Ymm4) : Fin 8 → Ymm4 :=
  let p1 := (row 2 + row 6) * dupN 2217
  let t2 := p1 + row 6 * dupN (-7567)
  let t3 := p1 + row 2 * dupN 3135
  let t0 := shlN (row 0 + row 4) 12
  let t1 := shlN (row 0 - row 4) 12
  let x0 := t0 + t3 + dupN bias
  let x3 := t0 - t3 + dupN bias
  let x1 := t1 + t2 + dupN bias
  let x2 := t1 - t2 + dupN bias
  let p3 := row 7 + row 3
  let p4 := row 5 + row 1
  let p1 := row 7 + row 1
  let p2 := row 5 + row 3
  let p5 := (p3 + p4) * dupN 4816
  let t0 := row 7 * dupN 1223
  let t1 := row 5 * dupN 8410
  let t2 := row 3 * dupN 12586
  let t3 := row 1 * dupN 6149
  let p1 := p5 + p1 * dupN (-3685)
  let p2 := p5 + p2 * dupN (-10497)
  let p3 := p3 * dupN (-8034)
  let p4 := p4 * dupN (-1597)
  let t3 := t3 + (p1 + p4)
  let t2 := t2 + (p2 + p3)
  let t1 := t1 + (p2 + p4)
  let t0 := t0 + (p1 + p3)
  ![shraN (x0 + t3) scale, shraN (x1 + t2) scale, shraN (x2 + t1) scale, shraN (x3 + t0) scale,
    shraN (x3 - t0) scale, shraN (x2 - t1) scale, shraN (x1 - t2) scale, shraN (x0 - t3) scale]

/-- `i32` to `i16` with saturation: one lane of `vqmovn_s32` (neon.rs:43). -/
def vqmovn (a : I32) : Int := if a.toInt < -32768 then -32768 else if 32767 < a.toInt then 32767 else a.toInt

/-- `pack_16` and `clamp_neon` (neon.rs:42-50, 206-234, 242-257): one row of samples. -/
def packClamp (a : Ymm4) : Fin 8 → Int :=
  let c (x : I32) : Int := min (max (vqmovn x) 0) 255
  ![c (a.1 0), c (a.1 1), c (a.1 2), c (a.1 3), c (a.2 0), c (a.2 1), c (a.2 2), c (a.2 3)]

/-- The `or` tree (neon.rs:93-95), with `row8` loaded from index 1. -/
def orTree (v : Block) : Ymm4 :=
  let row8 : Ymm4 := (![v 0 1, v 0 2, v 0 3, v 0 4], ![v 0 5, v 0 6, v 0 7, v 1 0])
  orN (orN (orN (loadN v 1) row8) (orN (loadN v 2) (loadN v 3)))
    (orN (orN (loadN v 4) (loadN v 5)) (orN (loadN v 6) (loadN v 7)))

/-- `idct_neon` (neon.rs:61-240): the rows of samples; `in_vector` is left as it is. (Simplified as `idctAvx2`: the sum of line 101
wraps around instead of panicking in a debug build; the rows are given instead of stored every `stride` places.) -/
def idctNeon (v : Block) : Done :=
  if allZeroN (orTree v) then ⟨v, fun _ _ => clampI ((v 0 0 + 4 + 1024).sshiftRight 3)⟩
  else
    let w := transposeN (dctPassN 512 10 (loadN v))
    ⟨v, fun r => packClamp (transposeN (dctPassN scaleBits 17 w) r)⟩

/-- The transforms on aarch64 with NEON (idct.rs:51-104): only the full one has a NEON variant. -/
def neonIsa : Isa := ⟨idctNeon, idct4x4, idct1x1⟩

/-! ## Colour conversion -/

/-- Wrap to `i32`: the sums of `vmlal_laneq_s16` (neon64.rs:65-105). -/
def wrap32 (x : Int) : Int := (x + 2147483648) % 4294967296 - 2147483648

/-- The lanes of `coefficients` (neon64.rs:17-36, 46): `C_1` and `C_2`, constants of
color_convert/scalar.rs:15-22. -/
def neonCoeffs : Fin 8 → Int := ![16384, 22970, 29032, -11700, -5638, 0, 0, 0]

/-- `vmlal_laneq_s16::<k>(acc, a, coefficients)` (neon64.rs:65-78, 86-89, 102-105) on lanes. -/
def vmlal (k : Fin 8) (acc a : List Int) : List Int := List.zipWith (fun s x => wrap32 (s + x * neonCoeffs k)) acc a

/-- `vqshrun_n_s32::<14>` (neon64.rs:81-84, 91-94, 107-110): shift and saturate to `u16`. -/
def vqshrun14 (a : List Int) : List Int := a.map fun x => max 0 (min 65535 (x / 2 ^ 14))

/-- `vqmovn_u16` (neon64.rs:96-100, 112-113): saturate to `u8`. -/
def vqmovnU16 (a : List Int) : List UInt8 := a.map fun x => UInt8.ofNat (min 255 x).toNat

/-- `ycbcr_to_rgb_baseline_no_clamp` (neon64.rs:38-120). -/
def neonBase (y cb cr : List Int) : List UInt8 × List UInt8 × List UInt8 :=
  let sub (l : List Int) := l.map fun x => wrap16 (x - 128)
  let y0 := y.take 8
  let y1 := (y.drop 8).take 8
  let cb0 := sub (cb.take 8)
  let cb1 := sub ((cb.drop 8).take 8)
  let cr0 := sub (cr.take 8)
  let cr1 := sub ((cr.drop 8).take 8)
  let bias : List Int := List.replicate 4 8191
  let acc0 := vmlal 0 bias (y0.take 4)
  let acc1 := vmlal 0 bias (y0.drop 4)
  let acc2 := vmlal 0 bias (y1.take 4)
  let acc3 := vmlal 0 bias (y1.drop 4)
  let r0 := vmlal 1 acc0 (cr0.take 4)
  let r1 := vmlal 1 acc1 (cr0.drop 4)
  let r2 := vmlal 1 acc2 (cr1.take 4)
  let r3 := vmlal 1 acc3 (cr1.drop 4)
  let b0 := vmlal 2 acc0 (cb0.take 4)
  let b1 := vmlal 2 acc1 (cb0.drop 4)
  let b2 := vmlal 2 acc2 (cb1.take 4)
  let b3 := vmlal 2 acc3 (cb1.drop 4)
  let g0 := vmlal 3 (vmlal 4 acc0 (cb0.take 4)) (cr0.take 4)
  let g1 := vmlal 3 (vmlal 4 acc1 (cb0.drop 4)) (cr0.drop 4)
  let g2 := vmlal 3 (vmlal 4 acc2 (cb1.take 4)) (cr1.take 4)
  let g3 := vmlal 3 (vmlal 4 acc3 (cb1.drop 4)) (cr1.drop 4)
  let pack (a b c d : List Int) : List UInt8 :=
    vqmovnU16 (vqshrun14 a ++ vqshrun14 b) ++ vqmovnU16 (vqshrun14 c ++ vqshrun14 d)
  (pack r0 r1 r2 r3, pack g0 g1 g2 g3, pack b0 b1 b2 b3)

/-- `vst3q_u8` (neon64.rs:130): three registers interleaved. -/
def vst3 (r g b : List UInt8) : List UInt8 := ((r.zip (g.zip b)).map fun (r, g, b) => [r, g, b]).flatten

/-- `vst4q_u8` with the fourth register full of 255 (neon64.rs:141). -/
def vst4 (r g b : List UInt8) : List UInt8 := ((r.zip (g.zip b)).map fun (r, g, b) => [r, g, b, 255]).flatten

/-- `ycbcr_to_rgb_neon` and `ycbcr_to_rgba_neon` (neon64.rs:122-144): the bytes written from the start of `out` on. (Simplified: the
stores do not check the length of `out`; the callers give places for sixteen pixels, worker.rs:302, 333-363.) -/
def conv16Neon (alpha : Bool) (y cb cr : List Int) : List UInt8 :=
  let p := neonBase y cb cr
  if alpha then vst4 p.1 p.2.1 p.2.2 else vst3 p.1 p.2.1 p.2.2

/-- `choose_ycbcr_to_rgb_convert_func` on aarch64 with NEON (color_convert.rs:83-102). -/
def conv16OnNeon (l : Layout) : List Int → List Int → List Int → List UInt8 :=
  match l with
  | .rgb => conv16Neon false
  | .rgba => conv16Neon true
  | l => conv16Scalar l

/-- `color_convert_ycbcr` (worker.rs:294-374) with that choice. -/
def ycbcrLinesNeon (l : Layout) (width padded : Nat) (y cb cr : List Int) (out : List UInt8) : Option (List UInt8) :=
  lineLoop (width * l.n) padded
    (fun p o => match p with
      | [y, cb, cr] => ycbcrBody (conv16OnNeon l) l.n width y cb cr o
      | _ => none)
    (out.length + 1) [y, cb, cr] out

/-! ## Upsampling -/

/-- `vzip1q_s16` (upsampler/neon.rs:54): the lower halves interleaved. -/
def vzip1 (a b : List Int) : List Int := (List.zipWith (fun x y => [x, y]) (a.take 4) (b.take 4)).flatten

/-- `vzip2q_s16` (upsampler/neon.rs:55): the upper halves interleaved. -/
def vzip2 (a b : List Int) : List Int := (List.zipWith (fun x y => [x, y]) (a.drop 4) (b.drop 4)).flatten

/-- `upsample8` of `upsample_horizontal_neon` (upsampler/neon.rs:37-62): ten samples to sixteen. -/
def hNeon8 (w : List Int) : List Int :=
  let prev := w.take 8
  let curr := (w.drop 1).take 8
  let next := (w.drop 2).take 8
  let common := curr.map fun x => wrap16 (wrap16 (x * 3) + 2)
  let even := List.zipWith (fun x y => wrap16 (x + y) / 2 ^ 2) common prev
  let odd := List.zipWith (fun x y => wrap16 (x + y) / 2 ^ 2) common next
  vzip1 even odd ++ vzip2 even odd

/-- The loop over `input.windows(10).step_by(8)` and `output[2..].chunks_exact_mut(16)` (upsampler/neon.rs:64-70). -/
def hNeonLoop : Nat → List Int → List Int → List Int
  | 0, _, out => out
  | fuel + 1, input, out =>
    if 10 ≤ input.length ∧ 16 ≤ out.length then
      hNeon8 (input.take 10) ++ hNeonLoop fuel (input.drop 8) (out.drop 16)
    else out

/-- The remainder (upsampler/neon.rs:73-78): the last ten samples once more, written before the last two places. -/
def hNeonRest (input out : List Int) : List Int :=
  if 10 ≤ input.length ∧ 16 ≤ out.length - 2 then
    out.take (out.length - 2 - 16) ++ hNeon8 (input.drop (input.length - 10)) ++ out.drop (out.length - 2)
  else out

/-- `upsample_horizontal_neon` (upsampler/neon.rs:14-83). -/
def upHNeon (input out : List Int) : Option (List Int) :=
  if input.length * 2 = out.length ∧ 2 < input.length then
    if input.length < 10 then upHScalar input out
    else
      match hFirst input out with
      | none => none
      | some out =>
        hLast input (hNeonRest input (out.take 2 ++ hNeonLoop (input.length + 1) input (out.drop 2)))
  else none

/-- One output of `upsample8` of `upsample_vertical_neon` (upsampler/neon.rs:110-133). -/
def vNeon8 (input other : List Int) : List Int :=
  List.zipWith (fun x y => wrap16 (wrap16 (wrap16 (x * 3) + 2) + y) / 2 ^ 2) input other

/-- The loop over chunks of eight (upsampler/neon.rs:135-150), for one of the two output rows. -/
def vNeonLoop : Nat → List Int → List Int → List Int → List Int
  | 0, _, _, out => out
  | fuel + 1, input, other, out =>
    if 8 ≤ input.length ∧ 8 ≤ other.length ∧ 8 ≤ out.length then
      vNeon8 (input.take 8) (other.take 8) ++ vNeonLoop fuel (input.drop 8) (other.drop 8) (out.drop 8)
    else out

/-- The remainder (upsampler/neon.rs:153-163): the last eight of each row, for one of the two output rows. -/
def vNeonRest (input other out : List Int) : List Int :=
  if 8 ≤ input.length ∧ 8 ≤ other.length ∧ 8 ≤ out.length then
    out.take (out.length - 8) ++ vNeon8 (input.drop (input.length - 8)) (other.drop (other.length - 8))
  else out

/-- `upsample_vertical_neon` (upsampler/neon.rs:87-164). (Simplified as `upVAvx`: the two output rows are filled one after the other.) -/
def upVNeon (input near far out : List Int) : Option (List Int) :=
  if input.length * 2 = out.length ∧ near.length = input.length ∧ far.length = input.length then
    if input.length < 16 then upVScalar input near far out
    else
      let middle := out.length / 2
      let fuel := input.length + 1
      let top := vNeonLoop fuel input near (out.take middle)
      let bottom := vNeonLoop fuel input far (out.drop middle)
      some (vNeonRest input near top ++ vNeonRest input far bottom)
  else none

/-- `upsample_hv_neon` (upsampler/neon.rs:168-189). (Simplified as `upHV`: the scratch space is not returned.) -/
def upHVNeon (input near far scratch out : List Int) : Option (List Int) :=
  if input.length * 4 = out.length ∧ input.length * 2 = scratch.length then
    match upVNeon input near far scratch with
    | none => none
    | some s =>
      let half := s.length / 2
      let outHalf := out.length / 2
      match upHNeon (s.take half) (out.take outHalf), upHNeon (s.drop half) (out.drop outHalf) with
      | some a, some b => some (a ++ b)
      | _, _ => none
  else none

end Zune.Jpeg
