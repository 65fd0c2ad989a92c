import Verif.Jpeg.ColorModel

/-!
# zune-jpeg: upsampling and post processing (model)

Model of `crates/zune-jpeg/src/upsampler/scalar.rs`, `upsampler/avx2.rs`, of `upsample` in
`worker.rs` and of `post_process` in `mcu.rs`.

Samples (`i16`) are integers; every `i16` operation is wrapped.  A panic (failed assertion, slice
out of range) and an `Err` are both the value `none`.  The NEON kernels are in
NeonModel.lean, the portable SIMD ones in PortableModel.lean.
-/

namespace Zune.Jpeg

/-! ## Kernels -/

/-- `(3 * near + 2 + far) >> 2` in `i16` (upsampler/scalar.rs:39-42, 69, 73; avx2.rs:52-55, 130-133). -/
def tri (near far : Int) : Int := wrap16 (wrap16 (wrap16 (3 * near) + 2) + far) / 2 ^ 2

/-- `(3 * near + far + 2) >> 2`, the order of the first and last pixel (scalar.rs:23, 53;
avx2.rs:34, 87). -/
def triEdge (near far : Int) : Int := wrap16 (wrap16 (wrap16 (3 * near) + far) + 2) / 2 ^ 2

/-- `a[off..off+b.len()]` overwritten by `b`; `none` is the panic of the slice (the mutable slices
of worker.rs:414, 489 and avx2.rs:81). -/
def putAt (a : List Int) (off : Nat) (b : List Int) : Option (List Int) :=
  if off + b.length ≤ a.length then some (a.take off ++ b ++ a.drop (off + b.length)) else none

/-- The loop of `upsample_horizontal` over `output[2..].chunks_exact_mut(2)` and
`input.windows(3)` (scalar.rs:38-43). -/
def hLoop : List Int → List Int → List Int
  | a :: b :: c :: t, _ :: _ :: o => tri b a :: tri b c :: hLoop (b :: c :: t) o
  | _, o => o

/-- The first two samples (scalar.rs:22-23, avx2.rs:33-34). -/
def hFirst (input out : List Int) : Option (List Int) :=
  match input[0]?, input[1]? with
  | some a, some b => some ((out.set 0 a).set 1 (triEdge a b))
  | _, _ => none

/-- The last two samples (scalar.rs:45-54, avx2.rs:87-88). -/
def hLast (input out : List Int) : Option (List Int) :=
  match input[input.length - 2]?, input[input.length - 1]? with
  | some y, some z => some ((out.set (out.length - 2) (triEdge z y)).set (out.length - 1) z)
  | _, _ => none

/-- `upsample_horizontal` (scalar.rs:9-55). -/
def upHScalar (input out : List Int) : Option (List Int) :=
  if input.length * 2 = out.length ∧ 4 < out.length ∧ 2 < input.length then
    match hFirst input out with
    | none => none
    | some out => hLast input (out.take 2 ++ hLoop input (out.drop 2))
  else none

/-- `_mm256_permute2x128_si256::<k>(a, b)` for registers of sixteen 16-bit lanes (avx2.rs:60-61);
bit 3 of a control clears the half. -/
def permute2x128W (k : Nat) (a b : List Int) : List Int :=
  let half (s : Nat) : List Int :=
    if s / 8 % 2 = 1 then List.replicate 8 0 else ((a ++ b).drop (8 * (s % 4))).take 8
  half (k % 16) ++ half (k / 16 % 16)

/-- `upsample16` of `upsample_horizontal_avx2` (avx2.rs:39-68): eighteen samples to thirty-two. -/
def hAvx16 (w : List Int) : List Int :=
  let prev := w.take 16
  let curr := (w.drop 1).take 16
  let next := (w.drop 2).take 16
  let common := curr.map fun x => wrap16 (wrap16 (x * 3) + 2)
  let even := List.zipWith (fun x y => wrap16 (x + y) / 2 ^ 2) common prev
  let odd := List.zipWith (fun x y => wrap16 (x + y) / 2 ^ 2) common next
  let r1 := unpackLo16 even odd
  let r2 := unpackHi16 even odd
  permute2x128W 0x20 r1 r2 ++ permute2x128W 0x31 r1 r2

/-- The loop over `input.windows(18).step_by(16)` and `output[2..].chunks_exact_mut(32)`
(avx2.rs:70-76). -/
def hAvxLoop : Nat → List Int → List Int → List Int
  | 0, _, out => out
  | fuel + 1, input, out =>
    if 18 ≤ input.length ∧ 32 ≤ out.length then
      hAvx16 (input.take 18) ++ hAvxLoop fuel (input.drop 16) (out.drop 32)
    else out

/-- The remainder of `upsample_horizontal_avx2` (avx2.rs:79-84): the last eighteen samples once more,
written before the last two places. -/
def hAvxRest (input out : List Int) : List Int :=
  if 18 ≤ input.length ∧ 32 ≤ out.length - 2 then
    out.take (out.length - 2 - 32) ++ hAvx16 (input.drop (input.length - 18)) ++
      out.drop (out.length - 2)
  else out

/-- `upsample_horizontal_avx2` (avx2.rs:16-89). -/
def upHAvx (input out : List Int) : Option (List Int) :=
  if input.length * 2 = out.length ∧ 2 < input.length then
    if input.length < 18 then upHScalar input out
    else
      match hFirst input out with
      | none => none
      | some out =>
        hLast input (hAvxRest input
          (out.take 2 ++ hAvxLoop (input.length + 1) input (out.drop 2)))
  else none

/-- One row of `upsample_vertical` (scalar.rs:68-70, 72-74): the loop over three zipped rows. -/
def vLoop : List Int → List Int → List Int → List Int
  | n :: ns, f :: fs, _ :: o => tri n f :: vLoop ns fs o
  | _, _, o => o

/-- `upsample_vertical` (scalar.rs:56-75). -/
def upVScalar (input near far out : List Int) : Option (List Int) :=
  if input.length * 2 = out.length ∧ near.length = input.length ∧ far.length = input.length then
    let middle := out.length / 2
    some (vLoop input near (out.take middle) ++ vLoop input far (out.drop middle))
  else none

/-- One output of `upsample16` of `upsample_vertical_avx2` (avx2.rs:116-140); lanes do not mix. -/
def vAvx16 (input other : List Int) : List Int :=
  List.zipWith (fun x y => wrap16 (wrap16 (wrap16 (x * 3) + 2) + y) / 2 ^ 2) input other

/-- The loop over chunks of sixteen (avx2.rs:142-157), for one of the two output rows. -/
def vAvxLoop : Nat → List Int → List Int → List Int → List Int
  | 0, _, _, out => out
  | fuel + 1, input, other, out =>
    if 16 ≤ input.length ∧ 16 ≤ other.length ∧ 16 ≤ out.length then
      vAvx16 (input.take 16) (other.take 16) ++
        vAvxLoop fuel (input.drop 16) (other.drop 16) (out.drop 16)
    else out

/-- The remainder (avx2.rs:159-171): the last sixteen of each row, for one of the two output rows. -/
def vAvxRest (input other out : List Int) : List Int :=
  if 16 ≤ input.length ∧ 16 ≤ other.length ∧ 16 ≤ out.length then
    out.take (out.length - 16) ++
      vAvx16 (input.drop (input.length - 16)) (other.drop (other.length - 16))
  else out

/-- `upsample_vertical_avx2` (avx2.rs:93-172).  (Simplified: the two output rows, filled by the same
iterations there, are filled one after the other; the rows read are not written.) -/
def upVAvx (input near far out : List Int) : Option (List Int) :=
  if input.length * 2 = out.length ∧ near.length = input.length ∧ far.length = input.length then
    if input.length < 16 then upVScalar input near far out
    else
      let middle := out.length / 2
      let fuel := input.length + 1
      let top := vAvxLoop fuel input near (out.take middle)
      let bottom := vAvxLoop fuel input far (out.drop middle)
      some (vAvxRest input near top ++ vAvxRest input far bottom)
  else none

/-- `choose_horizontal_samp_function` (upsampler.rs:95-115, and 118-138 for HV), x86 or scalar. -/
def upH (avx2 : Bool) (input out : List Int) : Option (List Int) :=
  if avx2 then upHAvx input out else upHScalar input out

/-- `choose_v_samp_function` (upsampler.rs:141-162), x86 or scalar. -/
def upV (avx2 : Bool) (input near far out : List Int) : Option (List Int) :=
  if avx2 then upVAvx input near far out else upVScalar input near far out

/-- `upsample_hv` (scalar.rs:77-112), `upsample_hv_avx2` (avx2.rs:176-197).  (Simplified: the new
content of the scratch space is not returned; it is overwritten before the next use.) -/
def upHV (avx2 : Bool) (input near far scratch out : List Int) : Option (List Int) :=
  if input.length * 4 = out.length ∧ input.length * 2 = scratch.length then
    match upV avx2 input near far scratch with
    | none => none
    | some s =>
      let half := s.length / 2
      let outHalf := out.length / 2
      match upH avx2 (s.take half) (out.take outHalf), upH avx2 (s.drop half) (out.drop outHalf) with
      | some a, some b => some (a ++ b)
      | _, _ => none
  else none

/-- The loop of `upsample_generic` (scalar.rs:122-124): each sample fills a chunk of `d`. -/
def genLoop (d : Nat) : List Int → List Int → List Int
  | x :: t, o => if d ≤ o.length then List.replicate d x ++ genLoop d t (o.drop d) else o
  | [], o => o

/-- `upsample_generic` (scalar.rs:114-126); dividing by a length of zero panics. -/
def upGeneric (input out : List Int) : Option (List Int) :=
  if input.length = 0 then none
  else
    let d := out.length / input.length
    if 0 < d then some (genLoop d input out) else some out

/-! ## One component -/

/-- `SampleRatios` (components.rs:213-220). -/
inductive Ratio where
  | none | h | v | hv | generic (h v : Nat)
  deriving DecidableEq, Repr

/-- `SampleRatios::sample` (components.rs:223-230). -/
def Ratio.sample : Ratio → Nat
  | .hv => 4
  | .v | .h => 2
  | .generic a b => a * b
  | .none => 1

/-- The fields of `Components` used here (components.rs:38-82). -/
structure Comp where
  ratio : Ratio
  /-- `vertical_sample` -/
  vs : Nat
  /-- `width_stride` -/
  stride : Nat
  /-- `raw_coeff` -/
  raw : List Int
  row : List Int
  rowUp : List Int
  /-- `first_row_upsample_dest` -/
  first : List Int
  /-- `upsample_dest` -/
  dest : List Int
  deriving DecidableEq, Repr

/-- `setup_upsample_scanline` (components.rs:190-197); `fix` is `fix_an_annoying_bug`. -/
def Comp.setup (ratio : Ratio) (vs stride fix : Nat) (raw : List Int) : Comp where
  ratio := ratio
  vs := vs
  stride := stride
  raw := raw
  row := List.replicate (stride * vs) 0
  rowUp := List.replicate (stride * vs) 0
  first := List.replicate (vs * stride * ratio.sample) 128
  dest := List.replicate (stride * ratio.sample * fix * 8) 0

/-- `l[a..b]`; `none` is the panic. -/
def slice (l : List Int) (a b : Nat) : Option (List Int) :=
  if a ≤ b ∧ b ≤ l.length then some ((l.drop a).take (b - a)) else none

/-- `component.up_sampler` for the ratios V and HV (decoder.rs:872-879). -/
def vertKernel (avx2 : Bool) (r : Ratio) (input near far scratch out : List Int) :
    Option (List Int) :=
  match r with
  | .hv => upHV avx2 input near far scratch out
  | _ => upV avx2 input near far out

/-- Upsample one row into `dest[off..off+len]` (worker.rs:414-420, 487-502). -/
def vertInto (avx2 : Bool) (r : Ratio) (input near far scratch dest : List Int) (off len : Nat) :
    Option (List Int) :=
  match slice dest off (off + len) with
  | none => none
  | some d =>
    match vertKernel avx2 r input near far scratch d with
    | none => none
    | some d => putAt dest off d

/-- What the chain of `if`s of `upsample` finds for a row (worker.rs:453-486): the rows above and
below, or that the row is to be kept for the next MCU row. -/
inductive RowPlan where
  | up (above below : List Int)
  | keep (prev : List Int)
  | panic

/-- Two slices that must both exist (worker.rs:456-470). -/
def both (a b : Option (List Int)) : RowPlan :=
  match a, b with
  | some a, some b => .up a b
  | _, _ => .panic

/-- The chain of `if`s (worker.rs:453-486). -/
def rowPlan (c : Comp) (mcuHeight i stop stride pos : Nat) : RowPlan :=
  if i = 0 ∧ pos = 0 then
    both (slice c.raw (pos * stride) ((pos + 1) * stride))
      (slice c.raw ((pos + 1) * stride) ((pos + 2) * stride))
  else if 0 < i ∧ pos = 0 then
    both (some c.row) (slice c.raw ((pos + 1) * stride) ((pos + 2) * stride))
  else if i = mcuHeight - 1 ∧ pos = stop - 1 then
    both (slice c.raw ((pos - 1) * stride) (pos * stride))
      (slice c.raw (pos * stride) ((pos + 1) * stride))
  else if 0 < pos ∧ pos < stop - 1 then
    both (slice c.raw ((pos - 1) * stride) (pos * stride))
      (slice c.raw ((pos + 1) * stride) ((pos + 2) * stride))
  else if pos = stop - 1 then
    match slice c.raw ((pos - 1) * stride) (pos * stride) with
    | some prev => .keep prev
    | none => .panic
  else .panic

/-- The loop over the rows of `raw_coeff` (worker.rs:441-503), `n` rows from row `pos` on.  `off` is
`dest_start`.  (Simplified: `upsample = false` is not carried to later rows; it is set on the last
row only.) -/
def vertLoop (avx2 : Bool) (mcuHeight i stop stride : Nat) (scratch : List Int) :
    Nat → Nat → Nat → Comp → Option Comp
  | 0, _, _, c => some c
  | n + 1, pos, off, c =>
    match slice c.raw (pos * c.stride) ((pos + 1) * c.stride) with
    | none => none
    | some curr =>
      match rowPlan c mcuHeight i stop stride pos with
      | .panic => none
      | .keep prev =>
        if prev.length = c.rowUp.length ∧ curr.length = c.row.length then
          vertLoop avx2 mcuHeight i stop stride scratch n (pos + 1) off
            { c with rowUp := prev, row := curr }
        else none
      | .up above below =>
        let len := c.stride * c.ratio.sample
        match vertInto avx2 c.ratio curr above below scratch c.dest off len with
        | none => none
        | some dest =>
          vertLoop avx2 mcuHeight i stop stride scratch n (pos + 1) (off + len) { c with dest := dest }

/-- The row kept from the previous MCU row (worker.rs:407-421). -/
def vertFirst (avx2 : Bool) (i : Nat) (scratch : List Int) (c : Comp) : Option Comp :=
  if 0 < i then
    match slice c.raw 0 c.stride with
    | none => none
    | some below =>
      match vertInto avx2 c.ratio c.row c.rowUp below scratch c.first 0 (c.stride * c.ratio.sample) with
      | none => none
      | some first => some { c with first := first }
  else some c

/-- `upsample` for the ratios V and HV (worker.rs:380-504). -/
def upsampleVert (avx2 : Bool) (mcuHeight i : Nat) (scratch : List Int) (c : Comp) : Option Comp :=
  match vertFirst avx2 i scratch c with
  | none => none
  | some c =>
    let stride := c.stride * c.vs
    let stop := c.raw.length / c.stride
    if c.stride = 0 ∨ c.raw.length ≠ stop * stride then none
    else vertLoop avx2 mcuHeight i stop stride scratch stop 0 0 c

/-- A loop over chunks of a source and a destination, each chunk of the destination replaced by the
result of `f` (worker.rs:543-549, 565-568, 569-571). -/
def chunkLoop (a b : Nat) (f : List Int → List Int → Option (List Int)) :
    Nat → List Int → List Int → Option (List Int)
  | 0, _, dst => some dst
  | fuel + 1, src, dst =>
    if a ≤ src.length ∧ b ≤ dst.length then
      match f (src.take a) (dst.take b), chunkLoop a b f fuel (src.drop a) (dst.drop b) with
      | some x, some y => some (x ++ y)
      | _, _ => none
    else some dst

/-- `Vec::resize(n, 0)` (worker.rs:509-511). -/
def resize (l : List Int) (n : Nat) : List Int := l.take n ++ List.replicate (n - l.length) 0

/-- `l.rchunks_exact(n).next().unwrap()` (worker.rs:540, mcu.rs:854-855): the last `n` elements. -/
def lastChunk (l : List Int) (n : Nat) : Option (List Int) :=
  if 0 < n ∧ n ≤ l.length then some (l.drop (l.length - n)) else none

/-- `upsample` for the ratio H (worker.rs:505-551). -/
def upsampleH (avx2 vertical : Bool) (c : Comp) : Option Comp :=
  let dest := resize c.dest (c.raw.length * 2)
  match (if vertical then lastChunk dest c.first.length else some c.first) with
  | none => none
  | some first =>
    if c.stride = 0 then none
    else
      match chunkLoop c.stride (c.stride * 2) (upH avx2) (c.raw.length + 1) c.raw dest with
      | none => none
      | some dest => some { c with first := first, dest := dest }

/-- The inner loop for the generic ratio (worker.rs:569-571): the same source row for each row of a
chunk of the destination. -/
def genRows (w : Nat) (row : List Int) : Nat → List Int → Option (List Int)
  | 0, dst => some dst
  | fuel + 1, dst =>
    if w ≤ dst.length then
      match upGeneric row (dst.take w), genRows w row fuel (dst.drop w) with
      | some x, some y => some (x ++ y)
      | _, _ => none
    else some dst

/-- `upsample` for generic ratios (worker.rs:552-573). -/
def upsampleGeneric (h v : Nat) (c : Comp) : Option Comp :=
  if c.stride * h * v = 0 then none
  else
    match chunkLoop c.stride (c.stride * h * v)
        (fun row d => genRows (c.stride * h) row (d.length + 1) d) (c.raw.length + 1) c.raw c.dest with
    | none => none
    | some dest => some { c with dest := dest }

/-- `upsample` (worker.rs:375-577). -/
def upsample (avx2 : Bool) (mcuHeight i : Nat) (scratch : List Int) (vertical : Bool) (c : Comp) :
    Option Comp :=
  match c.ratio with
  | .v | .hv => upsampleVert avx2 mcuHeight i scratch c
  | .h => upsampleH avx2 vertical c
  | .generic h v => upsampleGeneric h v c
  | .none => some c

/-! ## `post_process` -/

/-- `?` on a list of results (mcu.rs:803-811). -/
def allSome {α} : List (Option α) → Option (List α)
  | [] => some []
  | none :: _ => none
  | some a :: t => (allSome t).map (a :: ·)

/-- What `post_process` reads from the decoder (mcu.rs:746-768). -/
structure Post where
  /-- `use_avx2()`, fixed when the kernels are chosen -/
  avx2 : Bool
  coeff : Nat
  /-- `v_max` -/
  vMax : Nat
  /-- `is_interleaved` -/
  interleaved : Bool
  /-- the output colour space is `Luma` -/
  outLuma : Bool
  /-- `sub_sample_ratio` -/
  subSample : Ratio
  mcuHeight : Nat
  /-- `padded_width` -/
  padded : Nat
  /-- `width * out_colorspace_components` -/
  line : Nat
  scratch : List Int
  /-- `color_convert` on the samples and the bytes of one line -/
  conv : List (List Int) → List UInt8 → Option (List UInt8)

/-- The state threaded through: the components, the bytes of `pixels` before and after
`pixels_written`. -/
structure PState where
  comps : List Comp
  done : List UInt8
  rest : List UInt8

/-- `color_conv_function` (mcu.rs:768-798): at most `n` lines from line `pos` of the samples on. -/
def convLoop (p : Post) (samples : List (List Int)) :
    Nat → Nat → List UInt8 → List UInt8 → Option (List UInt8 × List UInt8)
  | 0, _, done, rest => some (done, rest)
  | n + 1, pos, done, rest =>
    if p.line ≤ rest.length then
      match allSome (samples.map fun s => slice s (pos * p.padded) ((pos + 1) * p.padded)) with
      | none => none
      | some raw =>
        match p.conv raw (rest.take p.line) with
        | none => none
        | some o => convLoop p samples n (pos + 1) (done ++ o) (rest.drop p.line)
    else some (done, rest)

/-- `is_vertically_sampled` (mcu.rs:754-757). -/
def isVertical (cs : List Comp) : Bool := cs.any fun c => c.ratio = .hv ∨ c.ratio = .v

/-- Keeping the last rows for the next conversion (mcu.rs:840-862). -/
def keepLast (c : Comp) : Option Comp :=
  if c.ratio ≠ .h then
    match lastChunk c.raw (c.vs * c.stride * c.ratio.sample) with
    | none => none
    | some l => if l.length = c.first.length then some { c with first := l } else none
  else some c

/-- The samples of a component after upsampling (mcu.rs:867-873). -/
def Comp.samples (c : Comp) : List Int := if c.ratio = .none then c.raw else c.dest

/-- Conversion of the lines kept from the previous MCU row and keeping new ones (mcu.rs:813-862). -/
def postVertical (p : Post) (i : Nat) (s : PState) : Option PState :=
  match (if 0 < i then convLoop p (s.comps.map (·.first)) (p.coeff * p.vMax) 0 s.done s.rest
      else some (s.done, s.rest)) with
  | none => none
  | some (done, rest) =>
    match allSome (s.comps.map keepLast) with
    | none => none
    | some comps => some ⟨comps, done, rest⟩

/-- The part after that (mcu.rs:864-887). -/
def postRest (p : Post) (i : Nat) (vertical : Bool) (s : PState) : Option PState :=
  let short := if vertical && decide (i ≠ p.mcuHeight - 1) then 1 else 0
  match convLoop p (s.comps.map (·.samples)) ((8 - short) * p.coeff * p.vMax) 0 s.done s.rest with
  | none => none
  | some (done, rest) => some ⟨s.comps, done, rest⟩

/-- The branch without upsampling (mcu.rs:888-900).  `comp_len` (mcu.rs:759-767) limits the
components to the first for an output of `Luma`. -/
def postPlain (p : Post) (s : PState) : Option PState :=
  let n := match p.subSample with
    | .generic _ v => 8 * v * p.coeff
    | _ => 8 * p.coeff
  let comps := if p.outLuma then s.comps.take 1 else s.comps
  match convLoop p (comps.map (·.raw)) n 0 s.done s.rest with
  | none => none
  | some (done, rest) => some ⟨s.comps, done, rest⟩

/-- `post_process` (mcu.rs:746-905). -/
def postProcess (p : Post) (i : Nat) (s : PState) : Option PState :=
  if p.interleaved ∧ ¬p.outLuma then
    let vertical := isVertical s.comps
    match allSome (s.comps.map (upsample p.avx2 p.mcuHeight i p.scratch vertical)) with
    | none => none
    | some comps =>
      match (if vertical then postVertical p i ⟨comps, s.done, s.rest⟩
          else some ⟨comps, s.done, s.rest⟩) with
      | none => none
      | some s => postRest p i vertical s
  else postPlain p s

/-- The loop over the MCU rows (mcu.rs:201-283): `decode_mcu_width` leaves the samples of MCU row `i` in `raw_coeff`
(here `raws i`, one list for each component), then `post_process` runs.  (Simplified: all MCU rows are
decoded without error or early end of the data.) -/
def postAll (p : Post) (raws : Nat → List (List Int)) : Nat → Nat → PState → Option PState
  | 0, _, s => some s
  | n + 1, i, s =>
    match postProcess p i { s with comps := List.zipWith (fun c r => { c with raw := r }) s.comps (raws i) } with
    | none => none
    | some s => postAll p raws n (i + 1) s

end Zune.Jpeg
