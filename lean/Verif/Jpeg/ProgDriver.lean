import Verif.Jpeg.McuModel
import Verif.Jpeg.ProgOrder

/-!
# Model of the progressive decoder (zune-jpeg/src/mcu_prog.rs:40-632)

From the end of the first scan header to the pixels: the buffers of coefficients, the scans with their restart intervals,
the segments between scans, the end of the file, dequantisation and transform.  Blocks are decoded by `ProgScan.block`
(`ProgModel.lean`), the pixels are made by `postProcess`.
-/

namespace Zune.Jpeg

/-! ## Scans -/

/-- What the scans change: the state of the baseline decoder and the buffers of coefficients (mcu_prog.rs:58), a block of
component `a.1` being the 64 entries from `64 * a.2` on. -/
structure QState where
  ms : MState
  buf : Addr → Nat → I16

/-- The decoding of one block (mcu_prog.rs:269-340 if `one`, 395-430 otherwise); `len` gives the lengths of the buffers.
The slice is taken by `get_mut`, an error outside the buffer (275-280; 412-416 for a DC scan of several
components); the write through it is a panic of the model when the 64 entries are not in the buffer, so that a program without the first check would not pass for a safe one.
(Simplified: after an error the block and the reader are as before; in the source the block may hold some new
coefficients.) -/
def progBlock (one : Bool) (len : Nat → Nat) (st : QState) (a : Addr) : Except (DecErr × QState) QState :=
  match st.ms.d.comps[a.1]?, st.ms.work[a.1]? with
  | some c, some w =>
    let d := st.ms.d
    if one = true ∧ d.ss ≠ 0 ∧ d.ah = 0 ∧ 0 < st.ms.bs.eobRun then
      .ok { st with ms := { st.ms with bs := { st.ms.bs with eobRun := st.ms.bs.eobRun - 1 } } }
    else if len a.1 < 64 * a.2 + 64 then .error (.scan, st)
    else
      match (if one = false then d.dc c.td else if d.ss = 0 then d.dc (c.td % 4) else d.ac c.ta) with
      | none => .error (.table, st)
      | some t =>
        let p : ProgScan :=
          { ss := if one then d.ss else 0, se := d.se, al := d.al, refine := decide (d.ah ≠ 0), dc := fun _ => t,
            ac := fun _ => t }
        match p.block a.1 w.pred (st.buf a) st.ms.bs with
        | .error .panic => .error (.panic, st)
        | .error e => .error (.bits e, st)
        | .ok (v, b, bs) =>
          if 64 * a.2 + 64 ≤ len a.1 then
            .ok ⟨{ st.ms with bs := bs, work := st.ms.work.set a.1 { w with pred := v } },
              fun x => if x = a then b else st.buf x⟩
          else .error (.panic, st)
  | _, _ => .error (.panic, st)

/-- What follows an MCU (mcu_prog.rs:343-346 and 432-437): `todo -= 1`, a panic at 0, and `handle_rst_main`, which does
nothing unless `todo` is 0. -/
def progAfter (st : QState) : Except (DecErr × QState) QState :=
  if st.ms.d.todo = 0 then .error (.panic, st)
  else
    let ms := countDown st.ms
    if ms.d.todo = 0 then
      match handleRstMain ms with
      | .error e => .error (e, { st with ms := ms })
      | .ok ms => .ok { st with ms := ms }
    else .ok { st with ms := ms }

/-- One MCU (mcu_prog.rs:267-347 and 390-438): its blocks, then the countdown. -/
def progMcu (one : Bool) (len : Nat → Nat) (st : QState) (l : List Addr) : Except (DecErr × QState) QState :=
  match l.foldlM (progBlock one len) st with
  | .error e => .error e
  | .ok st => progAfter st

/-- `reset_prog_params` (mcu_prog.rs:211-218). -/
def progReset (ms : MState) : MState :=
  { ms with
    bs := ms.bs.reset
    work := ms.work.map fun w => { w with pred := 0 }
    d := { ms.d with todo := if ms.d.restart ≠ 0 then ms.d.restart else 2 ^ 64 - 1 } }

/-- The MCUs of an interleaved scan (mcu_prog.rs:390-408). -/
def mcuList (comps : List McuComp) (mcuX mcuY : Nat) : List (List Addr) :=
  (List.range mcuY).flatMap fun i => (List.range mcuX).map fun j => comps.flatMap fun m => m.blocks i j

/-- The component `k` of an interleaved scan (mcu_prog.rs:356-386, 395-408); `none` if there is none. -/
def mcuComp (ms : MState) (k : Nat) : Option McuComp :=
  match ms.d.comps[k]?, ms.work[k]? with
  | some c, some w => some ⟨k, ⟨c.h, c.v⟩, w.stride⟩
  | _, _ => none

/-- The first component of the scan (mcu_prog.rs:244-250); `none` if the frame does not have it. -/
def oneComp? (ms : MState) : Option (HComp × Work) :=
  match ms.d.comps[ms.d.zorder.getD 0 0]?, ms.work[ms.d.zorder.getD 0 0]? with
  | some c, some w => some (c, w)
  | _, _ => none

/-- A scan of one component (mcu_prog.rs:235-348), after the reset. -/
def progOne (len : Nat → Nat) (st : QState) : Except (DecErr × QState) QState :=
  let d := st.ms.d
  if d.se ≠ 0 ∧ d.ss = 0 then .error (.scan, st)
  else
    match oneComp? st.ms with
    | none => .error (.scan, st)
    | some (c, w) =>
      ((oneOrder (d.zorder.getD 0 0) w.stride (oneSize d.width d.height (factors d) ⟨c.h, c.v⟩)).map fun a => [a]).foldlM
        (progMcu true len) st

/-- A scan of several components (mcu_prog.rs:349-440), after the reset.  (Simplified: missing components and missing
tables, found in the order of the components in the source, are told apart in another order.) -/
def progSeveral (len : Nat → Nat) (st : QState) : Except (DecErr × QState) QState :=
  let d := st.ms.d
  if d.se ≠ 0 then .error (.scan, st)
  else
    match allSome ((d.zorder.take d.ns).map (mcuComp st.ms)) with
    | none => .error (.scan, st)
    | some comps =>
      if (d.zorder.take d.ns).all fun k => d.comps[k]?.any fun c => (d.dc c.td).isSome then
        (mcuList comps (divCeil d.width (hMax (factors d) * 8)) (divCeil d.height (vMax (factors d) * 8))).foldlM
          (progMcu false len) st
      else .error (.table, st)

/-- `parse_entropy_coded_data` (mcu_prog.rs:220-441). -/
def progData (len : Nat → Nat) (st : QState) : Except (DecErr × QState) QState :=
  let st := { st with ms := progReset st.ms }
  if st.ms.d.space.num < st.ms.d.ns then .error (.scan, st)
  else if st.ms.d.ns = 1 then progOne len st
  else progSeveral len st

/-! ## The end of the file -/

/-- `component.needed` (mcu_prog.rs:527-545). -/
def progNeeded (o : OutSpace) (i : InSpace) (k : Nat) : Bool :=
  decide (min (o.comps - 1) k = k ∨ i = .ycck ∨ i = .cmyk)

/-- One block of component `k` (mcu_prog.rs:577-603): block `(p.1, p.2)` of the row `i` of MCUs, the buffer of length `len`
being divided in `rows` rows. -/
def progIdct (isa : Isa) (buf : Addr → Nat → I16) (len rows i k : Nat) (w : Work) (raw : List Int) (p : Nat × Nat) :
    Except DecErr (List Int) :=
  let step := len / rows
  let start := p.2 * 64 + p.1 * 8 * w.stride
  if step < start + 64 then .error .slice
  else
    match storeAt raw 0 (p.1 * 8 * w.stride + p.2 * 8) w.stride
        (isa.full (gridBlock fun j =>
          (buf (k, (i * step + start + j) / 64) ((i * step + start + j) % 64)).signExtend 32 * w.qt j)).rows with
    | none => .error .panic
    | some raw => .ok raw

/-- One component of a row of MCUs (mcu_prog.rs:552-612). -/
def progRow (isa : Isa) (buf : Addr → Nat → I16) (len rows i k v : Nat) (w : Work) : Except DecErr Work :=
  if w.needed then
    match ((List.range v).flatMap fun a => (List.range (w.stride / 8)).map fun b => (a, b)).foldlM
        (progIdct isa buf len rows i k w) w.raw with
    | .error e => .error e
    | .ok raw => .ok { w with raw := raw }
  else .ok w

/-- All components of a row of MCUs (mcu_prog.rs:551-613), `fs` and `work` from component `k` on. -/
def progComps (isa : Isa) (buf : Addr → Nat → I16) (len : Nat → Nat) (rows i : Nat) : Nat → List Factor → List Work →
    Except DecErr (List Work)
  | k, f :: fs, w :: ws =>
    match progRow isa buf (len k) rows i k f.v w with
    | .error e => .error e
    | .ok w =>
      match progComps isa buf len rows i (k + 1) fs ws with
      | .error e => .error e
      | .ok ws => .ok (w :: ws)
  | _, _, _ => .ok []

/-- The loop over the rows of MCUs (mcu_prog.rs:550-625), `n` of the `rows` rows from row `i` on. -/
def progRows (isa : Isa) (p : Post) (buf : Addr → Nat → I16) (len : Nat → Nat) (fs : List Factor) (rows : Nat) :
    Nat → Nat → List Work → PState → Except DecErr PState
  | 0, _, _, ps => .ok ps
  | n + 1, i, work, ps =>
    match progComps isa buf len rows i 0 fs work with
    | .error e => .error e
    | .ok work =>
      match postWith p i work ps with
      | .error e => .error e
      | .ok ps => progRows isa p buf len fs rows n (i + 1) work ps

/-- `mcu_height` (mcu_prog.rs:509-515). -/
def progHeight (height : Nat) (fs : List Factor) : Nat :=
  if isInterleaved fs then divCeil height (vMax fs * 8) else divCeil height 8

/-- `finish_progressive_decoding` (mcu_prog.rs:485-632). -/
def progFinish (avx2 : Bool) (out : OutSpace) (p : Post) (len : Nat → Nat) (st : QState) (pixels : List UInt8) :
    Except DecErr (List UInt8) :=
  let d := st.ms.d
  let fs := factors d
  let rows := progHeight d.height fs
  let work := (List.zip fs st.ms.work).mapIdx fun k (f, w) =>
    { w with
      needed := progNeeded out d.space k
      raw := if progNeeded out d.space k then List.replicate (w.stride * f.v * 8) 0 else w.raw }
  match progRows (chooseIdct avx2) { p with mcuHeight := rows, conv := convOf avx2 d.space out d.width p.padded } st.buf len fs
      rows rows 0 work ⟨setupComps d.width fs, [], pixels⟩ with
  | .error e => .error e
  | .ok ps => .ok (ps.done ++ ps.rest)

/-! ## The loop over markers -/

/-- The markers after the first scan (mcu_prog.rs:136-205): `m` is the marker, `seen` the number of scans.  The result is
the state with which `finish_progressive_decoding` is called.  The loop ends at `f = 0` in the model only. -/
def progLoop (o : HdrOpts) (maxScans : Nat) (len : Nat → Nat) : Nat → UInt8 → Nat → QState → Except DecErr QState
  | 0, _, _, _ => .error .fuel
  | f + 1, m, seen, st =>
    if m = 0xD9 then .ok st
    else if m = 0xDA then
      match parseIn o m st.ms with
      | .error e => .error e
      | .ok ms =>
        match progData len { st with ms := ms } with
        | .error (.panic, _) => .error .panic
        | .error (e, st) => if o.strict then .error e else .ok st
        | .ok st =>
          match getMarker st.ms.bs with
          | (none, bs) => if o.strict then .error .exhausted else .ok { st with ms := { st.ms with bs := bs } }
          | (some m, bs) =>
            if maxScans < seen + 1 then .error .scans
            else progLoop o maxScans len f m (seen + 1) { st with ms := { st.ms with bs := bs.reset } }
    else
      match (if isRst m then handleRst st.ms else parseIn o m st.ms) with
      | .error e => .error e
      | .ok ms =>
        match getMarker ms.bs with
        | (none, bs) => if o.strict then .error .exhausted else .ok { st with ms := { ms with bs := bs } }
        | (some m, bs) => progLoop o maxScans len f m seen { st with ms := { ms with bs := bs } }

/-- The first scan and those that follow it (mcu_prog.rs:108-205). -/
def progScans (o : HdrOpts) (maxScans : Nat) (len : Nat → Nat) (st : QState) : Except DecErr QState :=
  match progData len st with
  | .error (.panic, _) => .error .panic
  | .error (e, st) => if o.strict then .error e else .ok st
  | .ok st =>
    match st.ms.bs.marker with
    | none => .error .missing
    | some m =>
      progLoop o maxScans len (st.ms.bs.rest.length + 1) m 1 { st with ms := { st.ms with bs := { st.ms.bs with marker := none } } }

/-- The lengths of the buffers (mcu_prog.rs:99-106), `x` and `y` being `mcu_width` and `mcu_height`. -/
def progLen (i : InSpace) (fs : List Factor) (x y k : Nat) : Nat :=
  if k < i.num then fs[k]?.elim 0 fun f => x * 64 * f.v * f.h * y else 0

/-- `decode_mcu_ycbcr_progressive` (mcu_prog.rs:49-207) after `setup_component_params`; the panic is that of indexing
`components` at mcu_prog.rs:102. -/
def progFrame (avx2 : Bool) (o : HdrOpts) (maxScans : Nat) (out : OutSpace) (i : InSpace) (qts : List (List Nat)) (d : Hdr)
    (s : Bytes) (pixels : List UInt8) : Except DecErr (List UInt8 × Bytes) :=
  let fs := factors d
  let p := framePost avx2 i out d.width d.height fs
  let len := progLen i fs (mcuAcross d.width fs) p.mcuHeight
  let ms : MState :=
    { d := d, bs := Bs.new s, work := setupWork d.width out fs qts true (mcuAcross d.width fs) p.mcuHeight, more := true,
      tmp := fun _ _ => 0 }
  if fs.length < i.num then .error .panic
  else
    match progScans o maxScans len ⟨ms, fun _ _ => 0⟩ with
    | .error e => .error e
    | .ok st =>
      match progFinish avx2 out p len st pixels with
      | .error e => .error e
      | .ok px => .ok (px, st.ms.bs.rest)

/-- `decode_mcu_ycbcr_progressive` (mcu_prog.rs:49-207) after the headers: the pixels and what is left of the bytes.
(Simplified as `decodeBaseline`.) -/
def decodeProgressive (avx2 : Bool) (o : HdrOpts) (maxScans : Nat) (out : OutSpace) (d : Hdr) (s : Bytes) (pixels : List UInt8) :
    Except DecErr (List UInt8 × Bytes) :=
  match settleSpace o.strict d.comps.length d.space, quantOf d, (if d.mjpeg then fillMjpeg d else some d) with
  | _, none, _ => .error .quant
  | _, _, none => .error .panic
  | none, _, _ => .error .space
  | some i, some qts, some d => progFrame avx2 o maxScans out i qts { resetLuma i d with space := i } s pixels

/-- `decode` (decoder.rs:214-222, 264-276, 776-795) of a new decoder over the bytes `s`, for both kinds of files; `maxScans`
is the option `max_scans` (zune-core options/decoder.rs:402). -/
def decodeAny (avx2 : Bool) (o : HdrOpts) (maxScans : Nat) (out : OutSpace) (s : Bytes) : Except DecErr (List UInt8 × Bytes) :=
  match decodeHeaders o s with
  | .error .panic => .error .panic
  | .error e => .error (.hdr e)
  | .ok (d, r) =>
    let pixels := List.replicate (d.width * d.height * out.comps) 0
    if d.prog then decodeProgressive avx2 o maxScans out d r pixels
    else
      match decodeBaseline avx2 o out d r pixels with
      | .error e => .error e
      | .ok (ms, px) => .ok (px, ms.bs.rest)

end Zune.Jpeg
