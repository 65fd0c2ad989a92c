import Verif.Jpeg.HeaderModel
import Verif.Jpeg.BitsModel
import Verif.Jpeg.FrameModel

/-!
# Model of the baseline decoder (zune-jpeg/src/mcu.rs, mcu_prog.rs:442-482, 633-685, misc.rs:195-345, 387-485)

From the end of the first scan header to the pixels: the setup of the components, the loop over MCUs with
restart intervals, the markers met after each row of MCUs, several scans, the end of the file.

The reader is `Bs.rest`; what `parse_marker_inner` reads is taken from it.  `unsafe` code and the
variants for other processors are not modelled.
-/

namespace Zune.Jpeg

/-! ## State -/

/-- Ways in which decoding stops with an error. -/
inductive DecErr where
  /-- While reading headers. -/
  | hdr (e : HdrErr)
  /-- While reading a block (strict mode), or while looking for a restart marker. -/
  | bits (e : JErr)
  /-- A missing Huffman table (mcu.rs:39-70, 459-465). -/
  | table
  /-- A missing quantisation table (misc.rs:233-239). -/
  | quant
  /-- Too few components for the colour space (misc.rs:334-341). -/
  | space
  /-- "Marker found in bitstream, possibly corrupt jpeg" (mcu.rs:737-739). -/
  | mcu
  /-- "Premature end of buffer" (mcu.rs:205). -/
  | early
  /-- An unexpected marker in strict mode (mcu.rs:624, 694). -/
  | marker
  /-- "Too many markers between scans" (mcu.rs:709). -/
  | many
  /-- No marker before the end of the data (mcu_prog.rs:684). -/
  | exhausted
  /-- `post_process` failed: an error or a panic. -/
  | post
  /-- An index outside an array, a failed `unwrap`. -/
  | panic
  /-- The model's bound on the number of scans (does not happen in the code). -/
  | fuel
  /-- A progressive file. -/
  | progressive
  /-- A scan that does not fit the frame (mcu_prog.rs:228-234, 237-241, 246-250, 276-279, 350-354, 364-368, 412-416). -/
  | scan
  /-- "Marker missing where expected" (mcu_prog.rs:125-129). -/
  | missing
  /-- "Too many scans" (mcu_prog.rs:166-171). -/
  | scans
  /-- "Invalid slice" (mcu_prog.rs:584-588). -/
  | slice
deriving DecidableEq

/-- The fields of `Components` (components.rs:38-82) used by the MCU loop, apart from those set by the
headers, and `progressive_mcus[k]` (mcu.rs:168). -/
structure Work where
  /-- `width_stride` -/
  stride : Nat
  /-- `quantization_table` -/
  qt : Nat → I32
  needed : Bool
  /-- `dc_pred` -/
  pred : I32
  /-- `raw_coeff` -/
  raw : List Int
  /-- `progressive_mcus[k]` -/
  whole : List Int

/-- What the MCU loop changes: the decoder, the bit stream with the reader, the components, and
`clobber_more_than_4x4` and `tmp` (mcu.rs:141, 448). -/
structure MState where
  d : Hdr
  bs : Bs
  work : List Work
  more : Bool
  tmp : Block

/-- What does not change during decoding. -/
structure Cfg where
  o : HdrOpts
  isa : Isa
  /-- `all_components_in_first_scan` -/
  all : Bool
  /-- `mcu_width` (mcu.rs:95-109, 134) -/
  mcuX : Nat

/-- Why a loop ends early: an error, or `McuContinuation::Terminate` (mcu.rs:525-533).  (Simplified: the
bit stream and `tmp` are left as before the failed block; they are not used any more.) -/
inductive Halt where
  | err (e : DecErr)
  | stop (ms : MState)

/-- `McuContinuation` (mcu.rs:907-917). -/
inductive Cont where
  | ok
  | anotherSos
  | inter (m : UInt8)
  | terminate

/-! ## Markers -/

/-- The inner loop of `get_marker` (mcu_prog.rs:670-674) and its outer loop (mcu_prog.rs:667-683); `ff` says
that the byte before was FF.  `none` when the data end first. -/
def seekMarker : Bool → Bytes → Option (UInt8 × Bytes)
  | _, [] => none
  | false, b :: s => seekMarker (b = 255) s
  | true, b :: s => if b = 255 then seekMarker true s else if b ≠ 0 then some (b, s) else seekMarker false s

/-- `get_marker` (mcu_prog.rs:655-685); `none` is the error.  `Marker::from_u8` never gives `None`
(marker.rs:59-91). -/
def getMarker (s : Bs) : Option UInt8 × Bs :=
  match s.marker with
  | some m => (some m, { s with marker := none })
  | none =>
    match seekMarker false s.rest with
    | some (m, r) => (some m, { s with rest := r })
    | none => (none, { s with rest := [] })

/-- `Marker::RST(_)` (marker.rs:70-77). -/
def isRst (m : UInt8) : Bool := decide (0xD0 ≤ m.toNat ∧ m.toNat ≤ 0xD7)

/-- `handle_rst` (mcu.rs:719-744). -/
def handleRst (ms : MState) : Except DecErr MState :=
  let d := { ms.d with todo := ms.d.restart }
  match ms.bs.marker with
  | none => .ok { ms with d := d }
  | some m =>
    if isRst m then
      .ok { ms with d := d, bs := ms.bs.reset, work := ms.work.map fun w => { w with pred := 0 } }
    else if m = 0xD9 then .ok { ms with d := d }
    else .error .mcu

/-- The search for a marker in `handle_rst_main` (mcu_prog.rs:447-478). -/
def seekRst (ms : MState) : MState :=
  if ms.d.restart ≠ 0 ∧ ms.bs.marker = none ∧ ms.bs.seenEoi = false then
    match getMarker ms.bs with
    | (some m, bs) => { ms with bs := { bs with marker := some m } }
    | (none, bs) => { ms with bs := bs }
  else ms

/-- `handle_rst_main` (mcu_prog.rs:442-482), called with `todo = 0` only. -/
def handleRstMain (ms : MState) : Except DecErr MState :=
  match ms.bs.refill with
  | .error e => .error (.bits e)
  | .ok bs => handleRst (seekRst { ms with bs := bs })

/-- `parse_marker_inner` on the reader of the bit stream. -/
def parseIn (o : HdrOpts) (m : UInt8) (ms : MState) : Except DecErr MState :=
  match parseMarker o m.toNat ms.d ms.bs.rest with
  | .error .panic => .error .panic
  | .error e => .error (.hdr e)
  | .ok (d, r) => .ok { ms with d := d, bs := { ms.bs with rest := r } }

/-- The markers that may stand between scans (mcu.rs:608-609, 685-692): DHT, DQT, DRI, COM and APPn.  (`from_u8` names
APP0, 1, 2, 13 and 14 only, marker.rs:84-88.) -/
def isSetup (m : UInt8) : Bool :=
  m ∈ [0xC4, 0xDB, 0xDD, 0xFE, 0xE0, 0xE1, 0xE2, 0xED, 0xEE]

/-- `check_stream_marker_after_mcu_width` (mcu.rs:578-643). -/
def checkMarker (o : HdrOpts) (ms : MState) : Except DecErr (Cont × MState) :=
  match ms.bs.marker with
  | none => .ok (.ok, ms)
  | some m =>
    if m = 0xD9 then .ok (.ok, { ms with bs := { ms.bs with marker := none, seenEoi := true } })
    else if isRst m then
      if ms.d.todo = 0 then
        match handleRst ms with
        | .error e => .error e
        | .ok ms => .ok (.ok, ms)
      else .ok (.ok, ms)
    else if m = 0xDA then
      match parseIn o m ms with
      | .error e => .error e
      | .ok ms => .ok (.anotherSos, { ms with bs := ms.bs.reset })
    else if isSetup m then .ok (.inter m, { ms with bs := { ms.bs with marker := none } })
    else if o.strict then .error .marker
    else
      match parseIn o m ms with
      | .error e => .error e
      | .ok ms => .ok (.terminate, { ms with bs := ms.bs.reset })

/-- The loop of `advance_to_next_sos` (mcu.rs:671-706). -/
def nextSos (o : HdrOpts) : Nat → MState → Except DecErr (Bool × MState)
  | 0, _ => .error .many
  | n + 1, ms =>
    match getMarker ms.bs with
    | (none, _) => .error .exhausted
    | (some m, bs) =>
      let ms := { ms with bs := bs }
      if m = 0xDA then
        match parseIn o m ms with
        | .error e => .error e
        | .ok ms => .ok (true, { ms with bs := ms.bs.reset })
      else if m = 0xD9 then .ok (false, { ms with bs := { ms.bs with seenEoi := true } })
      else if isSetup m then
        match parseIn o m ms with
        | .error e => .error e
        | .ok ms => nextSos o n ms
      else if o.strict then .error .marker
      else
        match u16e ms.bs.rest with
        | .error e => .error (.hdr e)
        | .ok (len, r) => nextSos o n { ms with bs := { ms.bs with rest := if 2 ≤ len then r.drop (len - 2) else r } }

/-- `advance_to_next_sos` (mcu.rs:661-712). -/
def advanceSos (o : HdrOpts) (m : UInt8) (ms : MState) : Except DecErr (Bool × MState) :=
  match parseIn o m ms with
  | .error e => .error e
  | .ok ms => nextSos o 64 { ms with bs := ms.bs.reset }

/-! ## MCUs -/

/-- `tmp` as `decode_mcu_block` sees it: entry `8 * row + column`. -/
def flatBlock (v : Block) (i : Nat) : I32 := v ⟨i / 8 % 8, by omega⟩ ⟨i % 8, by omega⟩

/-- `tmp` as the transforms see it. -/
def gridBlock (b : Nat → I32) : Block := fun r c => b (8 * r.val + c.val)

/-- The samples of a block stored in `channel[pos..]` after skipping `off` (mcu.rs:468-474, 540-557); `none`
is a panic. -/
def storeAt (chan : List Int) (off pos stride : Nat) (rows : Fin 8 → Fin 8 → Int) : Option (List Int) :=
  if off + pos ≤ chan.length then
    (putRows (chan.drop (off + pos)) stride rows).map (chan.take (off + pos) ++ ·)
  else none

/-- One block (mcu.rs:489-560): row `i` and column `j` of MCUs, component `k`, block `(vs, hs)` of the
MCU. -/
def oneBlock (cfg : Cfg) (i j k : Nat) (c : HComp) (dt ac : Huff) (ms : MState) (p : Nat × Nat) : Except Halt MState :=
  match ms.work[k]? with
  | none => .error (.err .panic)
  | some w =>
    if w.needed then
      match ms.bs.decodeBlock dt ac w.qt (flatBlock (clobber ms.more ms.tmp)) w.pred with
      | .error .panic => .error (.err .panic)
      | .error e => if cfg.o.strict then .error (.err (.bits e)) else .error (.stop ms)
      | .ok out =>
        let r := select cfg.isa out.len (gridBlock out.block)
        let pos := w.stride * (p.1 * 8) + (j * c.h + p.2) * 8
        match (if cfg.all then (storeAt w.raw 0 pos w.stride r.rows).map fun l => { w with raw := l, pred := out.pred }
            else (storeAt w.whole (i * w.stride * 8 * c.v) pos w.stride r.rows).map fun l =>
              { w with whole := l, pred := out.pred }) with
        | none => .error (.err .panic)
        | some w => .ok { ms with bs := out.s, work := ms.work.set k w, more := decide (10 < out.len), tmp := r.mem }
    else
      match ms.bs.discardBlock dt ac with
      | .error .panic => .error (.err .panic)
      | .error e => if cfg.o.strict then .error (.err (.bits e)) else .error (.stop ms)
      | .ok (_, bs) => .ok { ms with bs := bs }

/-- The two inner loops over the blocks of a component in an MCU (mcu.rs:485-488). -/
def positions (sampled : Bool) (c : HComp) : List (Nat × Nat) :=
  if sampled then (List.range c.v).flatMap fun v => (List.range c.h).map fun h => (v, h) else [(0, 0)]

/-- One component of an MCU (mcu.rs:452-563). -/
def oneComp (cfg : Cfg) (i j : Nat) (ms : MState) (k : Nat) : Except Halt MState :=
  match ms.d.comps[k]? with
  | none => .error (.err .panic)
  | some c =>
    match ms.d.dc (c.td % 4), ms.d.ac (c.ta % 4) with
    | some dt, some ac => (positions ms.d.sub c).foldlM (oneBlock cfg i j k c dt ac) ms
    | _, _ => .error (.err .table)

/-- One MCU: the components of the scan (mcu.rs:440-441, 452). -/
def oneMcu (cfg : Cfg) (i j : Nat) (ms : MState) : Except Halt MState :=
  (ms.d.zorder.take ms.d.ns).foldlM (oneComp cfg i j) ms

/-- `todo.wrapping_sub(1)` (mcu.rs:565). -/
def countDown (ms : MState) : MState := { ms with d := { ms.d with todo := (ms.d.todo + 2 ^ 64 - 1) % 2 ^ 64 } }

/-- The loop over the MCUs of a row (mcu.rs:450-575), `n` of them from column `j` on. -/
def rowLoop (cfg : Cfg) (i : Nat) : Nat → Nat → MState → Except Halt MState
  | 0, _, ms => .ok ms
  | n + 1, j, ms =>
    match oneMcu cfg i j ms with
    | .error h => .error h
    | .ok ms =>
      let ms := countDown ms
      if ms.d.todo = 0 then
        match handleRstMain ms with
        | .error e => .error (.err e)
        | .ok ms => rowLoop cfg i n (j + 1) ms
      else if ms.bs.marker.isSome ∧ ms.bs.left = 0 then .ok ms
      else rowLoop cfg i n (j + 1) ms

/-- `decode_mcu_width` (mcu.rs:393-425, 433-576). -/
def decodeRow (cfg : Cfg) (i : Nat) (ms : MState) : Except DecErr (Cont × MState) :=
  match rowLoop cfg i cfg.mcuX 0 { ms with more := true } with
  | .error (.err e) => .error e
  | .error (.stop ms) => .ok (.terminate, ms)
  | .ok ms => checkMarker cfg.o ms

/-! ## Rows and scans -/

/-- `pixels[pixels_written..].fill(128)` (mcu.rs:203, 276). -/
def fillRest (ps : PState) : PState := { ps with rest := ps.rest.map fun _ => 128 }

/-- `post_process` on the samples in `raw_coeff`. -/
def postWith (p : Post) (i : Nat) (work : List Work) (ps : PState) : Except DecErr PState :=
  match postProcess p i { ps with comps := List.zipWith (fun c r => { c with raw := r }) ps.comps (work.map (·.raw)) } with
  | none => .error .post
  | some ps => .ok ps

/-- How the loop over the rows of MCUs is left: to the code after the loops, to the next scan, from the function. -/
inductive Leave where
  | done | sos | ret
deriving DecidableEq

/-- What follows a row of MCUs (mcu.rs:260-280). -/
def afterRow (cfg : Cfg) (ct : Cont) (ms : MState) (ps : PState) : Except DecErr (Option Leave × MState × PState) :=
  match ct with
  | .ok => .ok (none, ms, ps)
  | .anotherSos => .ok (some (if cfg.all then .ret else .sos), ms, ps)
  | .inter m =>
    match advanceSos cfg.o m ms with
    | .error e => .error e
    | .ok (true, ms) => .ok (some .sos, ms, ps)
    | .ok (false, ms) => .ok (some .done, ms, ps)
  | .terminate => .ok (some .ret, ms, fillRest ps)

/-- The loop over the rows of MCUs (mcu.rs:201-281), `n` of them from row `i` on.  (Simplified: the conversion of colours in
`p` is the one of the headers; in the source an APP14 segment met after a row changes it for the rows that follow.) -/
def rowsLoop (cfg : Cfg) (p : Post) : Nat → Nat → MState → PState → Except DecErr (Leave × MState × PState)
  | 0, _, ms, ps => .ok (.done, ms, ps)
  | n + 1, i, ms, ps =>
    if 0 < ms.bs.over then
      if cfg.o.strict then .error .early else .ok (.done, ms, fillRest ps)
    else
      match decodeRow cfg i ms with
      | .error e => .error e
      | .ok (ct, ms) =>
        match (if cfg.all then postWith p i ms.work ps else .ok ps) with
        | .error e => .error e
        | .ok ps =>
          match afterRow cfg ct ms ps with
          | .error e => .error e
          | .ok (none, ms, ps) => rowsLoop cfg p n (i + 1) ms ps
          | .ok (some l, ms, ps) => .ok (l, ms, ps)

/-- The loop over scans (mcu.rs:193-285). -/
def sosLoop (cfg : Cfg) (p : Post) : Nat → MState → PState → Except DecErr (Bool × MState × PState)
  | 0, _, _ => .error .fuel
  | f + 1, ms, ps =>
    match rowsLoop cfg p p.mcuHeight 0 ms ps with
    | .error e => .error e
    | .ok (.sos, ms, ps) => sosLoop cfg p f ms ps
    | .ok (.done, ms, ps) => .ok (true, ms, ps)
    | .ok (.ret, ms, ps) => .ok (false, ms, ps)

/-! ## Components in several scans -/

/-- Copying a row of MCUs to `raw_coeff` (mcu.rs:361-381); `none` is a panic (of a slice). -/
def copyRow (n i : Nat) (w : Work) : Option Work :=
  if w.needed then
    let step := w.whole.length / n
    if i * step + step ≤ w.whole.length ∧ step ≤ w.raw.length then
      some { w with raw := (w.whole.drop (i * step)).take step ++ w.raw.drop step }
    else none
  else some w

/-- The loop of `finish_baseline_decoding` (mcu.rs:357-391): `n` of the `rows` rows from row `i` on. -/
def finishRows (p : Post) (rows : Nat) : Nat → Nat → List Work → PState → Except DecErr PState
  | 0, _, _, ps => .ok ps
  | n + 1, i, work, ps =>
    match allSome (work.map (copyRow rows i)) with
    | none => .error .panic
    | some work =>
      match postWith p i work ps with
      | .error e => .error e
      | .ok ps => finishRows p rows n (i + 1) work ps

/-- `finish_baseline_decoding` (mcu.rs:326-392), `rows` being `mcu_y`. -/
def finishBaseline (p : Post) (i : InSpace) (o : OutSpace) (rows : Nat) (work : List Work) (ps : PState) :
    Except DecErr PState :=
  finishRows { p with mcuHeight := rows } rows rows 0
    (work.mapIdx fun k w => { w with needed := decide (k ≤ o.comps - 1 ∨ i = .ycck ∨ i = .cmyk) }) ps

/-! ## Setup -/

/-- Number of codes of each size of table K.3 (misc.rs:397-400). -/
def k3Counts : List Nat :=
  [0, 0, 1, 5, 1, 1, 1, 1, 1, 1, 0, 0, 0, 0, 0, 0, 0]

/-- Symbols of table K.3 (misc.rs:401-403). -/
def k3Syms : List Nat :=
  [0, 1, 2, 3, 4, 5, 6, 7, 8, 9, 10, 11]

/-- Number of codes of each size of table K.4 (misc.rs:414-417). -/
def k4Counts : List Nat :=
  [0, 0, 3, 1, 1, 1, 1, 1, 1, 1, 1, 1, 0, 0, 0, 0, 0]

/-- Symbols of table K.4 (misc.rs:418-420). -/
def k4Syms : List Nat :=
  [0, 1, 2, 3, 4, 5, 6, 7, 8, 9, 10, 11]

/-- Number of codes of each size of table K.5 (misc.rs:431-434). -/
def k5Counts : List Nat :=
  [0, 0, 2, 1, 3, 3, 2, 4, 3, 5, 5, 4, 4, 0, 0, 1, 125]

/-- Symbols of table K.5 (misc.rs:435-449). -/
def k5Syms : List Nat :=
  [1, 2, 3, 0, 4, 17, 5, 18, 33, 49, 65, 6, 19, 81, 97, 7, 34, 113, 20, 50, 129, 145, 161, 8, 35,
   66, 177, 193, 21, 82, 209, 240, 36, 51, 98, 114, 130, 9, 10, 22, 23, 24, 25, 26, 37, 38, 39, 40,
   41, 42, 52, 53, 54, 55, 56, 57, 58, 67, 68, 69, 70, 71, 72, 73, 74, 83, 84, 85, 86, 87, 88, 89,
   90, 99, 100, 101, 102, 103, 104, 105, 106, 115, 116, 117, 118, 119, 120, 121, 122, 131, 132,
   133, 134, 135, 136, 137, 138, 146, 147, 148, 149, 150, 151, 152, 153, 154, 162, 163, 164, 165,
   166, 167, 168, 169, 170, 178, 179, 180, 181, 182, 183, 184, 185, 186, 194, 195, 196, 197, 198,
   199, 200, 201, 202, 210, 211, 212, 213, 214, 215, 216, 217, 218, 225, 226, 227, 228, 229, 230,
   231, 232, 233, 234, 241, 242, 243, 244, 245, 246, 247, 248, 249, 250]

/-- Number of codes of each size of table K.6 (misc.rs:460-463). -/
def k6Counts : List Nat :=
  [0, 0, 2, 1, 2, 4, 4, 3, 4, 7, 5, 4, 4, 0, 1, 2, 119]

/-- Symbols of table K.6 (misc.rs:464-478). -/
def k6Syms : List Nat :=
  [0, 1, 2, 3, 17, 4, 5, 33, 49, 6, 18, 65, 81, 7, 97, 113, 19, 34, 50, 129, 8, 20, 66, 145, 161,
   177, 193, 9, 35, 51, 82, 240, 21, 98, 114, 209, 10, 22, 36, 52, 225, 37, 241, 23, 24, 25, 26,
   38, 39, 40, 41, 42, 53, 54, 55, 56, 57, 58, 67, 68, 69, 70, 71, 72, 73, 74, 83, 84, 85, 86, 87,
   88, 89, 90, 99, 100, 101, 102, 103, 104, 105, 106, 115, 116, 117, 118, 119, 120, 121, 122, 130,
   131, 132, 133, 134, 135, 136, 137, 138, 146, 147, 148, 149, 150, 151, 152, 153, 154, 162, 163,
   164, 165, 166, 167, 168, 169, 170, 178, 179, 180, 181, 182, 183, 184, 185, 186, 194, 195, 196,
   197, 198, 199, 200, 201, 202, 210, 211, 212, 213, 214, 215, 216, 217, 218, 226, 227, 228, 229,
   230, 231, 232, 233, 234, 242, 243, 244, 245, 246, 247, 248, 249, 250]

/-- `HuffmanTable::new_unfilled(…).unwrap()` (huffman.rs:71-77, misc.rs:396-409) where there is no table yet; `none`
is the panic of `unwrap`. -/
def fillTable (t : Nat → Option Huff) (i : Nat) (cnt syms : List Nat) (isDc : Bool) : Option (Nat → Option Huff) :=
  match t i with
  | some _ => some t
  | none =>
    match Huff.new (fun l => cnt.getD l 0) (fun p => syms.getD p 0) isDc with
    | .ok h => some (upd t i h)
    | .error _ => none

/-- `fill_default_mjpeg_tables` (misc.rs:386-485). -/
def fillMjpeg (d : Hdr) : Option Hdr :=
  (fillTable d.dc 0 k3Counts k3Syms true).bind fun dc =>
    (fillTable dc 1 k4Counts k4Syms true).bind fun dc =>
      (fillTable d.ac 0 k5Counts k5Syms false).bind fun ac =>
        (fillTable ac 1 k6Counts k6Syms false).bind fun ac => some { d with dc := dc, ac := ac }

/-- The sampling factors of the frame. -/
def factors (d : Hdr) : List Factor := d.comps.map fun c => ⟨c.h, c.v⟩

/-- `reset_params` (mcu_prog.rs:633-649) as called at mcu.rs:129-132, for the fields kept in the headers. -/
def resetLuma (i : InSpace) (d : Hdr) : Hdr :=
  if i = .luma ∧ (hMax (factors d) ≠ 1 ∨ vMax (factors d) ≠ 1) then
    { d with comps := d.comps.mapIdx fun k c => if k = 0 then { c with h := 1, v := 1 } else c }
  else d

/-- `check_tables` (mcu.rs:34-74): a table number of 4 or more is outside the array. -/
def checkTables (d : Hdr) : Bool :=
  d.comps.all fun c => decide (c.td < 4) && (d.dc c.td).isSome && decide (c.ta < 4) && (d.ac c.ta).isSome

/-- The quantisation tables of the components (misc.rs:231-239, 246); `none` is the error. -/
def quantOf (d : Hdr) : Option (List (List Nat)) := allSome (d.comps.map fun c => d.qt c.tq)

/-- The components before the first MCU (misc.rs:246-248, mcu.rs:145-181; the planes of the whole picture only if
not all components are in the first scan). -/
def setupWork (width : Nat) (o : OutSpace) (fs : List Factor) (qts : List (List Nat)) (all : Bool) (x y : Nat) : List Work :=
  (List.zip (setupComps width fs) (List.zip fs qts)).mapIdx fun k (c, f, q) =>
    let needed := decide (min (o.comps - 1) k = k ∨ fs.length = 4)
    { stride := c.stride
      qt := fun i => BitVec.ofNat 32 (q.getD i 0)
      needed := needed
      pred := 0
      raw := if needed then List.replicate (c.stride * c.vs * 8) 0 else []
      whole := if all then [] else List.replicate (x * f.v * f.h * y * 64) 0 }

/-- `mcu_width` (mcu.rs:97-109, 129-136). -/
def mcuAcross (width : Nat) (fs : List Factor) : Nat :=
  if hMax fs ≠ 1 ∨ vMax fs ≠ 1 then divCeil width (hMax fs * 8) else (width + 7) / 8

/-- The loops and what follows them (mcu.rs:134-312), the components being set up; `mcuY` is that of the headers. -/
def baselineScan (avx2 : Bool) (o : HdrOpts) (out : OutSpace) (i : InSpace) (qts : List (List Nat)) (mcuY : Nat) (d : Hdr)
    (s : Bytes) (pixels : List UInt8) : Except DecErr (MState × List UInt8) :=
  let fs := factors d
  let p := framePost avx2 i out d.width d.height fs
  let cfg : Cfg := { o := o, isa := chooseIdct avx2, all := decide (d.ns = d.comps.length), mcuX := mcuAcross d.width fs }
  let ms : MState :=
    { d := d, bs := Bs.new s, work := setupWork d.width out fs qts cfg.all cfg.mcuX p.mcuHeight, more := true,
      tmp := fun _ _ => 0 }
  match sosLoop cfg p (s.length + 2) ms ⟨setupComps d.width fs, [], pixels⟩ with
  | .error e => .error e
  | .ok (false, ms, ps) => .ok (ms, ps.done ++ ps.rest)
  | .ok (true, ms, ps) =>
    match (if cfg.all then .ok ps else finishBaseline p i out mcuY ms.work ⟨ps.comps, [], ps.done ++ ps.rest⟩) with
    | .error e => .error e
    | .ok ps =>
      .ok (if ms.bs.seenEoi then ms else { ms with bs := (getMarker ms.bs).2 }, ps.done ++ ps.rest)

/-- `decode_mcu_ycbcr_baseline` (mcu.rs:88-312) after the headers: what is left in the decoder and in
`pixels`.  (Simplified: the test `num_components() > 1` of the input colour space, mcu.rs:112, is one of the number of
components, see `framePost`; the search for EOI at the end, mcu.rs:298-308, is the last step and its result is
dropped.) -/
def decodeBaseline (avx2 : Bool) (o : HdrOpts) (out : OutSpace) (d : Hdr) (s : Bytes) (pixels : List UInt8) :
    Except DecErr (MState × List UInt8) :=
  match settleSpace o.strict d.comps.length d.space, quantOf d, (if d.mjpeg then fillMjpeg d else some d) with
  | _, none, _ => .error .quant
  | _, _, none => .error .panic
  | none, _, _ => .error .space
  | some i, some qts, some d =>
    let d' := { resetLuma i d with space := i }
    if checkTables d' = false then .error .table
    else baselineScan avx2 o out i qts (divCeil d.height (vMax (factors d) * 8)) d' s pixels

/-- `decode` (decoder.rs:214-222, 264-276, 776-795) of a new decoder over the bytes `s`: the pixels, and what is
left of the bytes. -/
def decodeJpeg (avx2 : Bool) (o : HdrOpts) (out : OutSpace) (s : Bytes) : Except DecErr (List UInt8 × Bytes) :=
  match decodeHeaders o s with
  | .error .panic => .error .panic
  | .error e => .error (.hdr e)
  | .ok (d, r) =>
    if d.prog then .error .progressive
    else
      match decodeBaseline avx2 o out d r (List.replicate (d.width * d.height * out.comps) 0) with
      | .error e => .error e
      | .ok (ms, px) => .ok (px, ms.bs.rest)

end Zune.Jpeg
