import Verif.Jpeg.BitsModel

/-!
# zune-jpeg: progressive scans (model)

Model of the progressive functions of `crates/zune-jpeg/src/bitstream.rs` and of the loop over the
blocks of a scan in `crates/zune-jpeg/src/mcu_prog.rs`.  `i16` coefficients are `BitVec 16`.
-/

namespace Zune.Jpeg

/-- `i16`. -/
abbrev I16 := BitVec 16

/-- The parameters of a scan kept in `BitStream` (bitstream.rs:123-126; set at 155-170 and
755-759). -/
structure Band where
  /-- `spec_start`. -/
  ss : Nat
  /-- `spec_end`. -/
  se : Nat
  /-- `successive_low_mask`. -/
  bit : I16

/-- `decode_prog_dc_first` (bitstream.rs:519-529): the value stored and the new prediction. -/
def Bs.progDcFirst (s : Bs) (t : Huff) (bit : I16) (pred : I32) :
    Except JErr (I16 × I32 × Bs) :=
  match s.decodeDc t pred with
  | .error e => .error e
  | .ok (pred, s) => .ok (pred.setWidth 16 * bit, pred, s)

/-- `decode_prog_dc_refine` (bitstream.rs:531-554). -/
def Bs.progDcRefine (s : Bs) (bit v : I16) : Except JErr (I16 × Bs) :=
  match (if s.left < 1 then s.refill else .ok s) with
  | .error e => .error e
  | .ok s =>
    if s.left < 1 then .error .refineMarker
    else .ok (if s.bit.1 = 1 then v + bit else v, s.bit.2)

/-- One turn of the loop of `decode_mcu_ac_first` (bitstream.rs:576-617); the boolean tells whether
the loop goes on. -/
def Bs.firstStep (t : Huff) (fast : Nat → Int) (bd : Band) (k : Nat) (s : Bs) (block : Nat → I16) :
    Except JErr (Bool × Nat × Bs × (Nat → I16)) :=
  match s.refill with
  | .error e => .error e
  | .ok s =>
    let f := fast (s.peek 9)
    if f ≠ 0 then
      let k := k + (f / 16 % 16).toNat
      .ok (decide (k + 1 ≤ bd.se), k + 1, s.drop (f % 16).toNat,
        setAt block (zz (min k 63)) (BitVec.ofInt 16 (f / 256) * bd.bit))
    else
      match s.huff t with
      | .error e => .error e
      | .ok (sym, s) =>
        let r := sym / 16
        let m := sym % 16
        if m ≠ 0 then
          let k := k + r
          .ok (decide (k + 1 ≤ bd.se), k + 1, (s.extra m).2,
            setAt block (zz (k % 64)) ((s.extra m).1.setWidth 16 * bd.bit))
        else if r ≠ 15 then
          .ok (false, k, { (s.get r).2 with eobRun := 2 ^ r + (s.get r).1 - 1 }, block)
        else .ok (decide (k + 16 ≤ bd.se), k + 16, s, block)

/-- The loop of `decode_mcu_ac_first` (bitstream.rs:576-617).  The fuel bounds the turns: each that
goes on moves `k`, which is at most 63 then. -/
def Bs.firstLoop (t : Huff) (fast : Nat → Int) (bd : Band) : Nat → Nat → Bs → (Nat → I16) →
    Except JErr (Bs × (Nat → I16))
  | 0, _, s, block => .ok (s, block)
  | fuel + 1, k, s, block =>
    match Bs.firstStep t fast bd k s block with
    | .error e => .error e
    | .ok (go, k, s, block) => if go then Bs.firstLoop t fast bd fuel k s block else .ok (s, block)

/-- `decode_mcu_ac_first` (bitstream.rs:563-619). -/
def Bs.acFirst (s : Bs) (t : Huff) (bd : Band) (block : Nat → I16) :
    Except JErr (Bs × (Nat → I16)) :=
  match t.acLookup with
  | none => .error .panic
  | some fast => Bs.firstLoop t fast bd 64 bd.ss s block

/-- The value of a coefficient after a correction bit 1 (bitstream.rs:686-692, 731-741).  (The
source uses a checked addition in the first of the two places, a wrapping one in the second.) -/
def corrected (bit c : I16) : I16 :=
  if c &&& bit = 0#16 then (if 0 ≤ c.toInt then c + bit else c - bit) else c

/-- `'advance_nonzero` (bitstream.rs:674-707): move over coefficients until `r` zero ones were
passed and one more is reached, or to the end of the band.  (`r` is a natural number here, tested
before it would become negative.) -/
def Bs.advance (bd : Band) : Nat → Nat → Nat → Bs → (Nat → I16) →
    Except JErr (Nat × Bs × (Nat → I16))
  | 0, k, _, s, block => .ok (k, s, block)
  | fuel + 1, k, r, s, block =>
    let c := block (zz (k % 64))
    if c ≠ 0#16 then
      match (if s.left < 1 then s.refill else .ok s) with
      | .error e => .error e
      | .ok s =>
        if s.left < 1 ∧ s.marker.isSome then .error .refineMarker
        else
          let block := if s.bit.1 = 1 then setAt block (zz (k % 64)) (corrected bd.bit c) else block
          if k = bd.se then .ok (k, s.bit.2, block)
          else Bs.advance bd fuel (k + 1) r s.bit.2 block
    else if r = 0 then .ok (k, s, block)
    else if k = bd.se then .ok (k, s, block)
    else Bs.advance bd fuel (k + 1) (r - 1) s block

/-- One turn of `'no_eob` (bitstream.rs:633-721). -/
def Bs.refineStep (t : Huff) (bd : Band) (k : Nat) (s : Bs) (block : Nat → I16) :
    Except JErr (Bool × Nat × Bs × (Nat → I16)) :=
  match s.refill with
  | .error e => .error e
  | .ok s =>
    match s.huff t with
    | .error e => .error e
    | .ok (sym, s) =>
      let r := sym / 16
      let m := sym % 16
      if m = 0 ∧ r ≠ 15 then
        .ok (false, k, { (s.get r).2 with eobRun := 2 ^ r + (s.get r).1 }, block)
      else if 2 ≤ m then .error .badRefine
      else
        let new : I16 := if m = 0 then 0#16 else if s.bit.1 = 1 then bd.bit else -bd.bit
        let s := if m = 0 then s else s.bit.2
        match (if k ≤ bd.se then Bs.advance bd 64 k r s block else .ok (k, s, block)) with
        | .error e => .error e
        | .ok (k, s, block) =>
          .ok (decide (k + 1 ≤ bd.se), k + 1, s,
            if new ≠ 0#16 then setAt block (zz (k % 64)) new else block)

/-- The loop `'no_eob` (bitstream.rs:633-721). -/
def Bs.refineLoop (t : Huff) (bd : Band) : Nat → Nat → Bs → (Nat → I16) →
    Except JErr (Nat × Bs × (Nat → I16))
  | 0, k, s, block => .ok (k, s, block)
  | fuel + 1, k, s, block =>
    match Bs.refineStep t bd k s block with
    | .error e => .error e
    | .ok (go, k, s, block) =>
      if go then Bs.refineLoop t bd fuel k s block else .ok (k, s, block)

/-- The correction bits in an end-of-band run (bitstream.rs:728-747). -/
def Bs.eobLoop (bd : Band) : Nat → Nat → Bs → (Nat → I16) → Except JErr (Bs × (Nat → I16))
  | 0, _, s, block => .ok (s, block)
  | fuel + 1, k, s, block =>
    if k ≤ bd.se then
      let c := block (zz (k % 64))
      let s1 := if c ≠ 0#16 then s.bit.2 else s
      let block := if c ≠ 0#16 ∧ s.bit.1 = 1 then setAt block (zz (k % 64)) (corrected bd.bit c)
        else block
      match (if s1.left < 1 then s1.refill else .ok s1) with
      | .error e => .error e
      | .ok s2 => Bs.eobLoop bd fuel (k + 1) s2 block
    else .ok (s, block)

/-- The end-of-band part of `decode_mcu_ac_refine` (bitstream.rs:723-751). -/
def Bs.refineEob (bd : Band) (k : Nat) (s : Bs) (block : Nat → I16) :
    Except JErr (Bs × (Nat → I16)) :=
  if 0 < s.eobRun then
    if (∃ j ∈ List.range 64, j ≠ 0 ∧ block j ≠ 0#16) then
      match s.refill with
      | .error e => .error e
      | .ok s =>
        match Bs.eobLoop bd 64 k s block with
        | .error e => .error e
        | .ok (s, block) => .ok ({ s with eobRun := s.eobRun - 1 }, block)
    else .ok ({ s with eobRun := s.eobRun - 1 }, block)
  else .ok (s, block)

/-- `decode_mcu_ac_refine` (bitstream.rs:621-753). -/
def Bs.acRefine (s : Bs) (t : Huff) (bd : Band) (block : Nat → I16) :
    Except JErr (Bs × (Nat → I16)) :=
  if s.eobRun = 0 then
    match Bs.refineLoop t bd 64 bd.ss s block with
    | .error e => .error e
    | .ok (k, s, block) => Bs.refineEob bd k s block
  else Bs.refineEob bd bd.ss s block

/-- The component and number of a block. -/
abbrev Addr := Nat × Nat

/-- The parameters of a scan and its tables: `spec_start`, `spec_end`, `succ_low`,
`succ_high != 0`, and the tables of each component (`update_progressive_params`,
bitstream.rs:755-759; mcu_prog.rs:137-144; `dc_huffman_tables`, `ac_huffman_tables`). -/
structure ProgScan where
  /-- `spec_start`. -/
  ss : Nat
  /-- `spec_end`. -/
  se : Nat
  /-- `succ_low`. -/
  al : Nat
  /-- `succ_high != 0`. -/
  refine : Bool
  /-- DC table of each component. -/
  dc : Nat → Huff
  /-- AC table of each component. -/
  ac : Nat → Huff

/-- `successive_low_mask` with the band (bitstream.rs:756-758). -/
def ProgScan.band (p : ProgScan) : Band := { ss := p.ss, se := p.se, bit := 1#16 <<< p.al }

/-- The decoding of one block in `parse_entropy_coded_data` (mcu_prog.rs:269-340 and 418-428): the
prediction of its component, the block and the reader after it.  (In an interleaved scan `ss` is 0,
see the check at 350.  Simplified: a table that was not defined is an error in the source.) -/
def ProgScan.block (p : ProgScan) (c : Nat) (pred : I32) (b : Nat → I16) (s : Bs) :
    Except JErr (I32 × (Nat → I16) × Bs) :=
  if p.ss ≠ 0 ∧ p.refine = false ∧ 0 < s.eobRun then
    .ok (pred, b, { s with eobRun := s.eobRun - 1 })
  else if p.ss = 0 then
    if p.refine then (s.progDcRefine p.band.bit (b 0)).map fun r => (pred, setAt b 0 r.1, r.2)
    else (s.progDcFirst (p.dc c) p.band.bit pred).map fun r => (r.2.1, setAt b 0 r.1, r.2.2)
  else if p.refine then (s.acRefine (p.ac c) p.band b).map fun r => (pred, r.2, r.1)
  else (s.acFirst (p.ac c) p.band b).map fun r => (pred, r.2, r.1)

/-- The loop of `parse_entropy_coded_data` over the blocks of a scan (mcu_prog.rs:267-341 and
390-441), listed in the order in which the scan visits them.  (Simplified: without restart
intervals; the place of a block in the buffers is left out.) -/
def ProgScan.loop (p : ProgScan) : List Addr → (Nat → I32) → (Addr → Nat → I16) → Bs →
    Except JErr ((Addr → Nat → I16) × Bs)
  | [], _, frame, s => .ok (frame, s)
  | a :: l, pred, frame, s =>
    match p.block a.1 (pred a.1) (frame a) s with
    | .error e => .error e
    | .ok (v, b, s) =>
      p.loop l (fun c => if c = a.1 then v else pred c) (fun x => if x = a then b else frame x) s

/-- `parse_entropy_coded_data` (mcu_prog.rs:221-444) on the bytes behind the scan header: the
checks on the parameters, predictions and reader reset (`reset_prog_params`, 210-218), then the
blocks.  `one` is `num_scans == 1`. -/
def ProgScan.run (p : ProgScan) (one : Bool) (order : List Addr) (rest : List UInt8)
    (frame : Addr → Nat → I16) : Except JErr (Addr → Nat → I16) :=
  if p.se ≠ 0 ∧ (p.ss = 0 ∨ one = false) then .error .mergedScan
  else (p.loop order (fun _ => 0) frame (Bs.new rest)).map Prod.fst

end Zune.Jpeg
