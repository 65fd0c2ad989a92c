import Verif.Jpeg.HeaderLoop
import Verif.Jpeg.HeaderSafe
import Verif.Jpeg.HeaderIcc

/-!
# JPEG headers: the properties C83 to C90
-/

namespace Zune.Jpeg

open Seg

/-! ## C83: quantisation tables -/

/-- **C83** A `DQT` segment is accepted just when it consists of tables as in T.81, B.2.4.1, and each
destination then holds the last table given for it, the `k`-th element put at the `k`-th place of the zig-zag
walk; all other destinations are as before. -/
theorem c83_dqt (d d' : Hdr) (s r : Bytes) : parseDqt d s = .ok (d', r) ↔
    ∃ ts : List QTab, (∀ t ∈ ts, t.Ok) ∧ (ts.flatMap QTab.bytes).length + 2 < 65536 ∧
      s = body (ts.flatMap QTab.bytes) ++ r ∧
      d' = { d with qt := fun j => match last? (fun t : QTab => t.id == j) ts with
        | none => d.qt j
        | some t => some ((List.range 64).map fun k => t.vals.getD (zigzagWalk.idxOf (k / 8, k % 8)) 0) } := by
  rw [parseDqt_iff]
  have : ∀ ts : List QTab, afterQ d.qt ts = fun j => match last? (fun t : QTab => t.id == j) ts with
        | none => d.qt j
        | some t => some ((List.range 64).map fun k => t.vals.getD (zigzagWalk.idxOf (k / 8, k % 8)) 0) := by
    intro ts
    funext j
    rw [afterQ]
    rfl
  simp only [this]

/-- Two tables, of 8 and 16 bit elements. -/
def exQ : List QTab := [⟨false, 0, List.range 64⟩, ⟨true, 3, (List.range 64).map (· * 1000)⟩]

example : (∀ t ∈ exQ, t.Ok) ∧ (exQ.flatMap QTab.bytes).length + 2 < 65536 := by
  constructor
  · intro t ht
    fin_cases ht <;> exact ⟨by decide, by decide +kernel, by decide +kernel⟩
  · decide +kernel

/-! ## C84: Huffman tables -/

/-- The effect of Huffman tables on the tables of one class: each destination holds a table that reads the
code of the last table given for it, all others are as before. -/
def TablesRead (c : Bool) (old new : Nat → Option Huff) (ts : List HTab) : Prop :=
  ∀ j, match last? (fun t : HTab => t.ac == c && t.id == j) ts with
    | none => new j = old j
    | some t => ∃ u, new j = some u ∧ t.ReadBy u.decode

theorem AfterH.read {c : Bool} {old new : Nat → Option Huff} {ts : List HTab} (h : AfterH c old new ts) :
    TablesRead c old new ts := by
  intro j
  have := h j
  split <;> rename_i q <;> rw [q] at this
  · exact this
  · obtain ⟨u, a, b⟩ := this
    exact ⟨u, a, b.1⟩

/-- **C84** A `DHT` segment that is accepted consists of tables as in T.81, B.2.4.2 and Annex C, and the
tables then held read their codes. -/
theorem c84_dht_sound (d d' : Hdr) (s r : Bytes) (h : parseDht d s = .ok (d', r)) :
    ∃ ts : List HTab, (∀ t ∈ ts, t.Ok) ∧ (ts.flatMap HTab.bytes).length + 2 < 65536 ∧
      s = body (ts.flatMap HTab.bytes) ++ r ∧ d' = { d with dc := d'.dc, ac := d'.ac } ∧
      TablesRead false d.dc d'.dc ts ∧ TablesRead true d.ac d'.ac ts := by
  obtain ⟨ts, dc, ac, a, b, c, rfl, e1, e2⟩ := parseDht_sound d d' s r h
  exact ⟨ts, a, b, c, rfl, e1.read, e2.read⟩

/-- **C84** Every segment of tables as in T.81 is accepted, with the same effect. -/
theorem c84_dht_complete (d : Hdr) (r : Bytes) (ts : List HTab) (a : ∀ t ∈ ts, t.Ok)
    (b : (ts.flatMap HTab.bytes).length + 2 < 65536) :
    ∃ d', parseDht d (body (ts.flatMap HTab.bytes) ++ r) = .ok (d', r) ∧ d' = { d with dc := d'.dc, ac := d'.ac } ∧
      TablesRead false d.dc d'.dc ts ∧ TablesRead true d.ac d'.ac ts := by
  obtain ⟨dc, ac, e, e1, e2⟩ := parseDht_complete d r ts a b
  exact ⟨_, e, rfl, e1.read, e2.read⟩

/-- Table K.3 of T.81, for DC coefficients of luminance. -/
def exK3 : HTab := ⟨false, 0, [0, 1, 5, 1, 1, 1, 1, 1, 1, 0, 0, 0, 0, 0, 0, 0], [0, 1, 2, 3, 4, 5, 6, 7, 8, 9, 10, 11]⟩

example : exK3.Ok := ⟨by decide, by decide, by decide, by decide, by decide, by decide, by
    intro l h1 h2
    have key : ∀ l : Fin 17, 1 ≤ l.val → Zune.Canon.first exK3.count l.val + exK3.count l.val < 2 ^ l.val := by decide +kernel
    exact key ⟨l, by omega⟩ h1, by decide⟩

/-! ## C85: the frame header -/

/-- **C85** A start of frame segment is accepted just when it is a frame header as in T.81, B.2.2, with 8 bit
samples, one to four components, no horizontal factor of 3 and within the limits on the size, and no frame came
before; width, height and components are then those of the frame. -/
theorem c85_sof_partial (o : HdrOpts) (d d' : Hdr) (s r : Bytes) : parseSof o d s = .ok (d', r) ↔
    d.seen = false ∧ ∃ f : Frame, f.Ok ∧ f.comps.length ≤ 4 ∧ (∀ c ∈ f.comps, c.h ≠ 3) ∧ f.width ≤ o.maxW ∧ f.height ≤ o.maxH ∧
      s = body f.bytes ++ r ∧
      d' = { d with height := f.height, width := f.width, ncomp := f.comps.length, seen := true,
                    comps := f.comps.map fun c => { id := c.id, h := c.h, v := c.v, tq := c.tq, td := 0, ta := 0 },
                    space := if f.comps.length = 1 then .luma
                      else if f.comps.length = 4 ∧ d.space = .ycbcr then .cmyk else d.space } := by
  rw [parseSof_iff]
  constructor
  · rintro ⟨a, f, ⟨b1, b2, b3, b4, b5⟩, c, rfl⟩
    exact ⟨a, f, b1, b2, b3, b4, b5, c, rfl⟩
  · rintro ⟨a, f, b1, b2, b3, b4, b5, c, rfl⟩
    exact ⟨a, f, ⟨b1, b2, b3, b4, b5⟩, c, rfl⟩

/-- **C85, disagreement J13** A horizontal factor of 3 is legal in T.81, table B.2, and always refused. -/
theorem c85_factor_three (o : HdrOpts) (d : Hdr) (r : Bytes) (f : Frame) (h : f.Ok) (h3 : ∃ c ∈ f.comps, c.h = 3) :
    ∀ x, parseSof o d (body f.bytes ++ r) ≠ .ok x := by
  rintro ⟨d', r'⟩ q
  obtain ⟨_, g, ⟨g1, g2, g3, _⟩, e, _⟩ := (parseSof_iff o d d' _ r').1 q
  obtain ⟨c, hc, hc3⟩ := h3
  have hlen : f.bytes.length + 2 < 65536 ∧ g.bytes.length + 2 < 65536 := by
    rw [frame_bytes, frame_bytes]
    have := fbytes_length f.comps
    have := fbytes_length g.comps
    have h1 := h.2.2.2.2.2.1
    have h2 := g1.2.2.2.2.2.1
    simp only [List.length_cons, List.length_append, be16_length]
    omega
  have hb : f.bytes = g.bytes := by
    have e1 := u16z_body (b := f.bytes) (r := r) hlen.1
    have e2 := u16z_body (b := g.bytes) (r := r') hlen.2
    rw [e, e2] at e1
    injection e1 with e1 e3
    have : f.bytes.length = g.bytes.length := by omega
    have e4 := congrArg (List.take f.bytes.length) e3
    rw [List.take_left, this, List.take_left] at e4
    exact e4.symm
  have hcs : f.comps.map (fun c => c.h) = g.comps.map (fun c => c.h) := by
    rw [frame_bytes, frame_bytes] at hb
    have hb2 : f.comps.flatMap fbytes = g.comps.flatMap fbytes := by
      have := congrArg (List.drop 6) hb
      simpa [be16] using this
    have key : ∀ (a b : List FComp), (∀ c ∈ a, 1 ≤ c.h ∧ c.h ≤ 4 ∧ 1 ≤ c.v ∧ c.v ≤ 4) →
        (∀ c ∈ b, 1 ≤ c.h ∧ c.h ≤ 4 ∧ 1 ≤ c.v ∧ c.v ≤ 4) → a.flatMap fbytes = b.flatMap fbytes →
        a.map (fun c => c.h) = b.map (fun c => c.h) := by
      intro a
      induction a with
      | nil =>
        intro b _ _ q
        cases b with
        | nil => rfl
        | cons y b => simp [fbytes] at q
      | cons x a ih =>
        intro b ha hb q
        cases b with
        | nil => simp [fbytes] at q
        | cons y b =>
          rw [List.flatMap_cons, List.flatMap_cons] at q
          simp only [fbytes, List.cons_append, List.nil_append, List.cons.injEq] at q
          have hx := ha x List.mem_cons_self
          have hy := hb y List.mem_cons_self
          have := congrArg UInt8.toNat q.2.1
          rw [u8_ofNat _ (by omega), u8_ofNat _ (by omega)] at this
          rw [List.map_cons, List.map_cons, ih b (fun c hc => ha c (List.mem_cons_of_mem _ hc))
            (fun c hc => hb c (List.mem_cons_of_mem _ hc)) q.2.2.2]
          rw [show x.h = y.h by omega]
    exact key _ _ (fun c hc => by have := h.2.2.2.2.2.2 c hc; omega) (fun c hc => by have := g1.2.2.2.2.2.2 c hc; omega) hb2
  have : c.h ∈ g.comps.map (fun c => c.h) := by
    rw [← hcs]
    exact List.mem_map_of_mem hc
  obtain ⟨c', hc', e'⟩ := List.mem_map.1 this
  exact g3 c' hc' (by omega)

/-- A frame of 640 by 480 with chrominance at half the resolution. -/
def exFrame : Frame := ⟨480, 640, [⟨1, 2, 2, 0⟩, ⟨2, 1, 1, 1⟩, ⟨3, 1, 1, 1⟩]⟩

/-- A frame with a horizontal factor of 3. -/
def exThree : Frame := ⟨480, 640, [⟨1, 3, 1, 0⟩, ⟨2, 1, 1, 1⟩, ⟨3, 1, 1, 1⟩]⟩

example : exFrame.Ok ∧ exFrame.comps.length ≤ 4 ∧ (∀ c ∈ exFrame.comps, c.h ≠ 3) ∧ exFrame.width ≤ 16384 := by
  unfold exFrame Frame.Ok
  decide

example : exThree.Ok ∧ ∃ c ∈ exThree.comps, c.h = 3 := by
  unfold exThree Frame.Ok
  decide

/-! ## C86: the scan header -/

/-- **C86** A start of scan segment is accepted just when it is a scan header as in T.81, B.2.3, for distinct
components of the frame; these then have the tables it names, and `z_order` begins with their positions in the
frame. -/
theorem c86_sos (d d' : Hdr) (s r : Bytes) (hn : d.ncomp = d.comps.length) (hz : d.zorder.length = 4)
    (hd : (d.comps.map (·.id)).Nodup) : parseSos d s = .ok (d', r) ↔
    ∃ c : Scan, c.Ok (d.comps.map (·.id)) ∧ s = body c.bytes ++ r ∧
      d' = { d with ns := c.comps.length,
                    comps := d.comps.map fun k => match c.comps.find? (fun e => e.id == k.id) with
                      | none => k
                      | some e => { k with td := e.td, ta := e.ta },
                    zorder := (c.comps.map fun e => d.comps.findIdx (fun k => k.id == e.id)) ++ d.zorder.drop c.comps.length,
                    sub := c.comps.any fun e => d.comps.any fun k => k.id == e.id && (decide (k.v ≠ 1) || decide (k.h ≠ 1)),
                    ss := c.ss, se := c.se, ah := c.ah, al := c.al } := by
  rw [parseSos_iff d d' s r hn hd]
  refine exists_congr fun c => and_congr_right fun h1 => and_congr_right fun _ => ?_
  have : afterScan d c = _ := afterScan_eq d c (by rw [hz]; exact h1.2.1)
  rw [this]
  rfl

/-- The first scan of a baseline file with three components. -/
def exSos : Scan := ⟨[⟨1, 0, 0⟩, ⟨2, 1, 1⟩, ⟨3, 1, 1⟩], 0, 63, 0, 0⟩

example : exSos.Ok (exFrame.comps.map (·.id)) ∧ (exFrame.comps.map (·.id)).Nodup := by
  unfold exSos exFrame Scan.Ok
  decide

/-! ## C87: the whole header -/

/-- What the decoder holds after the first scan header of a file with the segments `l` and the scan header `c`:
for each destination the last table, the last restart interval, the frame, the scan, the last metadata of each kind and
all pieces of colour profile and gain map in order. -/
structure Reads (l : List Segment) (c : Scan) (d : Hdr) : Prop where
  qt : ∀ j, d.qt j = (last? (fun t : QTab => t.id == j) (l.flatMap Segment.qtabs)).map fun t =>
    (List.range 64).map fun k => t.vals.getD (zigzagWalk.idxOf (k / 8, k % 8)) 0
  dc : TablesRead false (fun _ => none) d.dc (l.flatMap Segment.htabs)
  ac : TablesRead true (fun _ => none) d.ac (l.flatMap Segment.htabs)
  restart : d.restart = (l.flatMap Segment.dris).getLast?.getD 0
  todo : d.todo = (l.flatMap Segment.dris).getLast?.getD 0x7fffffff
  frame : ∀ m f, l.flatMap Segment.frames = [(m, f)] → d.prog = decide (m = 0xC2) ∧ d.width = f.width ∧ d.height = f.height ∧
    d.ncomp = f.comps.length ∧
    d.comps = f.comps.map (fun k => { id := k.id, h := k.h, v := k.v, tq := k.tq,
                                      td := ((c.comps.find? fun e => e.id == k.id).map (·.td)).getD 0,
                                      ta := ((c.comps.find? fun e => e.id == k.id).map (·.ta)).getD 0 }) ∧
    d.zorder.take c.comps.length = c.comps.map (fun e => f.comps.findIdx (fun k => k.id == e.id))
  ns : d.ns = c.comps.length
  band : d.ss = c.ss ∧ d.se = c.se ∧ d.ah = c.ah ∧ d.al = c.al
  exif : d.exif = (l.flatMap Segment.exif).getLast?
  xmp : d.xmp = (l.flatMap Segment.xmp).getLast?
  iptc : d.iptc = (l.flatMap Segment.iptc).getLast?
  mpf : d.mpf = (l.flatMap Segment.mpf).getLast?
  gain : d.gain = l.flatMap Segment.gain
  icc : d.icc = (l.flatMap Segment.icc).map fun x => { seq := x.1, num := x.2.1, data := x.2.2 }
  mjpeg : d.mjpeg = l.any Segment.avi

/-- The files of C87: segments with values allowed by the standard, fill bytes before markers and, unless in strict
mode, bytes without meaning before markers; exactly one frame, with different names for its components; a scan header
for it.  The decoder wants more: at most four components, no horizontal factor of 3, the limits on the size, no `APP0`
segment of four bytes, no `APP14` segment but Adobe's. -/
structure File (o : HdrOpts) (l : List (Gap × Segment)) (g : Gap) (c : Scan) (m : Nat) (f : Frame) : Prop where
  segs : ∀ x ∈ l, GapOk o x.1 ∧ x.2.Ok ∧ Known o x.2 ∧ x.2.params.length + 2 < 65536
  gap : GapOk o g
  frame : (l.map (·.2)).flatMap Segment.frames = [(m, f)]
  ids : (f.comps.map (·.id)).Nodup
  scan : c.Ok (f.comps.map (·.id))

/-- The bytes of a file up to the first scan header, which `rest` follows. -/
def fileBytes (l : List (Gap × Segment)) (g : Gap) (c : Scan) (rest : Bytes) : Bytes :=
  0xFF :: 0xD8 :: (bytesOf l ++ (g.marker 0xDA ++ (body c.bytes ++ rest)))

theorem file_holds (o : HdrOpts) (l : List (Gap × Segment)) (g : Gap) (c : Scan) (m : Nat) (f : Frame) (rest : Bytes)
    (h : File o l g c m f) : ∃ d, SegHolds (l.map (·.2)) d ∧
      decodeHeaders o (fileBytes l g c rest) = .ok (finishHdr (afterScan d c), rest) := by
  obtain ⟨d, a, b⟩ := loop_all o g c rest h.gap l [] {} ((bytesOf l ++ (g.marker 0xDA ++ (body c.bytes ++ rest))).length + 1) 0 0
    SegHolds.nil (by omega) (by omega) h.segs (by omega) ⟨m, f, h.frame, h.ids, h.scan⟩
  refine ⟨d, a, ?_⟩
  unfold fileBytes decodeHeaders
  simp only [u16e, Except.bind]
  rw [if_neg (by decide)]
  exact b

/-- **C87** A DRI segment: exactly a length of 4 and an interval, T.81, B.2.4.4. -/
theorem c87_dri (d d' : Hdr) (s r : Bytes) : parseDri d s = .ok (d', r) ↔
    ∃ n < 65536, s = body (be16 n) ++ r ∧ d' = { d with restart := n, todo := n } := by
  constructor
  · intro h
    unfold parseDri at h
    rw [bind_ok] at h
    obtain ⟨⟨l, s1⟩, h1, h⟩ := h
    replace h := ite_err.1 h
    obtain ⟨h4, h⟩ := h
    rw [bind_ok] at h
    obtain ⟨⟨n, s2⟩, h2, h⟩ := h
    cases h
    obtain ⟨-, rfl⟩ := u16e_ok.1 h1
    obtain ⟨hn, rfl⟩ := u16e_ok.1 h2
    have : l = 4 := by omega
    subst this
    exact ⟨n, hn, by rw [body, be16_length, List.append_assoc], rfl⟩
  · rintro ⟨n, hn, rfl, rfl⟩
    exact dri_ok d n r hn

-- an interval of 300 MCUs
example : parseDri {} [0, 4, 1, 44, 255] = .ok ({ ({} : Hdr) with restart := 300, todo := 300 }, [255]) :=
  (c87_dri _ _ _ _).2 ⟨300, by decide, rfl, rfl⟩

/-- **C87** The headers of every such file are read as meant, and nothing after the scan header is consumed. -/
theorem c87_headers_partial (o : HdrOpts) (l : List (Gap × Segment)) (g : Gap) (c : Scan) (m : Nat) (f : Frame) (rest : Bytes)
    (h : File o l g c m f) : ∃ d, decodeHeaders o (fileBytes l g c rest) = .ok (d, rest) ∧ Reads (l.map (·.2)) c d := by
  obtain ⟨d, a, b⟩ := file_holds o l g c m f rest h
  refine ⟨_, b, ?_⟩
  have hlen : c.comps.length ≤ d.zorder.length := by rw [a.zorder]; exact h.scan.2.1
  have e := afterScan_eq d c hlen
  obtain ⟨q1, q2, q3, q4, q5, q6⟩ := a.one m f h.frame
  generalize hd' : afterScan d c = d' at e
  have R : Reads (l.map (·.2)) c d' := by
    subst e
    exact
    { qt := a.qt, dc := a.dc.read, ac := a.ac.read, restart := a.restart, todo := a.todo, ns := rfl, band := ⟨rfl, rfl, rfl, rfl⟩
      exif := a.exif, xmp := a.xmp, iptc := a.iptc, mpf := a.mpf, gain := a.gain, icc := a.icc, mjpeg := a.mjpeg
      frame := fun m' f' hf => by
        obtain ⟨p1, p2, p3, p4, p5, p6⟩ := a.one m' f' hf
        refine ⟨p2, p5, p6, p3, ?_, ?_⟩
        · simp only
          rw [p4, List.map_map]
          refine List.map_congr_left fun k _ => ?_
          simp only [Function.comp, ofFComp]
          split <;> rename_i q <;> rw [q] <;> rfl
        · simp only
          rw [List.take_append_of_le_length (by simp), List.take_of_length_le (by simp), p4]
          refine List.map_congr_left fun e _ => ?_
          rw [List.findIdx_map]
          rfl }
  unfold finishHdr
  split
  · exact
    { qt := R.qt, dc := R.dc, ac := R.ac, restart := R.restart, todo := R.todo, ns := R.ns, band := R.band, frame := R.frame
      exif := R.exif, xmp := R.xmp, iptc := R.iptc, mpf := R.mpf, gain := R.gain, icc := R.icc, mjpeg := R.mjpeg }
  · exact R

/-- A file with a quantisation table, a Huffman table, Adobe's segment, a comment and fill bytes. -/
def exFile : List (Gap × Segment) :=
  [(⟨[], 0⟩, .data 0xE1 (ascii "Exif" ++ [0, 0, 77, 77])), (⟨[], 2⟩, .dqt exQ), (⟨[], 0⟩, .dht [exK3]),
   (⟨[], 0⟩, .data 0xEE (ascii "Adobe" ++ [0, 100, 0, 0, 0, 0, 1])), (⟨[], 0⟩, .frame 0xC0 exFrame), (⟨[], 0⟩, .dri 4),
   (⟨[], 0⟩, .data 0xFE [1, 2, 3])]

example : File ⟨16384, 16384, true⟩ exFile ⟨[], 1⟩ exSos 0xC0 exFrame := by
  have hq : ∀ t ∈ exQ, t.Ok := by
    intro t ht
    fin_cases ht <;> exact ⟨by decide, by decide +kernel, by decide +kernel⟩
  have hh : exK3.Ok := ⟨by decide, by decide, by decide, by decide, by decide, by decide, by
    intro l h1 h2
    have key : ∀ l : Fin 17, 1 ≤ l.val → Zune.Canon.first exK3.count l.val + exK3.count l.val < 2 ^ l.val := by decide +kernel
    exact key ⟨l, by omega⟩ h1, by decide⟩
  have hg : ∀ k, GapOk ⟨16384, 16384, true⟩ ⟨[], k⟩ := fun k => ⟨fun b hb => by simp at hb, fun _ => rfl⟩
  refine ⟨?_, hg 1, rfl, by unfold exFrame; decide, by unfold exSos exFrame Scan.Ok; decide⟩
  intro x hx
  fin_cases hx
  · exact ⟨hg 0, Or.inl (by decide), ⟨by decide, fun q => absurd q (by decide)⟩, by decide⟩
  · exact ⟨hg 2, hq, trivial, by decide +kernel⟩
  · exact ⟨hg 0, by intro t ht; simp at ht; rw [ht]; exact hh, trivial, by decide⟩
  · exact ⟨hg 0, Or.inl (by decide), ⟨by decide, fun _ => ⟨by decide, by decide, 1, by decide, by decide⟩⟩, by decide⟩
  · exact ⟨hg 0, ⟨by decide, by unfold exFrame Frame.Ok; decide⟩, by show exFrame.comps.length ≤ 4 ∧ (∀ c ∈ exFrame.comps, c.h ≠ 3) ∧ exFrame.width ≤ 16384 ∧ exFrame.height ≤ 16384; decide, by decide⟩
  · exact ⟨hg 0, by show 4 < 65536; decide, trivial, by decide⟩
  · exact ⟨hg 0, Or.inr rfl, ⟨by decide, fun q => absurd q (by decide)⟩, by decide⟩

/-- **C87, disagreement J14** Of an `APP14` segment that is not Adobe's, two bytes too many are skipped: the marker
that follows is lost. -/
theorem c87_app14_wrong (d : Hdr) (b r : Bytes) (x y : UInt8) (h : b.length + 2 < 65536) (h5 : 5 ≤ b.length)
    (hb : b.take 5 ≠ ascii "Adobe") : parseApp14 d (body b ++ x :: y :: r) = .ok (d, r) := by
  have ht : adobeTag = ascii "Adobe" := by decide
  unfold parseApp14
  rw [u16z_body h]
  simp only
  rw [if_neg (by omega), peek_app 5 b _ h5]
  simp only [Except.bind]
  rw [ht, if_neg hb]
  have : (b ++ x :: y :: r).drop (b.length + 2) = r := by
    rw [List.drop_append, List.drop_of_length_le (by omega)]
    simp
  rw [this]

example : ∃ b : Bytes, b.length + 2 < 65536 ∧ 5 ≤ b.length ∧ b.take 5 ≠ ascii "Adobe" :=
  ⟨[80, 105, 99, 116, 111, 0], by decide, by decide, by decide⟩

/-- **C87, disagreement J14** So this file, with such a segment just before its frame header and otherwise plain, is
refused. -/
theorem c87_app14_refused (x : Hdr × Bytes) :
    decodeHeaders ⟨16384, 16384, false⟩ (fileBytes [(⟨[], 0⟩, .data 0xEE [80, 105, 99, 116, 111, 0]), (⟨[], 0⟩, .frame 0xC0 exFrame)]
      ⟨[], 0⟩ exSos []) ≠ .ok x := by
  intro h
  have : (match decodeHeaders ⟨16384, 16384, false⟩ (fileBytes [(⟨[], 0⟩, .data 0xEE [80, 105, 99, 116, 111, 0]),
      (⟨[], 0⟩, .frame 0xC0 exFrame)] ⟨[], 0⟩ exSos []) with
    | .ok _ => true
    | .error _ => false) = false := by decide +kernel
  rw [h] at this
  cases this

/-- **C87, disagreement J15** Of an `APP0` segment of four bytes, the byte after it is consumed as well. -/
theorem c87_app0_wrong (d : Hdr) (b r : Bytes) (x : UInt8) (h : b.length = 4) :
    parseApp0 d (body b ++ x :: r) = .ok ({ d with mjpeg := d.mjpeg || decide (b ++ [x] = ascii "AVI1" ++ [0]) }, r) := by
  have t1 : aviTag = ascii "AVI1" ++ [0] := by decide
  unfold parseApp0
  rw [body_read (by omega)]
  simp only [Except.bind]
  rw [if_neg (by omega), if_pos (by omega), exactly, if_pos (by simp; omega), h, ← t1]
  match b, h with
  | [b0, b1, b2, b3], _ => rfl

/-- **C87, disagreement J16** After FF, a zero and a marker code the comment in the code wants the marker; it is not
taken. -/
theorem c87_stuffed (m : Nat) (hm : m < 256) (h0 : m ≠ 0) (h1 : m ≠ 255) (s : Bytes) :
    skipFill 255 0 (UInt8.ofNat m :: s) = .ok (0, m, s) := by
  rw [skipFill, if_pos ⟨Or.inr rfl, rfl⟩, fillLoop, if_pos (Or.inr rfl), u8_ofNat m hm]
  cases s with
  | nil => rw [fillLoop, if_neg (by omega)]
  | cons b s => rw [fillLoop, if_neg (by omega)]

/-! ## C88: the colour space -/

/-- The colour space of a frame of components with the names `ids`, given the transform of Adobe's segment
(Adobe technical note 5116, section 18; JFIF; for names R, G, B libjpeg's custom). -/
def colours (ids : List Nat) (adobe : Option Nat) : Option InSpace :=
  match ids.length, adobe with
  | 1, _ => some .luma
  | 3, none => some (if ids = [82, 71, 66] then .rgb else .ycbcr)
  | 3, some 0 => some .rgb
  | 3, some 1 => some .ycbcr
  | 4, none => some .cmyk
  | 4, some 0 => some .cmyk
  | 4, some 2 => some .ycck
  | _, _ => none

theorem fold_adobe (o : HdrOpts) (a : List Segment) (ha : a.flatMap Segment.frames = []) (hk : ∀ s ∈ a, s.Ok ∧ Known o s) : ∀ sp,
    a.foldl spaceAfter sp = ((a.flatMap Segment.adobe).getLast?.map adobeSpace).getD sp := by
  induction a with
  | nil => intro sp; rfl
  | cons s a ih =>
    intro sp
    rw [List.flatMap_cons, List.append_eq_nil_iff] at ha
    rw [List.foldl_cons, ih ha.2 (fun x hx => hk x (List.mem_cons_of_mem _ hx)), List.flatMap_cons, List.getLast?_append]
    have key : spaceAfter sp s = (s.adobe.getLast?.map adobeSpace).getD sp := by
      match s, ha.1, hk s List.mem_cons_self with
      | .dqt _, _, _ => rfl
      | .dht _, _, _ => rfl
      | .dri _, _, _ => rfl
      | .data m b, _, ⟨_, _, k2⟩ =>
        by_cases hm : m = 0xEE
        · obtain ⟨_, _, t, ht, _⟩ := k2 hm
          simp only [spaceAfter, ht]
          rfl
        · have : (Segment.data m b).adobe = [] := by simp [Segment.adobe, Segment.under, hm]
          simp only [spaceAfter, this]
          rfl
    rw [key]
    cases (a.flatMap Segment.adobe).getLast? <;> rfl

theorem file_space (o : HdrOpts) (a b : List (Gap × Segment)) (gf g : Gap) (c : Scan) (m : Nat) (f : Frame) (rest : Bytes)
    (h : File o (a ++ (gf, .frame m f) :: b) g c m f) :
    ∃ d, decodeHeaders o (fileBytes (a ++ (gf, .frame m f) :: b) g c rest) = .ok (d, rest) ∧ d.ncomp = (f.comps.map (·.id)).length ∧
      d.space = if f.comps.map (·.id) = [82, 71, 66] then .rgb
        else (((b.map (·.2)).flatMap Segment.adobe).getLast?.map adobeSpace).getD (sofSpace (f.comps.map (·.id)).length
          ((((a.map (·.2)).flatMap Segment.adobe).getLast?.map adobeSpace).getD .ycbcr)) := by
  obtain ⟨d, hd, e⟩ := file_holds o _ g c m f rest h
  refine ⟨_, e, ?_⟩
  have hfr := h.frame
  rw [List.map_append, List.map_cons, List.flatMap_append, List.flatMap_cons] at hfr
  have h1 : (a.map (·.2)).flatMap Segment.frames = [] ∧ (b.map (·.2)).flatMap Segment.frames = [] := by
    have := congrArg List.length hfr
    simp only [List.length_append, Segment.frames, List.length_cons, List.length_nil] at this
    exact ⟨List.eq_nil_of_length_eq_zero (by omega), List.eq_nil_of_length_eq_zero (by omega)⟩
  obtain ⟨q1, q2, q3, q4, q5, q6⟩ := hd.one m f h.frame
  have hka : ∀ s ∈ a.map (·.2), s.Ok ∧ Known o s := by
    intro s hs
    obtain ⟨x, hx, rfl⟩ := List.mem_map.1 hs
    have := h.segs x (List.mem_append_left _ hx)
    exact ⟨this.2.1, this.2.2.1⟩
  have hkb : ∀ s ∈ b.map (·.2), s.Ok ∧ Known o s := by
    intro s hs
    obtain ⟨x, hx, rfl⟩ := List.mem_map.1 hs
    have := h.segs x (List.mem_append_right _ (List.mem_cons_of_mem _ hx))
    exact ⟨this.2.1, this.2.2.1⟩
  have hsp : d.space = (((b.map (·.2)).flatMap Segment.adobe).getLast?.map adobeSpace).getD (sofSpace f.comps.length
      ((((a.map (·.2)).flatMap Segment.adobe).getLast?.map adobeSpace).getD .ycbcr)) := by
    rw [hd.space, List.map_append, List.map_cons, List.foldl_append, List.foldl_cons, fold_adobe o _ h1.1 hka,
      fold_adobe o _ h1.2 hkb]
    rfl
  have hids : (afterScan d c).comps.map (·.id) = f.comps.map (·.id) := by
    show (d.comps.map (setTabs c.comps)).map (·.id) = _
    rw [ids_setTabs, q4, List.map_map]
    rfl
  rw [List.length_map, ← hsp]
  constructor
  · unfold finishHdr
    split <;> exact q3
  · unfold finishHdr
    rw [hids]
    split <;> rfl

/-- **C88** When Adobe's segment comes before the frame header and the components are not named R, G, B in spite of
it, the colour space in which a file is decoded is the one of the conventions. -/
theorem c88_colour_partial (o : HdrOpts) (a b : List (Gap × Segment)) (gf g : Gap) (c : Scan) (m : Nat) (f : Frame) (rest : Bytes)
    (h : File o (a ++ (gf, .frame m f) :: b) g c m f) (hb : (b.map (·.2)).flatMap Segment.adobe = [])
    (hr : f.comps.map (·.id) = [82, 71, 66] → (a.map (·.2)).flatMap Segment.adobe = []) (sp : InSpace)
    (hs : colours (f.comps.map (·.id)) ((a.map (·.2)).flatMap Segment.adobe).getLast? = some sp) :
    ∃ d, decodeHeaders o (fileBytes (a ++ (gf, .frame m f) :: b) g c rest) = .ok (d, rest) ∧
      settleSpace o.strict d.ncomp d.space = some sp := by
  obtain ⟨d, e, hn, hsp⟩ := file_space o a b gf g c m f rest h
  refine ⟨d, e, ?_⟩
  rw [hn, hsp, hb, List.getLast?_nil, Option.map_none, Option.getD_none]
  replace hr : f.comps.map (·.id) = [82, 71, 66] → ((a.map (·.2)).flatMap Segment.adobe).getLast? = none := by
    intro q
    rw [hr q]
    rfl
  generalize ((a.map (·.2)).flatMap Segment.adobe).getLast? = ad at hr hs ⊢
  generalize f.comps.map (·.id) = ids at hr hs ⊢
  by_cases hrgb : ids = [82, 71, 66]
  · rw [hr hrgb, hrgb] at hs
    subst hrgb
    cases hs
    rfl
  · rw [if_neg hrgb]
    unfold colours at hs
    split at hs
    · rename_i q
      cases hs
      rw [q]
      rfl
    all_goals
      rename_i q
      simp only [if_neg hrgb, Option.some.injEq, reduceCtorEq] at hs
      try
        subst hs
        rw [q]
        rfl

/-- A file with Adobe's segment, transform 0, and three components. -/
def exRgb : List (Gap × Segment) := [(⟨[], 0⟩, .data 0xEE (ascii "Adobe" ++ [0, 100, 0, 0, 0, 0, 0]))]

example : File ⟨16384, 16384, true⟩ (exRgb ++ (⟨[], 0⟩, .frame 0xC0 exFrame) :: []) ⟨[], 0⟩ exSos 0xC0 exFrame ∧
    colours (exFrame.comps.map (·.id)) ((exRgb.map (·.2)).flatMap Segment.adobe).getLast? = some .rgb := by
  have hg : ∀ k, GapOk ⟨16384, 16384, true⟩ ⟨[], k⟩ := fun k => ⟨fun b hb => by simp at hb, fun _ => rfl⟩
  refine ⟨⟨?_, hg 0, rfl, by unfold exFrame; decide, by unfold exSos exFrame Scan.Ok; decide⟩, by decide⟩
  intro x hx
  fin_cases hx
  · exact ⟨hg 0, Or.inl (by decide), ⟨by decide, fun _ => ⟨by decide, by decide, 0, by decide, by decide⟩⟩, by decide⟩
  · exact ⟨hg 0, ⟨by decide, by unfold exFrame Frame.Ok; decide⟩, by show exFrame.comps.length ≤ 4 ∧ (∀ c ∈ exFrame.comps, c.h ≠ 3) ∧ exFrame.width ≤ 16384 ∧ exFrame.height ≤ 16384; decide, by decide⟩

/-- **C88, disagreement J17** When Adobe's segment comes after the frame header of a grey image, which is as legal as
before it, the image is no longer taken as grey. -/
theorem c88_late_adobe (o : HdrOpts) (a b : List (Gap × Segment)) (gf g : Gap) (c : Scan) (m : Nat) (f : Frame) (rest : Bytes)
    (h : File o (a ++ (gf, .frame m f) :: b) g c m f) (h1 : f.comps.length = 1)
    (hb : (b.map (·.2)).flatMap Segment.adobe ≠ []) :
    ∃ d, decodeHeaders o (fileBytes (a ++ (gf, .frame m f) :: b) g c rest) = .ok (d, rest) ∧
      settleSpace o.strict d.ncomp d.space ≠ some .luma := by
  obtain ⟨d, e, hn, hsp⟩ := file_space o a b gf g c m f rest h
  refine ⟨d, e, ?_⟩
  have hl : (f.comps.map (·.id)).length = 1 := by rw [List.length_map, h1]
  rw [if_neg (by intro q; rw [q] at hl; cases hl), List.getLast?_eq_some_getLast hb, Option.map_some, Option.getD_some] at hsp
  rw [hn, hl, hsp]
  unfold adobeSpace
  cases o.strict <;> split <;> (try split) <;> decide

/-- A grey frame. -/
def exGrey : Frame := ⟨480, 640, [⟨1, 1, 1, 0⟩]⟩

example : File ⟨16384, 16384, true⟩ ([] ++ (⟨[], 0⟩, .frame 0xC0 exGrey) :: exRgb) ⟨[], 0⟩ ⟨[⟨1, 0, 0⟩], 0, 63, 0, 0⟩ 0xC0 exGrey ∧
    exGrey.comps.length = 1 ∧ (exRgb.map (·.2)).flatMap Segment.adobe ≠ [] := by
  have hg : ∀ k, GapOk ⟨16384, 16384, true⟩ ⟨[], k⟩ := fun k => ⟨fun b hb => by simp at hb, fun _ => rfl⟩
  refine ⟨⟨?_, hg 0, rfl, by unfold exGrey; decide, by unfold exGrey Scan.Ok; decide⟩, by decide, by decide⟩
  intro x hx
  fin_cases hx
  · exact ⟨hg 0, ⟨by decide, by unfold exGrey Frame.Ok; decide⟩, by show exGrey.comps.length ≤ 4 ∧ (∀ c ∈ exGrey.comps, c.h ≠ 3) ∧ exGrey.width ≤ 16384 ∧ exGrey.height ≤ 16384; decide, by decide⟩
  · exact ⟨hg 0, Or.inl (by decide), ⟨by decide, fun _ => ⟨by decide, by decide, 0, by decide, by decide⟩⟩, by decide⟩

/-! ## C89: colour profiles in pieces -/

/-- **C89** A profile is given just when the pieces are, in some order, those of a profile cut into one to 254 pieces
numbered from 1, each with the number of all; it is then their concatenation by number. -/
theorem c89_icc_partial (cs : List IccChunk) (p : Bytes) : iccProfile cs = some p ↔
    ∃ ds : List Bytes, ds ≠ [] ∧ ds.length < 255 ∧ p = ds.flatten ∧
      cs.Perm (ds.mapIdx fun k v => { seq := k + 1, num := ds.length, data := v }) :=
  profile_iff cs p

/-- **C89** Together with C87: a profile written in pieces by number among the other segments of a file is read back. -/
theorem c89_file (o : HdrOpts) (l : List (Gap × Segment)) (g : Gap) (c : Scan) (m : Nat) (f : Frame) (rest : Bytes)
    (h : File o l g c m f) (ds : List Bytes) (h0 : ds ≠ []) (h1 : ds.length < 255)
    (hp : ((l.map (·.2)).flatMap Segment.icc).Perm (ds.mapIdx fun k v => (k + 1, ds.length, v))) :
    ∃ d, decodeHeaders o (fileBytes l g c rest) = .ok (d, rest) ∧ iccProfile d.icc = some ds.flatten := by
  obtain ⟨d, a, b⟩ := c87_headers_partial o l g c m f rest h
  refine ⟨d, a, (c89_icc_partial _ _).2 ⟨ds, h0, h1, rfl, ?_⟩⟩
  rw [b.icc]
  refine (hp.map _).trans (List.Perm.of_eq ?_)
  refine List.ext_getElem (by simp) fun i h1 h2 => ?_
  simp

example : [(⟨2, 2, [3]⟩ : IccChunk), ⟨1, 2, [1, 2]⟩].Perm
    ([[1, 2], [3]].mapIdx fun k v => { seq := k + 1, num := [[1, 2], [(3 : UInt8)]].length, data := v }) :=
  List.Perm.swap _ _ _

example : ((Segment.data 0xE2 (ascii "ICC_PROFILE" ++ [0, 2, 2, 9])).icc ++ (Segment.data 0xE2 (ascii "ICC_PROFILE" ++ [0, 1, 2, 7])).icc).Perm
    ([[(7 : UInt8)], [9]].mapIdx fun k v => (k + 1, 2, v)) := by decide

/-- **C89, disagreement J18** A profile in 255 pieces, which ICC.1 allows, is never given. -/
theorem c89_icc_255 (ds : List Bytes) (h : ds.length = 255) (cs : List IccChunk)
    (hc : cs.Perm (ds.mapIdx fun k v => { seq := k + 1, num := ds.length, data := v })) : iccProfile cs = none := by
  have : cs.length = 255 := by rw [hc.length_eq]; simp [h]
  unfold iccProfile
  rw [if_pos (by omega)]

example : (List.replicate 255 [(1 : UInt8)]).length = 255 := List.length_replicate

/-! ## C90: no panic, no endless loop -/

/-- **C90** For every sequence of bytes the reading of the headers ends in success or one of the decoder's own errors:
no index is out of bounds and no loop runs for ever; on success the number of components is that of the component list,
and no more bytes are left than there were. -/
theorem c90_headers_safe (o : HdrOpts) (s : Bytes) : match decodeHeaders o s with
    | .ok (d, r) => d.ncomp = d.comps.length ∧ r.length ≤ s.length
    | .error e => e = .io ∨ e = .bad :=  by
  have := headers_fine o s
  revert this
  cases decodeHeaders o s with
  | ok x => exact fun h => ⟨h.1.1.1, h.1.2⟩
  | error e => exact fun h => h

example : (match decodeHeaders ⟨100, 100, false⟩ [0xFF, 0xD8, 0xFF, 0xDA, 0, 8, 1, 1, 0, 0, 63, 0] with
    | .ok _ => none
    | .error e => some e) = some .bad := by decide +kernel

end Zune.Jpeg
