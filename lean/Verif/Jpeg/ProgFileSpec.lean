import Verif.Jpeg.ProgProps
import Verif.Jpeg.McuProps
import Verif.Jpeg.ProgOrder

/-!
# Specification: progressive files (T.81, A.2, B.2, G.1)

A block of component `k` in row `y` and column `x` is named `(k, y * W + x)`, `W` being the number of blocks in a row of the
component when it is completed to whole MCUs.
-/

namespace Zune.Jpeg

open Zune.Canon Seg

/-- Number of MCUs across in interleaved scans. -/
def Seg.Frame.mcusAcross (f : Seg.Frame) : Nat := divCeil f.width (hMax f.factors * 8)

/-- Number of MCUs down in interleaved scans. -/
def Seg.Frame.mcusDown (f : Seg.Frame) : Nat := divCeil f.height (vMax f.factors * 8)

/-- The block of component `k` in row `y` and column `x`. -/
def Seg.Frame.block (f : Seg.Frame) (k y x : Nat) : Addr := (k, y * (f.mcusAcross * (f.factor k).h) + x)

/-- The MCUs of a scan, each the list of its blocks: if the scan has one component, the blocks of this component that have
samples of the image, row by row (A.2.2); otherwise, MCU by MCU, `v` rows of `h` blocks of each component (A.2.3). -/
def Seg.Frame.mcus (f : Seg.Frame) (c : Scan) : List (List Addr) :=
  match scanOrder f c with
  | [k] =>
    (List.range (blocksDown f.height f.factors (f.factor k))).flatMap fun y =>
      (List.range (blocksAcross f.width f.factors (f.factor k))).map fun x => [f.block k y x]
  | ord =>
    (List.range f.mcusDown).flatMap fun i => (List.range f.mcusAcross).map fun j =>
      ord.flatMap fun k => (List.range (f.factor k).v).flatMap fun v => (List.range (f.factor k).h).map fun h =>
        f.block k (i * (f.factor k).v + v) (j * (f.factor k).h + h)

/-- A scan of a progressive file: the segments before its header, the header, the Huffman table of each component (the DC table
in scans of DC coefficients, else the AC table), the bytes of the entropy-coded segments with their restart markers. -/
structure PScan where
  segs : List (Gap × Segment)
  gap : Gap
  hdr : Scan
  tab : Nat → HTab
  data : Bytes

/-- What the scan sends. -/
def PScan.spec (f : Seg.Frame) (q : PScan) : ScanSpec :=
  { ss := q.hdr.ss, se := q.hdr.se, al := q.hdr.al, refine := decide (q.hdr.ah ≠ 0), one := decide (q.hdr.comps.length = 1),
    cnt := fun k => (q.tab k).count, vals := fun k p => (q.tab k).syms[p]?.getD 0, order := (f.mcus q.hdr).flatten }

/-- The bytes of the entropy-coded segments of the MCUs `l`, with a restart interval of `R` MCUs (0: none), the next restart
marker being number `m`.  `S` relates the blocks of an interval to its bits and the padding; its first argument tells whether it
is the last one.  (The decoder wants more than the standard: the last interval of a scan is shorter than `R`, unless EOI follows,
J27.) -/
inductive PData (S : Bool → List Addr → List Bool → List Bool → Prop) (R : Nat) (eoi : Bool) :
    Nat → List (List Addr) → Bytes → Prop where
  | last (m : Nat) (l : List (List Addr)) (data : Bytes) (bits pad : List Bool)
      (hl : R = 0 ∨ l.length < R ∨ (l.length = R ∧ eoi = true)) (hs : S true l.flatten bits pad)
      (hd : bytesBits data = bits ++ pad) : PData S R eoi m l (stuff data)
  | rst (m : Nat) (l l' : List (List Addr)) (data : Bytes) (bits pad : List Bool) (n : Nat) (r : Bytes)
      (hR : R ≠ 0) (hl : l.length = R) (hl' : l' ≠ []) (hs : S false l.flatten bits pad) (hd : bytesBits data = bits ++ pad)
      (hr : PData S R eoi (m + 1) l' r) :
      PData S R eoi m (l ++ l') (stuff data ++ 0xFF :: List.replicate n 0xFF ++ rstMarker m :: r)

/-- The bits of an interval.  At the end of the first scan of a file the decoder also wants fewer than 32 bits, with the padding,
for the last block (J26). -/
def PScan.Sends (f : Seg.Frame) (q : PScan) (z : Addr → Nat → Int) (first last : Bool) (l : List Addr) (bits pad : List Bool) : Prop :=
  ({ q.spec f with order := l }).Sends z bits ∧
    (first = true → last = true → ∀ l1 a b1 b2, l = l1 ++ [a] → bits = b1 ++ b2 →
      ({ q.spec f with order := l1 }).Sends z b1 → b2.length + pad.length < 32)

/-- A segment between two scans: Huffman tables, a restart interval, or an application or comment segment, but not Adobe's
(and no quantisation tables). -/
def Middle : Segment → Prop
  | .dqt _ => False
  | .frame _ _ => False
  | .dht _ => True
  | .dri _ => True
  | .data m _ => m ≠ 0xEE

/-- The marker that ends the data of a scan is one of those that the decoder knows (J28) and directly behind the data. -/
def Directly (g : Gap) (m : Nat) : Prop :=
  g.junk = [] ∧ m ∈ [0xC4, 0xDA, 0xDD, 0xE0, 0xE1, 0xE2, 0xED, 0xFE]

/-- The segments and the header of a scan other than the first. -/
structure PScan.Next (o : HdrOpts) (q : PScan) : Prop where
  segs : ∀ x ∈ q.segs, GapOk o x.1 ∧ x.2.Ok ∧ Known o x.2 ∧ x.2.params.length + 2 < 65536 ∧ Middle x.2
  gap : GapOk o q.gap
  near : match q.segs with
    | [] => Directly q.gap 0xDA
    | x :: _ => Directly x.1 x.2.code

/-- The header of a scan, `l` being the segments of the file up to it.  The decoder wants a table even where none is used (in
the refinement of DC coefficients, J29), and, in scans of one component, either the largest factors or 1 by 1 (C70). -/
structure PScan.Header (f : Seg.Frame) (l : List Segment) (q : PScan) : Prop where
  ok : q.hdr.Ok (f.comps.map (·.id))
  tables : ∀ (k : Nat) (fc : FComp) (e : SComp), f.comps[k]? = some fc → e ∈ q.hdr.comps → e.id = fc.id →
    last? (fun t : HTab => t.ac == decide (q.hdr.ss ≠ 0) && t.id == if q.hdr.ss = 0 then e.td else e.ta) (l.flatMap Segment.htabs) =
      some (q.tab k)
  any : ∀ k, ∀ v ∈ (q.tab k).syms, v < 256
  size : ∀ k, scanOrder f q.hdr = [k] → ((f.factor k).h = hMax f.factors ∧ (f.factor k).v = vMax f.factors) ∨ f.factor k = ⟨1, 1⟩

/-- The scans `qs` of a file, after the segments `l`, `sent` being what was sent of each coefficient: the first one
sends DC coefficients (G.1.1.1.1), each has a proper header, may follow those before it, and its bytes carry its bits. -/
def Scans (o : HdrOpts) (f : Seg.Frame) (z : Addr → Nat → Int) : Bool → List Segment → Sent → List PScan → Prop
  | _, _, _, [] => True
  | first, l, sent, q :: qs =>
    (if first then q.hdr.ss = 0 else q.Next o) ∧ q.Header f (l ++ q.segs.map (·.2)) ∧ (q.spec f).Legal sent ∧
      PData (q.Sends f z first) (restartOf (l ++ q.segs.map (·.2))) qs.isEmpty 0 (f.mcus q.hdr) q.data ∧
      Scans o f z false (l ++ q.segs.map (·.2)) ((q.spec f).after sent) qs

/-- What was sent after the scans. -/
def sentAfter (f : Seg.Frame) (sent : Sent) (qs : List PScan) : Sent := qs.foldl (fun s q => (q.spec f).after s) sent

/-- The bytes behind the data of a scan: the other scans, EOI with `n` fill bytes before it, `tail`. -/
def scansBytes (n : Nat) (tail : Bytes) : List PScan → Bytes
  | [] => 0xFF :: List.replicate n 0xFF ++ 0xD9 :: tail
  | q :: qs => Seg.bytesOf q.segs ++ (q.gap.marker 0xDA ++ (body q.hdr.bytes ++ (q.data ++ scansBytes n tail qs)))

/-- The coefficients of a block, in zig-zag order, as far as they were sent. -/
def sentBlock (f : Seg.Frame) (sent : Sent) (z : Addr → Nat → Int) (k y x : Nat) : List Int :=
  (List.range 64).map fun j => known (sent (f.block k y x) j) j (z (f.block k y x) j)

/-- A progressive file: the segments `a`, the frame header, the segments `b`, the first scan `q`, the scans `qs`.  Restrictions as
for `Sequential`. -/
structure Progressive (o : HdrOpts) (a b : List (Gap × Segment)) (gf : Gap) (q : PScan) (qs : List PScan) (f : Seg.Frame)
    (sp : InSpace) (tq : Nat → QTab) (z : Addr → Nat → Int) : Prop where
  first : q.segs = a ++ (gf, .frame 0xC2 f) :: b
  file : File o q.segs q.gap q.hdr 0xC2 f
  late : (b.map (·.2)).flatMap Segment.adobe = []
  rgb : f.comps.map (·.id) = [82, 71, 66] → (a.map (·.2)).flatMap Segment.adobe = []
  space : colours (f.comps.map (·.id)) ((a.map (·.2)).flatMap Segment.adobe).getLast? = some sp
  mjpeg : (q.segs.map (·.2)).any Segment.avi = false
  quant : ∀ (k : Nat) (fc : FComp), f.comps[k]? = some fc →
    last? (fun t : QTab => t.id == fc.tq) ((q.segs.map (·.2)).flatMap Segment.qtabs) = some (tq k)
  fits : ∀ a k, (z a k).natAbs < 2 ^ 15
  scans : Scans o f z true [] (fun _ _ => none) (q :: qs)

end Zune.Jpeg
