import Verif.Common.Canon
import Mathlib.Data.List.Basic

/-!
# Marker segments of JPEG (ITU-T T.81, Annex B)

The syntax of the headers, from the standard: what a segment says, and the bytes it is written as.
Nothing here refers to the decoder.
-/

namespace Zune.Jpeg.Seg

open Zune.Canon

/-- A 16 bit parameter, most significant byte first (B.1.1.1). -/
def be16 (n : Nat) : List UInt8 := [UInt8.ofNat (n / 256), UInt8.ofNat n]

/-- Parameters of a marker segment: the length, which counts itself, and the rest (B.1.1.4). -/
def body (b : List UInt8) : List UInt8 := be16 (b.length + 2) ++ b

/-- A quantisation table (B.2.4.1): `wide` for 16 bit elements, the destination, and the elements in
zig-zag order. -/
structure QTab where
  wide : Bool
  id : Nat
  vals : List Nat

/-- Values allowed by table B.4, with 0 as an element allowed as well (it is useless, not
ambiguous). -/
def QTab.Ok (t : QTab) : Prop :=
  t.id < 4 ∧ t.vals.length = 64 ∧ ∀ v ∈ t.vals, v < if t.wide then 65536 else 256

/-- Figure B.6. -/
def QTab.bytes (t : QTab) : List UInt8 :=
  UInt8.ofNat ((if t.wide then 16 else 0) + t.id) ::
    t.vals.flatMap fun v => if t.wide then be16 v else [UInt8.ofNat v]

/-- A Huffman table (B.2.4.2): `ac` for its class, the destination, the number of codes of the
lengths 1 to 16, and the symbols by increasing code. -/
structure HTab where
  ac : Bool
  id : Nat
  counts : List Nat
  syms : List Nat

/-- Number of codes of length `l`. -/
def HTab.count (t : HTab) : Nat → Nat
  | 0 => 0
  | l + 1 => t.counts[l]?.getD 0

/-- Values allowed by table B.5 and Annex C: the codes of each length fit and the one of all ones bits
is not used; symbols of DC tables are sizes of at most 15 bits. -/
def HTab.Ok (t : HTab) : Prop :=
  t.id < 4 ∧ t.counts.length = 16 ∧ (∀ c ∈ t.counts, c < 256) ∧ (∀ v ∈ t.syms, v < 256) ∧
    t.syms.length = t.counts.sum ∧ t.syms.length ≤ 256 ∧
    (∀ l, 1 ≤ l → l ≤ 16 → first t.count l + t.count l < 2 ^ l) ∧
    (t.ac = false → ∀ v ∈ t.syms, v ≤ 15)

/-- Figure B.7. -/
def HTab.bytes (t : HTab) : List UInt8 :=
  UInt8.ofNat ((if t.ac then 16 else 0) + t.id) ::
    (t.counts.map UInt8.ofNat ++ t.syms.map UInt8.ofNat)

/-- `dec` reads the code of table `t` (Annex C) from a window of 16 bits: the `k`-th code of length
`l` gives its symbol, and a window that starts with no code gives nothing. -/
def HTab.ReadBy (t : HTab) (dec : Nat → Option (Nat × Nat)) : Prop :=
  (∀ l k w, 1 ≤ l → l ≤ 16 → k < t.count l → w / 2 ^ (16 - l) = first t.count l + k →
    ∃ v, t.syms[before t.count l + k]? = some v ∧ dec w = some (v, l)) ∧
  ∀ w, (∀ l k, 1 ≤ l → l ≤ 16 → k < t.count l → w / 2 ^ (16 - l) ≠ first t.count l + k) →
    dec w = none

/-- A component in the frame header: identifier, sampling factors, quantisation table. -/
structure FComp where
  id : Nat
  h : Nat
  v : Nat
  tq : Nat
  deriving DecidableEq

/-- A frame header (B.2.2) for 8 bit samples. -/
structure Frame where
  height : Nat
  width : Nat
  comps : List FComp

/-- Figure B.3. -/
def Frame.bytes (f : Frame) : List UInt8 :=
  8 :: (be16 f.height ++ (be16 f.width ++ (UInt8.ofNat f.comps.length ::
    f.comps.flatMap fun c => [UInt8.ofNat c.id, UInt8.ofNat (c.h * 16 + c.v), UInt8.ofNat c.tq])))

/-- Values allowed by table B.2: at least one line is asked for here, the alternative of giving the
number of lines after the first scan (B.2.5) being no concern of the headers. -/
def Frame.Ok (f : Frame) : Prop :=
  1 ≤ f.height ∧ f.height < 65536 ∧ 1 ≤ f.width ∧ f.width < 65536 ∧
    1 ≤ f.comps.length ∧ f.comps.length < 256 ∧
    ∀ c ∈ f.comps, c.id < 256 ∧ 1 ≤ c.h ∧ c.h ≤ 4 ∧ 1 ≤ c.v ∧ c.v ≤ 4 ∧ c.tq < 4

/-- A component in the scan header: identifier, DC and AC table. -/
structure SComp where
  id : Nat
  td : Nat
  ta : Nat
  deriving DecidableEq

/-- A scan header (B.2.3). -/
structure Scan where
  comps : List SComp
  ss : Nat
  se : Nat
  ah : Nat
  al : Nat

/-- Figure B.4. -/
def Scan.bytes (s : Scan) : List UInt8 :=
  UInt8.ofNat s.comps.length ::
    (s.comps.flatMap (fun c => [UInt8.ofNat c.id, UInt8.ofNat (c.td * 16 + c.ta)]) ++
      [UInt8.ofNat s.ss, UInt8.ofNat s.se, UInt8.ofNat (s.ah * 16 + s.al)])

/-- Values allowed by table B.3 for the components `ids` of the frame, tables up to the 15 that can be
written. -/
def Scan.Ok (s : Scan) (ids : List Nat) : Prop :=
  1 ≤ s.comps.length ∧ s.comps.length ≤ 4 ∧ (s.comps.map (·.id)).Nodup ∧
    (∀ c ∈ s.comps, c.id ∈ ids ∧ c.id < 256 ∧ c.td < 16 ∧ c.ta < 16) ∧
    s.ss ≤ 63 ∧ s.se ≤ 63 ∧ s.ah ≤ 13 ∧ s.al ≤ 13

/-- The last element with a property. -/
def last? {α : Type} (p : α → Bool) (l : List α) : Option α := (l.filter p).getLast?

/-- A marker segment between the start of the image and the first scan header: quantisation tables,
Huffman tables, a frame header with its marker, a restart interval, or an application or comment segment
with its marker. -/
inductive Segment where
  | dqt (ts : List QTab)
  | dht (ts : List HTab)
  | frame (m : Nat) (f : Frame)
  | dri (n : Nat)
  | data (m : Nat) (b : List UInt8)

/-- Second byte of the marker (table B.1). -/
def Segment.code : Segment → Nat
  | .dqt _ => 0xDB
  | .dht _ => 0xC4
  | .frame m _ => m
  | .dri _ => 0xDD
  | .data m _ => m

/-- The parameters. -/
def Segment.params : Segment → List UInt8
  | .dqt ts => ts.flatMap QTab.bytes
  | .dht ts => ts.flatMap HTab.bytes
  | .frame _ f => f.bytes
  | .dri n => be16 n
  | .data _ b => b

/-- Values allowed.  The frames are baseline, extended sequential and progressive with Huffman codes. -/
def Segment.Ok : Segment → Prop
  | .dqt ts => ∀ t ∈ ts, t.Ok
  | .dht ts => ∀ t ∈ ts, t.Ok
  | .frame m f => (m = 0xC0 ∨ m = 0xC1 ∨ m = 0xC2) ∧ f.Ok
  | .dri n => n < 65536
  | .data m _ => (0xE0 ≤ m ∧ m ≤ 0xEF) ∨ m = 0xFE

/-- A marker as it may be written: bytes of no meaning (none, in a file that follows the standard), fill
bytes, the marker (B.1.1.2). -/
structure Gap where
  junk : List UInt8
  fill : Nat

/-- Bytes of a marker. -/
def Gap.marker (g : Gap) (m : Nat) : List UInt8 :=
  g.junk ++ (List.replicate (g.fill + 1) 255 ++ [UInt8.ofNat m])

/-- Bytes of segments. -/
def bytesOf (l : List (Gap × Segment)) : List UInt8 :=
  l.flatMap fun x => x.1.marker x.2.code ++ body x.2.params

/-- Characters as bytes. -/
def ascii (s : String) : List UInt8 := s.toList.map fun c => UInt8.ofNat c.toNat

/-- What follows an identifier in an application segment, if there is anything. -/
def tagData (tag b : List UInt8) : List (List UInt8) :=
  if b.take tag.length = tag ∧ tag.length < b.length then [b.drop tag.length] else []

/-- Quantisation tables defined. -/
def Segment.qtabs : Segment → List QTab
  | .dqt ts => ts
  | _ => []

/-- Huffman tables defined. -/
def Segment.htabs : Segment → List HTab
  | .dht ts => ts
  | _ => []

/-- Frame headers. -/
def Segment.frames : Segment → List (Nat × Frame)
  | .frame m f => [(m, f)]
  | _ => []

/-- Restart intervals defined. -/
def Segment.dris : Segment → List Nat
  | .dri n => [n]
  | _ => []

/-- Contents of the segments with a marker. -/
def Segment.under (m : Nat) : Segment → List (List UInt8)
  | .data m' b => if m' = m then [b] else []
  | _ => []

/-- Exif data (Exif 2.32, 4.7.2). -/
def Segment.exif (s : Segment) : List (List UInt8) := (s.under 0xE1).flatMap (tagData (ascii "Exif" ++ [0, 0]))

/-- XMP data (XMP part 3, 1.1.3). -/
def Segment.xmp (s : Segment) : List (List UInt8) :=
  (s.under 0xE1).flatMap (tagData (ascii "http://ns.adobe.com/xap/1.0/" ++ [0]))

/-- IPTC data in Photoshop's image resources. -/
def Segment.iptc (s : Segment) : List (List UInt8) :=
  (s.under 0xED).flatMap (tagData (ascii "Photoshop 3.0" ++ [0]))

/-- Pieces of an ICC profile: number of the piece, number of pieces, data (ICC.1, annex B.4). -/
def Segment.icc (s : Segment) : List (Nat × Nat × List UInt8) :=
  (s.under 0xE2).flatMap fun b => (tagData (ascii "ICC_PROFILE" ++ [0]) b).flatMap fun v =>
    match v with
    | q :: n :: x :: v => [(q.toNat, n.toNat, x :: v)]
    | _ => []

/-- Multi-picture data (CIPA DC-007). -/
def Segment.mpf (s : Segment) : List (List UInt8) := (s.under 0xE2).flatMap (tagData (ascii "MPF" ++ [0]))

/-- Gain maps (ISO 21496-1): four bytes are version numbers only and there is no further data, fewer are
nothing. -/
def Segment.gain (s : Segment) : List (List UInt8) :=
  (s.under 0xE2).flatMap fun b => (tagData (ascii "urn:iso:std:iso:ts:21496:-1" ++ [0]) b).flatMap fun v =>
    if v.length = 4 then [[]] else if 4 < v.length then [v] else []

/-- The mark of a frame of a motion JPEG file. -/
def Segment.avi (s : Segment) : Bool := (s.under 0xE0).any fun b => decide (b.take 5 = ascii "AVI1" ++ [0])

/-- The transform of an Adobe segment: after the identifier a version and two fields of flags, of two bytes
each. -/
def Segment.adobe (s : Segment) : List Nat :=
  (s.under 0xEE).flatMap fun b => (tagData (ascii "Adobe") b).flatMap fun v =>
    match v[6]? with
    | some t => [t.toNat]
    | none => []

end Zune.Jpeg.Seg
