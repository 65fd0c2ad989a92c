import Verif.Png.AnimModel
import Verif.Png.Chunks

/-!
# PNG: text, time, profile and animation chunks (specification)

After the PNG specification (third edition), sections 11.3.2 to 11.3.6 and the APNG chunks acTL, fcTL and fdAT.
-/

namespace Zune.Png.Spec

/-- Contents of fcTL but the sequence number. -/
structure Control where
  width : Nat
  height : Nat
  x : Nat
  y : Nat
  delayNum : Nat
  delayDen : Nat
  dispose : Dispose
  blend : Blend
  deriving DecidableEq

/-- The numbers fit their fields. -/
def Control.Fits (f : Control) : Prop :=
  f.width < 2 ^ 32 ∧ f.height < 2 ^ 32 ∧ f.x < 2 ^ 32 ∧ f.y < 2 ^ 32 ∧ f.delayNum < 2 ^ 16 ∧ f.delayDen < 2 ^ 16

instance (f : Control) : Decidable f.Fits := by unfold Control.Fits; infer_instance

/-- The bytes of fcTL. -/
def Control.bytes (f : Control) (seq : Nat) : List UInt8 :=
  beBytes 4 seq ++ beBytes 4 f.width ++ beBytes 4 f.height ++ beBytes 4 f.x ++ beBytes 4 f.y ++ beBytes 2 f.delayNum ++
    beBytes 2 f.delayDen ++ ([match f.dispose with | .none => 0 | .background => 1 | .previous => 2,
      match f.blend with | .source => 0 | .over => 1] : List UInt8)

/-- What the decoder says about a frame with this fcTL. -/
def Control.info (f : Control) (seq : Nat) : FrameInfo :=
  ⟨if seq < 2 ^ 31 then seq else seq - 2 ^ 32, f.width, f.height, f.x, f.y, f.delayNum, f.delayDen, f.dispose, f.blend, true⟩

/-- A keyword of at most 78 bytes.  (The standard allows 79, see `c94_long_keyword`.) -/
def Keyword (k : List UInt8) : Prop := k.length ≤ 78 ∧ 0 ∉ k

instance (k : List UInt8) : Decidable (Keyword k) := by unfold Keyword; infer_instance

/-- A chunk other than IHDR, IDAT, fcTL, fdAT and IEND. -/
inductive Extra
  | text (keyword text : List UInt8)
  /-- compressed text: the bytes in the file, the text -/
  | ztxt (keyword packed text : List UInt8)
  /-- international text: not compressed, without language and translated keyword -/
  | itxt (keyword text : List UInt8)
  | time (t : Time)
  /-- an ICC profile: its name, the bytes in the file, the profile -/
  | icc (keyword packed profile : List UInt8)
  /-- number of frames, number of plays -/
  | actl (frames plays : Nat)
  /-- a chunk of `Spec.apply` -/
  | other (name data : List UInt8)

/-- Name of the chunk. -/
def Extra.name : Extra → List UInt8
  | .text .. => [0x74, 0x45, 0x58, 0x74]
  | .ztxt .. => [0x7a, 0x54, 0x58, 0x74]
  | .itxt .. => [0x69, 0x54, 0x58, 0x74]
  | .time .. => [0x74, 0x49, 0x4d, 0x45]
  | .icc .. => [0x69, 0x43, 0x43, 0x50]
  | .actl .. => [0x61, 0x63, 0x54, 0x4c]
  | .other n _ => n

/-- Data of the chunk: 11.3.3.3 tEXt, 11.3.3.4 zTXt, 11.3.3.5 iTXt (compression flag and method 0, empty language tag and
    translated keyword, each ended by a zero), 11.3.6 tIME, 11.3.2.3 iCCP, acTL. -/
def Extra.data : Extra → List UInt8
  | .text k t => k ++ [0] ++ t
  | .ztxt k c _ => k ++ [0, 0] ++ c
  | .itxt k t => k ++ [0, 0, 0, 0, 0] ++ t
  | .time t => beBytes 2 t.year ++ [UInt8.ofNat t.month, UInt8.ofNat t.day, UInt8.ofNat t.hour, UInt8.ofNat t.minute, UInt8.ofNat t.second]
  | .icc k c _ => k ++ [0, 0] ++ c
  | .actl n p => beBytes 4 n ++ beBytes 4 p
  | .other _ d => d

/-- The contents are as they should be. -/
def Extra.Ok (zlib : Zlib) : Extra → Prop
  | .text k _ => Keyword k
  | .ztxt k c t => Keyword k ∧ zlib {} c = .ok t
  | .itxt k _ => Keyword k
  | .time t => t.year < 2 ^ 16 ∧ 1 ≤ t.month ∧ t.month ≤ 12 ∧ 1 ≤ t.day ∧ t.day ≤ 31 ∧ t.hour ≤ 23 ∧ t.minute ≤ 59 ∧ t.second ≤ 60
  | .icc k c p => Keyword k ∧ zlib {} c = .ok p
  | .actl n p => n < 2 ^ 32 ∧ p < 2 ^ 32
  | .other n _ => n.length = 4 ∧ n ≠ [0x49, 0x44, 0x41, 0x54] ∧ n ≠ [0x66, 0x64, 0x41, 0x54]

/-- What the chunk adds to the information about the picture. -/
def Extra.apply (i : Info) : Extra → Option Info
  | .text k t => some { i with text := i.text ++ [⟨k, t⟩] }
  | .ztxt k _ t => some { i with ztxt := i.ztxt ++ [⟨k, t⟩] }
  | .itxt k t => some { i with itxt := i.itxt ++ [⟨k, t⟩] }
  | .time t => some { i with time := some t }
  | .icc _ _ p => some { i with icc := some p }
  | .actl n p => some { i with actl := some (n, p) }
  | .other n d => (Spec.apply i.st n d).map fun st => { i with st := st }

/-- A chunk among the image data: IDAT, or fdAT with its sequence number. -/
inductive Part
  | extra (e : Extra)
  | data (seq : Nat) (x : List UInt8)

/-- The chunk, as IDAT or as fdAT. -/
def Part.chunk (fd : Bool) : Part → List UInt8
  | .extra e => Spec.chunk e.name e.data
  | .data seq x => if fd then Spec.chunk [0x66, 0x64, 0x41, 0x54] (beBytes 4 seq ++ x) else Spec.chunk [0x49, 0x44, 0x41, 0x54] x

/-- Well-formed, and not too long. -/
def Part.Ok (zlib : Zlib) : Part → Prop
  | .extra e => e.Ok zlib ∧ e.data.length < 2 ^ 32
  | .data seq x => seq < 2 ^ 32 ∧ x.length + 4 < 2 ^ 32

/-- The information after some chunks. -/
def partsInfo (i : Info) : List Part → Option Info
  | [] => some i
  | .extra e :: t => (e.apply i).bind fun i => partsInfo i t
  | .data _ _ :: t => partsInfo i t

/-- The image data in some chunks. -/
def partsData : List Part → List UInt8
  | [] => []
  | .extra _ :: t => partsData t
  | .data _ x :: t => x ++ partsData t

/-- A frame after the first picture: fcTL, fdAT, further chunks. -/
structure Group where
  seq : Nat
  control : Control
  /-- sequence number and data of the first fdAT -/
  first : Nat × List UInt8
  rest : List Part

/-- The chunks of the frame. -/
def Group.bytes (g : Group) : List UInt8 :=
  Spec.chunk [0x66, 0x63, 0x54, 0x4c] (g.control.bytes g.seq) ++
    (Part.data g.first.1 g.first.2 :: g.rest).flatMap (Part.chunk true)

/-- The compressed data of the frame. -/
def Group.packed (g : Group) : List UInt8 := g.first.2 ++ partsData g.rest

/-- A chunk that says nothing about the pixels. -/
def Part.Quiet : Part → Prop
  | .extra (.actl ..) => False
  | .extra (.other n _) => (n.headD 0).toNat / 32 % 2 = 1 ∧
      n ∉ Spec.reserved ++ [[0x74, 0x52, 0x4e, 0x53], [0x67, 0x41, 0x4d, 0x41], [0x65, 0x58, 0x49, 0x66]]
  | _ => True

/-- The chunks of the frame are well formed. -/
structure Group.Ok (zlib : Zlib) (g : Group) : Prop where
  seq : g.seq < 2 ^ 32
  fits : g.control.Fits
  first : (Part.data g.first.1 g.first.2).Ok zlib
  rest : ∀ p ∈ g.rest, p.Ok zlib ∧ p.Quiet

/-- An animated file. -/
structure Anim where
  header : Header
  /-- the chunks before the first IDAT -/
  pre : List Extra
  /-- the fcTL before the first IDAT: with it, the picture in the IDAT chunks is the first frame of the animation -/
  head : Option (Nat × Control)
  /-- sequence numbers are without meaning here -/
  idats : List Part
  groups : List Group

/-- What follows the first frames. -/
def groupsBytes (gs : List Group) (tail : List UInt8) : List UInt8 :=
  gs.flatMap Group.bytes ++ (Spec.chunk [0x49, 0x45, 0x4e, 0x44] [] ++ tail)

/-- The fcTL chunk before the first IDAT. -/
def Anim.headBytes (a : Anim) : List UInt8 :=
  match a.head with | none => [] | some (seq, f) => Spec.chunk [0x66, 0x63, 0x54, 0x4c] (f.bytes seq)

/-- The bytes of the file. -/
def Anim.bytes (a : Anim) (tail : List UInt8) : List UInt8 :=
  [0x89, 0x50, 0x4e, 0x47, 0x0d, 0x0a, 0x1a, 0x0a] ++ (Spec.chunk [0x49, 0x48, 0x44, 0x52] a.header.bytes ++
    (a.pre.flatMap (fun e => Spec.chunk e.name e.data) ++
      (a.headBytes ++ (a.idats.flatMap (Part.chunk false) ++ groupsBytes a.groups tail))))

/-- The file is well formed; `i` is what the chunks before the pixels say. -/
structure Anim.Ok (zlib : Zlib) (o : DecOpts) (a : Anim) (i : Info) : Prop where
  header : a.header.Ok o
  pre : ∀ e ∈ a.pre, (Part.extra e).Ok zlib
  info : partsInfo { st := a.header.st } (a.pre.map .extra) = some i
  head : ∀ x ∈ a.head, x.1 < 2 ^ 32 ∧ x.2.Fits
  idats : ∀ p ∈ a.idats, p.Ok zlib ∧ p.Quiet
  some_data : ∃ seq x t, a.idats = .data seq x :: t
  groups : ∀ g ∈ a.groups, g.Ok zlib

end Zune.Png.Spec
