/-
Specification for C76 and C77: how a JPEG XL codestream is read, after ISO/IEC 18181-1.

Covered is the part of the standard a picture needs that has one regular modular frame, no animation, no upsampling, no filters, one pass, prefix codes
and at most the colour transform as a transformation of its channels; a stream that asks for anything else is not read (`failure`).  Nothing here
refers to the encoder.
-/
import Verif.Jxl.Rfc7932
import Verif.Jxl.CodeProps

namespace Zune.Jxl.Iso

open Rfc7932 (Describes)
open Prefix (word)

/-! ### Fields -/

/-- Reading from a bit stream. -/
abbrev P := StateT (List Bool) Option

/-- One bit. -/
def bit : P Bool
  | b :: t => some (b, t)
  | [] => none

/-- `u(n)`: `n` bits, lowest first. -/
def u : Nat → P Nat
  | 0 => pure 0
  | n + 1 => do
    let b ← bit
    let v ← u n
    return b.toNat + 2 * v

/-- `U32(d0, d1, d2, d3)`: two bits select one of four forms, each with a number of bits to read and an offset to add. -/
def u32 (d0 d1 d2 d3 : Nat × Nat) : P Nat := do
  let s ← u 2
  let d := match s with | 0 => d0 | 1 => d1 | 2 => d2 | _ => d3
  let v ← u d.1
  return d.2 + v

/-- `U64()`; the longest of the four forms is left out. -/
def u64 : P Nat := do
  match ← u 2 with
  | 0 => return 0
  | 1 => return 1 + (← u 4)
  | 2 => return 17 + (← u 8)
  | _ => failure

/-- An enumeration. -/
def enum : P Nat := u32 (0, 0) (0, 1) (4, 2) (6, 18)

/-- Fields that must have a certain value. -/
def must (p : P Nat) (v : Nat) : P Unit := do
  if (← p) = v then return () else failure

/-- `ZeroPadToByte`: as the whole stream consists of bytes, the bits up to the next byte are those that make the rest divisible by eight. -/
def align : P Unit := fun s =>
  if (s.take (s.length % 8)).all (!·) then some ((), s.drop (s.length % 8)) else none

/-- `n` times the same. -/
def times {α} (n : Nat) (p : P α) : P (List α) :=
  match n with
  | 0 => pure []
  | n + 1 => do
    let a ← p
    let l ← times n p
    return a :: l

/-! ### Headers -/

/-- What the headers say about a picture: `bits` per sample, the depths of the `extra` channels (all alpha), and whether it is `grey`. -/
structure Image where
  width : Nat
  height : Nat
  bits : Nat
  extra : List Nat
  grey : Bool
deriving Repr, DecidableEq

/-- `SizeHeader`: width and height. -/
def sizeHeader : P (Nat × Nat) := do
  let div8 ← u 1
  let side := if div8 = 1 then (do return 8 * (1 + (← u 5))) else u32 (9, 1) (13, 1) (18, 1) (30, 1)
  let h ← side
  let ratio ← u 3
  let w ← match ratio with
    | 0 => side
    | 1 => pure h
    | 2 => pure (h * 12 / 10)
    | 3 => pure (h * 4 / 3)
    | 4 => pure (h * 3 / 2)
    | 5 => pure (h * 16 / 9)
    | 6 => pure (h * 5 / 4)
    | _ => pure (h * 2)
  return (w, h)

/-- `ExtraChannelInfo`: only the default, alpha of eight bits. -/
def extraChannel : P Nat := do
  must (u 1) 1
  return 8

/-- `ColourEncoding`: the default (sRGB, three channels), or grey with white point D65 and the sRGB transfer function; whether it is grey. -/
def colourEncoding : P Bool := do
  let allDefault ← u 1
  if allDefault = 1 then return false
  must (u 1) 0
  must enum 1
  must enum 1
  must (u 1) 0
  must enum 13
  let _ ← enum
  return true

/-- `ImageMetadata` and the default transform data. -/
def imageMetadata : P (Nat × List Nat × Bool) := do
  must (u 1) 0
  must (u 1) 0
  must (u 1) 0
  let bits ← u32 (0, 8) (0, 10) (0, 12) (6, 1)
  let _ ← u 1
  let n ← u32 (0, 0) (0, 1) (4, 2) (12, 1)
  let extra ← times n extraChannel
  must (u 1) 0
  let grey ← colourEncoding
  must u64 0
  must (u 1) 1
  return (bits, extra, grey)

/-- The signature and the image headers. -/
def imageHeader : P Image := do
  must (u 16) 0x0AFF
  let (w, h) ← sizeHeader
  let (bits, extra, grey) ← imageMetadata
  align
  return ⟨w, h, bits, extra, grey⟩

/-- `BlendingInfo`: the frame replaces what was there. -/
def blending : P Unit := must (u32 (0, 0) (0, 1) (0, 2) (2, 3)) 0

/-- `FrameHeader` of the only frame, which has `extra` extra channels: the side of a group. -/
def frameHeader (extra : Nat) : P Nat := do
  must (u 1) 0
  must (u 2) 0
  must (u 1) 1
  must u64 0
  must (u 1) 0
  must (u32 (0, 1) (0, 2) (0, 4) (0, 8)) 1
  let _ ← times extra (must (u32 (0, 1) (0, 2) (0, 4) (0, 8)) 1)
  let shift ← u 2
  must (u32 (0, 1) (0, 2) (0, 3) (3, 4)) 1
  must (u 1) 0
  blending
  let _ ← times extra blending
  must (u 1) 1
  must (u32 (0, 0) (4, 0) (5, 16) (10, 48)) 0
  must (u 1) 0
  must (u 1) 0
  must (u 2) 0
  must u64 0
  must u64 0
  return 128 * 2 ^ shift

/-- Division, rounded up. -/
def ceilDiv (a b : Nat) : Nat := (a + b - 1) / b

/-- How many groups of side `d` there are across and down. -/
def Image.across (im : Image) (d : Nat) : Nat := ceilDiv im.width d
/-- See `across`. -/
def Image.down (im : Image) (d : Nat) : Nat := ceilDiv im.height d

/-- How many groups of groups there are: these have eight times the side. -/
def Image.lfGroups (im : Image) (d : Nat) : Nat := im.across (8 * d) * im.down (8 * d)

/-- How many groups there are. -/
def Image.groups (im : Image) (d : Nat) : Nat := im.across d * im.down d

/-- How many sections there are: one, if there is one group; otherwise one for the frame, one for each group of groups, one for the coefficients and
    one for each group. -/
def Image.sections (im : Image) (d : Nat) : Nat :=
  if im.groups d = 1 then 1 else 2 + im.lfGroups d + im.groups d

/-- `TOC` without permutation. -/
def toc (n : Nat) : P (List Nat) := do
  must (u 1) 0
  align
  let sizes ← times n (u32 (10, 0) (14, 1024) (22, 17408) (30, 4211712))
  align
  return sizes

/-- Cutting the rest of the stream into sections of so many bytes, with nothing left over. -/
def cut : List Nat → List Bool → Option (List (List Bool))
  | [], s => if s.isEmpty then some [] else none
  | n :: t, s => if 8 * n ≤ s.length then (cut t (s.drop (8 * n))).map (s.take (8 * n) :: ·) else none

/-- The headers and the sections: the picture, the side of a group, and the sections. -/
def container (bits : List Bool) : Option (Image × Nat × List (List Bool)) := do
  let (im, s) ← imageHeader bits
  let (d, s) ← frameHeader im.extra.length s
  let (sizes, s) ← toc (im.sections d) s
  let l ← cut sizes s
  return (im, d, l)

/-! ### Entropy coding -/

/-- How many bits a number needs. -/
def bitLen (n : Nat) : Nat := if n = 0 then 0 else n.log2 + 1

/-- `HybridUintConfig`. -/
def hybridConfig (logAlphabet : Nat) : P Hybrid := do
  let s ← u (bitLen logAlphabet)
  if s = logAlphabet then return ⟨s, 0, 0⟩
  let m ← u (bitLen s)
  let l ← u (bitLen (s - m))
  return ⟨s, m, l⟩

/-- The size of an alphabet, as given for prefix codes. -/
def alphabetSize : P Nat := do
  if (← u 1) = 0 then return 1
  let n ← u 4
  return 1 + 2 ^ n + (← u n)

/-- A prefix code: with a single symbol, which takes no bits, or with the given lengths. -/
inductive Code
  | single (s : Nat)
  | lens (l : List Nat)
deriving Repr, DecidableEq

/-- Simple prefix codes (RFC 7932, section 3.4): one symbol, or four of the same length; the other forms are left out. -/
def simpleCode (size : Nat) : P Code := do
  must (u 2) 1
  match ← u 2 with
  | 0 => return .single (← u (bitLen (size - 1)))
  | 3 => do
    let l ← times 4 (u (bitLen (size - 1)))
    must (u 1) 0
    if l.Nodup then return .lens ((List.range size).map fun s => if s ∈ l then 2 else 0) else failure
  | _ => failure

/-- A prefix code over `size` symbols is read from the bits. -/
inductive CodeRead (size : Nat) : List Bool → Code → List Bool → Prop
  | simple (bits : List Bool) (c : Code) (rest : List Bool) : simpleCode size bits = some (c, rest) → CodeRead size bits c rest
  | complex (bits : List Bool) (l : List Nat) (rest : List Bool) : Describes size bits l rest → CodeRead size bits (.lens l) rest

/-- Several prefix codes, one after the other. -/
inductive CodesRead : List Nat → List Bool → List Code → List Bool → Prop
  | nil (bits : List Bool) : CodesRead [] bits [] bits
  | cons (n : Nat) (sizes : List Nat) (bits bits' : List Bool) (c : Code) (codes : List Code) (rest : List Bool) : CodeRead n bits c bits' →
      CodesRead sizes bits' codes rest → CodesRead (n :: sizes) bits (c :: codes) rest

/-- `LZ77Params`: the first symbol that stands for a copy, the least length of a copy, and the configuration of lengths. -/
structure Lz77 where
  minSymbol : Nat
  minLength : Nat
  config : Hybrid

/-- What precedes the codes: copies, the cluster of each context, and for each cluster its configuration and the size of its alphabet. -/
structure Head where
  lz77 : Option Lz77
  clusters : List Nat
  configs : List Hybrid
  sizes : List Nat

/-- Reading it for so many contexts.  With copies there is one more context, the last, for their distances. -/
def entropyHead (contexts : Nat) : P Head := do
  let lz77 ← (do
    if (← u 1) = 0 then return none
    let s ← u32 (0, 224) (0, 512) (0, 4096) (15, 8)
    let l ← u32 (0, 3) (0, 4) (2, 5) (8, 9)
    let c ← hybridConfig 8
    return some ⟨s, l, c⟩ : P (Option Lz77))
  let n := contexts + (if lz77.isSome then 1 else 0)
  let clusters ← (do
    if n = 1 then return [0]
    must (u 1) 1
    let b ← u 2
    times n (u b) : P (List Nat))
  let k := clusters.foldl max 0 + 1
  must (u 1) 1
  let configs ← times k (hybridConfig 15)
  let sizes ← times k alphabetSize
  return ⟨lz77, clusters, configs, sizes⟩

/-- One symbol of a code: the codeword that stands at the beginning of the bits. -/
def symbol : Code → P Nat
  | .single s => pure s
  | .lens l => fun bits => do
    let s ← (List.range l.length).find? fun s => l.getD s 0 != 0 && (word l s).isPrefixOf bits
    return (s, bits.drop (l.getD s 0))

/-- One value of a context, without copies. -/
def value (h : Head) (codes : List Code) (context : Nat) : P Nat := do
  let some i := h.clusters[context]? | failure
  let some c := codes[i]? | failure
  let some f := h.configs[i]? | failure
  let t ← symbol c
  return f.value t (← u (f.extra t))

/-! ### The tree that chooses contexts and predictors -/

/-- A decision on a property, or a leaf with a predictor, an offset and a multiplier. -/
inductive Node
  | split (property : Nat) (value : Int)
  | leaf (predictor : Nat) (offset : Int) (multiplier : Nat)
deriving Repr, DecidableEq

/-- Reading the nodes level by level, `pending` of them still to come; at most `fuel` nodes. -/
def nodes (read : Nat → P Nat) : Nat → Nat → P (List Node)
  | _, 0 => pure []
  | 0, _ + 1 => failure
  | fuel + 1, pending + 1 => do
    let p ← read 1
    if p = 0 then
      let predictor ← read 2
      let offset ← read 3
      let log ← read 4
      let mul ← read 5
      let l ← nodes read fuel pending
      return .leaf predictor (unpackSigned offset) ((mul + 1) * 2 ^ log) :: l
    else
      let v ← read 0
      let l ← nodes read fuel (pending + 2)
      return .split (p - 1) (unpackSigned v) :: l

/-- Is the node a leaf? -/
def Node.isLeaf : Node → Bool
  | .leaf .. => true
  | .split .. => false

/-- Walking down from node `i`: the context, which is the number of leaves before the leaf that is reached, and the leaf.  The children of a node come after
    those of all nodes before it; the first is taken if the property exceeds the value. -/
def walk (tree : List Node) (property : Nat → Int) : Nat → Nat → Option (Nat × Node)
  | 0, _ => none
  | fuel + 1, i =>
    match tree[i]? with
    | none => none
    | some (.leaf p o m) => some ((tree.take i).countP Node.isLeaf, .leaf p o m)
    | some (.split q v) => walk tree property fuel (2 * (tree.take i).countP (!·.isLeaf) + (if property q > v then 1 else 2))

/-! ### The sections -/

/-- The header of a modular image that uses the tree of the frame: does the colour transform YCoCg apply to the first three channels? -/
def modularHeader : P Bool := do
  must (u 1) 1
  must (u 1) 1
  match ← u32 (0, 0) (0, 1) (4, 2) (8, 18) with
  | 0 => return false
  | 1 => do
    must (u 2) 0
    must (u32 (3, 0) (6, 8) (10, 72) (13, 1096)) 0
    must (u32 (0, 6) (2, 0) (4, 2) (6, 10)) 6
    return true
  | _ => failure

/-- `LfGlobal` of a frame with so many channels is read from the bits: the code lengths of each channel and whether there is a colour transform.
    Every channel must be predicted by the clamped gradient (predictor 5), have values without extra configuration, and copies, if they occur, must be
    announced by symbols from 224 on, have length at least 7, length configuration 4, 0, 0, and the distance code must say distance one (code 1)
    without using bits. -/
def LfGlobal (channels : Nat) (bits : List Bool) (lens : List (List Nat)) (rct : Bool) (rest : List Bool) : Prop :=
  ∃ b1 h1 b2 c1 b3 tree b4 h2 b5 c2 b6,
    (do must (u 1) 1; must (u 1) 1 : P Unit) bits = some ((), b1) ∧
    entropyHead 6 b1 = some (h1, b2) ∧ h1.lz77.isNone ∧ CodesRead h1.sizes b2 c1 b3 ∧
    nodes (value h1 c1) 1000 1 b3 = some (tree, b4) ∧
    entropyHead (tree.countP Node.isLeaf) b4 = some (h2, b5) ∧ CodesRead h2.sizes b5 c2 b6 ∧
    h2.lz77 = some ⟨224, 7, ⟨4, 0, 0⟩⟩ ∧
    (∃ i, h2.clusters[tree.countP Node.isLeaf]? = some i ∧ c2[i]? = some (.single 1) ∧ h2.configs[i]? = some ⟨0, 0, 0⟩) ∧
    lens.length = channels ∧
    (∀ c < channels, ∀ others : Nat → Int, ∃ x i l, walk tree (fun q => if q = 0 then c else others q) 1000 0 = some (x, .leaf 5 0 1) ∧
      h2.clusters[x]? = some i ∧ c2[i]? = some (.lens l) ∧ lens[c]? = some l ∧ h2.configs[i]? = some ⟨0, 0, 0⟩) ∧
    modularHeader b6 = some (rct, rest)

/-- The values of several channels, `n` for each, one channel after the other, with the code lengths `lens`. -/
inductive ChannelsRead (n : Nat) : List (List Nat) → Option Nat → List Bool → List (List Nat) → List Bool → Prop
  | nil (last : Option Nat) (bits : List Bool) : ChannelsRead n [] last bits [] bits
  | cons (l : List Nat) (lens : List (List Nat)) (last : Option Nat) (bits bits' : List Bool) (syms : List Nat) (all : List (List Nat)) (rest : List Bool) :
      Reads l last bits syms → syms.length = n → ChannelsRead n lens (syms.getLast?.or last) bits' all rest →
      ChannelsRead n (l :: lens) last (bits ++ bits') (syms :: all) rest

/-- Less than a byte of zero bits. -/
def Padding (s : List Bool) : Prop := s.length < 8 ∧ ∀ b ∈ s, b = false

/-- The data of the group whose corner is (`x0`, `y0`) and whose size is `xs` times `ys`: `chan c y x` are the samples of the picture. -/
def GroupRead (lens : List (List Nat)) (x0 y0 xs ys : Nat) (bits : List Bool) (chan : Nat → Nat → Nat → Int) : Prop :=
  ∃ all rest, ChannelsRead (ys * xs) lens none bits all rest ∧ Padding rest ∧
    ∀ c < lens.length, ∃ syms, all[c]? = some syms ∧ Decodes xs ys syms fun y x => chan c (y0 + y) (x0 + x)

/-- The samples of a pixel from those of its channels. -/
def undo (rct : Bool) (l : List Int) : List Int :=
  match rct, l with
  | true, y :: co :: cg :: t => let c := unYcocg y co cg; c.1 :: c.2.1 :: c.2.2 :: t
  | _, _ => l

/-- The stream `bits` is that of the picture `im` with the pixels `pix y x`. -/
def Codestream (bits : List Bool) (im : Image) (pix : Nat → Nat → List Int) : Prop :=
  ∃ d sections lens rct first rest chan,
    container bits = some (im, d, sections) ∧
    sections[0]? = some first ∧ LfGlobal ((if im.grey then 1 else 3) + im.extra.length) first lens rct rest ∧
    (if im.groups d = 1 then GroupRead lens 0 0 im.width im.height rest chan
      else Padding rest ∧ ∀ g < im.groups d, ∃ s s', sections[2 + im.lfGroups d + g]? = some s ∧ modularHeader s = some (false, s') ∧
        GroupRead lens (d * (g % im.across d)) (d * (g / im.across d)) (min (im.width - d * (g % im.across d)) d)
          (min (im.height - d * (g / im.across d)) d) s' chan) ∧
    ∀ y < im.height, ∀ x < im.width, pix y x = undo rct ((List.range lens.length).map fun c => chan c y x)

end Zune.Jxl.Iso
