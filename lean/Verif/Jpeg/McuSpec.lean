import Verif.Jpeg.BlockProps
import Verif.Jpeg.BitsProps
import Verif.Jpeg.FrameModel

/-!
# Specification: the scan of a baseline frame (T.81, A.2, B.1.1.5, E.1.4)

`Z k y x` are the 64 quantised coefficients, in zig-zag order, of the block in row `y` and column `x` of component `k`.
-/

namespace Zune.Jpeg

/-- The blocks of the MCU in row `i` and column `j`, each with the number of its component: the components in
the order of the scan header, of each its `v` times `h` blocks, row by row (T.81, A.2.3). -/
def mcuBlocks (ord : List Nat) (F : Nat → Factor) (Z : Nat → Nat → Nat → List Int) (i j : Nat) : List (Nat × List Int) :=
  ord.flatMap fun k => (List.range (F k).v).flatMap fun v => (List.range (F k).h).map fun h =>
    (k, Z k (i * (F k).v + v) (j * (F k).h + h))

/-- The MCUs of `n` rows of `X` MCUs from row `i` on. -/
def mcuRows (ord : List Nat) (F : Nat → Factor) (Z : Nat → Nat → Nat → List Int) (X i n : Nat) :
    List (List (Nat × List Int)) :=
  (List.range' i n).flatMap fun i => (List.range X).map fun j => mcuBlocks ord F Z i j

/-- The restart marker number `m`: they are counted modulo eight (T.81, E.1.4). -/
def rstMarker (m : Nat) : UInt8 := 0xD0 + UInt8.ofNat (m % 8)

/-- The bytes of a scan of the MCUs `l`, with a restart interval of `R` MCUs (0: none), the next restart marker being
number `m`; after EOI follow the bytes `tail`.  Each interval starts with predictions of zero, is padded to
whole bytes with any bits, and its bytes FF are stuffed; fill bytes may stand before a marker. -/
inductive ScanData (comps : Nat → ScanComp) (R : Nat) (tail : List UInt8) :
    Nat → List (List (Nat × List Int)) → List UInt8 → Prop where
  | last (m : Nat) (l : List (List (Nat × List Int))) (data : List UInt8) (pad : List Bool) (n : Nat)
      (hl : R = 0 ∨ l.length ≤ R) (hf : ScanFits comps (fun _ => 0) l.flatten)
      (hd : bytesBits data = scanBits comps (fun _ => 0) l.flatten ++ pad) :
      ScanData comps R tail m l (stuff data ++ 0xFF :: List.replicate n 0xFF ++ 0xD9 :: tail)
  | rst (m : Nat) (l l' : List (List (Nat × List Int))) (data : List UInt8) (pad : List Bool) (n : Nat) (r : List UInt8)
      (hR : R ≠ 0) (hl : l.length = R) (hl' : l' ≠ []) (hf : ScanFits comps (fun _ => 0) l.flatten)
      (hd : bytesBits data = scanBits comps (fun _ => 0) l.flatten ++ pad)
      (hr : ScanData comps R tail (m + 1) l' r) :
      ScanData comps R tail m (l ++ l') (stuff data ++ 0xFF :: List.replicate n 0xFF ++ rstMarker m :: r)

/-- The coefficients of a block, each times its quantiser, at its place. -/
def dequantised (qt : Nat → I32) (z : List Int) : Block := fun r c =>
  BitVec.ofInt 32 (z.getD (zigzagWalk.idxOf (r.val, c.val)) 0) * qt (8 * r.val + c.val)

/-- The samples of a component: those of the inverse transform of the block they lie in. -/
def sampleAt (qt : Nat → I32) (Z : Nat → Nat → List Int) (y x : Nat) : Int :=
  (idctFull (dequantised qt (Z (y / 8) (x / 8)))).rows ⟨y % 8, Nat.mod_lt _ (by decide)⟩ ⟨x % 8, Nat.mod_lt _ (by decide)⟩

/-- The restriction under which the shortcut for blocks without AC coefficients is exact (see C45). -/
def DcSmall (qt : Nat → I32) (z : List Int) : Prop :=
  dcOnly (dequantised qt z) = true → DcFits (dequantised qt z 0 0)

end Zune.Jpeg
