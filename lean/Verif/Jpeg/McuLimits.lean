import Verif.Jpeg.McuProps

/-!
# C91: sequential files that are not decoded as in T.81

Files with several scans, as T.81 allows them (B.2.1, A.2.2), on which the decoder goes wrong.
-/

namespace Zune.Jpeg

open Zune.Canon Seg

deriving instance DecidableEq for Except

/-- A block of one colour. -/
def flatZ (v : Int) : List Int := v :: List.replicate 63 0

/-- The coding of a component, with the small AC table in place 0. -/
def flatCoding : Coding := { exCoding with ta := { exTa with id := 0 } }

/-- The bits of flat blocks of component `k`, with DC coefficients `l`. -/
def flatBits (k : Nat) (l : List Int) : List Bool :=
  scanBits (fun _ => flatCoding.comp) (fun _ => 0) (l.map fun v => (k, flatZ v))

/-- A scan header for one component. -/
def sosOne (k : Nat) : Bytes := [0xFF, 0xDA] ++ body (Scan.bytes ⟨[⟨k, 0, 0⟩], 0, 63, 0, 0⟩)

/-- A frame of three components, the first with factors `h` and `v`. -/
def threeFrame (width height h v : Nat) : Seg.Frame := ⟨height, width, [⟨1, h, v, 0⟩, ⟨2, 1, 1, 0⟩, ⟨3, 1, 1, 0⟩]⟩

/-- A file with a scan for each of three components; `mid` stands before the second and the third scan. -/
def threeScans (ta : HTab) (R : Option Nat) (f : Seg.Frame) (first : Bytes) (mid : Bytes) (second third : Bytes) : Bytes :=
  fileBytes ([(⟨[], 0⟩, .dqt [exTq]), (⟨[], 0⟩, .dht [exTd, ta])] ++ (R.toList.map fun n => (⟨[], 0⟩, .dri n)) ++
      [(⟨[], 0⟩, .frame 0xC0 f)]) ⟨[], 0⟩ ⟨[⟨1, 0, ta.id⟩], 0, 63, 0, 0⟩
    (first ++ mid ++ ([0xFF, 0xDA] ++ body (Scan.bytes ⟨[⟨2, 0, ta.id⟩], 0, 63, 0, 0⟩)) ++ second ++
      mid ++ ([0xFF, 0xDA] ++ body (Scan.bytes ⟨[⟨3, 0, ta.id⟩], 0, 63, 0, 0⟩)) ++ third ++ [0xFF, 0xD9])

/-- The samples of a component of flat blocks, `n` of them in a row, in the order of T.81, A.2.2: row by row. -/
def flatSample (n : Nat) (l : List Int) : Nat → Nat → Int :=
  sampleAt (quantAt exTq) fun y x => flatZ (l.getD (n * y + x) 0)

/-- **C91, disagreement J19** Three rows of blocks, in a scan so short that the marker after it is seen during the first
row: the other rows are not decoded, their samples are 0. -/
theorem c91_rows_lost :
    bytesBits [0x78, 0xF1, 0xE7] = flatBits 0 [3, 6, 9] ++ [true, true, true] ∧
    bytesBits [0x00, 0x0F] = flatBits 1 [0, 0, 0] ++ [true, true, true, true] ∧
    decodeJpeg false ⟨100, 100, true⟩ .luma (threeScans flatCoding.ta none (threeFrame 8 24 1 1) [0x78, 0xF1, 0xE7] [] [0x00, 0x0F] [0x00, 0x0F]) =
      .ok (picture 8 24 fun y x => if y < 8 then [byte (flatSample 1 [3, 6, 9] y x)] else [0], []) ∧
    ∀ y x : Fin 8, byte (flatSample 1 [3, 6, 9] (8 + y.val) x.val) = 130 := by
  decide +kernel

/-- **C91, disagreement J20** Two rows and four columns of blocks of a component with factors 2 and 2, in a scan of its
own: they are taken for MCUs of four blocks each. -/
theorem c91_scan_order :
    bytesBits [0x78, 0xF1, 0xE3, 0xC7, 0x8F, 0x1E, 0x3C] = flatBits 0 [3, 6, 9, 12, 15, 18, 21, 24] ∧
    bytesBits [0x00] = flatBits 1 [0, 0] ∧
    decodeJpeg false ⟨100, 100, true⟩ .luma (threeScans flatCoding.ta none (threeFrame 32 16 2 2) [0x78, 0xF1, 0xE3, 0xC7, 0x8F, 0x1E, 0x3C] []
      [0x00] [0x00]) = .ok (picture 32 16 fun y x => [byte (flatSample 4 [3, 6, 15, 18, 9, 12, 21, 24] y x)], []) ∧
    (picture 32 16 fun y x => [byte (flatSample 4 [3, 6, 15, 18, 9, 12, 21, 24] y x)]) ≠
      picture 32 16 fun y x => [byte (flatSample 4 [3, 6, 9, 12, 15, 18, 21, 24] y x)] := by
  decide +kernel

/-- **C91, disagreement J21** A restart interval that ends with a scan, another scan following: there is no restart marker
there (T.81, E.1.4), the decoder wants one. -/
theorem c91_last_interval :
    bytesBits [0x79] = flatBits 0 [3] ++ [true] ∧ bytesBits [0x0F] = flatBits 1 [0] ++ [true, true, true, true] ∧
    decodeJpeg false ⟨100, 100, false⟩ .luma (threeScans flatCoding.ta (some 1) (threeFrame 8 8 1 1) [0x79] [] [0x0F] [0x0F]) = .error .mcu := by
  decide +kernel

/-- **C91, disagreement J22** A restart interval of two MCUs in scans of three: the third MCU of the first scan is counted
with the second scan. -/
theorem c91_interval_kept :
    bytesBits [0x78, 0xF3] = flatBits 0 [3, 6] ++ [true, true] ∧ bytesBits [0x79] = flatBits 0 [3] ++ [true] ∧
    decodeJpeg false ⟨100, 100, false⟩ .luma (threeScans flatCoding.ta (some 2) (threeFrame 24 8 1 1) ([0x78, 0xF3] ++ [0xFF, 0xD0] ++ [0x79]) []
      ([0x78, 0xF3] ++ [0xFF, 0xD0] ++ [0x79]) ([0x78, 0xF3] ++ [0xFF, 0xD0] ++ [0x79])) = .error .mcu := by
  decide +kernel

/-- **C91, disagreement J23** All components use AC table 1 and there is no AC table 0: the components that are not in
the first scan are taken to use table 0, which is missing. -/
theorem c91_tables_early :
    decodeJpeg false ⟨100, 100, false⟩ .luma (threeScans exTa none (threeFrame 8 8 1 1) [0x79] [] [0x0F] [0x0F]) = .error .table := by
  decide +kernel

/-- **C91, disagreement J24** A quantisation table replaced before the second scan: the second component is decoded with
the old one. -/
theorem c91_tables_kept :
    decodeJpeg false ⟨100, 100, true⟩ .ycbcr (threeScans flatCoding.ta none (threeFrame 8 8 1 1) [0x79]
        ([0xFF, 0xDB] ++ body (QTab.bytes ⟨false, 0, List.replicate 64 80⟩)) [0x79] [0x79]) =
      .ok (picture 8 8 fun y x => [byte (flatSample 1 [3] y x), byte (flatSample 1 [3] y x), byte (flatSample 1 [3] y x)], []) ∧
    byte (sampleAt (quantAt exTq) (fun _ _ => flatZ 3) 0 0) = 129 ∧
    byte (sampleAt (quantAt ⟨false, 0, List.replicate 64 80⟩) (fun _ _ => flatZ 3) 0 0) = 158 := by
  decide +kernel

/-- **C91, disagreement J25** Grey wanted of a component with factors 1 and 2, in a scan of its own: panic. -/
theorem c91_panic :
    bytesBits [0x78, 0xF3] = flatBits 0 [3, 6] ++ [true, true] ∧ bytesBits [0x0F] = flatBits 1 [0] ++ [true, true, true, true] ∧
    decodeJpeg false ⟨100, 100, false⟩ .luma (threeScans flatCoding.ta none (threeFrame 8 16 1 2) [0x78, 0xF3] [] [0x0F] [0x0F]) =
      .error .panic := by
  decide +kernel

end Zune.Jpeg
