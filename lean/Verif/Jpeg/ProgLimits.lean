import Verif.Jpeg.ProgFileProps
import Verif.Jpeg.McuLimits

/-!
# C97: progressive files that are not decoded as in T.81

Grey pictures of one block, sent in one scan or in two.
-/

namespace Zune.Jpeg

open Zune.Canon Seg

/-- A quantisation table that makes one step of the DC coefficient one step of the samples. -/
def eightTq : QTab := ⟨false, 0, List.replicate 64 8⟩

/-- A DC table with a code of each length, the longest for category 10. -/
def longTd : HTab := ⟨false, 0, List.replicate 16 1, [0, 1, 2, 3, 4, 5, 6, 7, 8, 9, 11, 12, 13, 14, 15, 10]⟩

/-- The header of a scan of DC coefficients. -/
def sosDc (ah al td : Nat) : Scan := ⟨[⟨1, td, 0⟩], 0, 0, ah, al⟩

/-- A second scan, of the last bit of the DC coefficients. -/
def lastBit (td : Nat) (data : Bytes) : Bytes := [0xFF, 0xDA] ++ body (sosDc 1 0 td).bytes ++ data ++ [0xFF, 0xD9]

/-- A grey picture of 8 columns and 8 rows; `rest` is what follows the header of the first scan. -/
def greyFile (q : QTab) (t : HTab) (R : Option Nat) (al td : Nat) (rest : Bytes) : Bytes :=
  fileBytes ([(⟨[], 0⟩, .dqt [q]), (⟨[], 0⟩, .dht [t])] ++ (R.toList.map fun n => (⟨[], 0⟩, .dri n)) ++
    [(⟨[], 0⟩, .frame 0xC2 ⟨8, 8, [⟨1, 1, 1, 0⟩]⟩)]) ⟨[], 0⟩ (sosDc 0 al td) rest

/-- The picture with all samples the same. -/
def flatPicture (v : UInt8) : List UInt8 := List.replicate 64 v

/-- The scans of the file: DC coefficient 3, sent as 1 and the bit 1; they are decoded if nothing else is between them. -/
theorem two_scans :
    bytesBits [0x5F] = [false, true, false] ++ toBits (category 1) (magnitude 1) ++ [true, true, true, true] ∧
    IsCode exTd.count (fun p => exTd.syms[p]?.getD 0) (category 1) [false, true, false] ∧
    decodeAny false ⟨100, 100, true⟩ 64 .luma (greyFile eightTq exTd none 1 0 ([0x5F] ++ lastBit 0 [0xFF, 0x00])) =
      .ok (flatPicture 131, []) :=
  ⟨by decide, ⟨3, 0, by decide, by decide, by decide, by decide, rfl⟩, by decide +kernel⟩

/-- **C97, disagreement J26** A file of one scan of one block, of 26 bits and padding to four bytes: the decoder takes the four
bytes at once, does not see the marker behind them and wants one. -/
theorem c97_marker_missing (strict : Bool) :
    IsCode longTd.count (fun p => longTd.syms[p]?.getD 0) (category 1016) (List.replicate 15 true ++ [false]) ∧
    bytesBits [0xFF, 0xFE, 0xFE, 0x3F] = (List.replicate 15 true ++ [false]) ++ toBits (category 1016) (magnitude 1016) ++ List.replicate 6 true ∧
    decodeAny false ⟨100, 100, strict⟩ 64 .luma (greyFile exTq longTd none 0 0 (stuff [0xFF, 0xFE, 0xFE, 0x3F] ++ [0xFF, 0xD9])) =
      .error .missing :=
  ⟨⟨16, 0, by decide, by decide, by decide, by decide, rfl⟩, by decide, by revert strict; decide +kernel⟩

/-- **C97, disagreement J27** The file of `two_scans` with a restart interval of one block: at the end of the first scan there is
no restart marker (T.81, E.1.4), but the decoder wants one; in strict mode it fails, otherwise the second scan is lost. -/
theorem c97_last_interval :
    decodeAny false ⟨100, 100, true⟩ 64 .luma (greyFile eightTq exTd (some 1) 1 0 ([0x5F] ++ lastBit 0 [0xFF, 0x00])) = .error .mcu ∧
    (decodeAny false ⟨100, 100, false⟩ 64 .luma (greyFile eightTq exTd (some 1) 1 0 ([0x5F] ++ lastBit 0 [0xFF, 0x00]))).map (·.1) =
      .ok (flatPicture 130) := by
  decide +kernel

/-- **C97, disagreement J28** The file of `two_scans` with an application segment APP3 between the scans (it would be skipped
before the first scan): the decoder takes its marker for an error in the data; in strict mode it fails, otherwise both scans are
lost. -/
theorem c97_marker_unknown :
    (decodeAny false ⟨100, 100, true⟩ 64 .luma (greyFile eightTq exTd none 1 0 ([0x5F] ++ [0xFF, 0xE3, 0, 2] ++ lastBit 0 [0xFF, 0x00]))).isOk = false ∧
    (decodeAny false ⟨100, 100, false⟩ 64 .luma (greyFile eightTq exTd none 1 0 ([0x5F] ++ [0xFF, 0xE3, 0, 2] ++
      lastBit 0 [0xFF, 0x00]))).map (·.1) = .ok (flatPicture 128) := by
  decide +kernel

/-- **C97, disagreement J29** The file of `two_scans` with the Huffman table in place 1, the second scan naming place 0: it uses no
Huffman table (T.81, G.1.2.1.1), but the decoder wants one there; in strict mode it fails, otherwise the second scan is lost. -/
theorem c97_table_unused :
    decodeAny false ⟨100, 100, true⟩ 64 .luma (greyFile eightTq { exTd with id := 1 } none 1 1 ([0x5F] ++ lastBit 0 [0xFF, 0x00])) =
      .error .table ∧
    (decodeAny false ⟨100, 100, false⟩ 64 .luma (greyFile eightTq { exTd with id := 1 } none 1 1 ([0x5F] ++ lastBit 0 [0xFF, 0x00]))).map (·.1) =
      .ok (flatPicture 130) := by
  decide +kernel

/-- A frame of 8 columns and 32 rows, the chrominance at half the resolution down. -/
def tallFrame : Seg.Frame := ⟨32, 8, [⟨1, 1, 2, 0⟩, ⟨2, 1, 1, 0⟩, ⟨3, 1, 1, 0⟩]⟩

/-- **C97, disagreement J30** A picture of 32 rows whose luminance has factors 1 and 2, the four blocks of luminance with DC
coefficients 3, 6, 9, 12.  Wanted as RGB the rows have these samples; wanted in grey the lower half is lost, since the buffer of
coefficients is taken to be twice as long and divided by the number of rows of MCUs. -/
theorem c97_half_lost :
    bytesBits [0x7B, 0xC1, 0xEF, 0x0F] =
      [false, true, true] ++ toBits (category 3) (magnitude 3) ++ ([false, true, true] ++ toBits (category 3) (magnitude 3)) ++
        [false, false] ++ [false, false] ++ ([false, true, true] ++ toBits (category 3) (magnitude 3)) ++
        ([false, true, true] ++ toBits (category 3) (magnitude 3)) ++ [false, false] ++ [false, false] ++ [true, true, true, true] ∧
    (let file := fileBytes [(⟨[], 0⟩, .dqt [eightTq]), (⟨[], 0⟩, .dht [exTd]), (⟨[], 0⟩, .frame 0xC2 tallFrame)] ⟨[], 0⟩
      ⟨[⟨1, 0, 0⟩, ⟨2, 0, 0⟩, ⟨3, 0, 0⟩], 0, 0, 0, 0⟩ ([0x7B, 0xC1, 0xEF, 0x0F] ++ [0xFF, 0xD9])
    decodeAny false ⟨100, 100, true⟩ 64 .luma file =
      .ok (List.replicate 64 131 ++ List.replicate 64 134 ++ List.replicate 128 128, []) ∧
    decodeAny false ⟨100, 100, true⟩ 64 (.layout .rgb) file =
      .ok (List.replicate 192 131 ++ List.replicate 192 134 ++ List.replicate 192 137 ++ List.replicate 192 140, [])) := by
  decide +kernel

/-- A frame whose chrominance has a quantisation table of its own. -/
def twoTables : Seg.Frame := ⟨8, 8, [⟨1, 1, 1, 0⟩, ⟨2, 1, 1, 1⟩, ⟨3, 1, 1, 1⟩]⟩

/-- The header of a scan of the DC coefficients of one component. -/
def oneDc (k : Nat) : Bytes := [0xFF, 0xDA] ++ body (Scan.bytes ⟨[⟨k, 0, 0⟩], 0, 0, 0, 0⟩)

/-- **C97, disagreement J31** The quantisation table of the chrominance stands between the scan of the luminance and those of the
chrominance (T.81, B.2.4 allows it before any scan): it is found missing at the first scan.  If it stands with the other table,
the file is decoded. -/
theorem c97_quant_late (strict : Bool) :
    decodeAny false ⟨100, 100, strict⟩ 64 .luma (fileBytes [(⟨[], 0⟩, .dqt [eightTq]), (⟨[], 0⟩, .dht [exTd]),
      (⟨[], 0⟩, .frame 0xC2 twoTables)] ⟨[], 0⟩ ⟨[⟨1, 0, 0⟩], 0, 0, 0, 0⟩ ([0x7F] ++ Seg.bytesOf [(⟨[], 0⟩, .dqt [{ eightTq with id := 1 }])] ++
        oneDc 2 ++ [0x3F] ++ oneDc 3 ++ [0x3F] ++ [0xFF, 0xD9])) = .error .quant ∧
    decodeAny false ⟨100, 100, strict⟩ 64 .luma (fileBytes [(⟨[], 0⟩, .dqt [eightTq, { eightTq with id := 1 }]), (⟨[], 0⟩, .dht [exTd]),
      (⟨[], 0⟩, .frame 0xC2 twoTables)] ⟨[], 0⟩ ⟨[⟨1, 0, 0⟩], 0, 0, 0, 0⟩ ([0x7F] ++
        oneDc 2 ++ [0x3F] ++ oneDc 3 ++ [0x3F] ++ [0xFF, 0xD9])) = .ok (flatPicture 131, []) := by
  revert strict
  decide +kernel

end Zune.Jpeg
