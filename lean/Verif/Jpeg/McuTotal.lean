import Verif.Jpeg.McuSafe
import Verif.Jpeg.McuLimits

/-!
# C93: the baseline decoder on arbitrary bytes

`decodeJpeg` takes any bytes.  Every loop of the model whose number of rounds is not plain from its shape has a bound
computed from the length of the input, and fails with `fuel` at the bound; every index and slice of the code is an explicit
`panic`.  Failures inside `post_process` are a value of their own (`post`) and belong to C67.
-/

namespace Zune.Jpeg

open Seg

/-- **C93** Whatever the bytes, the decoder comes to an end: no loop (markers, tables, blocks, MCUs, restart markers, scans)
reaches the bound computed from the number of bytes. -/
theorem c93_terminates (avx2 : Bool) (o : HdrOpts) (out : OutSpace) (s : Bytes) :
    decodeJpeg avx2 o out s ≠ .error .fuel ∧ decodeJpeg avx2 o out s ≠ .error (.hdr .fuel) :=
  ⟨fun h => ((jpeg_mild avx2 o out s).1 _ h).1 rfl, fun h => ((jpeg_mild avx2 o out s).1 _ h).2.1 rfl⟩

/-- **C93** Whatever the bytes, neither the headers nor the bit reader and the Huffman decoder index outside an array, in any
scan. -/
theorem c93_reading (avx2 : Bool) (o : HdrOpts) (out : OutSpace) (s : Bytes) :
    decodeJpeg avx2 o out s ≠ .error (.hdr .panic) ∧ decodeJpeg avx2 o out s ≠ .error (.bits .panic) :=
  ⟨fun h => ((jpeg_mild avx2 o out s).1 _ h).2.2.1 rfl, fun h => ((jpeg_mild avx2 o out s).1 _ h).2.2.2 rfl⟩

/-- **C93 (partial)** Whatever the bytes, if the first scan header names as many components as the frame header, the MCU
loop never writes outside the buffers of the components, in this and in the following scans.

Missing: files whose first scan has fewer components, where it is false (`c91_panic`, J25); `post_process`, where it is
false for some sampling factors (C67: J6, J7). -/
theorem c93_no_panic_partial (avx2 : Bool) (o : HdrOpts) (out : OutSpace) (s : Bytes)
    (h : ∀ d r, decodeHeaders o s = .ok (d, r) → d.ns = d.comps.length) :
    decodeJpeg avx2 o out s ≠ .error .panic :=
  (jpeg_mild avx2 o out s).2 h

/-- A file with all components in one scan, whose data end early and are followed by another scan header for the first
component only and arbitrary bytes. -/
def exBroken (t : Bytes) : Bytes :=
  fileBytes [(⟨[], 0⟩, .dqt [exTq]), (⟨[], 0⟩, .dht [exTd, flatCoding.ta]), (⟨[], 0⟩, .frame 0xC0 (threeFrame 8 8 1 1))]
    ⟨[], 0⟩ ⟨[⟨1, 0, 0⟩, ⟨2, 0, 0⟩, ⟨3, 0, 0⟩], 0, 63, 0, 0⟩ t

/-- The bytes of `exBroken` below. -/
def exBytes : Bytes := exBroken ([0x78] ++ sosOne 1 ++ [0x12, 0x34])

example : ∀ d r, decodeHeaders ⟨100, 100, false⟩ exBytes = .ok (d, r) → d.ns = d.comps.length ∧ d.ns = 3 := by
  have : ((decodeHeaders ⟨100, 100, false⟩ exBytes).toOption.map fun x => decide (x.1.ns = x.1.comps.length ∧ x.1.ns = 3)) = some true := by
    decide +kernel
  intro d r h
  rw [h] at this
  simpa [Except.toOption] using this

example : ((decodeJpeg false ⟨100, 100, false⟩ .luma exBytes).toOption.map fun x => x.1.length) = some 64 := by decide +kernel

end Zune.Jpeg
