import Verif.Jpeg.ProgSafe
import Verif.Jpeg.ProgLimits

/-!
# C98: the decoder of both kinds of files on arbitrary bytes

`decodeAny` takes any bytes.  As for C93, every loop whose number of rounds is not plain from its shape has a bound computed
from the length of the input and fails with `fuel` at the bound; every index and slice, and the subtraction from the restart
countdown, is an explicit `panic`.  Failures inside `post_process` are a value of their own (`post`) and belong to C67.
-/

namespace Zune.Jpeg

open Seg

/-- **C98** Whatever the bytes, the decoder comes to an end, also in files of any number of scans and with any limit of their
number: no loop (markers, tables, blocks, MCUs, restart markers, scans) reaches the bound computed from the number of bytes. -/
theorem c98_terminates (avx2 : Bool) (o : HdrOpts) (maxScans : Nat) (out : OutSpace) (s : Bytes) :
    decodeAny avx2 o maxScans out s ≠ .error .fuel ∧ decodeAny avx2 o maxScans out s ≠ .error (.hdr .fuel) :=
  ⟨fun h => ((any_mild avx2 o maxScans out s).1 _ h).1 rfl, fun h => ((any_mild avx2 o maxScans out s).1 _ h).2.1 rfl⟩

/-- **C98** Whatever the bytes, neither the headers nor the bit reader, the Huffman decoder and the decoding of first and
refining scans index outside an array, in any scan. -/
theorem c98_reading (avx2 : Bool) (o : HdrOpts) (maxScans : Nat) (out : OutSpace) (s : Bytes) :
    decodeAny avx2 o maxScans out s ≠ .error (.hdr .panic) ∧ decodeAny avx2 o maxScans out s ≠ .error (.bits .panic) :=
  ⟨fun h => ((any_mild avx2 o maxScans out s).1 _ h).2.2.1 rfl, fun h => ((any_mild avx2 o maxScans out s).1 _ h).2.2.2 rfl⟩

/-- **C98 (partial)** Whatever the bytes, a progressive file never makes the decoder index outside a buffer or count below zero,
unless an Adobe segment says YCCK and the frame has fewer than three components; nor does a file of the other kind whose first
scan header names all components.

Missing: the excluded files, where it is false (`c98_panic`, J32; `c91_panic`, J25); `post_process`, where it is false for some
sampling factors (C67: J6, J7). -/
theorem c98_no_panic_partial (avx2 : Bool) (o : HdrOpts) (maxScans : Nat) (out : OutSpace) (s : Bytes)
    (h : ∀ d r, decodeHeaders o s = .ok (d, r) →
      (d.prog = true → d.space = .ycck → 3 ≤ d.comps.length) ∧ (d.prog = false → d.ns = d.comps.length)) :
    decodeAny avx2 o maxScans out s ≠ .error .panic := by
  refine (any_mild avx2 o maxScans out s).2 fun d r e => ?_
  unfold Whole
  split
  · exact (h d r e).1 ‹_›
  · exact (h d r e).2 (by simpa using ‹¬d.prog = true›)

/-- **C98, disagreement J32** A progressive file of one or two components panics, whatever follows the first scan header, if an
Adobe segment says YCCK: the decoder takes that for YCbCr (meant for frames of three components) and makes buffers for three
components. -/
theorem c98_panic (avx2 : Bool) (o : HdrOpts) (maxScans : Nat) (out : OutSpace) (s r : Bytes) (d : Hdr)
    (h : decodeHeaders o s = .ok (d, r)) (hp : d.prog = true) (hs : d.space = .ycck) (hc : d.comps.length < 3)
    (hq : ∀ c ∈ d.comps, (d.qt c.tq).isSome) : decodeAny avx2 o maxScans out s = .error .panic := by
  have hf := headers_fine o s
  rw [h] at hf
  obtain ⟨qts, hqts⟩ : ∃ qts, quantOf d = some qts := by
    unfold quantOf
    generalize d.comps = cs at hq
    induction cs with
    | nil => exact ⟨[], rfl⟩
    | cons c cs ih =>
      obtain ⟨t, ht⟩ := Option.isSome_iff_exists.1 (hq c (by simp))
      obtain ⟨ts, hts⟩ := ih fun x hx => hq x (List.mem_cons_of_mem _ hx)
      refine ⟨t :: ts, ?_⟩
      rw [List.map_cons, ht, allSome, hts]
      rfl
  obtain ⟨u, hu, hu3⟩ : ∃ u, (if d.mjpeg = true then fillMjpeg d else some d) = some u ∧ u.comps = d.comps := by
    split
    · obtain ⟨u, a, -, b, -⟩ := mjpeg_some d hf.1.1.self
      exact ⟨u, a, b⟩
    · exact ⟨d, rfl, rfl⟩
  have hset : settleSpace o.strict d.comps.length d.space = some .ycbcr := by
    unfold settleSpace
    rw [hs]
    simp only [reduceCtorEq, and_false, if_false]
    rw [if_pos (show d.comps.length < InSpace.ycck.num from Nat.lt_trans hc (by decide))]
    rfl
  unfold decodeAny
  rw [h]
  simp only
  rw [if_pos hp]
  unfold decodeProgressive
  rw [hset, hqts, hu]
  simp only
  unfold progFrame
  simp only
  rw [if_pos]
  show (List.map _ (resetLuma .ycbcr u).comps).length < 3
  unfold resetLuma
  rw [if_neg (by simp), List.length_map, hu3]
  exact hc

/-- The parameters of an Adobe segment that says YCCK. -/
def adobeYcck : Bytes := [65, 100, 111, 98, 101, 0, 100, 0, 0, 0, 0, 2]

/-- A grey progressive picture with an Adobe segment behind the frame header. -/
def exAdobe : Bytes :=
  fileBytes [(⟨[], 0⟩, .dqt [eightTq]), (⟨[], 0⟩, .dht [exTd]), (⟨[], 0⟩, .frame 0xC2 ⟨8, 8, [⟨1, 1, 1, 0⟩]⟩),
    (⟨[], 0⟩, .data 0xEE adobeYcck)] ⟨[], 0⟩ (sosDc 0 0 0) [0x7F, 0xFF, 0xD9]

example : ∃ d r, decodeHeaders ⟨100, 100, true⟩ exAdobe = .ok (d, r) ∧ d.prog = true ∧ d.space = .ycck ∧ d.comps.length < 3 ∧
    (∀ c ∈ d.comps, (d.qt c.tq).isSome) ∧ decodeAny false ⟨100, 100, true⟩ 64 .luma exAdobe = .error .panic := by
  have : ((decodeHeaders ⟨100, 100, true⟩ exAdobe).toOption.map fun x => decide (x.1.prog = true ∧ x.1.space = .ycck ∧ x.1.comps.length < 3 ∧
      ∀ c ∈ x.1.comps, (x.1.qt c.tq).isSome)) = some true := by
    decide +kernel
  cases h : decodeHeaders ⟨100, 100, true⟩ exAdobe with
  | error e => rw [h] at this; cases this
  | ok x =>
    rw [h] at this
    simp only [Except.toOption, Option.map_some, Option.some.injEq, decide_eq_true_eq] at this
    exact ⟨x.1, x.2, rfl, this.1, this.2.1, this.2.2.1, this.2.2.2,
      c98_panic _ _ _ _ _ x.2 x.1 h this.1 this.2.1 this.2.2.1 this.2.2.2⟩

/-- The same bytes without the Adobe segment are decoded. -/
example : decodeAny false ⟨100, 100, true⟩ 64 .luma (greyFile eightTq exTd none 0 0 [0x7F, 0xFF, 0xD9]) = .ok (flatPicture 131, []) := by
  decide +kernel

/-- A damaged progressive file: two scans of the DC coefficients, the second header in the middle of arbitrary bytes. -/
def exDamaged : Bytes := greyFile eightTq exTd (some 1) 1 0 ([0x5F] ++ oneDc 1 ++ [0x12, 0x34, 0xFF, 0xD3] ++ oneDc 1 ++ [0x78])

example : ∀ d r, decodeHeaders ⟨100, 100, false⟩ exDamaged = .ok (d, r) →
    (d.prog = true → d.space = .ycck → 3 ≤ d.comps.length) ∧ (d.prog = false → d.ns = d.comps.length) := by
  have : ((decodeHeaders ⟨100, 100, false⟩ exDamaged).toOption.map fun x => decide (x.1.prog = true ∧ x.1.space = .luma)) = some true := by
    decide +kernel
  intro d r h
  rw [h] at this
  simp only [Except.toOption, Option.map_some, Option.some.injEq, decide_eq_true_eq] at this
  rw [this.1, this.2]
  exact ⟨fun _ q => (by cases q), fun q => (by cases q)⟩

example : (decodeAny false ⟨100, 100, false⟩ 64 .luma exDamaged).isOk = true := by decide +kernel

end Zune.Jpeg
