/-
**C133**: operations through the C interface.
-/
import Verif.Capi.OpsModel
import Verif.Capi.Info
import Verif.Image.Color

namespace Zune.Capi

open Zune.Imageprocs (ColorSpace)
open Zune.Depth (BitDepth Samples)

/-! ### Lemmas -/

/-- The operation supports the colour space, or the picture has many bands. -/
def Supports (op : Op) (cs : ColorSpace) : Prop := cs ∈ op.colors ∨ ∃ n, cs = .MultiBand n

theorem takes_iff (op : Op) (cs : ColorSpace) : op.takes cs = true ↔ Supports op cs := by
  unfold Supports
  cases cs <;> simp [Op.takes]

theorem sound_ok {i : Color.Image} (h : i.Ok) (hn : 0 < i.cs.numComponents) : sound i = true := by
  unfold sound
  rw [Color.confirm_ok h hn]

theorem sound_count {i : Color.Image} (h : ∃ f ∈ i.frames, f.length ≠ i.cs.numComponents) : sound i = false := by
  unfold sound Color.confirm
  rw [if_pos (by simpa using h)]

/-! ### Theorems -/

/-- **C133** (null). With a null status nothing happens; with a null picture, or a null second picture, the status tells so, whatever it said before. -/
theorem c133_null (op : Op) (blend : Color.Image → Op) (h : Heap) (hg : h.Good) (p m : Nat) (c : Code) (hh : Holds h p m c) :
    (∀ image, execOp op image 0 h = .ok (image, h)) ∧ (∀ i1 i2, execBlend blend i1 i2 0 h = .ok (i1, h)) ∧
    (∃ g, execOp op none p h = .ok (none, g) ∧ Reported h g p .imageIsNull) ∧
    (∀ i1, ∃ g, execBlend blend i1 none p h = .ok (i1, g) ∧ Reported h g p .imageIsNull) ∧
    (∀ i2, ∃ g, execBlend blend none (some i2) p h = .ok (none, g) ∧ Reported h g p .imageIsNull) := by
  have hp := (hg.live p hh.object).1
  obtain ⟨g, e, hr⟩ := report_reported hg hh .imageIsNull
  have e1 : ∀ op, execOp op none p h = .ok (none, g) := by
    intro op
    unfold execOp
    rw [if_neg (by omega)]
    simp only [e]
    rfl
  refine ⟨fun _ => rfl, fun _ _ => rfl, ⟨g, e1 op, hr⟩, fun i1 => ⟨g, ?_, hr⟩, fun i2 => ⟨g, ?_, hr⟩⟩
  · unfold execBlend
    rw [if_neg (by omega)]
    simp only [e]
    rfl
  · unfold execBlend
    rw [if_neg (by omega)]
    exact e1 _

/-- **C133** (failures). When an operation fails the status says so, and the picture is what the operation leaves. -/
theorem c133_fails (op : Op) (i : Color.Image) (hf : (op.impl i).2 = false) (h : Heap) (hg : h.Good) (p m : Nat) (c : Code) (hh : Holds h p m c) :
    ∃ g, execOp op (some i) p h = .ok (some (op.impl i).1, g) ∧ Reported h g p .operationError := by
  have hp := (hg.live p hh.object).1
  obtain ⟨g, e, hr⟩ := report_reported hg hh .operationError
  refine ⟨g, ?_, hr⟩
  unfold execOp
  rw [if_neg (by omega)]
  simp only [hf, e]
  rfl

example : invertOp.impl ⟨.RGB, .sixteen, 1, 1, false, [[.u16 [1], .u16 [2], .u16 [3]]]⟩ = (⟨.RGB, .sixteen, 1, 1, false, [[.u16 [1], .u16 [2], .u16 [3]]]⟩, false) := by decide

/-- **C133** (same as the library). For pictures the operation supports, that are sound, and that the operation leaves sound, and a status without an error: the picture is that
of `execute`, and the status is without an error exactly if `execute` succeeds.

Missing: other pictures (`c133_unchecked_wrong`) and a status with an error (`c133_stale_wrong`). -/
theorem c133_same_partial (op : Op) (i : Color.Image) (hc : Supports op i.cs) (hd : i.depth ∈ op.depths) (hs : i.Ok) (hn : 0 < i.cs.numComponents)
    (ha : (op.impl i).2 = true → (op.impl i).1.Ok ∧ 0 < (op.impl i).1.cs.numComponents) (h : Heap) (hg : h.Good) (p m : Nat) (hh : Holds h p m .ok) :
    ∃ g, execOp op (some i) p h = .ok (some (op.execute i).1, g) ∧ statusOk p g = .ok (op.execute i).2 := by
  replace hc := (takes_iff op i.cs).2 hc
  replace hs := sound_ok hs hn
  replace ha := fun e => sound_ok (ha e).1 (ha e).2
  have hp := (hg.live p hh.object).1
  by_cases hf : (op.impl i).2 = false
  · obtain ⟨g, e, hr⟩ := c133_fails op i hf h hg p m .ok hh
    refine ⟨g, ?_, ?_⟩
    · rw [e]; simp [Op.execute, hc, hd, hs, hf]
    · rw [show (op.execute i).2 = false by simp [Op.execute, hc, hd, hs, hf]]
      obtain ⟨n, hn⟩ := hr.holds
      unfold statusOk
      rw [if_neg (by omega)]
      simp [hn.there]
  · have ht : (op.impl i).2 = true := by simpa using hf
    refine ⟨h, ?_, ?_⟩
    · unfold execOp
      rw [if_neg (by omega)]
      simp [Op.execute, hc, hd, hs, ht]
    · rw [show (op.execute i).2 = true by simp [Op.execute, hc, hd, hs, ht, ha ht]]
      unfold statusOk
      rw [if_neg (by omega)]
      simp [hh.there]

/-- A picture of one colour. -/
def exOp (cs : ColorSpace) : Color.Image := ⟨cs, .eight, 1, 1, false, [[.u8 [10], .u8 [20], .u8 [30]]]⟩

example : Supports invertOp (exOp .RGB).cs ∧ (exOp .RGB).depth ∈ invertOp.depths ∧ (exOp .RGB).Ok ∧ (invertOp.impl (exOp .RGB)).1.Ok ∧
    invertOp.execute (exOp .RGB) = (⟨.RGB, .eight, 1, 1, false, [[.u8 [245], .u8 [235], .u8 [225]]]⟩, true) :=
  ⟨Or.inl (by decide), by decide, Color.ok_of (by decide) (by decide) (by decide) (by decide), Color.ok_of (by decide) (by decide) (by decide) (by decide), by decide⟩

/-- **C133, disagreement CA11** After an operation that succeeds an earlier error stays in the status. -/
theorem c133_stale_wrong (op : Op) (i : Color.Image) (hf : (op.impl i).2 = true) (h : Heap) (hg : h.Good) (p m : Nat) (c : Code) (hh : Holds h p m c) (hc : c ≠ .ok) :
    execOp op (some i) p h = .ok (some (op.impl i).1, h) ∧ statusOk p h = .ok false ∧ statusCode p h = .ok c := by
  have hp := (hg.live p hh.object).1
  refine ⟨?_, ?_, ?_⟩
  · unfold execOp
    rw [if_neg (by omega)]
    simp [hf]
  · unfold statusOk
    rw [if_neg (by omega)]
    simp [hh.there, hc]
  · unfold statusCode
    rw [if_neg (by omega)]
    simp [hh.there]

/-- **C133, disagreement CA12** The C interface leaves out the checks of `execute`: pictures in a colour space or of a depth the operation does not support, or with a wrong number of channels, are refused and left
alone by the library, here the operation runs on them and the status stays without an error. -/
theorem c133_unchecked_wrong (op : Op) (i : Color.Image) (hu : ¬ Supports op i.cs ∨ i.depth ∉ op.depths ∨ ∃ f ∈ i.frames, f.length ≠ i.cs.numComponents) (hf : (op.impl i).2 = true) (h : Heap) (hg : h.Good) (p m : Nat)
    (hh : Holds h p m .ok) :
    op.execute i = (i, false) ∧ execOp op (some i) p h = .ok (some (op.impl i).1, h) ∧ statusOk p h = .ok true := by
  have hp := (hg.live p hh.object).1
  refine ⟨?_, ?_, ?_⟩
  · unfold Op.execute
    by_cases c : op.takes i.cs = false
    · rw [if_pos c]
    · rw [if_neg c]
      by_cases d : i.depth ∉ op.depths
      · rw [if_pos d]
      · rw [if_neg d, if_pos]
        rcases hu with hu | hu | hu
        · exact absurd ((takes_iff op i.cs).1 (by simpa using c)) hu
        · exact absurd hu d
        · exact sound_count hu
  · unfold execOp
    rw [if_neg (by omega)]
    simp [hf]
  · unfold statusOk
    rw [if_neg (by omega)]
    simp [hh.there]

/-- **C133, disagreement CA12** For example every 8 bit picture in BGR is inverted by the C interface and refused by the library. -/
theorem c133_invert_wrong (i : Color.Image) (hc : i.cs = .BGR) (hd : i.depth = .eight) (h : Heap) (hg : h.Good) (p m : Nat) (hh : Holds h p m .ok) :
    invertOp.execute i = (i, false) ∧ ∃ j, execOp invertOp (some i) p h = .ok (some j, h) ∧ statusOk p h = .ok true ∧
      ∀ (k : Nat) (f : List Samples) (n : Nat) (l : List UInt8), i.frames[k]? = some f → f[n]? = some (.u8 l) →
        ∃ f', j.frames[k]? = some f' ∧ f'[n]? = some (Samples.u8 (l.map fun v => 255 - v)) := by
  have hf : (invertOp.impl i).2 = true := by simp [invertOp, hd]
  obtain ⟨h1, h2, h3⟩ := c133_unchecked_wrong invertOp i (Or.inl (by rw [hc]; simp [Supports, invertOp])) hf h hg p m hh
  refine ⟨h1, _, h2, h3, fun k f n l hk hn => ?_⟩
  simp [invertOp, hd, hk, hn]

example : execOp invertOp (some (exOp .BGR)) 1 ⟨[2, 1], 3, fun q => if q = 1 then some ⟨.ok, 2⟩ else none, fun _ => false⟩ |>.toOption.map (fun r => r.1) |>.any fun r =>
    r = some ⟨.BGR, .eight, 1, 1, false, [[.u8 [245], .u8 [235], .u8 [225]]]⟩ := by decide +kernel

end Zune.Capi
