/- C127: the pictures the C interface makes from samples, and the samples it writes to the memory of the caller. -/
import Verif.Capi.Model
import Verif.Image.Save

namespace Zune.Capi

open Zune.Imageprocs (ColorSpace)
open Zune.Depth (BitDepth Samples)
open Zune.Color (Image)

/-! ### Specification -/

/-- The list of samples has, pixel by pixel and row by row, the samples of the planes. -/
def Interleaved {α : Type} (w h : Nat) (cs : List (List α)) (l : List α) : Prop :=
  ∀ y < h, ∀ x < w, ∀ c < cs.length, ∃ v, l[(y * w + x) * cs.length + c]? = some v ∧ (cs[c]?).bind (fun p => p[y * w + x]?) = some v

/-! ### Lemmas -/

theorem checkedMul_some {w h d n : Nat} (hd : 0 < d) (hn : 0 < n) (hlt : w * h * d * n < 2 ^ 64) : checkedMul w h d n = some (w * h * d * n) := by
  have h1 : w * h * d ≤ w * h * d * n := Nat.le_mul_of_pos_right _ hn
  have h2 : w * h ≤ w * h * d := Nat.le_mul_of_pos_right _ hd
  unfold checkedMul
  rw [if_pos ⟨by omega, by omega, hlt⟩]

theorem checkedMul_none {w h d n : Nat} (hlt : ¬ w * h * d * n < 2 ^ 64) : checkedMul w h d n = none := by
  unfold checkedMul
  rw [if_neg (fun hc => hlt hc.2.2)]

/-- The planes of an image with bytes, and the bytes in order. -/
theorem interleaved_of {α : Type} (z : α) (three : List α → List α → List α → List α → Except Split.Err (List α × List α × List α))
    (ht : ∀ n, 0 < n → ∀ ps : List (List α), ps ≠ [] → (∀ p ∈ ps, p.length = n) → Split.deinterleave z three n ps.flatten = .ok (Split.Spec.planes n ps))
    (w h : Nat) (hm : 0 < w * h) (cs : List (List α)) (hne : cs ≠ []) (hc : ∀ c ∈ cs, c.length = w * h) (hs : w * h * cs.length < 2 ^ 64) (l : List α)
    (hl : Split.flatten cs = .ok l) : l.length = w * h * cs.length ∧ Interleaved w h cs l := by
  obtain ⟨h1, h2⟩ := Save.planes_back z three ht w h hm cs hne hc hs l hl
  refine ⟨h1, ?_⟩
  obtain ⟨im, fr, e, hsh, -⟩ := (Make.fromPixels_aux z three ht l w h cs.length).1
    ⟨Nat.mul_pos hm (List.length_pos_iff.2 hne), hs, h1⟩
  rw [h2] at e
  simp only [Option.some.injEq] at e
  subst e
  intro y hy x hx c hcl
  obtain ⟨v, e1, e2⟩ := hsh.samples y hy x hx c hcl
  refine ⟨v, e1, ?_⟩
  simpa [Make.Spec.sample, Make.newImage] using e2

theorem words_length : ∀ l : List UInt8, (words l).length = l.length / 2
  | [] => rfl
  | [_] => by simp [words]
  | _ :: _ :: l => by simp only [words, List.length_cons, words_length l]; omega

/-! ### Theorems -/

/-- **C127** (colour spaces). Each colour space of the interface goes through the library unchanged; of the colour spaces of the library only those with any number of bands are
lost. -/
theorem c127_colors : (∀ z, ofColor (toColor z) = z) ∧ ∀ c, toColor (ofColor c) = c ↔ ∀ n, c ≠ .MultiBand n := by
  refine ⟨fun z => by cases z <;> rfl, fun c => ?_⟩
  cases c <;> simp [ofColor, toColor]

example : toColor (ofColor .BGRA) = .BGRA ∧ toColor (ofColor (.MultiBand 5)) = .Unknown := ⟨rfl, rfl⟩

/-- **C127** (`zil_zimg_from_u8`). With samples enough for the size there is a picture of that size and colour space, whose planes are the first samples of the caller; samples beyond are
left alone. With fewer, or when the product is too large, there is none; without any sample to take the process ends. -/
theorem c127_from_u8 (isa : Split.Isa) (px : List UInt8) (w h : Nat) (z : ZColor) (n : Nat) (hn : n = (toColor z).numComponents) :
    (0 < w * h * n ∧ w * h * n < 2 ^ 64 ∧ w * h * n ≤ px.length →
      ∃ cs, zimgFromU8 isa px w h z = .image ⟨toColor z, .eight, w, h, false, [cs.map Samples.u8]⟩ ∧ cs.length = n ∧ (∀ c ∈ cs, c.length = w * h) ∧
        Interleaved w h cs px) ∧
    (¬ (w * h * n < 2 ^ 64 ∧ w * h * n ≤ px.length) → zimgFromU8 isa px w h z = .null) ∧
    (w * h * n = 0 → w * h < 2 ^ 64 → zimgFromU8 isa px w h z = .abort) := by
  subst hn
  set n := (toColor z).numComponents with hn
  refine ⟨fun ⟨h0, hlt, hle⟩ => ?_, fun hno => ?_, fun h0 hwh => ?_⟩
  · have hnp : 0 < n := Nat.pos_of_mul_pos_left h0
    obtain ⟨im, fr, e, hsh, hfr, -⟩ := (Make.c124_from_bytes isa (px.take (w * h * n)) w h n).1
      ⟨h0, hlt, by rw [List.length_take]; omega⟩
    have hcount := hsh.count fr (by rw [hfr]; simp)
    refine ⟨fr.channels, ?_, hcount.1, hcount.2, ?_⟩
    · unfold zimgFromU8 fromSamples
      rw [← hn, checkedMul_some (by omega) hnp (by rwa [Nat.mul_one]), Nat.mul_one]
      simp only
      rw [if_pos hle, Save.fromU8, ← hn, e]
      simp [hfr]
    · intro y hy x hx c hc
      rw [hcount.1] at hc
      obtain ⟨v, e1, e2⟩ := hsh.samples y hy x hx c hc
      refine ⟨v, ?_, ?_⟩
      · rw [hcount.1]
        rw [List.getElem?_take] at e1
        split at e1
        · exact e1
        · simp at e1
      · simpa [Make.Spec.sample, hfr, hsh.dims.1] using e2
  · unfold zimgFromU8 fromSamples
    rw [← hn]
    by_cases hlt : w * h * n < 2 ^ 64
    · rcases hc : checkedMul w h 1 n with _ | s
      · rfl
      · have : w * h * 1 * n = s := by
          unfold checkedMul at hc
          split at hc <;> simp_all
        simp only
        rw [if_neg]
        intro hle
        exact hno ⟨hlt, by rw [Nat.mul_one] at this; omega⟩
    · rw [checkedMul_none (by rwa [Nat.mul_one])]
  · unfold zimgFromU8 fromSamples
    rw [← hn]
    have : checkedMul w h 1 n = some 0 := by
      unfold checkedMul
      rw [Nat.mul_one, if_pos ⟨hwh, hwh, by omega⟩, h0]
    rw [this]
    simp only
    rw [if_pos (Nat.zero_le _), Save.fromU8, ← hn, (Make.c124_from_bytes isa _ w h n).2 (by omega)]
    rfl

example : (0 < 2 * 1 * 3 ∧ 2 * 1 * 3 < 2 ^ 64 ∧ 2 * 1 * 3 ≤ ([1, 2, 3, 4, 5, 6, 7] : List UInt8).length) ∧
    zimgFromU8 .scalar [1, 2, 3, 4, 5, 6, 7] 2 1 .rgb = .image ⟨.RGB, .eight, 2, 1, false, [[.u8 [1, 4], .u8 [2, 5], .u8 [3, 6]]]⟩ := by decide +kernel

/-- The functions for larger samples: they never make a picture. -/
theorem fromSamples_wrong {α : Type} (d : Nat) (hd : 2 ≤ d) (make : List α → Nat → Nat → ColorSpace → Option Image)
    (hm : ∀ l w h c, ¬ (0 < w * h * c.numComponents ∧ l.length = w * h * c.numComponents) → make l w h c = none)
    (px : List α) (w h : Nat) (z : ZColor) :
    (∀ i, fromSamples d make px w h z ≠ .image i) ∧
    (px.length = w * h * (toColor z).numComponents → 0 < px.length → fromSamples d make px w h z = .null) ∧
    (w * h * d * (toColor z).numComponents < 2 ^ 64 → 0 < (toColor z).numComponents → w * h * d * (toColor z).numComponents ≤ px.length → fromSamples d make px w h z = .abort) := by
  set n := (toColor z).numComponents with hn
  have key : ∀ s, checkedMul w h d n = some s → s = w * h * d * n := by
    intro s hs
    unfold checkedMul at hs
    split at hs <;> simp_all
  have hmul : w * h * d * n = d * (w * h * n) := by ring
  have hmake : w * h * d * n ≤ px.length → make (px.take (w * h * d * n)) w h (toColor z) = none := by
    intro hle
    refine hm _ _ _ _ (fun ⟨h1, h2⟩ => ?_)
    rw [← hn] at h1 h2
    rw [List.length_take, Nat.min_eq_left hle, hmul] at h2
    have : 2 * (w * h * n) ≤ d * (w * h * n) := Nat.mul_le_mul_right _ hd
    omega
  refine ⟨fun i => ?_, fun hl h0 => ?_, fun hlt hnp hle => ?_⟩
  · unfold fromSamples
    rw [← hn]
    rcases hc : checkedMul w h d n with _ | s
    · simp
    · simp only
      rw [key s hc]
      split
      · next hle => rw [hmake hle]; simp
      · simp
  · unfold fromSamples
    rw [← hn]
    rcases hc : checkedMul w h d n with _ | s
    · rfl
    · simp only
      rw [if_neg]
      rw [key s hc, hmul]
      have : 2 * (w * h * n) ≤ d * (w * h * n) := Nat.mul_le_mul_right _ hd
      omega
  · unfold fromSamples
    rw [← hn, checkedMul_some (by omega) hnp hlt]
    simp only
    rw [if_pos hle, hmake hle]

/-- **C127** (disagreement). `zil_zimg_from_u16` never makes a picture: it counts the samples as bytes. With the samples of the picture it returns null, with twice as many the
process ends. -/
theorem c127_from_u16_wrong (px : List UInt16) (w h : Nat) (z : ZColor) :
    (∀ i, zimgFromU16 px w h z ≠ .image i) ∧
    (px.length = w * h * (toColor z).numComponents → 0 < px.length → zimgFromU16 px w h z = .null) ∧
    (w * h * 2 * (toColor z).numComponents < 2 ^ 64 → 0 < (toColor z).numComponents → w * h * 2 * (toColor z).numComponents ≤ px.length →
      zimgFromU16 px w h z = .abort) :=
  fromSamples_wrong 2 (by omega) _ (fun l w h c hno => by
    unfold Save.fromU16
    rw [(Make.c124_from_pixels _ l w h c.numComponents).2 (fun hc => hno ⟨hc.1, hc.2.2⟩)]
    rfl) px w h z

example : zimgFromU16 [1, 2, 3] 1 1 .rgb = .null ∧ zimgFromU16 [1, 2, 3, 4, 5, 6] 1 1 .rgb = .abort := by decide +kernel

/-- **C127** (disagreement). Nor does `zil_zimg_from_f32`. -/
theorem c127_from_f32_wrong (px : List Depth.F32) (w h : Nat) (z : ZColor) :
    (∀ i, zimgFromF32 px w h z ≠ .image i) ∧
    (px.length = w * h * (toColor z).numComponents → 0 < px.length → zimgFromF32 px w h z = .null) ∧
    (w * h * 4 * (toColor z).numComponents < 2 ^ 64 → 0 < (toColor z).numComponents → w * h * 4 * (toColor z).numComponents ≤ px.length →
      zimgFromF32 px w h z = .abort) :=
  fromSamples_wrong 4 (by omega) _ (fun l w h c hno => by
    unfold fromF32
    rw [(Make.c124_from_pixels _ l w h c.numComponents).2 (fun hc => hno ⟨hc.1, hc.2.2⟩)]
    rfl) px w h z

example : zimgFromF32 [Depth.ofNat 1] 1 1 .luma = .null := by decide +kernel

/-- **C127** (`zil_zimg_write_to_output`, 8 bits). Memory of the size the interface asks for is filled, whatever it held, with the samples of the first frame, pixel by
pixel. -/
theorem c127_write_u8_partial (aligned : Bool) (i : Image) (f : List Samples) (cs : List (List UInt8)) (hd : i.depth = .eight) (hf : i.frames.head? = some f)
    (hcs : f = cs.map .u8) (hlen : cs.length = i.cs.numComponents) (hc : ∀ c ∈ cs, c.length = i.width * i.height) (h0 : 0 < outBufferSize i)
    (hlt : outBufferSize i < 2 ^ 64) (out : List UInt8) (ho : out.length = outBufferSize i) :
    ∃ l, writeToOutput aligned i out = .done (outBufferSize i) l ∧ l.length = outBufferSize i ∧ Interleaved i.width i.height cs l := by
  have hb : outBufferSize i = i.width * i.height * cs.length := by
    unfold outBufferSize; rw [hd, hlen, Color.sizeOf, Nat.mul_one]
  have hwh : 0 < i.width * i.height := Nat.pos_of_mul_pos_right (by rwa [← hb])
  have hne : cs ≠ [] := by rintro rfl; simp at hb; omega
  obtain ⟨l, hl, hsw⟩ := Split.c29_swizzle _ cs hne hc out (by rw [ho, hb]; ring)
  obtain ⟨h1, h2⟩ := interleaved_of 0 (Split.three .scalar) (fun n hn ps => Split.c29_planes_u8 .scalar n hn ps) _ _ hwh cs hne hc (by rwa [← hb]) l hl
  refine ⟨l, ?_, by rw [h1, hb], h2⟩
  unfold writeToOutput
  obtain ⟨t, ht⟩ : ∃ t, i.frames = f :: t := by
    cases hfr : i.frames with
    | nil => rw [hfr] at hf; simp at hf
    | cons a t => rw [hfr] at hf; simp at hf; exact ⟨t, by rw [hf]⟩
  have hfl : f.length = i.cs.numComponents := by rw [hcs, List.length_map, hlen]
  rw [ht]
  simp only
  rw [if_neg (by omega), ← hfl, List.take_length, hd, hcs, Save.asU8_map]
  simp only [hsw]
  rw [Nat.mul_one, ho]

example : writeToOutput true ⟨.RGB, .eight, 2, 1, false, [[.u8 [1, 4], .u8 [2, 5], .u8 [3, 6]]]⟩ [9, 9, 9, 9, 9, 9] = .done 6 [1, 2, 3, 4, 5, 6] := by decide +kernel

/-- **C127** (`zil_zimg_write_to_output`, 16 bits). As for 8 bits, with two bytes for each sample, the low one first, when the memory is aligned. -/
theorem c127_write_u16_partial (i : Image) (f : List Samples) (cs : List (List UInt16)) (hd : i.depth = .sixteen) (hf : i.frames.head? = some f)
    (hcs : f = cs.map .u16) (hlen : cs.length = i.cs.numComponents) (hc : ∀ c ∈ cs, c.length = i.width * i.height) (h0 : 0 < outBufferSize i)
    (hlt : outBufferSize i < 2 ^ 64) (out : List UInt8) (ho : out.length = outBufferSize i) :
    ∃ l, writeToOutput true i out = .done (outBufferSize i) (l.flatMap fun v => [UInt8.ofNat (v.toNat % 256), UInt8.ofNat (v.toNat / 256)]) ∧
      2 * l.length = outBufferSize i ∧ Interleaved i.width i.height cs l := by
  have hb : outBufferSize i = 2 * (i.width * i.height * cs.length) := by
    unfold outBufferSize; rw [hd, hlen, Color.sizeOf]; ring
  have hwh : 0 < i.width * i.height := Nat.pos_of_mul_pos_right (show 0 < i.width * i.height * cs.length by omega)
  have hne : cs ≠ [] := by rintro rfl; simp at hb; omega
  have hw : (words out).length = i.width * i.height * cs.length := by rw [words_length, ho, hb]; omega
  obtain ⟨l, hl, hsw⟩ := Split.c29_swizzle _ cs hne hc (words out) (by rw [hw]; ring)
  obtain ⟨h1, h2⟩ := interleaved_of 0 (fun l a b c => .ok (Split.split3 l a b c)) (fun n hn ps => Split.c29_planes 0 n hn ps) _ _ hwh cs hne hc (by omega) l hl
  refine ⟨l, ?_, by rw [h1, hb], h2⟩
  unfold writeToOutput
  obtain ⟨t, ht⟩ : ∃ t, i.frames = f :: t := by
    cases hfr : i.frames with
    | nil => rw [hfr] at hf; simp at hf
    | cons a t => rw [hfr] at hf; simp at hf; exact ⟨t, by rw [hf]⟩
  have hfl : f.length = i.cs.numComponents := by rw [hcs, List.length_map, hlen]
  rw [ht]
  simp only
  rw [if_neg (by omega), ← hfl, List.take_length, hd, hcs, Save.asU16_map]
  simp only [hsw]
  rw [if_neg (by rw [ho, hb]; simp), hw, hb, Nat.mul_comm]
  congr 1
  refine List.flatMap_congr fun v _ => ?_
  simp [Make.ne16, leBytes, beBytes, Make.low_byte]

example : writeToOutput true ⟨.LumaA, .sixteen, 2, 1, false, [[.u16 [1, 256], .u16 [515, 4]]]⟩ [9, 9, 9, 9, 9, 9, 9, 9] = .done 8 [1, 0, 3, 2, 0, 1, 4, 0] := by
  decide +kernel

/-- **C127** (disagreement). For pictures with one component more memory than needed ends the process, although the size asked for is called the minimum. -/
theorem c127_write_luma_wrong (aligned : Bool) (i : Image) (a : List UInt8) (t : List (List Samples)) (hd : i.depth = .eight) (hn : i.cs.numComponents = 1)
    (hf : i.frames = [.u8 a] :: t) (ha : a.length = i.width * i.height) (out : List UInt8) (ho : out.length ≠ outBufferSize i) :
    writeToOutput aligned i out = .abort := by
  have hb : outBufferSize i = a.length := by unfold outBufferSize; rw [hd, hn, Color.sizeOf, ha, Nat.mul_one, Nat.mul_one]
  unfold writeToOutput
  rw [hf, hn, hd]
  simp only [List.length_cons, List.length_nil, List.take_succ_cons, List.take_zero]
  have : ([Samples.u8 a].mapM Save.asU8) = some [a] := rfl
  rw [if_neg (by omega), this]
  simp only [Split.swizzle]
  rw [if_neg (by rw [← hb]; exact ho)]

example : writeToOutput true ⟨.Luma, .eight, 2, 1, false, [[.u8 [1, 4]]]⟩ [0, 0, 0] = .abort := by decide +kernel

end Zune.Capi
