/- C127: writing pictures to memory larger than needed. -/
import Verif.Capi.Props

namespace Zune.Capi

open Zune.Imageprocs (ColorSpace)
open Zune.Depth (BitDepth Samples)
open Zune.Color (Image)

/-! ### Lemmas -/

theorem weave2_more {α : Type} : ∀ (a b o r : List α), b.length = a.length → o.length = 2 * a.length → Split.weave2 (o ++ r) a b = Split.weave2 o a b ++ r
  | [], b, o, r, _, h => by
    obtain rfl : o = [] := List.length_eq_zero_iff.1 (by simpa using h)
    cases r with
    | nil => simp [Split.weave2]
    | cons _ r => cases r <;> simp [Split.weave2]
  | x :: a, y :: b, p :: q :: o, r, hb, h => by
    simp only [List.length_cons] at hb h
    simp only [List.cons_append, Split.weave2, weave2_more a b o r (by omega) (by omega)]
  | _ :: _, [], _, _, hb, _ => by simp at hb
  | _ :: _, _, [], _, _, h => by simp at h
  | _ :: _, _, [_], _, _, h => by simp at h; omega

theorem weave3_more {α : Type} : ∀ (a b c o r : List α), b.length = a.length → c.length = a.length → o.length = 3 * a.length →
    Split.weave3 (o ++ r) a b c = Split.weave3 o a b c ++ r
  | [], b, c, o, r, _, _, h => by
    obtain rfl : o = [] := List.length_eq_zero_iff.1 (by simpa using h)
    rcases r with _ | ⟨_, _ | ⟨_, _ | ⟨_, r⟩⟩⟩ <;> simp [Split.weave3]
  | x :: a, y :: b, z :: c, p :: q :: s :: o, r, hb, hc, h => by
    simp only [List.length_cons] at hb hc h
    simp only [List.cons_append, Split.weave3, weave3_more a b c o r (by omega) (by omega) (by omega)]
  | _ :: _, [], _, _, _, hb, _, _ => by simp at hb
  | _ :: _, _, [], _, _, _, hc, _ => by simp at hc
  | _ :: _, _, _, [], _, _, _, h => by simp at h
  | _ :: _, _, _, [_], _, _, _, h => by simp at h; omega
  | _ :: _, _, _, [_, _], _, _, _, h => by simp at h; omega

theorem weave4_more {α : Type} : ∀ (a b c d o r : List α), b.length = a.length → c.length = a.length → d.length = a.length → o.length = 4 * a.length →
    Split.weave4 (o ++ r) a b c d = Split.weave4 o a b c d ++ r
  | [], b, c, d, o, r, _, _, _, h => by
    obtain rfl : o = [] := List.length_eq_zero_iff.1 (by simpa using h)
    rcases r with _ | ⟨_, _ | ⟨_, _ | ⟨_, _ | ⟨_, r⟩⟩⟩⟩ <;> simp [Split.weave4]
  | x :: a, y :: b, z :: c, w :: d, p :: q :: s :: t :: o, r, hb, hc, hd, h => by
    simp only [List.length_cons] at hb hc hd h
    simp only [List.cons_append, Split.weave4, weave4_more a b c d o r (by omega) (by omega) (by omega) (by omega)]
  | _ :: _, [], _, _, _, _, hb, _, _, _ => by simp at hb
  | _ :: _, _, [], _, _, _, _, hc, _, _ => by simp at hc
  | _ :: _, _, _, [], _, _, _, _, hd, _ => by simp at hd
  | _ :: _, _, _, _, [], _, _, _, _, h => by simp at h
  | _ :: _, _, _, _, [_], _, _, _, _, h => by simp at h; omega
  | _ :: _, _, _, _, [_, _], _, _, _, _, h => by simp at h; omega
  | _ :: _, _, _, _, [_, _, _], _, _, _, _, h => by simp at h; omega

/-- `swizzle_channels` of two to four channels leaves what is after the pixels alone. -/
theorem swizzle_more {α : Type} (m : Nat) (cs : List (List α)) (hn : 2 ≤ cs.length ∧ cs.length ≤ 4) (h : ∀ c ∈ cs, c.length = m) (out r : List α)
    (ho : out.length = cs.length * m) : ∃ l, Split.flatten cs = .ok l ∧ Split.swizzle cs (out ++ r) = .ok (l ++ r, out.length) := by
  obtain ⟨l, hl, hs⟩ := Split.c29_swizzle m cs (by rintro rfl; simp at hn) h out ho
  refine ⟨l, hl, ?_⟩
  rcases cs with _ | ⟨a, _ | ⟨b, _ | ⟨c, _ | ⟨d, _ | ⟨e, t⟩⟩⟩⟩⟩
  · simp at hn
  · simp at hn
  · simp only [List.mem_cons, List.not_mem_nil, or_false, forall_eq_or_imp, forall_eq, List.length_cons, List.length_nil] at h ho
    simp only [Split.swizzle, Except.ok.injEq, Prod.mk.injEq, List.length_append] at hs ⊢
    rw [weave2_more a b out r (by omega) (by omega), hs.1]
    exact ⟨rfl, by omega⟩
  · simp only [List.mem_cons, List.not_mem_nil, or_false, forall_eq_or_imp, forall_eq, List.length_cons, List.length_nil] at h ho
    simp only [Split.swizzle, Except.ok.injEq, Prod.mk.injEq, List.length_append] at hs ⊢
    rw [weave3_more a b c out r (by omega) (by omega) (by omega), hs.1]
    exact ⟨rfl, by omega⟩
  · simp only [List.mem_cons, List.not_mem_nil, or_false, forall_eq_or_imp, forall_eq, List.length_cons, List.length_nil] at h ho
    simp only [Split.swizzle, Except.ok.injEq, Prod.mk.injEq, List.length_append] at hs ⊢
    rw [weave4_more a b c d out r (by omega) (by omega) (by omega) (by omega), hs.1]
    exact ⟨rfl, by omega⟩
  · simp at hn

theorem words_append : ∀ (a b : List UInt8), a.length % 2 = 0 → words (a ++ b) = words a ++ words b
  | [], _, _ => rfl
  | [_], _, h => by simp at h
  | _ :: _ :: a, b, h => by
    simp only [List.length_cons] at h
    simp only [List.cons_append, words, words_append a b (by omega)]

theorem words_back : ∀ l : List UInt8, l.length % 2 = 0 → (words l).flatMap Make.ne16 = l
  | [], _ => rfl
  | [_], h => by simp at h
  | a :: b :: l, h => by
    simp only [List.length_cons] at h
    have ha := a.toNat_lt
    have hb := b.toNat_lt
    have e1 : UInt8.ofNat (a.toNat + 256 * b.toNat) = a := by
      apply UInt8.toNat_inj.1; simp
    have e2 : UInt8.ofNat ((a.toNat + 256 * b.toNat) / 256) = b := by
      apply UInt8.toNat_inj.1; simp; omega
    simp only [words, List.flatMap_cons, words_back l (by omega)]
    have e3 : (a.toNat + 256 * b.toNat) % 65536 = a.toNat + 256 * b.toNat := Nat.mod_eq_of_lt (by omega)
    simp [Make.ne16, leBytes, beBytes, e3, e1, e2]

theorem mapM_none {β γ : Type} (F : β → Option γ) : ∀ (l : List β) (a : β), a ∈ l → F a = none → l.mapM F = none
  | [], _, h, _ => by simp at h
  | x :: l, a, h, hF => by
    rw [List.mapM_cons]
    rcases List.mem_cons.1 h with rfl | h
    · rw [hF]; rfl
    · rw [mapM_none F l a h hF]
      cases F x <;> rfl

/-! ### Theorems -/

/-- **C127** (`zil_zimg_write_to_output`, 8 bits, more memory than needed). Pictures with two to four channels are written to the start of the memory; what comes after the
samples stays, and the number of bytes written is returned. -/
theorem c127_write_u8_more (aligned : Bool) (i : Image) (f : List Samples) (cs : List (List UInt8)) (hd : i.depth = .eight) (hf : i.frames.head? = some f)
    (hcs : f = cs.map .u8) (hlen : cs.length = i.cs.numComponents) (hn : 2 ≤ cs.length ∧ cs.length ≤ 4) (hc : ∀ c ∈ cs, c.length = i.width * i.height)
    (h0 : 0 < outBufferSize i) (hlt : outBufferSize i < 2 ^ 64) (out : List UInt8) (ho : outBufferSize i ≤ out.length) :
    ∃ l, writeToOutput aligned i out = .done (outBufferSize i) (l ++ out.drop (outBufferSize i)) ∧ l.length = outBufferSize i ∧
      Interleaved i.width i.height cs l := by
  have hb : outBufferSize i = i.width * i.height * cs.length := by
    unfold outBufferSize; rw [hd, hlen, Color.sizeOf, Nat.mul_one]
  have hwh : 0 < i.width * i.height := Nat.pos_of_mul_pos_right (by rwa [← hb])
  have hne : cs ≠ [] := by rintro rfl; simp at hn
  have htl : (out.take (outBufferSize i)).length = outBufferSize i := by rw [List.length_take]; omega
  obtain ⟨l, hl, hsw⟩ := swizzle_more _ cs hn hc (out.take (outBufferSize i)) (out.drop (outBufferSize i)) (by rw [htl, hb]; ring)
  rw [List.take_append_drop, htl] at hsw
  obtain ⟨h1, h2⟩ := interleaved_of 0 (Split.three .scalar) (fun n hn ps => Split.c29_planes_u8 .scalar n hn ps) _ _ hwh cs hne hc (by rwa [← hb]) l hl
  refine ⟨l, ?_, by rw [h1, hb], h2⟩
  unfold writeToOutput
  obtain ⟨t, ht⟩ : ∃ t, i.frames = f :: t := by
    cases hfr : i.frames with
    | nil => rw [hfr] at hf; simp at hf
    | cons a t => rw [hfr] at hf; simp at hf; exact ⟨t, by rw [hf]⟩
  have hfl : f.length = i.cs.numComponents := by rw [hcs, List.length_map, hlen]
  rw [ht]
  simp only
  rw [if_neg (by omega), ← hfl, List.take_length, hd, hcs, Save.asU8_map]
  simp only [hsw]
  rw [Nat.mul_one]

example : writeToOutput true ⟨.RGB, .eight, 2, 1, false, [[.u8 [1, 4], .u8 [2, 5], .u8 [3, 6]]]⟩ [9, 9, 9, 9, 9, 9, 8, 7] = .done 6 [1, 2, 3, 4, 5, 6, 8, 7] := by
  decide +kernel

/-- **C127** (`zil_zimg_write_to_output`, 16 bits, more memory than needed). The same, when the memory is aligned and of even length. -/
theorem c127_write_u16_more (i : Image) (f : List Samples) (cs : List (List UInt16)) (hd : i.depth = .sixteen) (hf : i.frames.head? = some f)
    (hcs : f = cs.map .u16) (hlen : cs.length = i.cs.numComponents) (hn : 2 ≤ cs.length ∧ cs.length ≤ 4) (hc : ∀ c ∈ cs, c.length = i.width * i.height)
    (h0 : 0 < outBufferSize i) (hlt : outBufferSize i < 2 ^ 64) (out : List UInt8) (ho : outBufferSize i ≤ out.length) (he : out.length % 2 = 0) :
    ∃ l, writeToOutput true i out = .done (outBufferSize i)
        ((l.flatMap fun v => [UInt8.ofNat (v.toNat % 256), UInt8.ofNat (v.toNat / 256)]) ++ out.drop (outBufferSize i)) ∧
      2 * l.length = outBufferSize i ∧ Interleaved i.width i.height cs l := by
  have hb : outBufferSize i = 2 * (i.width * i.height * cs.length) := by
    unfold outBufferSize; rw [hd, hlen, Color.sizeOf]; ring
  have hwh : 0 < i.width * i.height := Nat.pos_of_mul_pos_right (show 0 < i.width * i.height * cs.length by omega)
  have hne : cs ≠ [] := by rintro rfl; simp at hn
  have htl : (out.take (outBufferSize i)).length = outBufferSize i := by rw [List.length_take]; omega
  have hw : (words (out.take (outBufferSize i))).length = i.width * i.height * cs.length := by rw [words_length, htl, hb]; omega
  have hsplit : words out = words (out.take (outBufferSize i)) ++ words (out.drop (outBufferSize i)) := by
    rw [← words_append _ _ (by rw [htl, hb]; omega), List.take_append_drop]
  obtain ⟨l, hl, hsw⟩ := swizzle_more _ cs hn hc (words (out.take (outBufferSize i))) (words (out.drop (outBufferSize i))) (by rw [hw]; ring)
  rw [← hsplit, hw] at hsw
  obtain ⟨h1, h2⟩ := interleaved_of 0 (fun l a b c => .ok (Split.split3 l a b c)) (fun n hn ps => Split.c29_planes 0 n hn ps) _ _ hwh cs hne hc (by omega) l hl
  refine ⟨l, ?_, by rw [h1, hb], h2⟩
  unfold writeToOutput
  obtain ⟨t, ht⟩ : ∃ t, i.frames = f :: t := by
    cases hfr : i.frames with
    | nil => rw [hfr] at hf; simp at hf
    | cons a t => rw [hfr] at hf; simp at hf; exact ⟨t, by rw [hf]⟩
  have hfl : f.length = i.cs.numComponents := by rw [hcs, List.length_map, hlen]
  rw [ht]
  simp only
  rw [if_neg (by omega), ← hfl, List.take_length, hd, hcs, Save.asU16_map]
  simp only [hsw]
  rw [if_neg (by simp [he]), List.flatMap_append, words_back _ (by rw [List.length_drop, hb]; omega), Nat.mul_comm, ← hb]
  congr 2
  refine List.flatMap_congr fun v _ => ?_
  simp [Make.ne16, leBytes, beBytes, Make.low_byte]

example : writeToOutput true ⟨.LumaA, .sixteen, 1, 1, false, [[.u16 [256], .u16 [515]]]⟩ [9, 9, 9, 9, 7, 5] = .done 4 [0, 1, 3, 2, 7, 5] := by decide +kernel

/-- **C127** (disagreement). Pictures with more than four channels end the process, like those with one, when the memory has room for another pixel. -/
theorem c127_write_bands_wrong (aligned : Bool) (i : Image) (f : List Samples) (cs : List (List UInt8)) (hd : i.depth = .eight) (hf : i.frames.head? = some f)
    (hcs : f = cs.map .u8) (hlen : cs.length = i.cs.numComponents) (hn : 4 < cs.length) (hc : ∀ c ∈ cs, c.length = i.width * i.height)
    (out : List UInt8) (ho : outBufferSize i + cs.length ≤ out.length) : writeToOutput aligned i out = .abort := by
  have hb : outBufferSize i = i.width * i.height * cs.length := by
    unfold outBufferSize; rw [hd, hlen, Color.sizeOf, Nat.mul_one]
  have hq : i.width * i.height < out.length / cs.length := by
    rw [Nat.lt_div_iff_mul_lt (by omega)]
    have : i.width * i.height * cs.length = cs.length * (i.width * i.height) := Nat.mul_comm _ _
    omega
  have hg : Split.gather cs (out.length / cs.length) = none := by
    unfold Split.gather
    rw [mapM_none _ _ (i.width * i.height) (List.mem_range.2 hq) ?_]
    · rfl
    · rcases cs with _ | ⟨c, t⟩
      · simp at hn
      · exact mapM_none _ _ c (by simp) (List.getElem?_eq_none (by rw [hc c (by simp)]))
  have hsw : Split.swizzle cs out = .error .panic := by
    rcases cs with _ | ⟨a, _ | ⟨b, _ | ⟨c, _ | ⟨d, _ | ⟨e, t⟩⟩⟩⟩⟩
    · simp at hn
    · simp at hn
    · simp at hn
    · simp at hn
    · simp at hn
    · simp only [Split.swizzle]
      rw [hg]
  unfold writeToOutput
  obtain ⟨t, ht⟩ : ∃ t, i.frames = f :: t := by
    cases hfr : i.frames with
    | nil => rw [hfr] at hf; simp at hf
    | cons a t => rw [hfr] at hf; simp at hf; exact ⟨t, by rw [hf]⟩
  have hfl : f.length = i.cs.numComponents := by rw [hcs, List.length_map, hlen]
  rw [ht]
  simp only
  rw [if_neg (by omega), ← hfl, List.take_length, hd, hcs, Save.asU8_map]
  simp only [hsw]

example : writeToOutput true ⟨.MultiBand 5, .eight, 1, 1, false, [[.u8 [1], .u8 [2], .u8 [3], .u8 [4], .u8 [5]]]⟩ [9, 9, 9, 9, 9, 9, 9, 9, 9, 9] = .abort := by
  decide +kernel

end Zune.Capi
