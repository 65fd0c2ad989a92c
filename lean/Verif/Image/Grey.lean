/- C64: conversion to grey. -/
import Mathlib.Tactic.Linarith
import Mathlib.Tactic.NormNum
import Mathlib.Tactic.Zify
import Verif.Image.Color

namespace Zune.Color
open Zune.Imageprocs (ColorSpace separate frameSlice imageSlices)
open Zune.Depth (BitDepth Samples F32 convert)

/-! ### Specification -/

/-- `q` is the integer part of the weighted mean `0.2989 r + 0.587 g + 0.114 b`, where the mean may be off by 0.04. -/
def Near (r g b q : Nat) : Prop :=
  10000 * q ≤ 2989 * r + 5870 * g + 1140 * b + 400 ∧ 2989 * r + 5870 * g + 1140 * b < 10000 * (q + 1) + 400

/-- The samples as numbers (none for floats). -/
def nats : Samples → Option (List Nat)
  | .u8 l => some (l.map UInt8.toNat)
  | .u16 l => some (l.map UInt16.toNat)
  | .f32 _ => none

/-- The plane `o` is the grey of the three others. -/
def Greyed (r g b o : Samples) : Prop :=
  ∃ lr lg lb lo, nats r = some lr ∧ nats g = some lg ∧ nats b = some lb ∧ nats o = some lo ∧
    lg.length = lr.length ∧ lb.length = lr.length ∧ lo.length = lr.length ∧
    ∀ j (h1 : j < lr.length) (h2 : j < lg.length) (h3 : j < lb.length) (h4 : j < lo.length), Near lr[j] lg[j] lb[j] lo[j]

/-! ### One pixel -/

theorem near_8 (r g b x y z q : Nat) (hr : r < 2 ^ 8) (hg : g < 2 ^ 8) (hb : b < 2 ^ 8)
    (hx : 2 ^ 15 * x ≤ r * 64 * 9794 + 2 ^ 14) (hx' : r * 64 * 9794 + 2 ^ 14 < 2 ^ 15 * x + 2 ^ 15)
    (hy : 2 ^ 15 * y ≤ g * 64 * 19235 + 2 ^ 14) (hy' : g * 64 * 19235 + 2 ^ 14 < 2 ^ 15 * y + 2 ^ 15)
    (hz : 2 ^ 15 * z ≤ b * 64 * 3736 + 2 ^ 14) (hz' : b * 64 * 3736 + 2 ^ 14 < 2 ^ 15 * z + 2 ^ 15)
    (hq : 64 * q ≤ x + y + z) (hq' : x + y + z < 64 * q + 64) : Near r g b q ∧ q < 256 := by
  unfold Near
  refine ⟨⟨?_, ?_⟩, ?_⟩
  · linarith
  · linarith
  · have : (q : Int) < 256 := by
      have : (64 : Int) * q < 64 * 256 := by
        zify at *
        linarith
      omega
    omega

theorem near_16 (r g b x y z q : Nat) (hr : r < 2 ^ 16) (hg : g < 2 ^ 16) (hb : b < 2 ^ 16)
    (hx : 2 ^ 31 * x ≤ r * 64 * 641882862 + 2 ^ 30) (hx' : r * 64 * 641882862 + 2 ^ 30 < 2 ^ 31 * x + 2 ^ 31)
    (hy : 2 ^ 31 * y ≤ g * 64 * 1260572901 + 2 ^ 30) (hy' : g * 64 * 1260572901 + 2 ^ 30 < 2 ^ 31 * y + 2 ^ 31)
    (hz : 2 ^ 31 * z ≤ b * 64 * 244813136 + 2 ^ 30) (hz' : b * 64 * 244813136 + 2 ^ 30 < 2 ^ 31 * z + 2 ^ 31)
    (hq : 64 * q ≤ x + y + z) (hq' : x + y + z < 64 * q + 64) : Near r g b q ∧ q < 65536 := by
  unfold Near
  refine ⟨⟨?_, ?_⟩, ?_⟩
  · linarith
  · linarith
  · have : (q : Int) < 65536 := by
      have : (64 : Int) * q < 64 * 65536 := by
        zify at *
        linarith
      omega
    omega

theorem div_bounds (a d : Nat) (hd : 0 < d) : ∃ x, a / d = x ∧ d * x ≤ a ∧ a < d * x + d := by
  have h1 := Nat.div_add_mod a d
  have h2 := Nat.mod_lt a hd
  exact ⟨_, rfl, by omega, by omega⟩

/-- The grey of 8 bit numbers before the conversion to a byte. -/
theorem greyU8_nat (r g b : UInt8) : Near r.toNat g.toNat b.toNat
      (((r.toNat * 64 * 9794 + 2 ^ 14) / 2 ^ 15 + (g.toNat * 64 * 19235 + 2 ^ 14) / 2 ^ 15 +
        (b.toNat * 64 * 3736 + 2 ^ 14) / 2 ^ 15) / 64) ∧
    ((r.toNat * 64 * 9794 + 2 ^ 14) / 2 ^ 15 + (g.toNat * 64 * 19235 + 2 ^ 14) / 2 ^ 15 +
        (b.toNat * 64 * 3736 + 2 ^ 14) / 2 ^ 15) / 64 < 256 := by
  obtain ⟨x, ex, hx, hx'⟩ := div_bounds (r.toNat * 64 * 9794 + 2 ^ 14) (2 ^ 15) (by norm_num)
  obtain ⟨y, ey, hy, hy'⟩ := div_bounds (g.toNat * 64 * 19235 + 2 ^ 14) (2 ^ 15) (by norm_num)
  obtain ⟨z, ez, hz, hz'⟩ := div_bounds (b.toNat * 64 * 3736 + 2 ^ 14) (2 ^ 15) (by norm_num)
  rw [ex, ey, ez]
  obtain ⟨q, eq, hq, hq'⟩ := div_bounds (x + y + z) 64 (by norm_num)
  rw [eq]
  have hr := r.toNat_lt
  have hg := g.toNat_lt
  have hb := b.toNat_lt
  exact near_8 _ _ _ x y z q hr hg hb hx hx' hy hy' hz hz' hq hq'

theorem greyU16_nat (r g b : UInt16) : Near r.toNat g.toNat b.toNat
      (((r.toNat * 64 * 641882862 + 2 ^ 30) / 2 ^ 31 + (g.toNat * 64 * 1260572901 + 2 ^ 30) / 2 ^ 31 +
        (b.toNat * 64 * 244813136 + 2 ^ 30) / 2 ^ 31) / 64) ∧
    ((r.toNat * 64 * 641882862 + 2 ^ 30) / 2 ^ 31 + (g.toNat * 64 * 1260572901 + 2 ^ 30) / 2 ^ 31 +
        (b.toNat * 64 * 244813136 + 2 ^ 30) / 2 ^ 31) / 64 < 65536 := by
  obtain ⟨x, ex, hx, hx'⟩ := div_bounds (r.toNat * 64 * 641882862 + 2 ^ 30) (2 ^ 31) (by norm_num)
  obtain ⟨y, ey, hy, hy'⟩ := div_bounds (g.toNat * 64 * 1260572901 + 2 ^ 30) (2 ^ 31) (by norm_num)
  obtain ⟨z, ez, hz, hz'⟩ := div_bounds (b.toNat * 64 * 244813136 + 2 ^ 30) (2 ^ 31) (by norm_num)
  rw [ex, ey, ez]
  obtain ⟨q, eq, hq, hq'⟩ := div_bounds (x + y + z) 64 (by norm_num)
  rw [eq]
  have hr := r.toNat_lt
  have hg := g.toNat_lt
  have hb := b.toNat_lt
  exact near_16 _ _ _ x y z q hr hg hb hx hx' hy hy' hz hz' hq hq'

theorem greyU8_near (r g b : UInt8) : Near r.toNat g.toNat b.toNat (greyU8 255 r g b).toNat := by
  obtain ⟨h1, h2⟩ := greyU8_nat r g b
  unfold greyU8
  simp only [Nat.shiftRight_eq_div_pow]
  rw [UInt8.toNat_ofNat', Nat.min_eq_left (Nat.le_of_lt_succ h2), Nat.mod_eq_of_lt h2]
  exact h1

theorem greyU16_near (r g b : UInt16) : Near r.toNat g.toNat b.toNat (greyU16 65535 r g b).toNat := by
  obtain ⟨h1, h2⟩ := greyU16_nat r g b
  unfold greyU16
  simp only [Nat.shiftRight_eq_div_pow]
  rw [UInt16.toNat_ofNat', Nat.min_eq_left (Nat.le_of_lt_succ h2), Nat.mod_eq_of_lt h2]
  exact h1

theorem mulhrs_eq (v c : Nat) : mulhrs (v * 64) c = (v * 64 * c + 2 ^ 14) / 2 ^ 15 := by
  unfold mulhrs
  generalize v * 64 * c = n
  omega

theorem lane_sum (x y z : Nat) (h : x + y + z < 16384) :
    packus ((((x + y) % 2 ^ 16 + z) % 2 ^ 16) / 2 ^ 6) = UInt8.ofNat (min ((x + y + z) / 64) 255) := by
  have e : ((x + y) % 2 ^ 16 + z) % 2 ^ 16 = x + y + z := by omega
  rw [e]
  unfold packus
  rw [if_neg (by omega)]
  congr 2
  omega

/-- One SIMD lane computes what the scalar code computes. -/
theorem greyLane_eq (r g b : UInt8) : greyLane r g b = greyU8 255 r g b := by
  have hs := (greyU8_nat r g b).2
  have e1 : ∀ v : UInt8, (v.toNat * 2 ^ 6) % 2 ^ 16 = v.toNat * 64 := fun v => by have := v.toNat_lt; omega
  unfold greyLane greyU8
  simp only [Nat.shiftRight_eq_div_pow, Nat.shiftLeft_eq, e1, mulhrs_eq]
  obtain ⟨x, ex, _⟩ := div_bounds (r.toNat * 64 * 9794 + 2 ^ 14) (2 ^ 15) (by norm_num)
  obtain ⟨y, ey, _⟩ := div_bounds (g.toNat * 64 * 19235 + 2 ^ 14) (2 ^ 15) (by norm_num)
  obtain ⟨z, ez, _⟩ := div_bounds (b.toNat * 64 * 3736 + 2 ^ 14) (2 ^ 15) (by norm_num)
  rw [ex, ey, ez] at hs ⊢
  exact lane_sum x y z (by clear ex ey ez; omega)

/-! ### Whole channels -/

theorem greyLoop_length {α : Type} (f : α → α → α → α) : ∀ (r g b o : List α), (greyLoop f r g b o).length = o.length
  | _ :: rs, _ :: gs, _ :: bs, _ :: os => by simp [greyLoop, greyLoop_length f rs gs bs os]
  | [], _, _, _ => by simp [greyLoop]
  | _ :: _, [], _, _ => by simp [greyLoop]
  | _ :: _, _ :: _, [], _ => by simp [greyLoop]
  | _ :: _, _ :: _, _ :: _, [] => by simp [greyLoop]

theorem greyLoop_get {α : Type} (f : α → α → α → α) : ∀ (r g b o : List α) (j : Nat) (h1 : j < r.length) (h2 : j < g.length)
    (h3 : j < b.length) (h4 : j < o.length), (greyLoop f r g b o)[j]'(by rw [greyLoop_length]; exact h4) = f r[j] g[j] b[j]
  | _ :: _, _ :: _, _ :: _, _ :: _, 0, _, _, _, _ => by simp [greyLoop]
  | _ :: rs, _ :: gs, _ :: bs, _ :: os, j + 1, h1, h2, h3, h4 => by
    simp only [greyLoop, List.getElem_cons_succ]
    exact greyLoop_get f rs gs bs os j _ _ _ (by simpa using h4)

/-- Past the end of the red channel the output stays as it was. -/
theorem greyLoop_rest {α : Type} (f : α → α → α → α) : ∀ (r g b o : List α) (j : Nat), r.length ≤ j →
    (greyLoop f r g b o)[j]? = o[j]?
  | [], _, _, _, _, _ => by simp [greyLoop]
  | _ :: _, [], _, _, _, _ => by simp [greyLoop]
  | _ :: _, _ :: _, [], _, _, _ => by simp [greyLoop]
  | _ :: _, _ :: _, _ :: _, [], _, _ => by simp [greyLoop]
  | _ :: rs, _ :: gs, _ :: bs, _ :: os, 0, h => by simp at h
  | _ :: rs, _ :: gs, _ :: bs, _ :: os, j + 1, h => by
    simp only [greyLoop, List.getElem?_cons_succ]
    exact greyLoop_rest f rs gs bs os j (by simpa using h)

theorem greyLoop_congr {α : Type} {f f' : α → α → α → α} (h : ∀ r g b, f r g b = f' r g b) (r g b o : List α) :
    greyLoop f r g b o = greyLoop f' r g b o := by
  have : f = f' := by funext r g b; exact h r g b
  rw [this]

/-- **C64** (disagreement, general).  On whole chunks the SSE4.1 and AVX2 code computes the scalar result *with green and blue
    exchanged*. -/
theorem c64_simd_swapped (n : Nat) (hn : 0 < n) (r g b out : List UInt8) (hd : n ∣ r.length) (hg : g.length = r.length)
    (hb : b.length = r.length) (ho : out.length = r.length) :
    greySimd n r g b out = greyLoop (greyU8 255) r b g out := by
  have hw : r.length / n * n = r.length := Nat.div_mul_cancel hd
  have hm : r.length % n = 0 := Nat.mod_eq_zero_of_dvd hd
  unfold greySimd
  simp only [hw, hm, if_true]
  rw [List.take_of_length_le (Nat.le_refl _), List.take_of_length_le (by omega), List.take_of_length_le (by omega),
    List.take_of_length_le (by omega), List.drop_of_length_le (by omega), List.append_nil]
  exact greyLoop_congr greyLane_eq r b g out

example : 8 ∣ (List.replicate 16 (7 : UInt8)).length := by decide

/-- **C64** (disagreement, general).  When the number of pixels is not a multiple of the chunk size, the last pixels (at least
    one, and all but a third of the remainder) are not written at all by the SIMD code: they stay 0. -/
theorem c64_simd_tail (n : Nat) (hn : 0 < n) (r g b : List UInt8) (j : Nat) (hj : j < r.length)
    (ht : r.length - r.length % n + r.length % n / 3 ≤ j) :
    (greySimd n r g b (List.replicate r.length 0))[j]? = some 0 := by
  have hm := Nat.mod_lt r.length hn
  have hw := Nat.div_add_mod r.length n
  have hne : r.length % n ≠ 0 := fun e => by omega
  have hw' : r.length / n * n = r.length - r.length % n := by rw [Nat.mul_comm]; omega
  unfold greySimd
  simp only [if_neg hne, hw']
  have hl : (greyLoop greyLane (r.take (r.length - r.length % n)) (b.take (r.length - r.length % n))
      (g.take (r.length - r.length % n)) ((List.replicate r.length (0 : UInt8)).take (r.length - r.length % n))).length =
      r.length - r.length % n := by
    rw [greyLoop_length, List.length_take, List.length_replicate]
    omega
  rw [List.getElem?_append_right (by omega), hl, greyLoop_rest _ _ _ _ _ _ (by rw [List.length_drop]; omega)]
  rw [List.getElem?_drop, List.getElem?_replicate, if_pos (by omega)]

/-- For every image whose size is no multiple of the chunk size the last pixel comes out black, whatever the colour. -/
theorem c64_simd_last_black (n : Nat) (hn : 0 < n) (r g b : List UInt8) (h : r.length % n ≠ 0) :
    (greySimd n r g b (List.replicate r.length 0))[r.length - 1]? = some 0 := by
  have hm := Nat.mod_le r.length n
  exact c64_simd_tail n hn r g b _ (by omega) (by omega)

example : (List.replicate 9 (200 : UInt8)).length % Isa.sse41.lanes ≠ 0 ∧
    greyU8 255 200 200 200 = 199 := by decide

/-- **C64** (disagreement, general).  A grey pixel does not stay as it is: it becomes `v` or `v - 1`, and white becomes 254. -/
theorem c64_grey_drifts : (∀ v : UInt8, greyU8 255 v v v = v ∨ greyU8 255 v v v = v - 1) ∧
    greyU8 255 255 255 255 = 254 ∧ greyU16 65535 65535 65535 65535 = 65528 := by
  refine ⟨?_, by decide +kernel, by decide +kernel⟩
  decide +kernel

/-! ### Images -/

/-- The grey channel computed by the scalar code. -/
theorem greyChannel_spec {env : Env} (he : env.isa = .scalar) {i : Image} (hd : i.depth ≠ .float32) {r g b : Samples}
    (hr : i.Fits r) (hg : i.Fits g) (hb : i.Fits b) (t : List Samples) :
    ∃ o, greyChannel env i.depth (i.width * i.height * sizeOf i.depth) (r :: g :: b :: t) = some o ∧ i.Fits o ∧ Greyed r g b o := by
  obtain ⟨tr, er⟩ := hr
  obtain ⟨tg, eg⟩ := hg
  obtain ⟨tb, eb⟩ := hb
  unfold Image.Fits Image.size at *
  generalize i.depth = d at *
  generalize i.width = w at *
  generalize i.height = h at *
  cases d with
  | float32 => exact absurd rfl hd
  | eight =>
    cases r <;> simp only [typed] at tr
    cases g <;> simp only [typed] at tg
    cases b <;> simp only [typed] at tb
    rename_i r g b
    simp only [byteLen, sizeOf, Nat.one_mul] at er eg eb
    refine ⟨.u8 (greyLoop (greyU8 255) r g b (List.replicate (w * h * sizeOf .eight) 0)),
      by simp only [greyChannel, greyAllU8, he, if_true], ?_, ?_⟩
    · simp [typed, byteLen, greyLoop_length, sizeOf]
    · refine ⟨_, _, _, _, rfl, rfl, rfl, rfl, by simp [eg, er], by simp [eb, er], by simp [greyLoop_length, er, sizeOf], ?_⟩
      intro j h1 h2 h3 h4
      simp only [List.getElem_map]
      rw [greyLoop_get _ _ _ _ _ _ (by simpa using h1) (by simpa using h2) (by simpa using h3)]
      · exact greyU8_near _ _ _
      · simp only [List.length_map, greyLoop_length] at h4
        exact h4
  | sixteen =>
    cases r <;> simp only [typed] at tr
    cases g <;> simp only [typed] at tg
    cases b <;> simp only [typed] at tb
    rename_i r g b
    simp only [byteLen, sizeOf, Nat.mul_assoc] at er eg eb
    refine ⟨.u16 (greyLoop (greyU16 65535) r g b (List.replicate (w * h * sizeOf .sixteen / 2) 0)),
      by simp only [greyChannel, if_true], ?_, ?_⟩
    · simp only [typed, byteLen, greyLoop_length, sizeOf, List.length_replicate, true_and]
      rw [Nat.mul_div_cancel _ (by omega), Nat.mul_assoc]
    · refine ⟨_, _, _, _, rfl, rfl, rfl, rfl, by simp only [List.length_map]; omega, by simp only [List.length_map]; omega, ?_, ?_⟩
      · simp only [List.length_map, greyLoop_length, sizeOf, List.length_replicate]
        rw [Nat.mul_div_cancel _ (by omega)]
        omega
      intro j h1 h2 h3 h4
      simp only [List.getElem_map]
      rw [greyLoop_get _ _ _ _ _ _ (by simpa using h1) (by simpa using h2) (by simpa using h3)]
      · exact greyU16_near _ _ _
      · simp only [List.length_map, greyLoop_length] at h4
        exact h4

/-- What a grey frame must be. -/
def GreyFrame (i : Image) (dst : ColorSpace) (p : Planes) (f : List Samples) : Prop :=
  ∃ o, Greyed p.r p.g p.b o ∧ i.Fits o ∧ (dst = .Luma ∧ f = [o] ∨ dst = .LumaA ∧ f = [o, p.a.getD i.opaque])

theorem greyFrame_spec {env : Env} (he : env.isa = .scalar) {i : Image} (h : i.Ok) (hc : i.cs = .RGB ∨ i.cs = .RGBA) (hd : i.depth ≠ .float32)
    {dst : ColorSpace} (hl : dst = .Luma ∨ dst = .LumaA) (f : List Samples) (hf : f ∈ i.frames) :
    ∃ p f', meaning i.cs f = some p ∧
      greyFrame env i.cs dst dst.hasAlpha i.depth (i.width * i.height * sizeOf i.depth) f = some f' ∧ GreyFrame i dst p f' := by
  have hlen := h.count f hf
  have hfit := h.fits f hf
  have ho : opaqueChannel i.depth (i.width * i.height * sizeOf i.depth) = i.opaque := by
    rw [← opaque_eq, Image.size, Nat.mul_comm, Nat.mul_assoc]
  rcases hc with e | e
  · rw [e] at hlen ⊢
    obtain ⟨r, g, b, rfl⟩ := len3 hlen
    obtain ⟨o, ho1, ho2, ho3⟩ := greyChannel_spec he hd (hfit r (by simp)) (hfit g (by simp)) (hfit b (by simp)) []
    rcases hl with rfl | rfl
    · refine ⟨_, [o], rfl, ?_, o, ho3, ho2, Or.inl ⟨rfl, rfl⟩⟩
      simp [greyFrame, frameSlice, ColorSpace.hasAlpha, ColorSpace.numComponents, ho1]
    · refine ⟨_, [o, i.opaque], rfl, ?_, o, ho3, ho2, Or.inr ⟨rfl, rfl⟩⟩
      simp [greyFrame, frameSlice, ColorSpace.hasAlpha, ColorSpace.numComponents, ho1, ho]
  · rw [e] at hlen ⊢
    obtain ⟨r, g, b, a, rfl⟩ := len4 hlen
    rcases hl with rfl | rfl
    · obtain ⟨o, ho1, ho2, ho3⟩ := greyChannel_spec he hd (hfit r (by simp)) (hfit g (by simp)) (hfit b (by simp)) []
      refine ⟨_, [o], rfl, ?_, o, ho3, ho2, Or.inl ⟨rfl, rfl⟩⟩
      have hs : frameSlice .RGBA true [r, g, b, a] = some ([], [r, g, b], [a]) := rfl
      simp only [greyFrame, ColorSpace.hasAlpha, Bool.not_false, hs, ho1]
      rfl
    · obtain ⟨o, ho1, ho2, ho3⟩ := greyChannel_spec he hd (hfit r (by simp)) (hfit g (by simp)) (hfit b (by simp)) [a]
      refine ⟨_, [o, a], rfl, ?_, o, ho3, ho2, Or.inr ⟨rfl, rfl⟩⟩
      simp [greyFrame, frameSlice, ColorSpace.hasAlpha, ColorSpace.numComponents, ho1]

theorem grey1 {env : Env} (he : env.isa = .scalar) {i : Image} (h : i.Ok) (hc : i.cs = .RGB ∨ i.cs = .RGBA) (hd : i.depth ≠ .float32)
    {dst : ColorSpace} (hl : dst = .Luma ∨ dst = .LumaA) :
    ∃ G, setCs dst (rgbToGrey env dst dst.hasAlpha i) = .ok (i.conv dst G) ∧ convertColor1 env dst i = .ok (i.conv dst G) ∧
      (i.conv dst G).Ok ∧ ∀ f ∈ i.frames, ∃ p, meaning i.cs f = some p ∧ GreyFrame i dst p (G f) := by
  let G : List Samples → List Samples := fun f =>
    (greyFrame env i.cs dst dst.hasAlpha i.depth (i.width * i.height * sizeOf i.depth) f).getD []
  have hG : ∀ f ∈ i.frames, ∃ p, meaning i.cs f = some p ∧ GreyFrame i dst p (G f) := by
    intro f hf
    obtain ⟨p, f', h1, h2, h3⟩ := greyFrame_spec he h hc hd hl f hf
    refine ⟨p, h1, ?_⟩
    simp only [G, h2, Option.getD_some]
    exact h3
  have hset : setCs dst (rgbToGrey env dst dst.hasAlpha i) = .ok (i.conv dst G) := by
    unfold rgbToGrey
    rw [if_neg (by rcases hc with e | e <;> rw [e] <;> decide)]
    rw [mapM_isSome [] _ _ (fun f hf => by
      obtain ⟨p, f', h1, h2, h3⟩ := greyFrame_spec he h hc hd hl f hf
      rw [h2]; rfl)]
    simp only [List.map_eq_nil_iff, h.nonempty, if_false]
    rfl
  have hok : (i.conv dst G).Ok := by
    refine ⟨by simp [Image.conv, h.nonempty], ?_, ?_⟩
    · intro f' hf'
      obtain ⟨f, hf, rfl⟩ := List.mem_map.1 hf'
      obtain ⟨p, _, o, _, _, h3⟩ := hG f hf
      rcases h3 with ⟨rfl, h3⟩ | ⟨rfl, h3⟩ <;> rw [h3] <;> rfl
    · intro f' hf' c hcm
      obtain ⟨f, hf, rfl⟩ := List.mem_map.1 hf'
      obtain ⟨p, hp, o, _, ho, h3⟩ := hG f hf
      have hpa : i.Fits (p.a.getD i.opaque) := by
        have hlen := h.count f hf
        rcases hc with e | e
        · rw [e] at hp hlen
          obtain ⟨x, y, z, rfl⟩ := len3 hlen
          simp only [meaning, Option.some.injEq] at hp
          rw [← hp]
          exact opaque_fits i
        · rw [e] at hp hlen
          obtain ⟨x, y, z, w, rfl⟩ := len4 hlen
          simp only [meaning, Option.some.injEq] at hp
          rw [← hp]
          exact h.fits _ hf w (by simp)
      rcases h3 with ⟨_, h3⟩ | ⟨_, h3⟩
      · rw [h3, List.mem_singleton] at hcm
        rw [hcm]
        exact ho
      · rw [h3, List.mem_cons, List.mem_singleton] at hcm
        rcases hcm with rfl | rfl
        · exact ho
        · exact hpa
  have hpos : 0 < i.cs.numComponents := by rcases hc with e | e <;> rw [e] <;> decide
  have hpos' : 0 < dst.numComponents := by rcases hl with e | e <;> rw [e] <;> decide
  refine ⟨G, hset, execute_ok h hpos ?_ hok hpos', hok, hG⟩
  unfold impl1
  rw [if_neg (by rcases hc with e | e <;> rcases hl with e' | e' <;> rw [e, e'] <;> decide)]
  rcases hc with e | e <;> rcases hl with rfl | rfl <;> rw [e] <;> exact hset

/-- Going through RGB or RGBA to grey. -/
theorem grey_via {env : Env} (he : env.isa = .scalar) {i : Image} (h : i.Ok) (hs : Known i.cs) (hd : i.depth ≠ .float32)
    {via dst : ColorSpace} (hv : via = .RGB ∨ via = .RGBA) (hl : dst = .Luma ∨ dst = .LumaA)
    {r : Except Err Image} (hr : setCs via r = .ok (i.conv via (relabel i.opaque i.cs via)))
    (hrel : ∀ f, f.length = i.cs.numComponents → meaning via (relabel i.opaque i.cs via f) = meaning i.cs f) :
    ∃ G, setCs dst (andThen env via dst r) = .ok (i.conv dst G) ∧ (i.conv dst G).Ok ∧
      ∀ f ∈ i.frames, ∃ p, meaning i.cs f = some p ∧ GreyFrame i dst p (G f) := by
  have hvc : Colored via := by rcases hv with e | e <;> rw [e] <;> simp [Colored]
  obtain ⟨G, _, h2, h3, h4⟩ := grey1 he (relabel_ok h hs hvc) hv hd hl
  have e : (i.conv via (relabel i.opaque i.cs via)).conv dst G = i.conv dst (fun f => G (relabel i.opaque i.cs via f)) := by
    simp only [Image.conv, List.map_map]
    rfl
  rw [e] at h2 h3
  refine ⟨_, ?_, h3, ?_⟩
  · unfold andThen
    rw [hr]
    simp only [h2, setCs]
    rfl
  · intro f hf
    obtain ⟨p, hp, hg⟩ := h4 _ (List.mem_map_of_mem hf)
    refine ⟨p, ?_, hg⟩
    rw [← hrel f (h.count f hf)]
    exact hp

/-- **C64** (grey).  On a machine without SSE4.1, converting a well formed 8 or 16 bit image from RGB, RGBA, BGR or BGRA to Luma or
    LumaA succeeds; each grey sample is the integer part of the weighted mean of that pixel's colours (up to 0.04); and alpha
    is kept if there was one, opaque otherwise.
    Missing: the SIMD code, for which it is false (`c64_simd_swapped`, `c64_simd_tail`), floats, and ARGB (see C63). -/
theorem c64_grey_partial (env : Env) (he : env.isa = .scalar) (i : Image) (h : i.Ok)
    (hs : i.cs = .RGB ∨ i.cs = .RGBA ∨ i.cs = .BGR ∨ i.cs = .BGRA) (hd : i.depth ≠ .float32) (dst : ColorSpace)
    (hl : dst = .Luma ∨ dst = .LumaA) :
    ∃ fs, convertColor env dst i = .ok { i with cs := dst, frames := fs } ∧ fs.length = i.frames.length ∧
      ∀ k, (hk : k < i.frames.length) → (hk' : k < fs.length) →
        ∃ p o, meaning i.cs i.frames[k] = some p ∧ Greyed p.r p.g p.b o ∧
          fs[k] = if dst = .Luma then [o] else [o, p.a.getD i.opaque] := by
  have hk : Known i.cs := by rcases hs with e | e | e | e <;> rw [e] <;> simp [Known, Colored]
  have key : ∃ G, impl env dst i = .ok (i.conv dst G) ∧ (i.conv dst G).Ok ∧
      ∀ f ∈ i.frames, ∃ p, meaning i.cs f = some p ∧ GreyFrame i dst p (G f) := by
    unfold impl
    rw [if_neg (by rcases hs with e | e | e | e <;> rcases hl with e' | e' <;> rw [e, e'] <;> decide)]
    rcases hs with e | e | e | e
    · obtain ⟨G, h1, _, h3, h4⟩ := grey1 he h (Or.inl e) hd hl
      refine ⟨G, ?_, h3, h4⟩
      rw [e]
      rcases hl with rfl | rfl <;> exact h1
    · obtain ⟨G, h1, _, h3, h4⟩ := grey1 he h (Or.inr e) hd hl
      refine ⟨G, ?_, h3, h4⟩
      rw [e]
      rcases hl with rfl | rfl <;> exact h1
    · have hr : setCs .RGB (rgbBgr .BGR .RGB i) = .ok (i.conv .RGB (relabel i.opaque i.cs .RGB)) := by
        rw [rgbBgr, mapM_frames h (G := relabel i.opaque i.cs .RGB)]
        · rfl
        · intro f hf
          rw [e] at hf ⊢
          obtain ⟨x, y, z, rfl⟩ := len3 hf
          rfl
      obtain ⟨G, h1, h2⟩ := grey_via he h hk hd (Or.inl rfl) hl hr (by
        intro f hf
        rw [e] at hf ⊢
        obtain ⟨x, y, z, rfl⟩ := len3 hf
        rfl)
      refine ⟨G, ?_, h2⟩
      rw [e]
      exact h1
    · have hr : setCs .RGBA (rgbBgr .BGRA .RGBA i) = .ok (i.conv .RGBA (relabel i.opaque i.cs .RGBA)) := by
        rw [rgbBgr, mapM_frames h (G := relabel i.opaque i.cs .RGBA)]
        · rfl
        · intro f hf
          rw [e] at hf ⊢
          obtain ⟨x, y, z, w, rfl⟩ := len4 hf
          rfl
      obtain ⟨G, h1, h2⟩ := grey_via he h hk hd (Or.inr rfl) hl hr (by
        intro f hf
        rw [e] at hf ⊢
        obtain ⟨x, y, z, w, rfl⟩ := len4 hf
        rfl)
      refine ⟨G, ?_, h2⟩
      rw [e]
      exact h1
  obtain ⟨G, h1, h2, h3⟩ := key
  have hpos' : 0 < dst.numComponents := by rcases hl with e | e <;> rw [e] <;> decide
  refine ⟨_, execute_ok h (known_pos hk) h1 h2 hpos', by simp [Image.conv], ?_⟩
  intro k hk hk'
  obtain ⟨p, hp, o, ho, _, hf⟩ := h3 _ (List.getElem_mem hk)
  refine ⟨p, o, hp, ho, ?_⟩
  rw [List.getElem_map]
  rcases hf with ⟨rfl, hf⟩ | ⟨rfl, hf⟩ <;> rw [hf] <;> rfl

example : (env0 .scalar).isa = .scalar ∧
    (sample .BGRA [.u8 [200, 2], .u8 [3, 4], .u8 [5, 6], .u8 [255, 100]] [.u8 [1, 2], .u8 [3, 4], .u8 [5, 6], .u8 [7, 8]]).Ok ∧
    convertColor (env0 .scalar) .LumaA
      (sample .BGRA [.u8 [200, 2], .u8 [3, 4], .u8 [5, 6], .u8 [255, 100]] [.u8 [1, 2], .u8 [3, 4], .u8 [5, 6], .u8 [7, 8]]) =
      .ok (sample .LumaA [.u8 [26, 4], .u8 [255, 100]] [.u8 [3, 4], .u8 [7, 8]]) :=
  ⟨rfl, ok_of (by decide) (by decide) (by decide) (by decide), by decide +kernel⟩

/-- **C64** (grey images).  Adding alpha to a Luma image or removing it from a LumaA image keeps the grey plane exactly. -/
theorem c64_luma (env : Env) (i : Image) (h : i.Ok) :
    (i.cs = .Luma → convertColor env .LumaA i =
      .ok { i with cs := .LumaA, frames := i.frames.map fun f => f ++ [i.opaque] }) ∧
    (i.cs = .LumaA → convertColor env .Luma i = .ok { i with cs := .Luma, frames := i.frames.map fun f => f.take 1 }) := by
  constructor
  · intro hc
    have hok : (i.conv .LumaA fun f => f ++ [i.opaque]).Ok := conv_ok h fun f hf => by
      have hl := h.count f hf
      rw [hc] at hl
      obtain ⟨x, rfl⟩ := len1 hl
      simp [ColorSpace.numComponents]
    refine execute_ok h (by rw [hc]; decide) ?_ hok (show 0 < 2 by decide)
    unfold impl
    rw [if_neg (by rw [hc]; decide), addOpaque_spec h (by rw [hc]; decide), hc]
    rfl
  · intro hc
    have hok : (i.conv .Luma fun f => f.take 1).Ok := conv_ok h fun f hf => by
      have hl := h.count f hf
      rw [hc] at hl
      obtain ⟨x, y, rfl⟩ := len2 hl
      simp [ColorSpace.numComponents]
    refine execute_ok h (by rw [hc]; decide) ?_ hok (show 0 < 1 by decide)
    unfold impl
    rw [if_neg (by rw [hc]; decide)]
    have : popChannel i = .ok (i.conv i.cs fun f => f.take 1) := by
      rw [popChannel, mapM_frames h (G := fun f => f.take 1)]
      · rfl
      · intro f hf
        rw [hc] at hf
        obtain ⟨x, y, rfl⟩ := len2 hf
        rfl
    rw [this, hc]
    rfl

example : (sample .Luma [.u8 [200, 2]] [.u8 [1, 2]]).Ok ∧ (sample .LumaA [.u8 [200, 2], .u8 [3, 4]] [.u8 [1, 2], .u8 [5, 6]]).Ok :=
  ⟨ok_of (by decide) (by decide) (by decide) (by decide), ok_of (by decide) (by decide) (by decide) (by decide)⟩

end Zune.Color
