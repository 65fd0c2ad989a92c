/- Properties C35-C39 and C41: per-pixel operations, colour/alpha separation and per-channel execution. -/
import Verif.Imageprocs.PixelModel
import Mathlib.Data.List.Basic
import Mathlib.Tactic.Ring

namespace Zune.Imageprocs

/-! ### Specification -/

/-- Where the alpha sample of a pixel is, read off the name of the colour space. -/
def Spec.alphaIndex : ColorSpace → Option Nat
  | .RGBA => some 3
  | .BGRA => some 3
  | .ARGB => some 0
  | .LumaA => some 1
  | _ => none

/-- `max - x` on the numbers the samples stand for. -/
def Spec.complement {n : Nat} (p : BitVec n) : BitVec n := BitVec.ofNat n (2 ^ n - 1 - p.toNat)

/-- The frame with every channel but alpha complemented. -/
def Spec.invertedFrame {n : Nat} (cs : ColorSpace) (frame : List (List (BitVec n))) : List (List (BitVec n)) :=
  frame.mapIdx fun k c => if Spec.alphaIndex cs = some k then c else c.map Spec.complement

/-! ### Helper lemmas -/

section helpers
variable {β ε σ : Type}

theorem mapM_some {γ δ : Type} (F : γ → Option δ) (G : γ → δ) (l : List γ) (h : ∀ x ∈ l, F x = some (G x)) :
    l.mapM F = some (l.map G) := by
  induction l with
  | nil => rfl
  | cons a t ih =>
    simp [List.mapM_cons, h a (by simp), ih (fun x hx => h x (by simp [hx]))]

theorem seqLoop_ok (g : β → β) (l : List β) : seqLoop (ε := ε) (fun c => (g c, .ok ())) l = (l.map g, .ok ()) := by
  induction l with
  | nil => rfl
  | cons a t ih => simp [seqLoop, ih]

theorem putBack_map (g : β → β) (sl : List (List β × List β × List β)) :
    putBack sl ((sl.flatMap fun t => t.2.1).map g) = sl.map fun t => t.1 ++ t.2.1.map g ++ t.2.2 := by
  induction sl with
  | nil => rfl
  | cons t rest ih =>
    obtain ⟨b, s, a⟩ := t
    simp only [List.flatMap_cons, List.map_append, putBack, List.map_cons]
    rw [List.take_left' (by simp), List.drop_left' (by simp), ih]

theorem complement_eq {n : Nat} (p : BitVec n) : BitVec.allOnes n - p = Spec.complement p := by
  apply BitVec.eq_of_toNat_eq
  have hp := p.isLt
  unfold Spec.complement
  rw [BitVec.toNat_sub, BitVec.toNat_allOnes, BitVec.toNat_ofNat]
  have h2 : 2 ^ n - p.toNat + (2 ^ n - 1) = (2 ^ n - 1 - p.toNat) + 2 ^ n := by omega
  rw [h2, Nat.add_mod_right]

theorem complement_invol {n : Nat} (p : BitVec n) : Spec.complement (Spec.complement p) = p := by
  apply BitVec.eq_of_toNat_eq
  have hp := p.isLt
  unfold Spec.complement
  rw [BitVec.toNat_ofNat, BitVec.toNat_ofNat, Nat.mod_eq_of_lt (by omega), Nat.mod_eq_of_lt (by omega)]
  omega

end helpers

/-! ### C39 -/

/-- **C39** for RGBA, BGRA and ARGB: the alpha channel returned is the one the colour space names, the colour channels are the
    others, in order; and the pieces put together are the frame. -/
theorem c39_separate_partial {β : Type} (cs : ColorSpace) (chs : List β) (hcs : cs = .RGBA ∨ cs = .BGRA ∨ cs = .ARGB)
    (hl : chs.length = 4) :
    ∃ s k, Spec.alphaIndex cs = some k ∧ separate cs chs = some s ∧ chs[k]? = some s.alpha ∧ s.colors = chs.eraseIdx k ∧
      s.before ++ s.colors ++ s.after = chs := by
  match chs, hl with
  | [a, b, c, d], _ =>
    rcases hcs with rfl | rfl | rfl
    · exact ⟨_, 3, rfl, rfl, rfl, rfl, rfl⟩
    · exact ⟨_, 3, rfl, rfl, rfl, rfl, rfl⟩
    · exact ⟨_, 0, rfl, rfl, rfl, rfl, rfl⟩

/-- **C39**: no separation without alpha, or when the number of channels does not match the colour space. -/
theorem c39_none {β : Type} (cs : ColorSpace) (chs : List β)
    (h : Spec.alphaIndex cs = none ∨ chs.length ≠ cs.numComponents) : separate cs chs = none := by
  unfold separate
  rcases h with h | h
  · have : cs.hasAlpha = false := by cases cs <;> first | rfl | cases h
    simp [this]
  · split
    · rfl
    · rw [if_pos (Ne.symm h)]

/-- **C39, negation**: for gray images with alpha the two channels are exchanged: the "alpha" channel is the luma one. -/
theorem c39_lumaA_wrong {β : Type} (luma alpha : β) :
    separate .LumaA [luma, alpha] = some ⟨[luma], [alpha], [], luma⟩ := rfl

example : separate .RGBA ["r", "g", "b", "a"] = some ⟨[], ["r", "g", "b"], ["a"], "a"⟩ := by decide
example : separate .ARGB ["a", "r", "g", "b"] = some ⟨["a"], ["r", "g", "b"], [], "a"⟩ := by decide
example : separate .RGB ["r", "g", "b"] = none := c39_none _ _ (Or.inl rfl)

/-! ### C35 -/

theorem frameSlice_spec {n : Nat} (cs : ColorSpace) (hcs : cs ≠ .LumaA) (chs : List (List (BitVec n)))
    (hl : chs.length = cs.numComponents) :
    ∃ t, frameSlice cs true chs = some t ∧
      t.1 ++ t.2.1.map (fun c => c.map Spec.complement) ++ t.2.2 = Spec.invertedFrame cs chs := by
  by_cases ha : cs.hasAlpha
  · have h4 : (cs = .RGBA ∨ cs = .BGRA ∨ cs = .ARGB) ∧ cs.numComponents = 4 := by
      cases cs <;> simp_all [ColorSpace.hasAlpha, ColorSpace.numComponents]
    rw [h4.2] at hl
    match chs, hl with
    | [a, b, c, d], _ => rcases h4.1 with rfl | rfl | rfl <;> exact ⟨_, rfl, rfl⟩
  · have hn : Spec.alphaIndex cs = none := by cases cs <;> first | rfl | (exfalso; apply ha; rfl)
    refine ⟨([], chs.take cs.numComponents, chs.drop cs.numComponents), ?_, ?_⟩
    · unfold frameSlice
      simp [ha, hl]
    · unfold Spec.invertedFrame
      simp only [hn, ← hl, List.take_length, List.drop_length, List.nil_append, List.append_nil, reduceCtorEq, if_false]
      symm
      rw [List.mapIdx_eq_iff]
      intro i
      simp

/-- **C35** for every supported colour space but LumaA, every number of frames, 8 and 16 bit samples: `Invert` replaces every
    colour sample by `max - x` and keeps alpha. -/
theorem c35_invert_partial {n : Nat} (cs : ColorSpace) (frames : List (List (List (BitVec n))))
    (hcs : cs = .RGB ∨ cs = .RGBA ∨ cs = .Luma ∨ ∃ k, cs = .MultiBand k)
    (hl : ∀ f ∈ frames, f.length = cs.numComponents) :
    invertImage cs frames = some (some (frames.map (Spec.invertedFrame cs))) := by
  have hne : cs ≠ .LumaA := by rcases hcs with rfl | rfl | rfl | ⟨k, rfl⟩ <;> simp
  have hsup : invertSupported cs = true := by
    rcases hcs with rfl | rfl | rfl | ⟨k, rfl⟩ <;> rfl
  classical
  let G : List (List (BitVec n)) → List (List (BitVec n)) × List (List (BitVec n)) × List (List (BitVec n)) :=
    fun chs => (frameSlice cs true chs).getD ([], [], [])
  have hG : ∀ f ∈ frames, frameSlice cs true f = some (G f) := by
    intro f hf
    obtain ⟨t, ht, _⟩ := frameSlice_spec cs hne f (hl f hf)
    simp only [G, ht, Option.getD_some]
  unfold invertImage executeOn imageSlices
  simp only [hsup, mapM_some _ G frames hG, Bool.not_true, Bool.false_eq_true, if_false, Option.map_some, seqLoop_ok, putBack_map]
  congr 2
  rw [List.map_map]
  apply List.map_congr_left
  intro f hf
  obtain ⟨t, ht, h2⟩ := frameSlice_spec cs hne f (hl f hf)
  have : G f = t := by simp only [G, ht, Option.getD_some]
  simp only [Function.comp, this]
  rw [← h2]
  have e : (invert : List (BitVec n) → List (BitVec n)) = fun c => c.map Spec.complement := by
    funext c
    unfold invert
    exact List.map_congr_left fun p _ => complement_eq p
  rw [e]

/-- **C35**: inverting twice gives the image back, for every supported colour space, LumaA included. -/
theorem c35_involution {n : Nat} (cs : ColorSpace) (frames : List (List (List (BitVec n))))
    (hcs : cs = .RGB ∨ cs = .RGBA ∨ cs = .Luma ∨ cs = .LumaA ∨ ∃ k, cs = .MultiBand k)
    (hl : ∀ f ∈ frames, f.length = cs.numComponents) :
    ∃ m, invertImage cs frames = some (some m) ∧ invertImage cs m = some (some frames) := by
  by_cases hL : cs = .LumaA
  · subst hL
    -- both channels come out of `frameSlice` the same way
    have key : ∀ fr : List (List (List (BitVec n))), (∀ f ∈ fr, f.length = 2) →
        invertImage .LumaA fr = some (some (fr.map fun f => f.mapIdx fun k c => if k = 0 then c else c.map Spec.complement)) := by
      intro fr hfr
      let G : List (List (BitVec n)) → List (List (BitVec n)) × List (List (BitVec n)) × List (List (BitVec n)) :=
        fun f => (f.take 1, f.drop 1, [])
      have hG : ∀ f ∈ fr, frameSlice .LumaA true f = some (G f) := by
        intro f hf
        match f, hfr f hf with
        | [a, b], _ => rfl
      unfold invertImage executeOn imageSlices
      have hsup : invertSupported .LumaA = true := rfl
      simp only [hsup, mapM_some _ G fr hG, Bool.not_true, Bool.false_eq_true, if_false, Option.map_some, seqLoop_ok, putBack_map]
      congr 2
      rw [List.map_map]
      apply List.map_congr_left
      intro f hf
      match f, hfr f hf with
      | [a, b], _ =>
        have e : (invert : List (BitVec n) → List (BitVec n)) = fun c => c.map Spec.complement := by
          funext c
          exact List.map_congr_left fun p _ => complement_eq p
        simp only [Function.comp, G, e]
        rfl
    have hl2 : ∀ f ∈ frames, f.length = 2 := hl
    refine ⟨_, key frames hl2, ?_⟩
    rw [key _ (by intro f hf; obtain ⟨g, hg, rfl⟩ := List.mem_map.1 hf; simp [hl2 g hg])]
    congr 2
    rw [List.map_map]
    conv_rhs => rw [← List.map_id frames]
    apply List.map_congr_left
    intro f hf
    match f, hl2 f hf with
    | [a, b], _ => simp [Function.comp_def, complement_invol]
  · have hcs' : cs = .RGB ∨ cs = .RGBA ∨ cs = .Luma ∨ ∃ k, cs = .MultiBand k := by
      rcases hcs with h | h | h | h | h
      · exact Or.inl h
      · exact Or.inr (Or.inl h)
      · exact Or.inr (Or.inr (Or.inl h))
      · exact absurd h hL
      · exact Or.inr (Or.inr (Or.inr h))
    refine ⟨_, c35_invert_partial cs frames hcs' hl, ?_⟩
    rw [c35_invert_partial cs _ hcs' (by
      intro f hf; obtain ⟨g, hg, rfl⟩ := List.mem_map.1 hf; simp [Spec.invertedFrame, hl g hg])]
    congr 2
    rw [List.map_map]
    conv_rhs => rw [← List.map_id frames]
    apply List.map_congr_left
    intro f _
    unfold Spec.invertedFrame
    simp only [Function.comp, id]
    rw [List.mapIdx_mapIdx, List.mapIdx_eq_iff]
    intro i
    by_cases hi : Spec.alphaIndex cs = some i
    · cases f[i]? <;> simp [hi]
    · cases f[i]? <;> simp [hi, Function.comp_def, complement_invol]

/-- **C35, negation**: on a gray image with alpha it is the alpha channel that is inverted. -/
theorem c35_lumaA_wrong : invertImage .LumaA [[[10#8, 20#8], [255#8, 255#8]]] = some (some [[[10#8, 20#8], [0#8, 0#8]]]) := by
  decide

/-- A concrete RGBA image satisfying the hypotheses. -/
example : invertImage .RGBA [[[1#8], [2#8], [0#8], [7#8]]] = some (some [[[254#8], [253#8], [255#8], [7#8]]]) := by decide

/-! ### C36 -/

/-- The documented formulas (threshold.rs:46-49), on the numbers the samples stand for. -/
def Spec.threshold (max t x : Nat) : ThresholdMethod → Nat
  | .Binary => if x > t then max else 0
  | .BinaryInv => if x > t then 0 else max
  | .ThreshTrunc => if x > t then t else x
  | .ThreshToZero => if x > t then x else 0

/-- **C36** for all modes but "to zero": every sample follows the documented formula. -/
theorem c36_threshold_partial {n : Nat} (l : List (BitVec n)) (t : BitVec n) (m : ThresholdMethod) (hm : m ≠ .ThreshToZero) :
    (threshold l t m).map BitVec.toNat = l.map fun x => Spec.threshold (2 ^ n - 1) t.toNat x.toNat m := by
  cases m with
  | ThreshToZero => exact absurd rfl hm
  | _ =>
    simp only [threshold, List.map_map]
    apply List.map_congr_left
    intro x _
    simp only [Function.comp, Spec.threshold, gt_iff_lt, BitVec.lt_def]
    split <;> simp

/-- **C36**, mode "to zero": correct exactly for the samples that do not exceed the threshold. -/
theorem c36_to_zero_partial {n : Nat} (l : List (BitVec n)) (t : BitVec n) :
    (threshold l t .ThreshToZero).map BitVec.toNat = l.map (fun x => Spec.threshold (2 ^ n - 1) t.toNat x.toNat .ThreshToZero) ↔
      ∀ x ∈ l, x.toNat ≤ t.toNat := by
  simp only [threshold, List.map_map, List.map_inj_left]
  refine forall_congr' fun x => forall_congr' fun _ => ?_
  simp only [Function.comp, Spec.threshold, gt_iff_lt, BitVec.lt_def]
  by_cases h : t.toNat < x.toNat
  · simp [h]; omega
  · simp [h]; omega

/-- **C36, negation**: mode "to zero" turns the sample 200 into the threshold 100 instead of keeping it. -/
theorem c36_to_zero_wrong : threshold [200#8, 50#8] 100#8 .ThreshToZero = [100#8, 0#8] ∧
    Spec.threshold 255 100 200 .ThreshToZero = 200 := by decide

example : threshold [200#8, 50#8] 100#8 .ThreshTrunc = [100#8, 50#8] ∧ threshold [200#8, 50#8] 100#8 .Binary = [255#8, 0#8] := by
  decide

/-! ### C38 -/

/-- **C38**: multiplication by the reciprocal equals integer division, for every 32 bit dividend and non-zero divisor. -/
theorem c38_fastdiv (a d : Nat) (ha : a < 2 ^ 32) (hd : 0 < d) (hd2 : d < 2 ^ 32) : fastdivU32 a (computeModU32 d) = a / d := by
  unfold fastdivU32 computeModU32
  obtain ⟨e, he, hm⟩ : ∃ e, e < d ∧ (0xFFFFFFFFFFFFFFFF / d + 1) * d = 2 ^ 64 + e := by
    refine ⟨d - 1 - 0xFFFFFFFFFFFFFFFF % d, by have := Nat.mod_lt 0xFFFFFFFFFFFFFFFF hd; omega, ?_⟩
    have h1 := Nat.div_add_mod 0xFFFFFFFFFFFFFFFF d
    have h2 := Nat.mod_lt 0xFFFFFFFFFFFFFFFF hd
    rw [Nat.add_mul, Nat.one_mul, Nat.mul_comm]
    omega
  generalize hmm : 0xFFFFFFFFFFFFFFFF / d + 1 = m at hm ⊢
  have hmle : m ≤ 2 ^ 64 := by
    rw [← hmm]
    have := Nat.div_le_self 0xFFFFFFFFFFFFFFFF d
    omega
  have hprod : m * a < 2 ^ 128 := by
    calc m * a ≤ 2 ^ 64 * 2 ^ 32 := Nat.mul_le_mul hmle (by omega)
      _ < 2 ^ 128 := by norm_num
  rw [Nat.mod_eq_of_lt hprod]
  have hq : m * a / 2 ^ 64 = a / d := by
    have hr := Nat.mod_lt a hd
    have hqa := Nat.div_add_mod a d
    generalize a / d = q at *
    generalize a % d = r at *
    apply Nat.div_eq_of_lt_le
    · -- q * 2^64 ≤ m * a
      have : m * a = (2 ^ 64 + e) * q + m * r := by rw [← hm, ← hqa]; ring
      rw [this, Nat.add_mul, Nat.mul_comm q]
      exact Nat.le_trans (Nat.le_add_right _ _) (Nat.le_add_right _ _)
    · have hmul : d * (m * a) < d * ((q + 1) * 2 ^ 64) := by
        have e1 : d * (m * a) = 2 ^ 64 * a + e * a := by rw [← Nat.mul_assoc, Nat.mul_comm d m, hm]; ring
        have e2 : e * a < 2 ^ 64 := by
          calc e * a ≤ (2 ^ 32 - 1) * (2 ^ 32 - 1) := Nat.mul_le_mul (by omega) (by omega)
            _ < 2 ^ 64 := by norm_num
        have e3 : d * ((q + 1) * 2 ^ 64) = 2 ^ 64 * (d * q + d) := by ring
        rw [e1, e3]
        omega
      exact lt_of_mul_lt_mul_left hmul (Nat.zero_le d)
  rw [hq]
  have := Nat.div_le_self a d
  exact Nat.mod_eq_of_lt (by omega)

/-- The largest dividend and a divisor with a remainder. -/
example : fastdivU32 (2 ^ 32 - 1) (computeModU32 7) = 613566756 := by decide

/-! ### C37 -/

/-- `round(c*a/max)`, halves upwards. -/
def Spec.premul (max c a : Nat) : Nat := (2 * (c * a) + max) / (2 * max)

theorem premulU8_toNat (c a : UInt8) :
    (premulSampleU8 c a).toNat =
      (c.toNat * a.toNat + 128 + (c.toNat * a.toNat + 128) / 256) / 255 % 256 := by
  have hp : c.toNat * a.toNat ≤ 65025 := by
    calc c.toNat * a.toNat ≤ 255 * 255 := Nat.mul_le_mul (by have := c.toNat_lt; omega) (by have := a.toNat_lt; omega)
      _ = 65025 := by norm_num
  have h1 : (a.toUInt16 * c.toUInt16 + 0x80).toNat = c.toNat * a.toNat + 128 := by
    rw [UInt16.toNat_add, UInt16.toNat_mul, UInt8.toNat_toUInt16, UInt8.toNat_toUInt16, Nat.mul_comm]
    rw [Nat.mod_eq_of_lt (a := c.toNat * a.toNat) (by omega)]
    exact Nat.mod_eq_of_lt (by simp; omega)
  have h2 : ((a.toUInt16 * c.toUInt16 + 0x80) >>> 8).toNat = (c.toNat * a.toNat + 128) / 256 := by
    rw [UInt16.toNat_shiftRight, h1, Nat.shiftRight_eq_div_pow]; rfl
  unfold premulSampleU8
  simp only
  rw [UInt16.toNat_toUInt8, UInt16.toNat_div, UInt16.toNat_add, h2, h1]
  rw [Nat.mod_eq_of_lt (a := _ + _) (by omega)]
  rfl

theorem premulU16_toNat (c a : UInt16) :
    (premulSampleU16 c a).toNat =
      (c.toNat * a.toNat + 32768 + (c.toNat * a.toNat + 32768) / 65536) / 65535 % 65536 := by
  have hp : c.toNat * a.toNat ≤ 4294836225 := by
    calc c.toNat * a.toNat ≤ 65535 * 65535 := Nat.mul_le_mul (by have := c.toNat_lt; omega) (by have := a.toNat_lt; omega)
      _ = 4294836225 := by norm_num
  have h1 : (a.toUInt32 * c.toUInt32 + (65535 + 1) / 2).toNat = c.toNat * a.toNat + 32768 := by
    rw [UInt32.toNat_add, UInt32.toNat_mul, UInt16.toNat_toUInt32, UInt16.toNat_toUInt32, Nat.mul_comm]
    rw [Nat.mod_eq_of_lt (a := c.toNat * a.toNat) (by omega)]
    exact Nat.mod_eq_of_lt (by
      have : ((65535 + 1) / 2 : UInt32).toNat = 32768 := by decide
      rw [this]; omega)
  have h2 : ((a.toUInt32 * c.toUInt32 + (65535 + 1) / 2) >>> 16).toNat = (c.toNat * a.toNat + 32768) / 65536 := by
    rw [UInt32.toNat_shiftRight, h1, Nat.shiftRight_eq_div_pow]; rfl
  unfold premulSampleU16
  simp only
  rw [UInt32.toNat_toUInt16, UInt32.toNat_div, UInt32.toNat_add, h2, h1]
  rw [Nat.mod_eq_of_lt (a := _ + _) (by omega)]
  rfl

/-- **C37** (8 bit), what the formula of the code gives for every sample: the rounded product or one more than it, and wrapped to
    0 for a white opaque sample; exact when the scaled product is in the lower part of its unit. -/
theorem c37_premultiply_u8_partial (c a : UInt8) :
    ∃ r : UInt8, premultiplyU8 [c] [a] = [r] ∧
      (r.toNat = Spec.premul 255 c.toNat a.toNat ∨ r.toNat = (Spec.premul 255 c.toNat a.toNat + 1) % 256) ∧
      (c.toNat * a.toNat % 255 + c.toNat * a.toNat / 255 < 127 → r.toNat = Spec.premul 255 c.toNat a.toNat) := by
  refine ⟨_, rfl, ?_⟩
  have hp : c.toNat * a.toNat ≤ 65025 := by
    calc c.toNat * a.toNat ≤ 255 * 255 := Nat.mul_le_mul (by have := c.toNat_lt; omega) (by have := a.toNat_lt; omega)
      _ = 65025 := by norm_num
  show ((premulSampleU8 c a).toNat = _ ∨ (premulSampleU8 c a).toNat = _) ∧ (_ → (premulSampleU8 c a).toNat = _)
  rw [premulU8_toNat]
  unfold Spec.premul
  generalize c.toNat * a.toNat = p at hp
  have h1 : (p + 128) / 256 ≤ 254 := by omega
  have h2 : (p + 128 + (p + 128) / 256) / 255 = (2 * p + 255) / (2 * 255) ∨
      (p + 128 + (p + 128) / 256) / 255 = (2 * p + 255) / (2 * 255) + 1 := by
    generalize (p + 128) / 256 = h at h1
    omega
  have h3 : (2 * p + 255) / (2 * 255) ≤ 255 := by omega
  have h4 : p % 255 + p / 255 < 127 → (p + 128 + (p + 128) / 256) / 255 = (2 * p + 255) / (2 * 255) := by
    intro h
    have h5 : (p + 128) / 256 ≤ p / 255 := by omega
    generalize (p + 128) / 256 = h at h5
    omega
  refine ⟨?_, fun h => ?_⟩
  · rcases h2 with h2 | h2
    · left; rw [h2]; omega
    · right; rw [h2]
  · rw [h4 h]; omega

/-- **C37** (16 bit), same statement. -/
theorem c37_premultiply_u16_partial (c a : UInt16) :
    ∃ r : UInt16, premultiplyU16 [c] [a] = [r] ∧
      (r.toNat = Spec.premul 65535 c.toNat a.toNat ∨ r.toNat = (Spec.premul 65535 c.toNat a.toNat + 1) % 65536) ∧
      (c.toNat * a.toNat % 65535 + c.toNat * a.toNat / 65535 < 32767 → r.toNat = Spec.premul 65535 c.toNat a.toNat) := by
  refine ⟨_, rfl, ?_⟩
  have hp : c.toNat * a.toNat ≤ 4294836225 := by
    calc c.toNat * a.toNat ≤ 65535 * 65535 := Nat.mul_le_mul (by have := c.toNat_lt; omega) (by have := a.toNat_lt; omega)
      _ = 4294836225 := by norm_num
  show ((premulSampleU16 c a).toNat = _ ∨ (premulSampleU16 c a).toNat = _) ∧ (_ → (premulSampleU16 c a).toNat = _)
  rw [premulU16_toNat]
  unfold Spec.premul
  generalize c.toNat * a.toNat = p at hp
  have h1 : (p + 32768) / 65536 ≤ 65534 := by omega
  have h2 : (p + 32768 + (p + 32768) / 65536) / 65535 = (2 * p + 65535) / (2 * 65535) ∨
      (p + 32768 + (p + 32768) / 65536) / 65535 = (2 * p + 65535) / (2 * 65535) + 1 := by
    generalize (p + 32768) / 65536 = h at h1
    omega
  have h3 : (2 * p + 65535) / (2 * 65535) ≤ 65535 := by omega
  have h4 : p % 65535 + p / 65535 < 32767 → (p + 32768 + (p + 32768) / 65536) / 65535 = (2 * p + 65535) / (2 * 65535) := by
    intro h
    have h5 : (p + 32768) / 65536 ≤ p / 65535 := by omega
    generalize (p + 32768) / 65536 = h at h5
    omega
  refine ⟨?_, fun h => ?_⟩
  · rcases h2 with h2 | h2
    · left; rw [h2]; omega
    · right; rw [h2]
  · rw [h4 h]; omega

/-- Premultiplication works sample by sample, on as many samples as there are alpha values. -/
theorem c37_pointwise (input alpha : List UInt8) (hl : input.length = alpha.length) (i : Nat) (c a : UInt8)
    (hc : input[i]? = some c) (ha : alpha[i]? = some a) :
    (premultiplyU8 input alpha).length = input.length ∧
    (premultiplyU8 input alpha)[i]? = (premultiplyU8 [c] [a])[0]? ∧
    (unpremultiplyU8 input alpha).length = input.length ∧
    (unpremultiplyU8 input alpha)[i]? = (unpremultiplyU8 [c] [a])[0]? := by
  have hi : i < (input.zip alpha).length := by
    have := (List.getElem?_eq_some_iff.1 hc).1
    simp; omega
  have hz : (input.zip alpha)[i]? = some (c, a) := by
    rw [List.getElem?_zip_eq_some]; exact ⟨hc, ha⟩
  refine ⟨by simp [premultiplyU8, hl], ?_, by simp [unpremultiplyU8, hl], ?_⟩
  · unfold premultiplyU8
    rw [List.getElem?_append_left (by simpa using hi), List.getElem?_map, hz]; rfl
  · unfold unpremultiplyU8
    rw [List.getElem?_append_left (by simpa using hi), List.getElem?_map, hz]; rfl

/-- **C37, negation**: an opaque sample is not kept (127 becomes 128, 255 becomes 0), and undoing the premultiplication of an
    opaque sample does not give it back. -/
theorem c37_opaque_wrong :
    premultiplyU8 [127, 255] [255, 255] = [128, 0] ∧
    unpremultiplyU8 (premultiplyU8 [127, 255] [255, 255]) [255, 255] = [128, 0] ∧
    premultiplyU16 [32767, 65535] [65535, 65535] = [32768, 0] := by decide

theorem unpremul_nearest (m c a : Nat) (hm : 0 < m) (hc : c ≤ m) (hm2 : m ≤ 65535) (ha : 0 < a) (ha2 : a ≤ m) :
    fastdivU32 (c * m + a / 2) (unpremulTable a) = (c * m + a / 2) / a := by
  unfold unpremulTable
  rw [if_neg (by omega)]
  apply c38_fastdiv _ _ _ ha (by omega)
  calc c * m + a / 2 ≤ 65535 * 65535 + 65535 := by
        have : c * m ≤ 65535 * 65535 := Nat.mul_le_mul (by omega) hm2
        omega
    _ < 2 ^ 32 := by norm_num

/-- **C37**: un-premultiplying computes the nearest integer to `c*255/a`, cut at 255, and 0 for a transparent sample. -/
theorem c37_unpremultiply_u8 (c a : UInt8) :
    ∃ r : UInt8, unpremultiplyU8 [c] [a] = [r] ∧ (a = 0 → r = 0) ∧
      (0 < a.toNat → ∃ q, r.toNat = min 255 q ∧ 2 * q * a.toNat ≤ 2 * (c.toNat * 255) + a.toNat ∧
        2 * (c.toNat * 255) < (2 * q + 1) * a.toNat + 1) := by
  refine ⟨_, rfl, ?_, ?_⟩
  · rintro rfl
    simp [unpremulSampleU8, unpremulTable, fastdivU32]
  · intro ha
    show ∃ q, (unpremulSampleU8 c a).toNat = _ ∧ _
    unfold unpremulSampleU8
    simp only
    rw [unpremul_nearest 255 c.toNat a.toNat (by omega) (by have := c.toNat_lt; omega) (by omega) ha
      (by have := a.toNat_lt; omega)]
    refine ⟨(c.toNat * 255 + a.toNat / 2) / a.toNat, ?_, ?_, ?_⟩
    · split
      · rename_i h
        rw [UInt8.toNat_ofNat_of_lt' h]; omega
      · show 255 = _
        omega
    · have h1 := Nat.div_mul_le_self (c.toNat * 255 + a.toNat / 2) a.toNat
      generalize (c.toNat * 255 + a.toNat / 2) / a.toNat = q at *
      rw [Nat.mul_assoc]; omega
    · have h1 := Nat.lt_div_mul_add (a := c.toNat * 255 + a.toNat / 2) ha
      generalize (c.toNat * 255 + a.toNat / 2) / a.toNat = q at *
      rw [Nat.add_mul, Nat.mul_assoc]; omega

/-- **C37** (16 bit un-premultiplication). -/
theorem c37_unpremultiply_u16 (c a : UInt16) :
    ∃ r : UInt16, unpremultiplyU16 [c] [a] = [r] ∧ (a = 0 → r = 0) ∧
      (0 < a.toNat → ∃ q, r.toNat = min 65535 q ∧ 2 * q * a.toNat ≤ 2 * (c.toNat * 65535) + a.toNat ∧
        2 * (c.toNat * 65535) < (2 * q + 1) * a.toNat + 1) := by
  refine ⟨_, rfl, ?_, ?_⟩
  · rintro rfl
    simp [unpremulSampleU16, unpremulTable, fastdivU32]
  · intro ha
    show ∃ q, (unpremulSampleU16 c a).toNat = _ ∧ _
    unfold unpremulSampleU16
    simp only
    rw [unpremul_nearest 65535 c.toNat a.toNat (by omega) (by have := c.toNat_lt; omega) (by omega) ha
      (by have := a.toNat_lt; omega)]
    refine ⟨(c.toNat * 65535 + a.toNat / 2) / a.toNat, ?_, ?_, ?_⟩
    · split
      · rename_i h
        rw [UInt16.toNat_ofNat_of_lt' h]; omega
      · show 65535 = _
        omega
    · have h1 := Nat.div_mul_le_self (c.toNat * 65535 + a.toNat / 2) a.toNat
      generalize (c.toNat * 65535 + a.toNat / 2) / a.toNat = q at *
      rw [Nat.mul_assoc]; omega
    · have h1 := Nat.lt_div_mul_add (a := c.toNat * 65535 + a.toNat / 2) ha
      generalize (c.toNat * 65535 + a.toNat / 2) / a.toNat = q at *
      rw [Nat.add_mul, Nat.mul_assoc]; omega

/-- **C37**: un-premultiplying the premultiplied opaque sample is the identity below half of the range (8 bit). -/
theorem c37_opaque_roundtrip_partial (c : UInt8) (hc : c.toNat < 127) :
    unpremultiplyU8 (premultiplyU8 [c] [255]) [255] = [c] := by
  obtain ⟨r, h1, _, h3⟩ := c37_premultiply_u8_partial c 255
  have hr : r = c := by
    apply UInt8.toNat.inj
    rw [h3 (by show c.toNat * 255 % 255 + c.toNat * 255 / 255 < 127; omega)]
    show (2 * (c.toNat * 255) + 255) / 510 = _
    omega
  rw [h1, hr]
  obtain ⟨s, g1, _, g3⟩ := c37_unpremultiply_u8 c 255
  rw [g1]
  obtain ⟨q, e1, e2, e3⟩ := g3 (by decide)
  have hc255 : (255 : UInt8).toNat = 255 := rfl
  rw [hc255] at e2 e3
  congr 1
  apply UInt8.toNat.inj
  omega

example : premultiplyU8 [100, 200] [128, 10] = [50, 8] ∧ unpremultiplyU8 [50, 8, 3] [128, 10, 0] = [100, 204, 0] := by decide

/-! ### C41 -/

section threads
variable {β ε σ : Type}

/-- `body` started in `init` computes `f`: on every channel it stops after finitely many steps with the result of `f`. -/
def Spec.Computes (body : σ → β → (σ × β) ⊕ (β × Except ε Unit)) (init : σ) (f : β → β × Except ε Unit) : Prop :=
  ∀ c, ∃ n, (Thread.step body)^[n] (.running init c) = .done (f c).1 (f c).2

theorem step_done_iter (body : σ → β → (σ × β) ⊕ (β × Except ε Unit)) (c : β) (r : Except ε Unit) (n : Nat) :
    (Thread.step body)^[n] (.done c r) = .done c r := by
  induction n with
  | zero => rfl
  | succ n ih => rw [Function.iterate_succ_apply]; exact ih

/-- Under any schedule each thread has done some number of its own steps. -/
theorem runSchedule_get (body : σ → β → (σ × β) ⊕ (β × Except ε Unit)) (sched : List Nat) (ts : List (Thread σ β ε)) :
    (runSchedule body ts sched).length = ts.length ∧
    ∀ i : Nat, ∃ n, (runSchedule body ts sched)[i]? = (ts[i]?).map (Thread.step body)^[n] := by
  induction sched generalizing ts with
  | nil => exact ⟨rfl, fun i => ⟨0, by simp [runSchedule]⟩⟩
  | cons j js ih =>
    obtain ⟨h1, h2⟩ := ih (ts.modify j (Thread.step body))
    simp only [runSchedule, List.foldl_cons] at h1 h2 ⊢
    refine ⟨by rw [h1]; simp, fun i => ?_⟩
    obtain ⟨n, hn⟩ := h2 i
    by_cases hij : j = i
    · refine ⟨n + 1, ?_⟩
      rw [hn, List.getElem?_modify]
      cases ts[i]? <;> simp [hij]
    · refine ⟨n, ?_⟩
      rw [hn, List.getElem?_modify]
      cases ts[i]? <;> simp [hij]

/-- The result of joining finished threads. -/
theorem joinAll_some (ts : List (Thread σ β ε)) (r : Except ε Unit) (h : joinAll ts = some r) :
    ∀ t ∈ ts, ∃ c r', t = .done c r' := by
  induction ts generalizing r with
  | nil => simp
  | cons t ts ih =>
    cases t with
    | running s c => simp [joinAll] at h
    | done c r' =>
      intro t ht
      rcases List.mem_cons.1 ht with rfl | ht
      · exact ⟨c, r', rfl⟩
      · simp only [joinAll] at h
        cases hj : joinAll ts with
        | none => simp [hj] at h
        | some r'' => exact ih r'' hj t ht

/-- First error of a list of results. -/
def Spec.firstError (f : β → β × Except ε Unit) : List β → Except ε Unit
  | [] => .ok ()
  | c :: cs => match (f c).2 with | .error e => .error e | .ok _ => firstError f cs

theorem joinAll_done (f : β → β × Except ε Unit) (cs : List β) :
    joinAll (cs.map fun c => (Thread.done (f c).1 (f c).2 : Thread σ β ε)) = some (Spec.firstError f cs) := by
  induction cs with
  | nil => rfl
  | cons c cs ih =>
    simp only [List.map_cons, joinAll, ih, Spec.firstError]
    cases (f c).2 <;> rfl

/-- Whatever the interleaving, once all threads are joined every channel holds what the function computes on it alone and the
    outcome is the first error in channel order. -/
theorem parLoop_eq (body : σ → β → (σ × β) ⊕ (β × Except ε Unit)) (init : σ) (f : β → β × Except ε Unit)
    (hf : Spec.Computes body init f) (chs : List β) (sched : List Nat) (out : List β) (r : Except ε Unit)
    (h : parLoop body init chs sched = some (out, r)) : out = chs.map (fun c => (f c).1) ∧ r = Spec.firstError f chs := by
  unfold parLoop at h
  simp only [Option.map_eq_some_iff] at h
  obtain ⟨r', hr', he⟩ := h
  obtain ⟨hlen, hget⟩ := runSchedule_get body sched (chs.map (Thread.running (ε := ε) init))
  have hdone := joinAll_some _ _ hr'
  have hall : runSchedule body (chs.map (Thread.running init)) sched = chs.map fun c => Thread.done (f c).1 (f c).2 := by
    apply List.ext_getElem?
    intro i
    obtain ⟨n, hn⟩ := hget i
    rw [hn]
    simp only [List.getElem?_map]
    cases hc : chs[i]? with
    | none => rfl
    | some c =>
      simp only [Option.map_some]
      congr 1
      have hmem : (runSchedule body (chs.map (Thread.running init)) sched)[i]? = some ((Thread.step body)^[n] (.running init c)) := by
        rw [hn]; simp [hc]
      obtain ⟨c', r'', hd⟩ := hdone _ (List.mem_of_getElem? hmem)
      obtain ⟨m, hm⟩ := hf c
      rw [hd, ← hm]
      rcases Nat.le_total n m with hle | hle
      · rw [show m = (m - n) + n by omega, Function.iterate_add_apply, hd, step_done_iter]
      · rw [← hd, show n = (n - m) + m by omega, Function.iterate_add_apply, hm, step_done_iter]
  rw [hall] at hr' he
  rw [joinAll_done] at hr'
  simp only [Option.some.injEq] at hr'
  simp only [List.map_map, Prod.mk.injEq] at he
  exact ⟨he.1.symm, by rw [← he.2, hr']⟩

theorem seqLoop_result (f : β → β × Except ε Unit) (chs : List β) : (seqLoop f chs).2 = Spec.firstError f chs := by
  induction chs with
  | nil => rfl
  | cons c cs ih =>
    unfold seqLoop Spec.firstError
    rcases hc : f c with ⟨c', _ | _⟩
    · rfl
    · exact ih

theorem seqLoop_image (f : β → β × Except ε Unit) (chs : List β) (h : Spec.firstError f chs = .ok ()) :
    (seqLoop f chs).1 = chs.map fun c => (f c).1 := by
  induction chs with
  | nil => rfl
  | cons c cs ih =>
    unfold seqLoop
    unfold Spec.firstError at h
    rcases hc : f c with ⟨c', _ | _⟩
    · simp [hc] at h
    · simp only [hc] at h
      simp [hc, ih h]

/-- **C41**: under every interleaving that lets all threads finish, the threaded `execute_on` reports what the sequential one
    reports, and leaves the same image whenever the operation succeeds.  When a channel fails the images may differ:
    `c41_error_images_differ`. -/
theorem c41_threads_equal_sequential_partial (body : σ → β → (σ × β) ⊕ (β × Except ε Unit)) (init : σ)
    (f : β → β × Except ε Unit) (hf : Spec.Computes body init f) (cs : ColorSpace) (frames : List (List β)) (ign : Bool)
    (sched : List Nat) (img : List (List β)) (r : Except ε Unit)
    (h : executeOnThreads body init cs frames ign sched = some (img, r)) :
    ∃ img', executeOn f cs frames ign = some (img', r) ∧ (r = .ok () → img' = img) := by
  unfold executeOnThreads at h
  unfold executeOn
  cases hs : imageSlices cs ign frames with
  | none => simp [hs] at h
  | some sl =>
    simp only [hs, Option.bind_some, Option.map_eq_some_iff, Prod.exists, Prod.mk.injEq] at h
    obtain ⟨out, r', hp, rfl, rfl⟩ := h
    obtain ⟨h1, h2⟩ := parLoop_eq body init f hf _ _ _ _ hp
    refine ⟨_, by simp only [Option.map_some, seqLoop_result, ← h2]; rfl, fun hr => ?_⟩
    rw [seqLoop_image f _ (by rw [← h2, hr]), ← h1]

/-- **C41**: a schedule that lets every thread finish exists whenever the function terminates, so the statement above is not
    about nothing. -/
theorem c41_finishing_schedule (body : σ → β → (σ × β) ⊕ (β × Except ε Unit)) (init : σ) (f : β → β × Except ε Unit)
    (hf : Spec.Computes body init f) (chs : List β) : ∃ sched res, parLoop body init chs sched = some res := by
  -- run thread 0 to its end, then thread 1, ...
  have one : ∀ (n i : Nat) (ts : List (Thread σ β ε)),
      runSchedule body ts (List.replicate n i) = ts.modify i (Thread.step body)^[n] := by
    intro n
    induction n with
    | zero => intro i ts; simp [runSchedule, List.modify_id]
    | succ n ih =>
      intro i ts
      have := ih i (ts.modify i (Thread.step body))
      unfold runSchedule at this ⊢
      rw [List.replicate_succ, List.foldl_cons, this, List.modify_modify_eq]
      rfl
  have app : ∀ (s t : List Nat) (ts : List (Thread σ β ε)), runSchedule body ts (s ++ t) = runSchedule body (runSchedule body ts s) t := by
    intro s t ts; simp [runSchedule]
  have key : ∀ (rest pre : List β), ∃ sched, runSchedule body
      (pre.map (fun c => Thread.done (f c).1 (f c).2) ++ rest.map (Thread.running init)) sched =
      (pre ++ rest).map fun c => (Thread.done (f c).1 (f c).2 : Thread σ β ε) := by
    intro rest
    induction rest with
    | nil => intro pre; exact ⟨[], by simp [runSchedule]⟩
    | cons c rest ih =>
      intro pre
      obtain ⟨n, hn⟩ := hf c
      obtain ⟨sched, hs⟩ := ih (pre ++ [c])
      refine ⟨List.replicate n pre.length ++ sched, ?_⟩
      rw [app, one]
      have : (pre.map (fun c => (Thread.done (f c).1 (f c).2 : Thread σ β ε)) ++ (c :: rest).map (Thread.running init)).modify
          pre.length (Thread.step body)^[n] =
          (pre ++ [c]).map (fun c => Thread.done (f c).1 (f c).2) ++ rest.map (Thread.running init) := by
        have hm : ∀ (u v : List (Thread σ β ε)) (t : Thread σ β ε) (g : Thread σ β ε → Thread σ β ε),
            (u ++ t :: v).modify u.length g = u ++ g t :: v := by
          intro u v t g
          induction u with
          | nil => rfl
          | cons a u ih => simp [ih]
        have := hm (pre.map fun c => Thread.done (f c).1 (f c).2) (rest.map (Thread.running init)) (.running init c)
          (Thread.step body)^[n]
        rw [List.length_map] at this
        rw [List.map_cons, this, hn]
        simp
      rw [this, hs]
      simp
  obtain ⟨sched, hs⟩ := key chs []
  simp only [List.map_nil, List.nil_append] at hs
  refine ⟨sched, ?_⟩
  unfold parLoop
  simp only [hs, joinAll_done]
  exact ⟨_, rfl⟩

/-- **C41, negation (error case)**: when the first channel fails, the threaded version has still changed the second one. -/
theorem c41_error_images_differ :
    let f : Nat → Nat × Except Unit Unit := fun c => if c = 0 then (0, .error ()) else (c + 1, .ok ())
    let body : Unit → Nat → (Unit × Nat) ⊕ (Nat × Except Unit Unit) := fun _ c => .inr (f c)
    Spec.Computes body () f ∧
    (executeOnThreads body () (.MultiBand 2) [[0, 5]] true [1, 0]).map Prod.fst = some [[0, 6]] ∧
    (executeOn f (.MultiBand 2) [[0, 5]] true).map Prod.fst = some [[0, 5]] := by
  refine ⟨fun c => ⟨1, rfl⟩, ?_, ?_⟩ <;> decide

/-- Two threads counting down to zero, interleaved: both finish. -/
example :
    let body : Unit → Nat → (Unit × Nat) ⊕ (Nat × Except Unit Unit) := fun _ c => if c = 0 then .inr (7, .ok ()) else .inl ((), c - 1)
    Spec.Computes body () (fun _ => (7, .ok ())) ∧
    (executeOnThreads body () .RGBA [[2, 1, 0, 9]] true [0, 1, 2, 0, 1, 0]).map Prod.fst = some [[7, 7, 7, 9]] := by
  refine ⟨fun c => ?_, by decide⟩
  induction c with
  | zero => exact ⟨1, rfl⟩
  | succ c ih =>
    obtain ⟨n, hn⟩ := ih
    exact ⟨n + 1, by rw [Function.iterate_succ_apply]; exact hn⟩

end threads

end Zune.Imageprocs
