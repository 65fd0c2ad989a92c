/-
Property C50: the colour transform of the JPEG XL encoder can be undone, and the samples are those of the pixels.
-/
import Verif.Jxl.ColorModel

namespace Zune.Jxl

/-! ### Specification: the inverse transform of a JPEG XL decoder -/

/-- Inverse of the reversible colour transform `YCoCg` (ISO/IEC 18181-1, reversible colour transforms, type 6).  Integers are unbounded and
    `/ 2` rounds down. -/
def unYcocg (y co cg : Int) : Int × Int × Int :=
  let tmp := y - cg / 2
  let g := cg + tmp
  let b := tmp - co / 2
  let r := b + co
  (r, g, b)

/-- What a decoder makes of the channels of a pixel: one or two channels are kept, three or four are transformed. -/
def decodePixel : List Int → List Int
  | [y, co, cg] => let c := unYcocg y co cg; [c.1, c.2.1, c.2.2]
  | [y, co, cg, a] => let c := unYcocg y co cg; [c.1, c.2.1, c.2.2, a]
  | l => l

/-! ### Arithmetic without overflow -/

theorem toInt_add_of {w : Nat} {x y : BitVec w} (h1 : -2 ^ (w - 1) ≤ x.toInt + y.toInt) (h2 : x.toInt + y.toInt < 2 ^ (w - 1)) (hw : 0 < w) :
    (x + y).toInt = x.toInt + y.toInt := by
  have hp : ((2 ^ w : Nat) : Int) = 2 * 2 ^ (w - 1) := by
    obtain ⟨k, rfl⟩ : ∃ k, w = k + 1 := ⟨w - 1, by omega⟩
    rw [Nat.add_sub_cancel]; push_cast; rw [pow_succ]; ring
  rw [BitVec.toInt_add]
  exact Int.bmod_eq_of_le (by omega) (by omega)

theorem toInt_sub_of {w : Nat} {x y : BitVec w} (h1 : -2 ^ (w - 1) ≤ x.toInt - y.toInt) (h2 : x.toInt - y.toInt < 2 ^ (w - 1)) (hw : 0 < w) :
    (x - y).toInt = x.toInt - y.toInt := by
  have hp : ((2 ^ w : Nat) : Int) = 2 * 2 ^ (w - 1) := by
    obtain ⟨k, rfl⟩ : ∃ k, w = k + 1 := ⟨w - 1, by omega⟩
    rw [Nat.add_sub_cancel]; push_cast; rw [pow_succ]; ring
  rw [BitVec.toInt_sub]
  exact Int.bmod_eq_of_le (by omega) (by omega)

theorem toInt_half {w : Nat} (x : BitVec w) : (x.sshiftRight 1).toInt = x.toInt / 2 := by
  rw [BitVec.toInt_sshiftRight, Int.shiftRight_eq_div_pow]; rfl

/-- The transform over the integers. -/
theorem ycocg_toInt {w : Nat} {r g b : BitVec w} (M : Int) (hM : 2 * M < 2 ^ (w - 1)) (hw : 0 < w)
    (hr : 0 ≤ r.toInt ∧ r.toInt ≤ M) (hg : 0 ≤ g.toInt ∧ g.toInt ≤ M) (hb : 0 ≤ b.toInt ∧ b.toInt ≤ M) :
    (ycocg r g b).2.1.toInt = r.toInt - b.toInt ∧
    (ycocg r g b).2.2.toInt = g.toInt - (b.toInt + (r.toInt - b.toInt) / 2) ∧
    (ycocg r g b).1.toInt = b.toInt + (r.toInt - b.toInt) / 2 + (g.toInt - (b.toInt + (r.toInt - b.toInt) / 2)) / 2 := by
  obtain ⟨r1, r2⟩ := hr
  obtain ⟨g1, g2⟩ := hg
  obtain ⟨b1, b2⟩ := hb
  have e1 : (r - b).toInt = r.toInt - b.toInt := toInt_sub_of (by omega) (by omega) hw
  have e2 : (b + (r - b).sshiftRight 1).toInt = b.toInt + (r.toInt - b.toInt) / 2 := by
    rw [toInt_add_of, toInt_half, e1] <;> (try rw [toInt_half, e1]) <;> omega
  have e3 : (g - (b + (r - b).sshiftRight 1)).toInt = g.toInt - (b.toInt + (r.toInt - b.toInt) / 2) := by
    rw [toInt_sub_of, e2] <;> (try rw [e2]) <;> omega
  refine ⟨e1, e3, ?_⟩
  show (b + (r - b).sshiftRight 1 + (g - (b + (r - b).sshiftRight 1)).sshiftRight 1).toInt = _
  rw [toInt_add_of, toInt_half, e2, e3] <;> (try rw [toInt_half, e2, e3]) <;> omega

theorem ofByte_toInt (b : UInt8) : (ofByte 16 b).toInt = b.toNat := by
  have h := b.toNat_lt
  rw [ofByte, BitVec.toInt_eq_toNat_cond, BitVec.toNat_ofNat]
  split <;> omega

theorem word_lt (a b : UInt8) : leVal [a, b] < 65536 := by
  have := beVal_lt [a, b].reverse
  simpa [leVal] using this

theorem ofWord_toInt (a b : UInt8) : (ofWord 32 a b).toInt = leVal [a, b] := by
  have h := word_lt a b
  rw [ofWord, BitVec.toInt_eq_toNat_cond, BitVec.toNat_ofNat]
  split <;> omega

/-! ### C50 -/

/-- **C50** The transform over machine integers of either encoder is the transform over the integers (nothing overflows), its results stay
    within one more bit than the samples, and a decoder recovers red, green and blue exactly. -/
theorem c50_ycocg {w : Nat} (r g b : BitVec w) (M : Int) (hw : (w = 16 ∧ M = 255) ∨ (w = 32 ∧ M = 65535))
    (hr : 0 ≤ r.toInt ∧ r.toInt ≤ M) (hg : 0 ≤ g.toInt ∧ g.toInt ≤ M) (hb : 0 ≤ b.toInt ∧ b.toInt ≤ M) :
    unYcocg (ycocg r g b).1.toInt (ycocg r g b).2.1.toInt (ycocg r g b).2.2.toInt = (r.toInt, g.toInt, b.toInt) ∧
      (0 ≤ (ycocg r g b).1.toInt ∧ (ycocg r g b).1.toInt ≤ M) ∧ (-M ≤ (ycocg r g b).2.1.toInt ∧ (ycocg r g b).2.1.toInt ≤ M) ∧
      (-M ≤ (ycocg r g b).2.2.toInt ∧ (ycocg r g b).2.2.toInt ≤ M) ∧ (ycocg r g b).2.1.toInt = r.toInt - b.toInt := by
  have hM : 2 * M < 2 ^ (w - 1) := by rcases hw with ⟨rfl, rfl⟩ | ⟨rfl, rfl⟩ <;> decide
  obtain ⟨h1, h2, h3⟩ := ycocg_toInt M hM (by omega) hr hg hb
  rw [h1, h2, h3]
  refine ⟨?_, ?_, ?_, ?_, rfl⟩
  · simp only [unYcocg]
    refine Prod.ext ?_ (Prod.ext ?_ ?_) <;> simp only <;> omega
  all_goals omega

example : ycocg (200 : BitVec 16) 100 50 = (112, 150, -25) ∧ unYcocg 112 150 (-25) = (200, 100, 50) := by decide

/-- **C50** For every pixel of an 8-bit image in one of the four layouts, a decoder recovers the pixel from the samples of its channels. -/
theorem c50_pixel8 (px : List UInt8) (h : px.length = 1 ∨ px.length = 2 ∨ px.length = 3 ∨ px.length = 4) :
    decodePixel ((pixel8 16 px).map BitVec.toInt) = px.map fun b => (b.toNat : Int) := by
  have hb : ∀ b : UInt8, 0 ≤ (ofByte 16 b).toInt ∧ (ofByte 16 b).toInt ≤ 255 := by
    intro b
    rw [ofByte_toInt]
    have := b.toNat_lt
    omega
  rcases h with h | h | h | h
  · match px, h with
    | [l], _ => simp [pixel8, decodePixel, ofByte_toInt]
  · match px, h with
    | [l, a], _ => simp [pixel8, decodePixel, ofByte_toInt]
  · match px, h with
    | [r, g, b], _ =>
      have := (c50_ycocg (w := 16) _ _ _ 255 (by simp) (hb r) (hb g) (hb b)).1
      simp [pixel8, decodePixel, this, ofByte_toInt]
  · match px, h with
    | [r, g, b, a], _ =>
      have := (c50_ycocg (w := 16) _ _ _ 255 (by simp) (hb r) (hb g) (hb b)).1
      simp [pixel8, decodePixel, this, ofByte_toInt]

/-- The 16-bit values of a pixel. -/
def words : List UInt8 → List Int
  | a :: b :: t => (leVal [a, b] : Int) :: words t
  | _ => []

/-- **C50** For every pixel of a 16-bit image in grey, RGB or RGBA, a decoder recovers the pixel from the samples of its channels.  Grey
    with alpha is missing: see `c50_ga16_wrong`. -/
theorem c50_pixel16_partial (px : List UInt8) (h : px.length = 2 ∨ px.length = 6 ∨ px.length = 8) :
    decodePixel ((pixel16 32 px).map BitVec.toInt) = words px := by
  have hb : ∀ a b : UInt8, 0 ≤ (ofWord 32 a b).toInt ∧ (ofWord 32 a b).toInt ≤ 65535 := by
    intro a b
    rw [ofWord_toInt]
    have := word_lt a b
    omega
  rcases h with h | h | h
  · match px, h with
    | [l, m], _ => simp [pixel16, decodePixel, ofWord_toInt, words]
  · match px, h with
    | [r, r', g, g', b, b'], _ =>
      have := (c50_ycocg (w := 32) _ _ _ 65535 (by simp) (hb r r') (hb g g') (hb b b')).1
      simp [pixel16, decodePixel, this, ofWord_toInt, words]
  · match px, h with
    | [r, r', g, g', b, b', a, a'], _ =>
      have := (c50_ycocg (w := 32) _ _ _ 65535 (by simp) (hb r r') (hb g g') (hb b b')).1
      simp [pixel16, decodePixel, this, ofWord_toInt, words]

example : words [0x34, 0x12, 0xFF, 0xFF, 0, 0x80] = [0x1234, 0xFFFF, 0x8000] := by decide

/-- **C50** fails for 16-bit grey with alpha: the values are read as signed, so every grey or alpha value from 32768 on becomes
    negative (disagreement JX1). -/
theorem c50_ga16_wrong (l0 l1 a0 a1 : UInt8) :
    decodePixel ((pixel16 32 [l0, l1, a0, a1]).map BitVec.toInt)
      = (words [l0, l1, a0, a1]).map fun v => if v < 32768 then v else v - 65536 := by
  have h : ∀ a b : UInt8, (ofSignedWord 32 a b).toInt = if (leVal [a, b] : Int) < 32768 then (leVal [a, b] : Int) else leVal [a, b] - 65536 := by
    intro a b
    have h1 := word_lt a b
    rw [ofSignedWord, BitVec.toInt_signExtend_of_le (by decide), BitVec.toInt_eq_toNat_cond, BitVec.toNat_ofNat]
    split <;> split <;> omega
  simp [pixel16, decodePixel, h, words]

example : words [0, 0x80, 0xFF, 0xFF] = [32768, 65535] := by decide

end Zune.Jxl
