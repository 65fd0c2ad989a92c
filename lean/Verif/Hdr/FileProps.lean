/-
Radiance files: headers are read as written, RGBE pixels mean what they should within a range of exponents; dark pixels do not survive the
encoder (C125).
-/
import Verif.Hdr.FileLemmas

namespace Zune.Hdr.File

open Zune.Float (rnd)
open Zune.Ppm (decimal)

namespace Spec

/-- The names the encoder uses itself: `SOFTWARE` and its value `zune-hdr`. -/
def software : List UInt8 × List UInt8 := ([83, 79, 70, 84, 87, 65, 82, 69], [122, 117, 110, 101, 45, 104, 100, 114])

/-- `FORMAT` and its value `32-bit_rle_rgbe`. -/
def format : List UInt8 × List UInt8 := ([70, 79, 82, 77, 65, 84], [51, 50, 45, 98, 105, 116, 95, 114, 108, 101, 95, 114, 103, 98, 101])

/-- The value of a key in a file with the given headers; of equal keys the last counts. -/
def value (hs : List (List UInt8 × List UInt8)) (k : List UInt8) : Option (List UInt8) := (([software] ++ hs ++ [format]).reverse).lookup k

/-- The number RGBE bytes stand for: `val * 2 ^ (e - 136)`, and zero for the exponent zero. -/
def rgbe (val e : UInt8) : Rat := if e = 0 then 0 else val.toNat * (2 : Rat) ^ ((e.toNat : Int) - 136)

end Spec
open Zune.Hdr.File.Spec

theorem plain_of (l : List UInt8) (h : (l.all fun b => decide (b < 128) && b != 10 && b != 61) = true)
    (h1 : (l.head?.all fun b => !isBlank b) = true) (h2 : (l.getLast?.all fun b => !isBlank b) = true) : Plain l := by
  refine ⟨fun b hb => ?_, fun b hb => ?_, fun b hb => ?_⟩
  · have := List.all_eq_true.1 h b hb
    simpa [and_assoc] using this
  · rw [hb] at h1; simpa using h1
  · rw [hb] at h2; simpa using h2

/-- **C125** (headers). What `encode` writes before the scanlines is read as the given dimensions and keys with their values, whatever follows;
too large dimensions are refused. -/
theorem c125_headers (hs : List (List UInt8 × List UInt8)) (hp : ∀ e ∈ hs, Plain e.1 ∧ Plain e.2 ∧ e.1.head? ≠ some 35)
    (w h maxW maxH : Nat) (hw : w < 2 ^ 64) (hh : h < 2 ^ 64) (s : List UInt8) :
    (w ≤ maxW → h ≤ maxH → ∃ hd, decodeHeaders maxW maxH (encodeHeaders hs w h ++ s) = .ok (hd, s) ∧ hd.width = w ∧ hd.height = h ∧
      ∀ k, hd.metadata.lookup k = value hs k) ∧
    (maxW < w ∨ maxH < h → decodeHeaders maxW maxH (encodeHeaders hs w h ++ s) = .error .large) := by
  have pS : Plain software.1 ∧ Plain software.2 ∧ software.1.head? ≠ some 35 :=
    ⟨plain_of _ (by decide) (by decide) (by decide), plain_of _ (by decide) (by decide) (by decide), by decide⟩
  have pF : Plain format.1 ∧ Plain format.2 ∧ format.1.head? ≠ some 35 :=
    ⟨plain_of _ (by decide) (by decide) (by decide), plain_of _ (by decide) (by decide) (by decide), by decide⟩
  have hall : ∀ e ∈ [software] ++ hs ++ [format], Plain e.1 ∧ Plain e.2 ∧ e.1.head? ≠ some 35 := by
    intro e he
    simp only [List.mem_append, List.mem_singleton] at he
    rcases he with (rfl | he) | rfl
    · exact pS
    · exact hp e he
    · exact pF
  have e0 : encodeHeaders hs w h ++ s = [35, 63, 82, 65, 68, 73, 65, 78, 67, 69] ++ 10 ::
      (([software] ++ hs ++ [format]).flatMap (fun e => e.1 ++ [61] ++ e.2 ++ [10]) ++
        10 :: ([45, 89] ++ 32 :: (decimal h ++ 32 :: ([43, 88] ++ 32 :: (decimal w ++ 10 :: s))))) := by
    simp [encodeHeaders, software, format]
  have core : decodeHeaders maxW maxH (encodeHeaders hs w h ++ s) =
      if maxH < h ∨ maxW < w then .error .large
      else .ok (⟨w, h, ([software] ++ hs ++ [format]).foldl (fun md e => insert e.1 e.2 md) []⟩, s) := by
    rw [e0]
    unfold decodeHeaders
    rw [getUntil_app 10 _ _ (by simp)]
    dsimp only
    rw [if_neg (by decide), headLoop_lines _ hall, headLoop_end]
    dsimp only
    rw [getUntil_app 32 [45, 89] _ (by simp)]
    dsimp only
    rw [getUntil_app 32 (decimal h) _ fun b hb => (decimal_digits h b hb).2.2.1]
    dsimp only
    rw [getUntil_app 32 [43, 88] _ (by simp)]
    dsimp only
    rw [getUntil_app 10 (decimal w) _ fun b hb => (decimal_digits w b hb).2.1]
    dsimp only
    rw [if_pos ⟨by decide, by decide⟩, trim_decimal h 32 (by decide), trim_decimal w 10 (by decide), parse_decimal h hh, parse_decimal w hw]
  rw [core]
  constructor
  · intro h1 h2
    rw [if_neg (by omega)]
    refine ⟨_, rfl, rfl, rfl, fun k => ?_⟩
    rw [lookup_foldl]
    simp [value]
  · intro hl
    rw [if_pos (by omega)]

/-- A header for the examples: `A=b c`. -/
def exHeader : List (List UInt8 × List UInt8) := [([65], [98, 32, 99])]

example : (∀ e ∈ exHeader, Plain e.1 ∧ Plain e.2 ∧ e.1.head? ≠ some 35) ∧ value exHeader [65] = some [98, 32, 99] := by
  refine ⟨?_, by decide⟩
  intro e he
  rw [List.mem_singleton.1 he]
  exact ⟨plain_of _ (by decide) (by decide) (by decide), plain_of _ (by decide) (by decide) (by decide), by decide⟩

/-- **C125** (files). With scanlines of 8 to 32767 pixels a whole file is read back: dimensions, keys and all RGBE bytes. -/
theorem c125_file_partial (hs : List (List UInt8 × List UInt8)) (hp : ∀ e ∈ hs, Plain e.1 ∧ Plain e.2 ∧ e.1.head? ≠ some 35)
    (w maxW maxH : Nat) (lines : List (List UInt8)) (hw : 8 ≤ w) (hw2 : w ≤ 0x7fff) (hmw : w ≤ maxW) (hmh : lines.length ≤ maxH)
    (hsize : w * lines.length * 3 < 2 ^ 64) (hl : ∀ l ∈ lines, l.length = 4 * w) :
    ∃ hd, decodeFile maxW maxH (encodeFile hs w lines.length lines) = .ok (hd, lines) ∧ hd.width = w ∧ hd.height = lines.length ∧
      ∀ k, hd.metadata.lookup k = value hs k := by
  have hlen : lines.length ≤ w * lines.length := Nat.le_mul_of_pos_left _ (by omega)
  obtain ⟨hd, h1, h2, h3, h4⟩ := (c125_headers hs hp w lines.length maxW maxH (by omega) (by omega) (encodeLines w lines)).1 hmw hmh
  refine ⟨hd, ?_, h2, h3, h4⟩
  unfold decodeFile encodeFile
  rw [h1]
  dsimp only
  rw [h2, h3, if_neg (by omega), if_neg (by omega)]
  have := c22_image_roundtrip lines (List.replicate (4 * w) 0) [] w hw hw2 hl
  rw [List.append_nil] at this
  rw [this]

example : (8 ≤ 8 ∧ 8 ≤ 0x7fff ∧ 8 * [List.replicate 32 (5 : UInt8)].length * 3 < 2 ^ 64 ∧ ∀ l ∈ [List.replicate 32 (5 : UInt8)], l.length = 4 * 8) := by
  decide

/-- **C125** (values). A pixel whose exponent byte is between 97 and 159, or zero, gets the values its bytes stand for, without rounding. -/
theorem c125_values_partial (val e : UInt8) (h : e = 0 ∨ (97 ≤ e.toNat ∧ e.toNat ≤ 159)) : convert val e = rgbe val e := by
  by_cases he : e = 0
  · subst he; rfl
  · have h := h.resolve_left he
    rw [convert_eq val e he]
    unfold rgbe
    rw [if_neg he]
    by_cases h2 : 128 < e.toNat
    · rw [if_pos h2, Nat.mod_eq_of_lt (by omega), show (e.toNat : Int) - 136 = ((e.toNat - 128 : Nat) : Int) - 8 by omega, zpow_sub₀ (by norm_num),
        zpow_natCast]
      norm_num
      ring
    · rw [if_neg h2, Nat.mod_eq_of_lt (by omega), show (e.toNat : Int) - 136 = -((128 - e.toNat : Nat) : Int) - 8 by omega, zpow_sub₀ (by norm_num),
        zpow_neg, zpow_natCast]
      norm_num
      field_simp

example : convert 200 130 = 25 / 8 ∧ convert 200 100 = 200 / 2 ^ 36 := by
  rw [c125_values_partial 200 130 (by decide), c125_values_partial 200 100 (by decide)]
  unfold rgbe
  rw [if_neg (by decide), if_neg (by decide), show (130 : UInt8).toNat = 130 from rfl, show (100 : UInt8).toNat = 100 from rfl,
    show (200 : UInt8).toNat = 200 from rfl]
  norm_num

/-- **C125** (scanlines). `convert_scanline` gives the red, green and blue values of the pixels in order. -/
theorem c125_scanline_partial (px : List (UInt8 × UInt8 × UInt8 × UInt8))
    (h : ∀ p ∈ px, p.2.2.2 = 0 ∨ (97 ≤ p.2.2.2.toNat ∧ p.2.2.2.toNat ≤ 159)) :
    convertLine (px.flatMap fun p => [p.1, p.2.1, p.2.2.1, p.2.2.2]) =
      px.flatMap fun p => [rgbe p.1 p.2.2.2, rgbe p.2.1 p.2.2.2, rgbe p.2.2.1 p.2.2.2] := by
  induction px with
  | nil => rfl
  | cons p px ih =>
    have hp := h p (by simp)
    rw [List.flatMap_cons, List.flatMap_cons, ← ih fun q hq => h q (by simp [hq]), ← c125_values_partial _ _ hp, ← c125_values_partial _ _ hp,
      ← c125_values_partial _ _ hp]
    rfl

example : ∀ p ∈ [((1, 2, 3, 128) : UInt8 × UInt8 × UInt8 × UInt8), (0, 0, 0, 0)], p.2.2.2 = 0 ∨ (97 ≤ p.2.2.2.toNat ∧ p.2.2.2.toNat ≤ 159) := by
  decide

/-- **C125** (encoder). Whatever `exp2` of the platform is, if only it is not negative, the bytes of a pixel are ordered as its components are. -/
theorem c125_encode_order_partial (exp2 : Rat → Rat) (hx : ∀ t, 0 ≤ exp2 t) (r g b : Nat) :
    ∃ m0 m1 m2 e, floatToRgbe exp2 r g b = [m0, m1, m2, e] ∧
      (bitsVal r ≤ bitsVal g → m0 ≤ m1) ∧ (bitsVal g ≤ bitsVal r → m1 ≤ m0) ∧ (bitsVal g ≤ bitsVal b → m1 ≤ m2) ∧
      (bitsVal b ≤ bitsVal g → m2 ≤ m1) ∧ (bitsVal r ≤ bitsVal b → m0 ≤ m2) ∧ (bitsVal b ≤ bitsVal r → m2 ≤ m0) := by
  have hmono : ∀ (v : Rat), 0 ≤ v → ∀ c d : Nat, bitsVal c ≤ bitsVal d → mantissa v c ≤ mantissa v d := by
    intro v hv c d hcd
    have h1 := Float.rnd_mono (p := 24) (by omega) (mul_le_mul_of_nonneg_right hcd hv)
    have h2 : ⌊max 0 (min 255 (rnd 24 (bitsVal c * v)))⌋ ≤ ⌊max 0 (min 255 (rnd 24 (bitsVal d * v)))⌋ :=
      Int.floor_le_floor (max_le_max le_rfl (min_le_min le_rfl h1))
    have h3 : ⌊max 0 (min 255 (rnd 24 (bitsVal d * v)))⌋ ≤ 255 := by
      have : (max 0 (min 255 (rnd 24 (bitsVal d * v))) : Rat) ≤ (255 : Int) := by
        rw [max_le_iff]
        exact ⟨by norm_num, le_trans (min_le_left _ _) (by norm_num)⟩
      exact Int.cast_le.1 (le_trans (Int.floor_le _) this)
    unfold mantissa
    rw [UInt8.le_iff_toNat_le, UInt8.toNat_ofNat', UInt8.toNat_ofNat']
    omega
  have hnn : ∀ x : Rat, 0 ≤ x → 0 ≤ rnd 24 x := fun x h => Float.le_rnd (by omega) ⟨0, 0, by norm_num, by norm_num⟩ h
  have hb0 : ∀ n, 0 ≤ bitsVal n := by
    intro n
    unfold bitsVal
    split
    · exact mul_nonneg (Nat.cast_nonneg _) (zpow_nonneg (by norm_num) _)
    · exact mul_nonneg (Nat.cast_nonneg _) (zpow_nonneg (by norm_num) _)
  unfold floatToRgbe
  dsimp only
  split
  · have hv : 0 ≤ rnd 24 (rnd 24 ((frexpF exp2 (max (max r g) b)).1 * 256) / bitsVal (max (max r g) b)) :=
      hnn _ (div_nonneg (hnn _ (mul_nonneg (hx _) (by norm_num))) (hb0 _))
    exact ⟨_, _, _, _, rfl, hmono _ hv _ _, hmono _ hv _ _, hmono _ hv _ _, hmono _ hv _ _, hmono _ hv _ _, hmono _ hv _ _⟩
  · exact ⟨0, 0, 0, 0, rfl, by simp, by simp, by simp, by simp, by simp, by simp⟩

example : ∀ t : Rat, 0 ≤ (fun _ => (1 : Rat)) t := fun _ => by norm_num

/-- **C125** (disagreement). With any other exponent byte every component that is not zero gets a wrong value, off by a factor of at least `2 ^ 32`. -/
theorem c125_values_wrong (val e : UInt8) (hv : val ≠ 0) (he : e ≠ 0) (h : e.toNat < 97 ∨ 159 < e.toNat) :
    0 < rgbe val e ∧ (2 ^ 32 * rgbe val e ≤ convert val e ∨ 2 ^ 32 * convert val e ≤ rgbe val e) := by
  have hv0 : (0 : Rat) < val.toNat := by
    have : val.toNat ≠ 0 := fun h0 => hv (UInt8.toNat_inj.1 (by simpa using h0))
    exact_mod_cast Nat.pos_of_ne_zero this
  have hr : rgbe val e = val.toNat / 256 * (2 : Rat) ^ ((e.toNat : Int) - 128) := by
    unfold rgbe
    rw [if_neg he, show (e.toNat : Int) - 136 = ((e.toNat : Int) - 128) - 8 by omega, zpow_sub₀ (by norm_num)]
    norm_num
    ring
  refine ⟨by rw [hr]; exact mul_pos (div_pos hv0 (by norm_num)) (zpow_pos (by norm_num) _), ?_⟩
  rw [hr, convert_eq val e he]
  have hq : (0 : Rat) < val.toNat / 256 := div_pos hv0 (by norm_num)
  generalize (val.toNat : Rat) / 256 = q at hq
  have hlt := e.toNat_lt
  rcases h with h | h
  · left
    rw [if_neg (by omega)]
    have hk := Nat.div_add_mod (128 - e.toNat) 32
    have hd : 1 ≤ (128 - e.toNat) / 32 := by omega
    generalize (128 - e.toNat) % 32 = k at hk
    generalize (128 - e.toNat) / 32 = j at hk hd
    have : (e.toNat : Int) - 128 = -(32 * j + k : Int) := by omega
    rw [this, div_eq_mul_inv, ← zpow_natCast (2 : Rat) k, ← zpow_neg, mul_left_comm]
    refine mul_le_mul_of_nonneg_left ?_ hq.le
    rw [show (2 : Rat) ^ 32 = (2 : Rat) ^ (32 : Int) by norm_num, ← zpow_add₀ (by norm_num)]
    exact zpow_le_zpow_right₀ (by norm_num) (by omega)
  · right
    rw [if_pos (by omega)]
    have hk := Nat.div_add_mod (e.toNat - 128) 32
    have hd : 1 ≤ (e.toNat - 128) / 32 := by omega
    generalize (e.toNat - 128) % 32 = k at hk
    generalize (e.toNat - 128) / 32 = j at hk hd
    have : (e.toNat : Int) - 128 = (32 * j + k : Int) := by omega
    rw [this, ← zpow_natCast (2 : Rat) k, mul_left_comm]
    refine mul_le_mul_of_nonneg_left ?_ hq.le
    rw [show (2 : Rat) ^ 32 = (2 : Rat) ^ (32 : Int) by norm_num, ← zpow_add₀ (by norm_num)]
    exact zpow_le_zpow_right₀ (by norm_num) (by omega)

example : (128 : UInt8) ≠ 0 ∧ (96 : UInt8) ≠ 0 ∧ (96 : UInt8).toNat < 97 := by decide

/-- **C125** (disagreement). The encoder gives every pixel below one half the exponent byte 128, however dark it is and whatever `exp2` of the
platform returns. -/
theorem c125_dark_exponent (exp2 : Rat → Rat) (r g b : Nat) (h : bitsVal (max (max r g) b) < 1 / 2) :
    floatToRgbe exp2 r g b = [0, 0, 0, 0] ∨ ∃ m0 m1 m2, floatToRgbe exp2 r g b = [m0, m1, m2, 128] := floatToRgbe_dark exp2 r g b h

/-- **C125** (disagreement). So no grey pixel below 1/512 survives encoding and decoding: each component is off by at least its whole value, though
RGBE has room for numbers down to `2 ^ -135` with an error below one percent. -/
theorem c125_dark_wrong (exp2 : Rat → Rat) (c : Nat) (h0 : 0 < bitsVal c) (h : bitsVal c < 1 / 512) :
    ∃ d0 d1 d2, convertLine (floatToRgbe exp2 c c c) = [d0, d1, d2] ∧
      bitsVal c ≤ |d0 - bitsVal c| ∧ bitsVal c ≤ |d1 - bitsVal c| ∧ bitsVal c ≤ |d2 - bitsVal c| := by
  have hoff : ∀ m : UInt8, bitsVal c ≤ |convert m 128 - bitsVal c| := by
    intro m
    rw [convert_eq m 128 (by decide), if_neg (by decide)]
    have e : (128 - (128 : UInt8).toNat) % 32 = 0 := by decide
    rw [e, pow_zero, div_one]
    rcases Nat.eq_zero_or_pos m.toNat with hm | hm
    · rw [hm]
      norm_num
      rw [abs_of_pos h0]
    · have : (1 : Rat) ≤ m.toNat := by exact_mod_cast hm
      rw [abs_of_nonneg (by linarith)]
      linarith
  have hzero : bitsVal c ≤ |convert 0 0 - bitsVal c| := by
    rw [show convert 0 0 = 0 from rfl, zero_sub, abs_neg, abs_of_pos h0]
  rcases floatToRgbe_dark exp2 c c c (by rw [max_self, max_self]; linarith) with e | ⟨m0, m1, m2, e⟩
  · rw [e]
    exact ⟨_, _, _, rfl, hzero, hzero, hzero⟩
  · rw [e]
    exact ⟨_, _, _, rfl, hoff m0, hoff m1, hoff m2⟩

/-- The pattern of `2 ^ -10`. -/
example : 0 < bitsVal (117 * 2 ^ 23) ∧ bitsVal (117 * 2 ^ 23) = 1 / 1024 ∧ bitsVal (117 * 2 ^ 23) < 1 / 512 ∧
    rgbe 128 119 = 1 / 1024 := by
  have e : bitsVal (117 * 2 ^ 23) = 1 / 1024 := by
    unfold bitsVal
    norm_num
  refine ⟨by rw [e]; norm_num, e, by rw [e]; norm_num, ?_⟩
  unfold rgbe
  rw [if_neg (by decide), show (119 : UInt8).toNat = 119 from rfl, show (128 : UInt8).toNat = 128 from rfl]
  norm_num

/-- **C125** (disagreement). A value with an equals sign is cut off there: `A=b=c` is read as `b`. -/
theorem c125_equals_wrong : keyValue [65, 61, 98, 61, 99, 10] = ([65], [98]) := by decide +kernel

/-- Eight pixels without runs. -/
def exLine : List UInt8 := (List.range 32).map UInt8.ofNat

theorem exLine_length : (encodeLine exLine 8).length = 40 := by decide +kernel

/-- **C125** (disagreement). `expected_buffer_size` is said to be enough always; every picture of at least 128 lines of eight pixels without runs
needs more. -/
theorem c125_size_wrong (h : Nat) (hh : 128 ≤ h) :
    (∀ l ∈ List.replicate h exLine, l.length = 4 * 8) ∧ expectedSize 8 h < (encodeFile [] 8 h (List.replicate h exLine)).length := by
  refine ⟨fun l hl => by rw [List.eq_of_mem_replicate hl]; decide, ?_⟩
  have e : ∀ n, (encodeLines 8 (List.replicate n exLine)).length = 40 * n := by
    intro n
    induction n with
    | zero => rfl
    | succ n ih =>
      have : encodeLines 8 (List.replicate (n + 1) exLine) = encodeLine exLine 8 ++ encodeLines 8 (List.replicate n exLine) := by
        simp [encodeLines, List.replicate_succ]
      rw [this, List.length_append, ih, exLine_length]
      omega
  unfold encodeFile encodeHeaders expectedSize
  simp only [List.length_append, e, List.length_cons, List.length_nil]
  omega

end Zune.Hdr.File
