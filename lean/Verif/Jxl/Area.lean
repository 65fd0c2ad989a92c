/-
Lemmas about the prediction stage of the JPEG XL encoder.
-/
import Verif.Jxl.AreaModel
import Verif.Jxl.ColorProps

namespace Zune.Jxl

/-! ### Specification: prediction and sign packing of a JPEG XL decoder -/

/-- `Gradient` predictor of ISO/IEC 18181-1: left + top - topleft, clamped between left and top. -/
def gradient (left top topleft : Int) : Int := max (min left top) (min (left + top - topleft) (max left top))

/-- `UnpackSigned` of ISO/IEC 18181-1. -/
def unpackSigned (u : Nat) : Int := if u % 2 = 0 then (u / 2 : Nat) else -((u + 1) / 2 : Nat)

/-- Its inverse: even numbers for values from zero on, odd ones for negative values. -/
def packSigned (v : Int) : Nat := if 0 ≤ v then (2 * v).toNat else (-2 * v - 1).toNat

theorem unpack_pack (v : Int) : unpackSigned (packSigned v) = v := by
  rw [packSigned, unpackSigned]
  split <;> split <;> omega

/-! ### One residual -/

theorem slt_zero {w : Nat} (x : BitVec w) : x.slt 0 = x.msb := by
  rw [BitVec.slt_eq_decide, BitVec.msb_eq_toInt]
  congr 2
  simp

theorem xor_slt {w : Nat} (a b : BitVec w) : (a ^^^ b).slt 0 = (decide (a.toInt < 0) ^^ decide (b.toInt < 0)) := by
  rw [slt_zero, BitVec.msb_xor, BitVec.msb_eq_toInt, BitVec.msb_eq_toInt]

theorem prediction_toInt {w : Nat} {left top topleft : BitVec w} (B : Int) (hw : 0 < w) (hB : 4 * B < 2 ^ (w - 1))
    (hl : -B ≤ left.toInt ∧ left.toInt ≤ B) (ht : -B ≤ top.toInt ∧ top.toInt ≤ B) (hc : -B ≤ topleft.toInt ∧ topleft.toInt ≤ B) :
    (prediction left top topleft).toInt = gradient left.toInt top.toInt topleft.toInt := by
  have e1 : (left - topleft).toInt = left.toInt - topleft.toInt := toInt_sub_of (by omega) (by omega) hw
  have e2 : (left - top).toInt = left.toInt - top.toInt := toInt_sub_of (by omega) (by omega) hw
  have e3 : (top - topleft).toInt = top.toInt - topleft.toInt := toInt_sub_of (by omega) (by omega) hw
  have e4 : (left - topleft + top).toInt = left.toInt - topleft.toInt + top.toInt := by
    rw [toInt_add_of (by rw [e1]; omega) (by rw [e1]; omega) hw, e1]
  simp only [prediction, xor_slt, e1, e2, e3, gradient]
  by_cases h1 : left.toInt - topleft.toInt < 0 <;> by_cases h3 : top.toInt - topleft.toInt < 0 <;>
    by_cases h2 : left.toInt - top.toInt < 0 <;> simp [h1, h2, h3, e4] <;> omega

theorem gradient_bound {B l t c : Int} (hl : -B ≤ l ∧ l ≤ B) (ht : -B ≤ t ∧ t ≤ B) : -B ≤ gradient l t c ∧ gradient l t c ≤ B := by
  rw [gradient]; omega

theorem packedSigned_toNat (v : BitVec 32) :
    (packedSigned v).toNat = packSigned v.toInt := by
  have hv := v.isLt
  by_cases hm : 2 * v.toNat < 2 ^ 32
  · have h1 : v.toInt = v.toNat := by rw [BitVec.toInt_eq_toNat_cond, if_pos hm]
    have h2 : (~~~v) >>> 31 = (1 : BitVec 32) := by
      apply BitVec.eq_of_toNat_eq
      rw [BitVec.toNat_ushiftRight, BitVec.toNat_not, Nat.shiftRight_eq_div_pow]
      show _ = 1
      omega
    rw [packedSigned, h2, show (1 : BitVec 32) - 1 = 0#32 by decide, BitVec.xor_zero, BitVec.toNat_shiftLeft, Nat.shiftLeft_eq, h1, packSigned,
      if_pos (by omega)]
    omega
  · have h1 : v.toInt = v.toNat - 2 ^ 32 := by rw [BitVec.toInt_eq_toNat_cond, if_neg hm]; rfl
    have h2 : (~~~v) >>> 31 = (0 : BitVec 32) := by
      apply BitVec.eq_of_toNat_eq
      rw [BitVec.toNat_ushiftRight, BitVec.toNat_not, Nat.shiftRight_eq_div_pow]
      show _ = 0
      omega
    rw [packedSigned, h2, show (0 : BitVec 32) - 1 = BitVec.allOnes 32 by decide, BitVec.xor_allOnes, BitVec.toNat_not, BitVec.toNat_shiftLeft,
      Nat.shiftLeft_eq, h1, packSigned, if_neg (by omega)]
    omega

theorem residual_eq {w : Nat} {px left top topleft : BitVec w} (B : Int) (hw : 0 < w) (hw' : w ≤ 32) (hB : 4 * B < 2 ^ (w - 1))
    (hp : -B ≤ px.toInt ∧ px.toInt ≤ B)
    (hl : -B ≤ left.toInt ∧ left.toInt ≤ B) (ht : -B ≤ top.toInt ∧ top.toInt ≤ B) (hc : -B ≤ topleft.toInt ∧ topleft.toInt ≤ B) :
    residual px left top topleft = packSigned (px.toInt - gradient left.toInt top.toInt topleft.toInt) := by
  have e1 := prediction_toInt B hw hB hl ht hc
  have hg := gradient_bound (c := topleft.toInt) hl ht
  have e2 : (px - prediction left top topleft).toInt = px.toInt - gradient left.toInt top.toInt topleft.toInt := by
    rw [toInt_sub_of (by rw [e1]; omega) (by rw [e1]; omega) hw, e1]
  have hp2 : (2 : Int) ^ (w - 1) ≤ 2 ^ 31 := by
    have := Nat.pow_le_pow_right (show 0 < 2 by decide) (show w - 1 ≤ 31 by omega)
    exact_mod_cast this
  have e3 : ((px - prediction left top topleft).signExtend 32).toInt = px.toInt - gradient left.toInt top.toInt topleft.toInt := by
    rw [BitVec.toInt_signExtend_of_le hw', e2]
  rw [residual]
  show ((packedSigned _).setWidth w).toNat = _
  rw [BitVec.toNat_setWidth, packedSigned_toNat, e3]
  have hw2 : (2 : Int) ^ w = 2 * 2 ^ (w - 1) := by
    obtain ⟨k, rfl⟩ : ∃ k, w = k + 1 := ⟨w - 1, by omega⟩
    rw [Nat.add_sub_cancel, pow_succ]; ring
  apply Nat.mod_eq_of_lt
  have : ((packSigned (px.toInt - gradient left.toInt top.toInt topleft.toInt) : Nat) : Int) < ((2 ^ w : Nat) : Int) := by
    push_cast
    rw [packSigned]
    split <;> omega
  exact_mod_cast this

/-! ### Runs -/

theorem prefixSize_fold (l : List Nat) (a b : Nat) (h : a ≤ b) :
    (l.foldl (fun (p : Nat × Nat) r => (if p.1 = p.2 then p.1 + (if r = 0 then 1 else 0) else p.1, p.2 + 1)) (a, b)).1
      = if a = b then a + (l.takeWhile (· == 0)).length else a := by
  induction l generalizing a b with
  | nil => simp
  | cons r l ih =>
    rw [List.foldl_cons]
    by_cases hab : a = b
    · subst hab
      by_cases hr : r = 0
      · subst hr
        simp only [if_true]
        rw [ih (a + 1) (a + 1) (by omega), if_pos rfl]
        simp; omega
      · simp only [if_true, if_neg hr]
        rw [ih (a + 0) (a + 1) (by omega), if_neg (by omega)]
        simp [hr]
    · simp only [if_neg hab]
      rw [ih a (b + 1) (by omega), if_neg (by omega)]

theorem prefixSize_eq (l : List Nat) : prefixSize l = (l.takeWhile (· == 0)).length := by
  rw [prefixSize, prefixSize_fold l 0 0 (Nat.le_refl _)]; simp

theorem take_prefix (l : List Nat) (n : Nat) : l.take (min n (prefixSize l)) = List.replicate (min n (prefixSize l)) 0 := by
  rw [List.eq_replicate_iff]
  have hl : prefixSize l ≤ l.length := by rw [prefixSize_eq]; exact (List.takeWhile_prefix _).length_le
  refine ⟨by rw [List.length_take]; omega, ?_⟩
  intro b hb
  rw [← List.take_take] at hb
  have h1 : l.take (prefixSize l) = l.takeWhile (· == 0) := by
    rw [prefixSize_eq]
    exact ((List.prefix_iff_eq_take).1 (List.takeWhile_prefix _)).symm
  rw [h1] at hb
  have := List.all_eq_true.1 (List.all_takeWhile (l := l) (p := (· == 0))) b (List.mem_of_mem_take hb)
  simpa using this

/-- The residuals a call stands for. -/
def Call.expand (c : Call) : List Nat := List.replicate c.run 0 ++ c.residuals

/-- The residuals handed over so far, the pending run included. -/
def Proc.symbols (p : Proc) : List Nat := p.calls.flatMap Call.expand ++ List.replicate p.run 0

/-- Runs are absent or longer than `K_LZ77_MIN_LENGTH`. -/
def Proc.Runs (p : Proc) : Prop := (p.run = 0 ∨ 8 ≤ p.run) ∧ ∀ c ∈ p.calls, c.run = 0 ∨ 8 ≤ c.run

theorem chunk_symbols {w : Nat} (p : Proc) (row left top topleft : Nat → BitVec w) (n : Nat) (hp : p.Runs) :
    (p.chunk row left top topleft n).symbols
      = p.symbols ++ ((List.range chunkSize).map fun ix => residual (row ix) (left ix) (top ix) (topleft ix)).take n
    ∧ (p.chunk row left top topleft n).Runs := by
  rw [Proc.chunk]
  generalize (List.range chunkSize).map (fun ix => residual (row ix) (left ix) (top ix) (topleft ix)) = l
  have ht := take_prefix l n
  have hn : min n (prefixSize l) ≤ n := by omega
  have hs : l.take n = List.replicate (min n (prefixSize l)) 0 ++ (l.take n).drop (min n (prefixSize l)) := by
    rw [← ht]
    conv_lhs => rw [← List.take_append_drop (min n (prefixSize l)) (l.take n)]
    rw [List.take_take, Nat.min_eq_left hn]
  generalize min n (prefixSize l) = q at *
  split
  · rename_i h
    obtain ⟨rfl, h⟩ := h
    refine ⟨?_, ⟨?_, hp.2⟩⟩
    · have : l.take q = List.replicate q 0 := ht
      simp only [Proc.symbols, this, List.append_assoc, List.replicate_append_replicate]
    · have := hp.1
      simp only [lz77MinLength] at h ⊢
      omega
  · rename_i h
    split
    · rename_i h2
      refine ⟨?_, ⟨Or.inl rfl, ?_⟩⟩
      · simp only [Proc.symbols, Call.expand, List.flatMap_append, List.flatMap_cons, List.flatMap_nil, List.append_nil,
          List.replicate_zero, List.append_assoc, ← List.replicate_append_replicate]
        rw [← hs]
      · intro c hc
        rw [List.mem_append, List.mem_singleton] at hc
        rcases hc with hc | rfl
        · exact hp.2 c hc
        · simp only [lz77MinLength] at h2 ⊢
          omega
    · rename_i h2
      have hr : p.run = 0 := by
        have := hp.1
        simp only [lz77MinLength] at h2
        omega
      refine ⟨?_, ⟨Or.inl hr, ?_⟩⟩
      · simp [Proc.symbols, Call.expand, hr]
      · intro c hc
        rw [List.mem_append, List.mem_singleton] at hc
        rcases hc with hc | rfl
        · exact hp.2 c hc
        · exact Or.inl rfl

theorem row_symbols {w : Nat} (p : Proc) (row left top topleft : Nat → BitVec w) (xs x : Nat) (hp : p.Runs) :
    (p.row row left top topleft xs x).symbols
      = p.symbols ++ (List.range' x (xs - x)).map (fun ix => residual (row ix) (left ix) (top ix) (topleft ix))
    ∧ (p.row row left top topleft xs x).Runs := by
  fun_induction Proc.row p row left top topleft xs x with
  | case1 p x h ih =>
    obtain ⟨h1, h2⟩ := chunk_symbols p (fun i => row (x + i)) (fun i => left (x + i)) (fun i => top (x + i)) (fun i => topleft (x + i))
      (min chunkSize (xs - x)) hp
    obtain ⟨h3, h4⟩ := ih h2
    refine ⟨?_, h4⟩
    rw [h3, h1, List.append_assoc]
    congr 1
    rw [← List.map_take, List.take_range, Nat.min_eq_left (Nat.min_le_left _ _)]
    have e : List.range' x (xs - x) = List.range' x (min chunkSize (xs - x)) ++ List.range' (x + chunkSize) (xs - (x + chunkSize)) := by
      simp only [chunkSize]
      by_cases h8 : 8 ≤ xs - x
      · rw [Nat.min_eq_left h8, List.range'_append_1]; congr 1; omega
      · rw [Nat.min_eq_right (by omega), show xs - (x + 8) = 0 by omega]; simp
    rw [e, List.map_append]
    congr 1
    rw [List.range'_eq_map_range, List.map_map]
    rfl
  | case2 p x h =>
    rw [show xs - x = 0 by omega]
    simpa using hp

end Zune.Jxl
