/- Lemmas about the PPM model: decimal numbers, whitespace, headers. -/
import Verif.Ppm.Model
import Verif.Farbfeld.Props
import Mathlib.Tactic.Ring

namespace Zune.Ppm
open Zune.Stream

theorem digit_toNat (d : Nat) (h : d < 10) : (UInt8.ofNat (48 + d)).toNat = 48 + d := by
  simp only [UInt8.toNat_ofNat']; omega

theorem isDigit_digit (d : Nat) (h : d < 10) : isDigit (UInt8.ofNat (48 + d)) = true := by
  unfold isDigit; rw [digit_toNat d h]; exact decide_eq_true (by omega)

/-- A byte that is neither whitespace nor the start of a comment. -/
def solid (b : UInt8) : Bool := !isWs b && b != 35

theorem solid_of_digit (b : UInt8) : isDigit b = true → solid b = true := by
  revert b; decide +kernel

theorem getInteger_decimal (n : Nat) (s : List UInt8) (h : n < Zune.Bytestream.usizeLim) :
    getInteger 0 (decimal n ++ s) = getInteger n s := by
  induction n using Nat.strongRecOn generalizing s with
  | ind n ih =>
    rw [decimal]
    split
    · rename_i h10
      rw [List.singleton_append, getInteger, isDigit_digit n h10, if_pos rfl, digit_toNat n h10]
      congr 1
      rw [Nat.zero_mul, Nat.zero_mod, Nat.zero_add, show 48 + n - 48 = n by omega, Nat.mod_eq_of_lt h]
    · rw [List.append_assoc, ih (n / 10) (by omega) _ (by omega), List.singleton_append, getInteger,
        isDigit_digit _ (Nat.mod_lt _ (by omega)), if_pos rfl, digit_toNat _ (Nat.mod_lt _ (by omega))]
      congr 1
      rw [Nat.mod_eq_of_lt (a := n / 10 * 10) (by omega), show 48 + n % 10 - 48 = n % 10 by omega,
        show n / 10 * 10 + n % 10 = n by omega, Nat.mod_eq_of_lt h]

theorem decimal_head (n : Nat) : ∃ b t, decimal n = b :: t ∧ isDigit b = true := by
  induction n using Nat.strongRecOn with
  | ind n ih =>
    rw [decimal]
    split
    · rename_i h; exact ⟨_, [], rfl, isDigit_digit n h⟩
    · obtain ⟨b, t, e, hb⟩ := ih (n / 10) (by omega)
      rw [e]; exact ⟨b, _, rfl, hb⟩

theorem skip_solid (b : UInt8) (s : List UInt8) (h : solid b = true) : skipSpaces false (b :: s) = b :: s := by
  unfold solid at h
  rw [Bool.and_eq_true] at h
  have h1 : isWs b = false := by simpa using h.1
  have h2 : (b == 35) = false := by simpa using h.2
  rw [skipSpaces, h1, h2]; rfl

theorem skip_nl (s : List UInt8) : skipSpaces false (10 :: s) = skipSpaces false s := rfl

theorem skip_sp (s : List UInt8) : skipSpaces false (32 :: s) = skipSpaces false s := rfl

theorem skip_decimal (n : Nat) (s : List UInt8) : skipSpaces false (decimal n ++ s) = decimal n ++ s := by
  obtain ⟨b, t, e, hb⟩ := decimal_head n
  rw [e, List.cons_append, skip_solid _ _ (solid_of_digit b hb)]

theorem getInteger_nl (n : Nat) (s : List UInt8) : getInteger n (10 :: s) = (n, 10 :: s) := rfl

theorem number (n : Nat) (s : List UInt8) (h : n < Zune.Bytestream.usizeLim) :
    getInteger 0 (skipSpaces false (10 :: (decimal n ++ 10 :: s))) = (n, 10 :: s) := by
  rw [skip_nl, skip_decimal, getInteger_decimal n _ h, getInteger_nl]

theorem p56_spec (maxW maxH w h m : Nat) (cs : Cs) (s : List UInt8) (hw : w ≤ maxW) (hh : h ≤ maxH)
    (hw' : w < Zune.Bytestream.usizeLim) (hh' : h < Zune.Bytestream.usizeLim) (hm : m ≤ 65535) :
    p56Header maxW maxH cs (10 :: (decimal w ++ 10 :: (decimal h ++ 10 :: (decimal m ++ 10 :: s)))) =
      .ok ({ w, h, cs, sixteen := decide (m > 255) }, skipSpaces false s) := by
  have hl : m < Zune.Bytestream.usizeLim := lt_of_le_of_lt hm (by decide)
  unfold p56Header
  rw [number w _ hw']
  simp only
  rw [if_neg (by omega), number h _ hh']
  simp only
  rw [if_neg (by omega), number m _ hl]
  simp only
  rw [if_neg (by omega), skip_nl]

theorem untilWs_key (acc key : List UInt8) (b : UInt8) (s : List UInt8) (hk : ∀ x ∈ key, isWs x = false) (hb : isWs b = true) :
    untilWs acc (key ++ b :: s) = (acc ++ key ++ [b], skipSpaces false s) := by
  induction key generalizing acc with
  | nil => simp [untilWs, hb]
  | cons k key ih =>
    rw [List.cons_append, untilWs, hk k (by simp), ih (acc ++ [k]) (fun x hx => hk x (by simp [hx]))]
    simp

/-- One line of the header: the newline left by the previous line, a keyword, a space, a decimal number. -/
theorem line (k : UInt8) (key : List UInt8) (n : Nat) (s : List UInt8) (hk : ∀ x ∈ k :: key, isWs x = false) (h35 : k ≠ 35) :
    untilWs [] (skipSpaces false (10 :: k :: (key ++ 32 :: (decimal n ++ 10 :: s)))) =
      (k :: (key ++ [32]), decimal n ++ 10 :: s) := by
  rw [skip_nl, skip_solid _ _ (by simp [solid, hk k (by simp), h35]),
    show k :: (key ++ 32 :: (decimal n ++ 10 :: s)) = (k :: key) ++ 32 :: (decimal n ++ 10 :: s) from rfl,
    untilWs_key [] (k :: key) 32 _ hk rfl, skip_decimal]
  rfl

theorem p7_width (maxW maxH : Nat) (st : P7) (n : Nat) (s : List UInt8) (h : n < Zune.Bytestream.usizeLim) (hm : n ≤ maxW) :
    p7Loop maxW maxH st (10 :: 87 :: ([73, 68, 84, 72] ++ 32 :: (decimal n ++ 10 :: s))) =
      p7Loop maxW maxH { st with w := some n } (10 :: s) := by
  rw [p7Loop.eq_def, if_neg (by simp), line 87 _ n s (by decide +kernel) (by decide +kernel)]
  simp only [List.cons_append, List.nil_append, dite_true]
  rw [getInteger_decimal n _ h, getInteger_nl]
  simp only
  rw [if_neg (by omega)]

theorem p7_height (maxW maxH : Nat) (st : P7) (n : Nat) (s : List UInt8) (h : n < Zune.Bytestream.usizeLim) (hm : n ≤ maxH) :
    p7Loop maxW maxH st (10 :: 72 :: ([69, 73, 71, 72, 84] ++ 32 :: (decimal n ++ 10 :: s))) =
      p7Loop maxW maxH { st with h := some n } (10 :: s) := by
  rw [p7Loop.eq_def, if_neg (by simp), line 72 _ n s (by decide +kernel) (by decide +kernel)]
  simp only [List.cons_append, List.nil_append, dite_true]
  rw [dif_neg (by decide), getInteger_decimal n _ h, getInteger_nl]
  simp only
  rw [if_neg (by omega)]

theorem p7_depth (maxW maxH : Nat) (st : P7) (n : Nat) (s : List UInt8) (hm : n ≤ 4) :
    p7Loop maxW maxH st (10 :: 68 :: ([69, 80, 84, 72] ++ 32 :: (decimal n ++ 10 :: s))) =
      p7Loop maxW maxH { st with depth := true } (10 :: s) := by
  have h : n < Zune.Bytestream.usizeLim := lt_of_le_of_lt hm (by decide)
  rw [p7Loop.eq_def, if_neg (by simp), line 68 _ n s (by decide +kernel) (by decide +kernel)]
  simp only [List.cons_append, List.nil_append, dite_true]
  rw [dif_neg (by decide), dif_neg (by decide), getInteger_decimal n _ h, getInteger_nl]
  simp only
  rw [if_neg (by omega)]

theorem p7_maxval (maxW maxH : Nat) (st : P7) (n : Nat) (s : List UInt8) (hm : n ≤ 65535) :
    p7Loop maxW maxH st (10 :: 77 :: ([65, 88, 86, 65, 76] ++ 32 :: (decimal n ++ 10 :: s))) =
      p7Loop maxW maxH { st with sixteen := some (decide (n > 255)) } (10 :: s) := by
  have h : n < Zune.Bytestream.usizeLim := lt_of_le_of_lt hm (by decide)
  rw [p7Loop.eq_def, if_neg (by simp), line 77 _ n s (by decide +kernel) (by decide +kernel)]
  simp only [List.cons_append, List.nil_append, dite_true]
  rw [dif_neg (by decide), dif_neg (by decide), dif_neg (by decide), getInteger_decimal n _ h, getInteger_nl]
  simp only
  rw [if_neg (by omega)]

theorem p7_end (maxW maxH : Nat) (st : P7) (s : List UInt8) :
    p7Loop maxW maxH st ([69, 78, 68, 72, 68, 82] ++ 10 :: s) = .ok (st, skipSpaces false s) := by
  have e : untilWs [] (skipSpaces false ([69, 78, 68, 72, 68, 82] ++ 10 :: s)) = ([69, 78, 68, 72, 68, 82, 10], skipSpaces false s) := by
    rw [List.cons_append, skip_solid _ _ (by decide), ← List.cons_append, untilWs_key _ _ _ _ (by decide +kernel) (by decide +kernel)]
    rfl
  rw [p7Loop.eq_def, if_neg (by simp), e]
  simp only
  rw [dif_neg (by decide), dif_neg (by decide), dif_neg (by decide), dif_neg (by decide), dif_neg (by decide), if_pos (by decide)]

theorem p7_tuple (maxW maxH : Nat) (st : P7) (k : UInt8) (name : List UInt8) (cs : Cs) (s : List UInt8)
    (hk : ∀ x ∈ k :: name, isWs x = false) (h35 : k ≠ 35) (hc : tupleType (k :: (name ++ [10])) = some cs) :
    p7Loop maxW maxH st (10 :: 84 :: ([85, 80, 76, 84, 89, 80, 69] ++ 32 :: (k :: (name ++ 10 :: 32 :: ([69, 78, 68, 72, 68, 82] ++ 10 :: s))))) =
      .ok ({ st with cs := some cs }, skipSpaces false s) := by
  have hs : solid k = true := by simp [solid, hk k (by simp), h35]
  have e : untilWs [] (skipSpaces false (10 :: 84 :: ([85, 80, 76, 84, 89, 80, 69] ++ 32 :: (k :: (name ++ 10 :: 32 :: ([69, 78, 68, 72, 68, 82] ++ 10 :: s)))))) =
      ([84, 85, 80, 76, 84, 89, 80, 69, 32], k :: (name ++ 10 :: 32 :: ([69, 78, 68, 72, 68, 82] ++ 10 :: s))) := by
    rw [skip_nl, skip_solid _ _ (by decide), ← List.cons_append, untilWs_key _ _ _ _ (by decide +kernel) (by decide +kernel), skip_solid _ _ hs]
    rfl
  have e2 : untilWs [] (k :: (name ++ 10 :: 32 :: ([69, 78, 68, 72, 68, 82] ++ 10 :: s))) =
      (k :: (name ++ [10]), [69, 78, 68, 72, 68, 82] ++ 10 :: s) := by
    rw [← List.cons_append, untilWs_key _ _ _ _ hk (by decide), skip_sp]
    simp only [List.cons_append]
    rw [skip_solid _ _ (by decide)]
    rfl
  rw [p7Loop.eq_def, if_neg (by simp), e]
  simp only
  rw [dif_neg (by decide), dif_neg (by decide), dif_neg (by decide), dif_neg (by decide), dif_pos trivial, e2]
  simp only
  rw [hc]
  simp only
  rw [p7_end]

theorem maxVal_depth (b : Bool) : decide (maxVal b > 255) = b := by cases b <;> decide

theorem header_spec (maxW maxH w h : Nat) (cs : Cs) (sixteen : Bool) (s : List UInt8) (hw : w ≤ maxW) (hh : h ≤ maxH)
    (hw' : w < Zune.Bytestream.usizeLim) (hh' : h < Zune.Bytestream.usizeLim) :
    decodeHeaders maxW maxH (header w h cs sixteen ++ s) = .ok ({ w, h, cs, sixteen }, skipSpaces false s) := by
  have hm : maxVal sixteen ≤ 65535 := by cases sixteen <;> decide
  cases cs with
  | luma =>
    have e : header w h .luma sixteen ++ s =
        80 :: 53 :: 10 :: (decimal w ++ 10 :: (decimal h ++ 10 :: (decimal (maxVal sixteen) ++ 10 :: s))) := by
      simp [header]
    rw [e]
    unfold decodeHeaders
    simp only
    rw [if_neg (by decide), if_pos trivial, p56_spec maxW maxH w h _ .luma s hw hh hw' hh' hm, maxVal_depth]
  | rgb =>
    have e : header w h .rgb sixteen ++ s =
        80 :: 54 :: 10 :: (decimal w ++ 10 :: (decimal h ++ 10 :: (decimal (maxVal sixteen) ++ 10 :: s))) := by
      simp [header]
    rw [e]
    unfold decodeHeaders
    simp only
    rw [if_neg (by decide), if_neg (by decide), if_pos trivial, p56_spec maxW maxH w h _ .rgb s hw hh hw' hh' hm, maxVal_depth]
  | lumaA =>
    have e : header w h .lumaA sixteen ++ s =
        80 :: 55 :: (10 :: 87 :: ([73, 68, 84, 72] ++ 32 :: (decimal w ++
          10 :: 72 :: ([69, 73, 71, 72, 84] ++ 32 :: (decimal h ++
          10 :: 68 :: ([69, 80, 84, 72] ++ 32 :: (decimal 2 ++
          10 :: 77 :: ([65, 88, 86, 65, 76] ++ 32 :: (decimal (maxVal sixteen) ++
          10 :: 84 :: ([85, 80, 76, 84, 89, 80, 69] ++ 32 :: (71 :: ([82, 65, 89, 83, 67, 65, 76, 69, 95, 65, 76, 80, 72, 65] ++
            10 :: 32 :: ([69, 78, 68, 72, 68, 82] ++ 10 :: s))))))))))))) := by
      simp [header]
    rw [e]
    unfold decodeHeaders
    simp only
    rw [if_neg (by decide), if_neg (by decide), if_neg (by decide), if_pos trivial]
    unfold p7Header
    rw [p7_width _ _ _ _ _ hw' hw, p7_height _ _ _ _ _ hh' hh, p7_depth _ _ _ _ _ (by decide), p7_maxval _ _ _ _ _ hm,
      p7_tuple _ _ _ _ _ .lumaA _ (by decide +kernel) (by decide +kernel) (by decide +kernel)]
    simp only [maxVal_depth]
  | rgba =>
    have e : header w h .rgba sixteen ++ s =
        80 :: 55 :: (10 :: 87 :: ([73, 68, 84, 72] ++ 32 :: (decimal w ++
          10 :: 72 :: ([69, 73, 71, 72, 84] ++ 32 :: (decimal h ++
          10 :: 68 :: ([69, 80, 84, 72] ++ 32 :: (decimal 4 ++
          10 :: 77 :: ([65, 88, 86, 65, 76] ++ 32 :: (decimal (maxVal sixteen) ++
          10 :: 84 :: ([85, 80, 76, 84, 89, 80, 69] ++ 32 :: (82 :: ([71, 66, 95, 65, 76, 80, 72, 65] ++
            10 :: 32 :: ([69, 78, 68, 72, 68, 82] ++ 10 :: s))))))))))))) := by
      simp [header]
    rw [e]
    unfold decodeHeaders
    simp only
    rw [if_neg (by decide), if_neg (by decide), if_neg (by decide), if_pos trivial]
    unfold p7Header
    rw [p7_width _ _ _ _ _ hw' hw, p7_height _ _ _ _ _ hh' hh, p7_depth _ _ _ _ _ (by decide), p7_maxval _ _ _ _ _ hm,
      p7_tuple _ _ _ _ _ .rgba _ (by decide +kernel) (by decide +kernel) (by decide +kernel)]
    simp only [maxVal_depth]

theorem skip_lt (b : UInt8) (s : List UInt8) (h : solid b = false) : (skipSpaces false (b :: s)).length < (b :: s).length := by
  unfold solid at h
  rw [skipSpaces]
  split
  · exact Nat.lt_succ_of_le (skipSpaces_le _ _)
  · split
    · exact Nat.lt_succ_of_le (skipSpaces_le _ _)
    · rename_i h1 h2
      simp at h1 h2
      simp [h1, h2] at h

theorem readU16_ok (l : List Nat) (hl : ∀ v ∈ l, v < 65536) : readU16 l.length (l.flatMap (beBytes 2)) = .ok l := by
  induction l with
  | nil => rfl
  | cons v l ih =>
    rw [List.length_cons, List.flatMap_cons, readU16, be_append 2 v _ (by have := hl v (by simp); omega)]
    simp only
    rw [ih (fun v hv => hl v (by simp [hv]))]

theorem readU16_short (n : Nat) (s : List UInt8) (h : s.length < 2 * n) : readU16 n s = .error .io := by
  induction n generalizing s with
  | zero => omega
  | succ n ih =>
    unfold readU16
    by_cases h2 : 2 ≤ s.length
    · simp only [be, exact, h2, if_true, Option.map_some]
      rw [ih _ (by simp; omega)]
    · simp [be, exact, h2]

end Zune.Ppm
