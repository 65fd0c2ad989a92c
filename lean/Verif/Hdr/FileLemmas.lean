/- Lemmas about Radiance files (C125). -/
import Verif.Hdr.FileModel
import Verif.Hdr.Props
import Verif.Ppm.Lemmas
import Mathlib.Tactic.Linarith
import Mathlib.Tactic.NormNum
import Mathlib.Tactic.FieldSimp
import Mathlib.Tactic.Positivity

namespace Zune.Hdr.File

open Zune.Float (rnd Fits)
open Zune.Ppm (decimal)

/-! ### Text -/

theorem getUntil_app (n : UInt8) (l s : List UInt8) (h : ∀ b ∈ l, b ≠ n) : getUntil n (l ++ n :: s) = (l ++ [n], s) := by
  induction l with
  | nil => simp [getUntil]
  | cons b l ih =>
    rw [List.cons_append, getUntil, if_neg (h b (by simp)), ih fun c hc => h c (by simp [hc])]
    rfl

theorem dropWhile_self (p : UInt8 → Bool) (l : List UInt8) (h : ∀ b ∈ l.head?, p b = false) : l.dropWhile p = l := by
  cases l with
  | nil => rfl
  | cons b l => rw [List.dropWhile_cons_of_neg (by simp [h b (by simp)])]

theorem trim_blank (l : List UInt8) (c : UInt8) (hc : isBlank c = true) (h1 : ∀ b ∈ l.head?, isBlank b = false)
    (h2 : ∀ b ∈ l.getLast?, isBlank b = false) (hl : l ≠ []) : trim (l ++ [c]) = l := by
  unfold trim
  rw [dropWhile_self isBlank (l ++ [c]) (by
    intro b hb
    apply h1
    cases l with
    | nil => exact absurd rfl hl
    | cons a l => simpa using hb), List.reverse_append, List.reverse_singleton, List.singleton_append, List.dropWhile_cons_of_pos hc,
    dropWhile_self isBlank l.reverse (by rw [List.head?_reverse]; exact h2), List.reverse_reverse]

theorem trim_self (l : List UInt8) (h1 : ∀ b ∈ l.head?, isBlank b = false) (h2 : ∀ b ∈ l.getLast?, isBlank b = false) : trim l = l := by
  unfold trim
  rw [dropWhile_self isBlank l h1, dropWhile_self isBlank l.reverse (by rw [List.head?_reverse]; exact h2), List.reverse_reverse]

theorem takeWhile_stop (l s : List UInt8) (h : ∀ b ∈ l, b ≠ 61) : (l ++ 61 :: s).takeWhile (· != 61) = l := by
  induction l with
  | nil => simp
  | cons b l ih =>
    rw [List.cons_append, List.takeWhile_cons_of_pos (by simpa using h b (by simp)), ih fun c hc => h c (by simp [hc])]

theorem dropWhile_stop (l s : List UInt8) (h : ∀ b ∈ l, b ≠ 61) : (l ++ 61 :: s).dropWhile (· != 61) = 61 :: s := by
  induction l with
  | nil => simp
  | cons b l ih =>
    rw [List.cons_append, List.dropWhile_cons_of_pos (by simpa using h b (by simp)), ih fun c hc => h c (by simp [hc])]

theorem takeWhile_all (l : List UInt8) (h : ∀ b ∈ l, b ≠ 61) : l.takeWhile (· != 61) = l := by
  induction l with
  | nil => rfl
  | cons b l ih => rw [List.takeWhile_cons_of_pos (by simpa using h b (by simp)), ih fun c hc => h c (by simp [hc])]

/-- What is needed of a key or a value: ASCII, no line feed, no equals sign, no blanks at the ends. -/
structure Plain (l : List UInt8) : Prop where
  chars : ∀ b ∈ l, b < 128 ∧ b ≠ 10 ∧ b ≠ 61
  first : ∀ b ∈ l.head?, isBlank b = false
  last : ∀ b ∈ l.getLast?, isBlank b = false

theorem keyValue_plain (k v : List UInt8) (hk : Plain k) (hv : Plain v) : keyValue (k ++ [61] ++ v ++ [10]) = (k, v) := by
  have e : trim (k ++ [61] ++ v ++ [10]) = k ++ 61 :: v := by
    rw [trim_blank (k ++ [61] ++ v) 10 (by decide)]
    · simp
    · intro b hb
      cases k with
      | nil => simp at hb; subst hb; decide
      | cons a k => exact hk.first b (by simpa using hb)
    · intro b hb
      cases hvl : v with
      | nil => subst hvl; simp at hb; subst hb; decide
      | cons a v' =>
        apply hv.last
        rw [List.getLast?_append] at hb
        cases hg : v.getLast? with
        | none => rw [List.getLast?_eq_none_iff] at hg; rw [hg] at hvl; simp at hvl
        | some c => rw [hg] at hb; simpa using hb
    · simp
  unfold keyValue
  rw [e]
  dsimp only
  rw [takeWhile_stop k v fun b hb => (hk.chars b hb).2.2, dropWhile_stop k v fun b hb => (hk.chars b hb).2.2, List.drop_one, List.tail_cons,
    takeWhile_all v fun b hb => (hv.chars b hb).2.2, trim_self k hk.first hk.last, trim_self v hv.first hv.last]

theorem headLoop_line (md : List (List UInt8 × List UInt8)) (k v s : List UInt8) (hk : Plain k) (hv : Plain v) (hc : k.head? ≠ some 35) :
    headLoop md (k ++ [61] ++ v ++ [10] ++ s) = headLoop (insert k v md) s := by
  have hline : getUntil 10 (k ++ [61] ++ v ++ [10] ++ s) = (k ++ [61] ++ v ++ [10], s) := by
    have := getUntil_app 10 (k ++ [61] ++ v) s (by
      intro b hb
      simp only [List.mem_append, List.mem_singleton] at hb
      rcases hb with (hb | hb) | hb
      · exact (hk.chars b hb).2.1
      · subst hb; decide
      · exact (hv.chars b hb).2.1)
    rw [← this]
    simp
  obtain ⟨b, t, e, h35, h10⟩ : ∃ b t, k ++ [61] ++ v ++ [10] ++ s = b :: t ∧ b ≠ 35 ∧ b ≠ 10 := by
    cases k with
    | nil => exact ⟨61, _, rfl, by decide, by decide⟩
    | cons b k => exact ⟨b, _, rfl, by simpa using hc, (hk.chars b (by simp)).2.1⟩
  rw [e] at hline ⊢
  rw [headLoop]
  simp only [hline]
  rw [if_neg h35, if_neg h10, if_pos (by simp), keyValue_plain k v hk hv]

theorem headLoop_lines (hs : List (List UInt8 × List UInt8)) (hp : ∀ e ∈ hs, Plain e.1 ∧ Plain e.2 ∧ e.1.head? ≠ some 35) :
    ∀ (md : List (List UInt8 × List UInt8)) (s : List UInt8),
      headLoop md (hs.flatMap (fun e => e.1 ++ [61] ++ e.2 ++ [10]) ++ s) = headLoop (hs.foldl (fun md e => insert e.1 e.2 md) md) s := by
  induction hs with
  | nil => intro md s; rfl
  | cons e hs ih =>
    intro md s
    obtain ⟨h1, h2, h3⟩ := hp e (by simp)
    rw [List.flatMap_cons, List.append_assoc, headLoop_line md e.1 e.2 _ h1 h2 h3, ih fun d hd => hp d (by simp [hd])]
    rfl

theorem headLoop_end (md : List (List UInt8 × List UInt8)) (s : List UInt8) : headLoop md (10 :: s) = (md, s) := by
  rw [headLoop]
  simp [getUntil]

theorem lookup_filter (k k' : List UInt8) (md : List (List UInt8 × List UInt8)) (h : k' ≠ k) :
    (md.filter fun e => e.1 != k).lookup k' = md.lookup k' := by
  induction md with
  | nil => rfl
  | cons e md ih =>
    obtain ⟨a, b⟩ := e
    rw [List.filter_cons]
    by_cases ha : a = k
    · subst ha
      rw [if_neg (by simp), ih, List.lookup_cons, beq_eq_false_iff_ne.2 h]
    · rw [if_pos (by simpa using ha), List.lookup_cons, List.lookup_cons, ih]

theorem lookup_insert (k v k' : List UInt8) (md : List (List UInt8 × List UInt8)) :
    (insert k v md).lookup k' = if k' = k then some v else md.lookup k' := by
  unfold insert
  rw [List.lookup_cons]
  by_cases h : k' = k
  · simp [h]
  · rw [lookup_filter k k' md h, beq_eq_false_iff_ne.2 h, if_neg h]

theorem lookup_foldl (hs : List (List UInt8 × List UInt8)) (k : List UInt8) :
    ∀ md : List (List UInt8 × List UInt8), (hs.foldl (fun md e => insert e.1 e.2 md) md).lookup k = (hs.reverse.lookup k).or (md.lookup k) := by
  induction hs with
  | nil => intro md; simp
  | cons e hs ih =>
    intro md
    rw [List.foldl_cons, ih, List.reverse_cons, List.lookup_append, lookup_insert, Option.or_assoc]
    congr 1
    obtain ⟨a, b⟩ := e
    by_cases h : k = a
    · simp [h]
    · simp [h, List.lookup_cons, beq_eq_false_iff_ne.2 h]

theorem digits_decimal (n : Nat) (s : List UInt8) (h : n < 2 ^ 64) : digits 0 (decimal n ++ s) = digits n s := by
  have hd : ∀ d < 10, (48 : UInt8) ≤ UInt8.ofNat (48 + d) ∧ UInt8.ofNat (48 + d) ≤ 57 := by decide
  induction n using Nat.strongRecOn generalizing s with
  | ind n ih =>
    rw [decimal]
    split
    · rename_i h10
      rw [List.singleton_append, digits, Ppm.digit_toNat n h10, if_pos ⟨(hd n h10).1, (hd n h10).2, by omega⟩]
      congr 1
      omega
    · have h10 : n % 10 < 10 := Nat.mod_lt _ (by omega)
      rw [List.append_assoc, ih (n / 10) (by omega) _ (by omega), List.singleton_append, digits, Ppm.digit_toNat _ h10,
        if_pos ⟨(hd _ h10).1, (hd _ h10).2, by omega⟩]
      congr 1
      omega

theorem decimal_digits (n : Nat) : ∀ b ∈ decimal n, isBlank b = false ∧ b ≠ 10 ∧ b ≠ 32 ∧ b ≠ 43 := by
  have hd : ∀ d < 10, isBlank (UInt8.ofNat (48 + d)) = false ∧ UInt8.ofNat (48 + d) ≠ 10 ∧ UInt8.ofNat (48 + d) ≠ 32 ∧
      UInt8.ofNat (48 + d) ≠ 43 := by decide
  induction n using Nat.strongRecOn with
  | ind n ih =>
    rw [decimal]
    split
    · rename_i h10
      intro b hb
      rw [List.mem_singleton.1 hb]
      exact hd n h10
    · intro b hb
      rcases List.mem_append.1 hb with hb | hb
      · exact ih (n / 10) (by omega) b hb
      · rw [List.mem_singleton.1 hb]
        exact hd _ (Nat.mod_lt _ (by omega))

theorem decimal_ne (n : Nat) : decimal n ≠ [] := by
  obtain ⟨b, t, e, _⟩ := Ppm.decimal_head n
  rw [e]; simp

theorem parse_decimal (n : Nat) (h : n < 2 ^ 64) : parseUsize (decimal n) = some n := by
  have hdig := digits_decimal n [] h
  rw [List.append_nil] at hdig
  have h43 := decimal_digits n
  revert hdig h43
  obtain ⟨b, t, e, _⟩ := Ppm.decimal_head n
  rw [e]
  intro hdig h43
  have hb := (h43 b (by simp)).2.2.2
  unfold parseUsize
  split
  · simp at *
  · next h => simp at h; exact absurd h.1 hb
  · next h => simp at h; exact absurd h.1 hb
  · rw [hdig]; rfl

theorem trim_decimal (n : Nat) (c : UInt8) (hc : isBlank c = true) : trim (decimal n ++ [c]) = decimal n :=
  trim_blank _ c hc (fun b hb => (decimal_digits n b (List.mem_of_mem_head? hb)).1) (fun b hb => (decimal_digits n b (List.mem_of_getLast? hb)).1)
    (decimal_ne n)

/-! ### Floats -/

theorem fits_pow (p : Nat) (m e : Int) (h : |m| ≤ 2 ^ p) : Fits p (m * (2 : Rat) ^ e) := ⟨m, e, h, rfl⟩

theorem rnd_shift (k : Nat) (hk : k < 32) : rnd 24 ((2 ^ (k % 32) % 2 ^ 32 : Nat) : Rat) = (2 : Rat) ^ k := by
  rw [Nat.mod_eq_of_lt hk, Nat.mod_eq_of_lt (Nat.pow_lt_pow_right (by omega) hk)]
  rw [Float.rnd_fit (by omega) ⟨1, k, by norm_num, by push_cast; simp⟩]
  push_cast
  rfl

theorem rnd_val (v : Nat) (hv : v < 256) : rnd 24 ((v : Rat) / 256) = (v : Rat) / 256 := by
  apply Float.rnd_fit (by omega)
  refine ⟨v, -8, ?_, by norm_num; ring⟩
  rw [abs_of_nonneg (by omega)]
  norm_num
  omega

/-- The bytes mean `val * 2 ^ (e - 136)`, but for the exponent, which is reduced modulo 32. -/
theorem convert_eq (val e : UInt8) (he : e ≠ 0) :
    convert val e = if 128 < e.toNat then (val.toNat : Rat) / 256 * 2 ^ ((e.toNat - 128) % 32)
      else (val.toNat : Rat) / 256 / 2 ^ ((128 - e.toNat) % 32) := by
  have hv := val.toNat_lt
  have hand : ∀ n : Nat, n &&& 31 = n % 32 := fun n => Nat.and_two_pow_sub_one_eq_mod n 5
  unfold convert
  rw [if_neg he]
  dsimp only
  by_cases h : 128 < e.toNat
  · rw [if_pos (by omega), if_pos h]
    unfold convertPos ldexpPos
    rw [hand, show ((e.toNat : Int) - 128).natAbs = e.toNat - 128 by omega, rnd_val _ hv]
    have hk : (e.toNat - 128) % 32 < 32 := Nat.mod_lt _ (by omega)
    generalize (e.toNat - 128) % 32 = k at hk ⊢
    rw [rnd_shift k hk]
    apply Float.rnd_fit (by omega)
    refine ⟨val.toNat, (k : Int) - 8, ?_, ?_⟩
    · rw [abs_of_nonneg (by omega)]
      norm_num
      omega
    · rw [zpow_sub₀ (by norm_num), zpow_natCast]
      norm_num
      ring
  · rw [if_neg (by omega), if_neg h]
    unfold convertNeg ldexpNeg
    rw [hand, show ((e.toNat : Int) - 128).natAbs = 128 - e.toNat by omega, rnd_val _ hv]
    have hk : (128 - e.toNat) % 32 < 32 := Nat.mod_lt _ (by omega)
    generalize (128 - e.toNat) % 32 = k at hk ⊢
    rw [rnd_shift k hk]
    apply Float.rnd_fit (by omega)
    refine ⟨val.toNat, -(k : Int) - 8, ?_, ?_⟩
    · rw [abs_of_nonneg (by omega)]
      norm_num
      omega
    · rw [zpow_sub₀ (by norm_num), zpow_neg, zpow_natCast]
      norm_num
      field_simp

theorem rnd_up {x : Rat} (h : 0 ≤ x) : rnd 24 x ≤ x + x / 2 ^ 24 ∧ x - x / 2 ^ 24 ≤ rnd 24 x := by
  have := Float.rnd_err 24 x
  rw [abs_of_nonneg h, ← le_div_iff₀ (by norm_num), abs_le] at this
  constructor <;> linarith [this.1, this.2]

theorem rnd_neg_neg {x : Rat} (h : x < 0) : rnd 24 x < 0 := by
  have := Float.rnd_err 24 x
  rw [abs_of_neg h, ← le_div_iff₀ (by norm_num), abs_le] at this
  have h2 := this.2
  norm_num at h2
  linarith

/-- The pattern of a number below one half. -/
theorem bits_lt {b : Nat} (h : bitsVal b < 1 / 2) : b < 126 * 2 ^ 23 := by
  by_contra hc
  have he : 126 ≤ b / 2 ^ 23 := by rw [Nat.le_div_iff_mul_le (by norm_num)]; omega
  have : (1 : Rat) / 2 ≤ bitsVal b := by
    unfold bitsVal
    rw [if_neg (by omega)]
    have h1 : (2 : Rat) ^ (-24 : Int) ≤ (2 : Rat) ^ ((b / 2 ^ 23 : Nat) - 150 : Int) := zpow_le_zpow_right₀ (by norm_num) (by omega)
    have h2 : (2 ^ 23 : Rat) ≤ ((2 ^ 23 + b % 2 ^ 23 : Nat) : Rat) := by push_cast; linarith [(Nat.cast_nonneg (b % 2 ^ 23) : (0 : Rat) ≤ _)]
    calc (1 : Rat) / 2 = 2 ^ 23 * (2 : Rat) ^ (-24 : Int) := by norm_num
      _ ≤ _ := mul_le_mul h2 h1 (by positivity) (by positivity)
  linarith

theorem half_one (vx : Nat) : 1 / 2 ≤ bitsVal (vx &&& 0x007FFFFF ||| 0x3f000000) ∧ bitsVal (vx &&& 0x007FFFFF ||| 0x3f000000) ≤ 1 := by
  have e1 : vx &&& 0x007FFFFF = vx % 2 ^ 23 := Nat.and_two_pow_sub_one_eq_mod vx 23
  have hm : vx % 2 ^ 23 < 2 ^ 23 := Nat.mod_lt _ (by norm_num)
  have e2 : vx &&& 0x007FFFFF ||| 0x3f000000 = 126 * 2 ^ 23 + vx % 2 ^ 23 := by
    rw [e1, Nat.or_comm]
    have := Nat.shiftLeft_add_eq_or_of_lt hm 126
    rw [Nat.shiftLeft_eq] at this
    rw [this]
  rw [e2]
  generalize vx % 2 ^ 23 = m at hm
  have d1 : (126 * 2 ^ 23 + m) / 2 ^ 23 = 126 := by omega
  have d2 : (126 * 2 ^ 23 + m) % 2 ^ 23 = m := by omega
  unfold bitsVal
  rw [d1, d2, if_neg (by omega)]
  have hq : (m : Rat) ≤ 2 ^ 23 := by exact_mod_cast hm.le
  have hp : (0 : Rat) ≤ m := Nat.cast_nonneg m
  push_cast
  norm_num
  constructor <;> linarith

theorem fastLog2_neg {vx : Nat} (h : vx < 126 * 2 ^ 23) : fastLog2 vx < 0 := by
  obtain ⟨m1, m2⟩ := half_one vx
  unfold fastLog2
  dsimp only
  generalize bitsVal (vx &&& 0x007FFFFF ||| 0x3f000000) = m at m1 m2
  have c0 := rnd_up (x := 11920929 / 10 ^ 14) (by norm_num)
  have c1 := rnd_up (x := 12422552 / 10 ^ 5) (by norm_num)
  have c2 := rnd_up (x := 14980303 / 10 ^ 7) (by norm_num)
  have c3 := rnd_up (x := 172588 / 10 ^ 5) (by norm_num)
  have c4 := rnd_up (x := 35208872 / 10 ^ 8) (by norm_num)
  generalize rnd 24 (11920929 / 10 ^ 14) = k0 at c0
  generalize rnd 24 (12422552 / 10 ^ 5) = k1 at c1
  generalize rnd 24 (14980303 / 10 ^ 7) = k2 at c2
  generalize rnd 24 (172588 / 10 ^ 5) = k3 at c3
  generalize rnd 24 (35208872 / 10 ^ 8) = k4 at c4
  norm_num at c0 c1 c2 c3 c4
  -- the logarithm of the power of two
  have hv0 : (0 : Rat) ≤ rnd 24 (vx : Rat) := Float.le_rnd (by omega) ⟨0, 0, by norm_num, by norm_num⟩ (Nat.cast_nonneg vx)
  have hv : rnd 24 (vx : Rat) ≤ 126 * 2 ^ 23 :=
    Float.rnd_le (by omega) ⟨126, 23, by norm_num, by norm_num⟩ (by exact_mod_cast h.le)
  generalize rnd 24 (vx : Rat) = v at hv0 hv
  have hy : v * k0 ≤ 126.001 := by
    have : v * k0 ≤ 126 * 2 ^ 23 * k0 := mul_le_mul_of_nonneg_right hv (by linarith [c0.2])
    norm_num at this ⊢
    linarith [c0.1]
  have hy' := rnd_up (x := v * k0) (mul_nonneg hv0 (by linarith [c0.2]))
  generalize rnd 24 (v * k0) = y at hy'
  have d1 : rnd 24 (y - k1) ≤ 15 / 8 :=
    Float.rnd_le (by omega) ⟨15, -3, by norm_num, by norm_num⟩ (by norm_num at hy hy'; linarith [hy'.1, c1.2])
  generalize rnd 24 (y - k1) = a at d1
  have hp := (rnd_up (x := k2 * m) (mul_nonneg (by linarith [c2.2]) (by linarith))).2
  have hkm : 1.498 * m ≤ k2 * m := mul_le_mul_of_nonneg_right (by norm_num; linarith [c2.2]) (by linarith)
  have hp2 : 1.497 * m ≤ rnd 24 (k2 * m) := by norm_num at hp hkm ⊢; linarith
  generalize rnd 24 (k2 * m) = p at hp2
  have d2 : rnd 24 (a - p) ≤ 1.876 - 1.497 * m := by
    have hx : (0 : Rat) ≤ 15 / 8 - 1.497 * m := by norm_num; linarith
    refine le_trans (Float.rnd_mono (by omega) (show a - p ≤ 15 / 8 - 1.497 * m by linarith)) (le_trans (rnd_up hx).1 ?_)
    norm_num
    linarith
  generalize rnd 24 (a - p) = b at d2
  have hs := rnd_up (x := k4 + m) (by linarith [c4.2])
  have hs1 : rnd 24 (k4 + m) ≤ 0.353 + m := by norm_num at hs ⊢; linarith [hs.1, c4.1]
  have hs0 : 0 < rnd 24 (k4 + m) := by norm_num at hs; linarith [hs.2, c4.2]
  generalize rnd 24 (k4 + m) = s at hs1 hs0
  have hq : 1.725 / (0.353 + m) ≤ k3 / s := by
    rw [div_le_div_iff₀ (by norm_num; linarith) hs0]
    refine le_trans (mul_le_mul_of_nonneg_left hs1 (by norm_num)) (mul_le_mul_of_nonneg_right (by norm_num; linarith [c3.2]) (by norm_num; linarith))
  have hq0 : (0 : Rat) ≤ 1.725 / (0.353 + m) := div_nonneg (by norm_num) (by norm_num; linarith)
  have hr := (rnd_up (x := k3 / s) (le_trans hq0 hq)).2
  have hbig : 1.876 - 1.497 * m < 1.72 / (0.353 + m) := by
    rw [lt_div_iff₀ (by norm_num; linarith)]
    norm_num
    nlinarith [sq_nonneg (m - 1 / 2)]
  have hscale : 1.72 / (0.353 + m) ≤ 1.725 / (0.353 + m) - 1.725 / (0.353 + m) / 2 ^ 24 := by
    have e : 1.725 / (0.353 + m) - 1.725 / (0.353 + m) / 2 ^ 24 = (1.725 - 1.725 / 2 ^ 24) / (0.353 + m) := by ring
    rw [e]
    exact div_le_div_of_nonneg_right (by norm_num) (by norm_num; linarith)
  have hfin : 1.72 / (0.353 + m) ≤ rnd 24 (k3 / s) := by
    have : 1.725 / (0.353 + m) - 1.725 / (0.353 + m) / 2 ^ 24 ≤ k3 / s - k3 / s / 2 ^ 24 := by linarith
    linarith
  exact rnd_neg_neg (by linarith)

theorem floorF_neg {x : Rat} (h : x < 0) : floorF x = -1 := by
  have hf : ⌊x⌋.toNat = 0 := by
    have : ⌊x⌋ < 0 := Int.floor_lt.2 (by simpa using h)
    omega
  unfold floorF
  rw [hf]
  dsimp only
  rw [Nat.cast_zero, Float.rnd_zero, if_neg (by rintro (h' | h') <;> linarith), zero_sub]
  exact Float.rnd_fit (by omega) ⟨-1, 0, by norm_num, by norm_num⟩

theorem floatToRgbe_dark (exp2 : Rat → Rat) (r g b : Nat) (h : bitsVal (max (max r g) b) < 1 / 2) :
    floatToRgbe exp2 r g b = [0, 0, 0, 0] ∨ ∃ m0 m1 m2, floatToRgbe exp2 r g b = [m0, m1, m2, 128] := by
  unfold floatToRgbe
  dsimp only
  split
  · right
    have he : (frexpF exp2 (max (max r g) b)).2 = 0 := by
      unfold frexpF
      dsimp only
      rw [floorF_neg (fastLog2_neg (bits_lt h)), show (-1 : Rat) + 1 = 0 by norm_num, Float.rnd_zero]
      rfl
    rw [he]
    exact ⟨_, _, _, rfl⟩
  · left; rfl

end Zune.Hdr.File
