/- PNG filters: the SIMD variants, and C16 for every implementation. -/
import Verif.Png.FilterProps
import Mathlib.Tactic.IntervalCases

namespace Zune.Png

/-- The bytes of the pixel before position `p`: zeros at the start of the row. -/
def pixelBefore (row : List UInt8) (n p : Nat) : List UInt8 :=
  (List.range n).map fun j => if n ≤ p + j then at' row (p + j - n) else 0

theorem pixelBefore_zero (row : List UInt8) (n : Nat) : pixelBefore row n 0 = List.replicate n 0 := by
  apply List.ext_getElem?
  intro i
  simp only [pixelBefore, List.getElem?_map, List.getElem?_replicate]
  by_cases h : i < n
  · rw [List.getElem?_range h]; simp [h]
  · rw [List.getElem?_eq_none (by simp; omega)]; simp [h]

theorem take_drop_get (l : List UInt8) (n p i : Nat) : ((l.drop p).take n)[i]? = if i < n then l[p + i]? else none := by
  rw [List.getElem?_take, List.getElem?_drop]

theorem pixelBefore_get (row : List UInt8) (n p i : Nat) (h : i < n) :
    (pixelBefore row n p)[i]? = some (if n ≤ p + i then at' row (p + i - n) else 0) := by
  simp only [pixelBefore, List.getElem?_map]
  rw [List.getElem?_range h]; rfl

theorem pixelBefore_next (row : List UInt8) (n p : Nat) (h : p + n ≤ row.length) :
    pixelBefore row n (p + n) = (row.drop p).take n := by
  apply List.ext_getElem?
  intro i
  rw [take_drop_get]
  by_cases hi : i < n
  · rw [pixelBefore_get _ _ _ _ hi, if_pos hi, if_pos (by omega), at', List.getD_eq_getElem?_getD,
      show p + n + i - n = p + i by omega, List.getElem?_eq_getElem (by omega)]
    rfl
  · rw [if_neg hi, List.getElem?_eq_none (by simp [pixelBefore]; omega)]

theorem pixelBefore_toNat (row : List UInt8) (n p i : Nat) :
    (if n ≤ p + i then at' row (p + i - n) else 0 : UInt8).toNat = Spec.before row n (p + i) := by
  unfold Spec.before at'
  split <;> rfl

/-- One pixel: the reconstructed bytes are the row's. -/
theorem pixel_eq (t n p : Nat) (prev row : List UInt8) (q : List UInt8) (h : p + n ≤ row.length)
    (hq : ∀ i, i < n → ∃ v, q[i]? = some v ∧
      v.toNat = Spec.predict t (Spec.before row n (p + i)) (Spec.above prev (p + i)) (Spec.before prev n (p + i))) :
    List.zipWith (· + ·) (((Spec.filterRow t n prev row).drop p).take n) q = (row.drop p).take n := by
  apply List.ext_getElem?
  intro i
  rw [List.getElem?_zipWith, take_drop_get, take_drop_get]
  by_cases hi : i < n
  · obtain ⟨v, hv, hp⟩ := hq i hi
    have hl : p + i < row.length := by omega
    have hl' : p + i < (Spec.filterRow t n prev row).length := by rw [filterRow_length]; omega
    have ha := filterRow_at t n prev row (p + i) hl
    rw [at', List.getD_eq_getElem?_getD, List.getElem?_eq_getElem hl', at', List.getD_eq_getElem?_getD,
      List.getElem?_eq_getElem hl] at ha
    simp only [Option.getD_some] at ha
    rw [if_pos hi, if_pos hi, hv, List.getElem?_eq_getElem hl', List.getElem?_eq_getElem hl]
    simp only [Option.some.injEq]
    rw [ha]
    exact unsub _ _ _ hp
  · rw [if_neg hi, if_neg hi]

theorem drop_take_append (row : List UInt8) (p n : Nat) : (row.drop p).take n ++ row.drop (p + n) = row.drop p := by
  rw [← List.drop_drop, List.take_append_drop]

theorem subSimd_eq (n : Nat) (hn : 0 < n) (prev row cur : List UInt8) (hc : row.length ≤ cur.length) (k p : Nat)
    (hk : row.length = p + n * k) :
    subSimd n (pixelBefore row n p) ((Spec.filterRow 1 n prev row).drop p) (cur.drop p) =
      row.drop p ++ cur.drop row.length := by
  have hl := filterRow_length 1 n prev row
  induction k generalizing p with
  | zero =>
    rw [subSimd, dif_neg (by simp only [List.length_drop]; omega), hk]
    simp
    omega
  | succ k ih =>
    rw [Nat.mul_succ] at hk
    rw [subSimd, dif_pos (by simp only [List.length_drop]; omega)]
    have hp : List.zipWith (· + ·) (((Spec.filterRow 1 n prev row).drop p).take n) (pixelBefore row n p) = (row.drop p).take n :=
      pixel_eq 1 n p prev row _ (by omega) (fun i hi => ⟨_, pixelBefore_get row n p i hi, pixelBefore_toNat row n p i⟩)
    simp only [hp, List.drop_drop]
    rw [← pixelBefore_next row n p (by omega), ih (p + n) (by omega), pixelBefore_next row n p (by omega), ← List.append_assoc,
      drop_take_append]

theorem avgSimd_eq (f : UInt8 → UInt8 → UInt8) (hf : ∀ a b, (f a b).toNat = (a.toNat + b.toNat) / 2) (n : Nat) (hn : 0 < n)
    (prev row cur : List UInt8) (hc : row.length ≤ cur.length) (hv : row.length ≤ prev.length) (k p : Nat)
    (hk : row.length = p + n * k) :
    avgSimd f n (pixelBefore row n p) (prev.drop p) ((Spec.filterRow 3 n prev row).drop p) (cur.drop p) =
      row.drop p ++ cur.drop row.length := by
  have hl := filterRow_length 3 n prev row
  induction k generalizing p with
  | zero =>
    rw [avgSimd, dif_neg (by simp only [List.length_drop]; omega), hk]
    simp
    omega
  | succ k ih =>
    rw [Nat.mul_succ] at hk
    rw [avgSimd, dif_pos (by simp only [List.length_drop]; omega)]
    have hp : List.zipWith (· + ·) (((Spec.filterRow 3 n prev row).drop p).take n)
        (List.zipWith f (pixelBefore row n p) ((prev.drop p).take n)) = (row.drop p).take n := by
      refine pixel_eq 3 n p prev row _ (by omega) fun i hi => ?_
      refine ⟨f (if n ≤ p + i then at' row (p + i - n) else 0) (at' prev (p + i)), ?_, ?_⟩
      · rw [List.getElem?_zipWith, pixelBefore_get row n p i hi, take_drop_get, if_pos hi, at', at',
          List.getD_eq_getElem?_getD (l := prev), List.getElem?_eq_getElem (l := prev) (by omega)]
        rfl
      · rw [hf, pixelBefore_toNat]; rfl
    simp only [hp, List.drop_drop]
    rw [← pixelBefore_next row n p (by omega), ih (p + n) (by omega), pixelBefore_next row n p (by omega), ← List.append_assoc,
      drop_take_append]

theorem paethSimd_eq (f : UInt8 → UInt8 → UInt8 → UInt8)
    (hf : ∀ a b c, (f a b c).toNat = Spec.paeth a.toNat b.toNat c.toNat) (n : Nat) (hn : 0 < n)
    (prev row cur : List UInt8) (hc : row.length ≤ cur.length) (hv : row.length ≤ prev.length) (k p : Nat)
    (hk : row.length = p + n * k) :
    paethSimd f n (pixelBefore row n p) (pixelBefore prev n p) (prev.drop p) ((Spec.filterRow 4 n prev row).drop p)
      (cur.drop p) = row.drop p ++ cur.drop row.length := by
  have hl := filterRow_length 4 n prev row
  induction k generalizing p with
  | zero =>
    rw [paethSimd, dif_neg (by simp only [List.length_drop]; omega), hk]
    simp
    omega
  | succ k ih =>
    rw [Nat.mul_succ] at hk
    rw [paethSimd, dif_pos (by simp only [List.length_drop]; omega)]
    have hp : List.zipWith (· + ·) (((Spec.filterRow 4 n prev row).drop p).take n)
        (List.zipWith (fun p c => f p.1 p.2 c) (List.zip (pixelBefore row n p) ((prev.drop p).take n)) (pixelBefore prev n p)) =
        (row.drop p).take n := by
      refine pixel_eq 4 n p prev row _ (by omega) fun i hi => ?_
      refine ⟨f (if n ≤ p + i then at' row (p + i - n) else 0) (at' prev (p + i))
        (if n ≤ p + i then at' prev (p + i - n) else 0), ?_, ?_⟩
      · have hz : (List.zip (pixelBefore row n p) ((prev.drop p).take n))[i]? =
            some (if n ≤ p + i then at' row (p + i - n) else 0, at' prev (p + i)) := by
          rw [List.zip, List.getElem?_zipWith, pixelBefore_get row n p i hi, take_drop_get, if_pos hi, at', at',
            List.getD_eq_getElem?_getD (l := prev), List.getElem?_eq_getElem (l := prev) (by omega)]
          rfl
        rw [List.getElem?_zipWith, hz, pixelBefore_get prev n p i hi]
      · rw [hf, pixelBefore_toNat, pixelBefore_toNat]; rfl
    simp only [hp, List.drop_drop]
    rw [← pixelBefore_next row n p (by omega), ← pixelBefore_next prev n p (by omega), ih (p + n) (by omega),
      pixelBefore_next row n p (by omega), ← List.append_assoc, drop_take_append]

theorem simdSize_le {n : Nat} (h : simdSize n = true) : 0 < n ∧ n ≤ 8 := by
  simp only [simdSize, Bool.or_eq_true, beq_iff_eq] at h
  omega

/-- **C16**.  Whatever implementation is selected, for every filter type, every pixel size up to 8 bytes, every previous row (none
    for the first row) and every row of whole pixels, reconstructing the row which RFC 2083 filtering produced yields the row again,
    and the bytes of the output buffer after it are untouched. -/
theorem c16_unfilter (isa : Isa) (t n : Nat) (ht : t ≤ 4) (hn : 0 < n) (h8 : n ≤ 8) (prev : Option (List UInt8))
    (row cur : List UInt8) (hrow : 0 < row.length) (hwhole : row.length % n = 0) (hc : row.length ≤ cur.length)
    (hp : ∀ p ∈ prev, row.length ≤ p.length) :
    unfilterRow isa (UInt8.ofNat t) n prev (Spec.filterRow t n (prev.getD []) row) cur = some (row ++ cur.drop row.length) := by
  have hnr : n ≤ row.length := by
    by_contra h
    rw [Nat.mod_eq_of_lt (by omega)] at hwhole
    omega
  have hk : row.length = 0 + n * (row.length / n) := by
    have := Nat.div_add_mod row.length n
    omega
  have hsub : ∀ prev : List UInt8, doSub isa (Spec.filterRow 1 n prev row) cur n = row ++ cur.drop row.length := by
    intro prev
    have hl := filterRow_length 1 n prev row
    unfold doSub
    rw [if_neg (by omega)]
    have := subSimd_eq n hn prev row cur hc (row.length / n) 0 hk
    rw [pixelBefore_zero] at this
    split <;> first | exact handleSub_eq n hn prev row cur hnr hc | simpa using this
  have e10 : ¬ (1 : UInt8) = 0 := by decide
  have e12 : ¬ (1 : UInt8) = 2 := by decide
  have e20 : ¬ (2 : UInt8) = 0 := by decide
  have e21 : ¬ (2 : UInt8) = 1 := by decide
  have e30 : ¬ (3 : UInt8) = 0 := by decide
  have e31 : ¬ (3 : UInt8) = 1 := by decide
  have e32 : ¬ (3 : UInt8) = 2 := by decide
  have e40 : ¬ (4 : UInt8) = 0 := by decide
  have e41 : ¬ (4 : UInt8) = 1 := by decide
  have e42 : ¬ (4 : UInt8) = 2 := by decide
  have e43 : ¬ (4 : UInt8) = 3 := by decide
  cases prev with
  | none =>
    simp only [Option.getD_none]
    unfold unfilterRow
    have hl := filterRow_length t n [] row
    interval_cases t
    · simp only [UInt8.reduceOfNat, true_or, if_true]
      rw [filterRow_zero]
    · simp only [UInt8.reduceOfNat, e10, e12, e20, e21, e30, e31, e32, e40, e41, e42, e43, or_self, if_true, if_false]
      rw [hsub]
    · simp only [UInt8.reduceOfNat, or_true, if_true]
      rw [filterRow_up_first]
    · simp only [UInt8.reduceOfNat, e10, e12, e20, e21, e30, e31, e32, e40, e41, e42, e43, or_self, if_true, if_false]
      rw [handleAvgFirst_eq n hn row cur hnr hc]
    · simp only [UInt8.reduceOfNat, e10, e12, e20, e21, e30, e31, e32, e40, e41, e42, e43, or_self, if_true, if_false]
      rw [handlePaethFirst_eq n hn row cur hnr hc]
  | some prev =>
    have hv := hp prev rfl
    simp only [Option.getD_some]
    unfold unfilterRow
    have hl := filterRow_length t n prev row
    interval_cases t
    · simp only [UInt8.reduceOfNat, if_true]
      rw [filterRow_zero]
    · simp only [UInt8.reduceOfNat, e10, e12, e20, e21, e30, e31, e32, e40, e41, e42, e43, if_true, if_false]
      rw [hsub]
    · simp only [UInt8.reduceOfNat, e10, e12, e20, e21, e30, e31, e32, e40, e41, e42, e43, if_true, if_false]
      rw [handleUp_eq n prev row cur hc hv]
    · simp only [UInt8.reduceOfNat, e10, e12, e20, e21, e30, e31, e32, e40, e41, e42, e43, if_true, if_false]
      unfold doAvg
      rw [if_neg (by omega)]
      have h1 := avgSimd_eq avg c17_avg n hn prev row cur hc hv (row.length / n) 0 hk
      have h2 := avgSimd_eq avgSse c17_avg_sse n hn prev row cur hc hv (row.length / n) 0 hk
      rw [pixelBefore_zero] at h1 h2
      split
      · simpa using h1
      · simpa using h2
      · rw [handleAvg_eq n hn h8 prev row cur hnr hc hv]
    · simp only [UInt8.reduceOfNat, e10, e12, e20, e21, e30, e31, e32, e40, e41, e42, e43, if_true, if_false]
      unfold doPaeth
      rw [if_neg (by omega)]
      have h1 := paethSimd_eq paethPortable c17_paeth_portable n hn prev row cur hc hv (row.length / n) 0 hk
      have h2 := paethSimd_eq paethSse c17_paeth_sse n hn prev row cur hc hv (row.length / n) 0 hk
      rw [pixelBefore_zero, pixelBefore_zero] at h1 h2
      split
      · simpa using h1
      · simpa using h2
      · rw [handlePaeth_eq n hn h8 prev row cur hnr hc hv]

/-- A Paeth row of two RGB pixels under a previous row. -/
example : Spec.filterRow 4 3 [10, 20, 30, 40, 50, 60] [7, 8, 9, 200, 1, 2] = [253, 244, 235, 160, 207, 228] ∧
    0 < [7, 8, 9, 200, 1, (2 : UInt8)].length ∧ [7, 8, 9, 200, 1, (2 : UInt8)].length % 3 = 0 := by decide +kernel

/-- Any other filter byte is an error in the decoder. -/
theorem c16_unknown (isa : Isa) (t : UInt8) (ht : 4 < t.toNat) (n : Nat) (prev : Option (List UInt8)) (raw cur : List UInt8) :
    unfilterRow isa t n prev raw cur = none := by
  have e : ∀ k : UInt8, k.toNat ≤ 4 → t ≠ k := by
    intro k hk h; subst h; omega
  unfold unfilterRow
  cases prev <;> simp [e 0 (by decide), e 1 (by decide), e 2 (by decide), e 3 (by decide), e 4 (by decide)]

example : 4 < (5 : UInt8).toNat := by decide

/-- **C16** (encoder, Up).  The encoder's Up filter is the specified one. -/
theorem c16_encoder_up (n : Nat) (input up : List UInt8) (h : input.length ≤ up.length) :
    upFilter input up = Spec.filterRow 2 n up input := by
  apply List.ext_getElem?
  intro i
  simp only [upFilter, Spec.filterRow, List.getElem?_mapIdx, List.getElem?_zipWith, Spec.predict, Spec.above]
  by_cases hi : i < input.length
  · rw [List.getElem?_eq_getElem hi, List.getElem?_eq_getElem (l := up) (by omega), List.getD_eq_getElem?_getD,
      List.getElem?_eq_getElem (l := up) (by omega)]
    simp only [Option.map_some, Option.getD_some, Option.some.injEq]
    apply UInt8.toNat_inj.mp
    have := (input[i]).toNat_lt; have := (up[i]'(by omega)).toNat_lt
    simp only [UInt8.toNat_sub, UInt8.toNat_ofNat']
    omega
  · rw [List.getElem?_eq_none (l := input) (by omega)]; rfl

example : upFilter [1, 2, 3] [4, 1, 200] = [253, 1, 59] ∧ [1, 2, (3 : UInt8)].length ≤ [4, 1, (200 : UInt8)].length := by
  decide +kernel

/-- **C16** (encoder, Sub).  So is its Sub filter, for rows of at least one pixel (shorter rows abort). -/
theorem c16_encoder_sub (n : Nat) (prev input : List UInt8) (h : n ≤ input.length) :
    subFilter input n = Spec.filterRow 1 n prev input := by
  have key : ∀ x y : UInt8, x - y = UInt8.ofNat ((x.toNat + 256 - y.toNat) % 256) := by
    intro x y
    apply UInt8.toNat_inj.mp
    have := x.toNat_lt; have := y.toNat_lt
    simp only [UInt8.toNat_sub, UInt8.toNat_ofNat']
    omega
  apply List.ext_getElem?
  intro i
  simp only [subFilter, Spec.filterRow, List.getElem?_mapIdx, Spec.predict, Spec.before]
  by_cases hi : i < input.length
  · by_cases hn : i < n
    · rw [List.getElem?_append_left (by simp; omega), List.getElem?_take, if_pos hn, List.getElem?_eq_getElem hi,
        if_neg (by omega)]
      simp only [Option.map_some, Option.some.injEq]
      simpa using key input[i] 0
    · rw [List.getElem?_append_right (by simp; omega), List.getElem?_zipWith, List.getElem?_drop, List.length_take,
        Nat.min_eq_left h, Nat.add_sub_cancel' (by omega), List.getElem?_eq_getElem hi,
        List.getElem?_eq_getElem (i := i - n) (by omega), if_pos (by omega), List.getD_eq_getElem?_getD,
        List.getElem?_eq_getElem (i := i - n) (by omega)]
      simp only [Option.map_some, Option.some.injEq, Option.getD_some]
      exact key _ _
  · rw [List.getElem?_eq_none (by simp; omega), List.getElem?_eq_none (l := input) (by omega)]; rfl

example : subFilter [1, 2, 3, 7] 2 = [1, 2, 2, 5] := by decide +kernel

end Zune.Png
