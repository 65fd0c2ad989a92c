/-
**C113**: the bilateral filter.
-/
import Verif.Imageprocs.BilateralModel
import Verif.Imageprocs.Median
import Verif.Imageprocs.SeparableProps
import Mathlib.Algebra.Order.Ring.Pow

namespace Zune.Imageprocs
open Zune.Float

/-! ### Sums of positive numbers after roundings to f64 -/

/-- `y` is the positive number `x` after at most `n` roundings to f64. -/
structure Rel (n : Nat) (x y : Rat) : Prop where
  pos : 0 ≤ x
  low : (1 - 1 / 2 ^ 53) ^ n * x ≤ y
  high : y ≤ (1 + 1 / 2 ^ 53) ^ n * x

theorem Rel.self {x : Rat} (h : 0 ≤ x) : Rel 0 x x := ⟨h, by simp, by simp⟩

theorem Rel.nonneg {n : Nat} {x y : Rat} (h : Rel n x y) : 0 ≤ y :=
  le_trans (mul_nonneg (pow_nonneg (by norm_num) n) h.pos) h.low

theorem Rel.rnd {n : Nat} {x y : Rat} (h : Rel n x y) : Rel (n + 1) x (Zune.Float.rnd 53 y) := by
  have r : |Zune.Float.rnd 53 y - y| ≤ |y| / 2 ^ 53 := by rw [le_div_iff₀ (by norm_num)]; exact rnd_err 53 y
  have hy := h.nonneg
  rw [abs_of_nonneg hy, abs_le] at r
  have l := mul_le_mul_of_nonneg_left h.low (show (0 : Rat) ≤ 1 - 1 / 2 ^ 53 by norm_num)
  have u := mul_le_mul_of_nonneg_left h.high (show (0 : Rat) ≤ 1 + 1 / 2 ^ 53 by norm_num)
  refine ⟨h.pos, ?_, ?_⟩
  · rw [pow_succ, mul_comm _ (1 - 1 / 2 ^ 53 : Rat), mul_assoc]
    linarith [r.1]
  · rw [pow_succ, mul_comm _ (1 + 1 / 2 ^ 53 : Rat), mul_assoc]
    linarith [r.2]

theorem Rel.mono {n k : Nat} {x y : Rat} (h : Rel n x y) (hn : n ≤ k) : Rel k x y := by
  refine ⟨h.pos, le_trans (mul_le_mul_of_nonneg_right ?_ h.pos) h.low, le_trans h.high (mul_le_mul_of_nonneg_right ?_ h.pos)⟩
  · exact pow_le_pow_of_le_one (by norm_num) (by norm_num) hn
  · exact pow_le_pow_right₀ (by norm_num) hn

theorem Rel.add {n : Nat} {x y x' y' : Rat} (h : Rel n x y) (h' : Rel n x' y') : Rel n (x + x') (y + y') :=
  ⟨add_nonneg h.pos h'.pos, by rw [mul_add]; exact add_le_add h.low h'.low, by rw [mul_add]; exact add_le_add h.high h'.high⟩

theorem Rel.scale {n : Nat} {x y c : Rat} (h : Rel n x y) (hc : 0 ≤ c) : Rel n (c * x) (c * y) :=
  ⟨mul_nonneg hc h.pos, by have := mul_le_mul_of_nonneg_left h.low hc; linarith, by have := mul_le_mul_of_nonneg_left h.high hc; linarith⟩

/-- The weight of a sample: by the place and by the difference to `val0`. -/
def weightOf (cw : Nat → Rat) (val0 : Nat) (p : Nat × Rat) : Rat := p.2 * cw ((p.1 : Int) - val0).natAbs

theorem sums_rel {cw : Nat → Rat} (hcw : ∀ k, 0 ≤ cw k) (val0 : Nat) : ∀ (ps : List (Nat × Rat)) (n : Nat) (S W s w : Rat),
    (∀ p ∈ ps, 0 ≤ p.2) → 2 ≤ n → Rel n S s → Rel n W w →
    Rel (n + ps.length) (S + (ps.map fun p => p.1 * weightOf cw val0 p).sum) (ps.foldl (bilateralStep cw val0) (s, w)).1 ∧
    Rel (n + ps.length) (W + (ps.map (weightOf cw val0)).sum) (ps.foldl (bilateralStep cw val0) (s, w)).2
  | [], n, S, W, s, w, _, _, h1, h2 => by simpa using ⟨h1, h2⟩
  | p :: t, n, S, W, s, w, hp, hn, h1, h2 => by
    have ha : 0 ≤ weightOf cw val0 p := mul_nonneg (hp p (by simp)) (hcw _)
    have hw : Rel 1 (weightOf cw val0 p) (rnd 53 (p.2 * cw ((p.1 : Int) - val0).natAbs)) := (Rel.self ha).rnd
    have hv : Rel 2 (p.1 * weightOf cw val0 p) (rnd 53 (p.1 * rnd 53 (p.2 * cw ((p.1 : Int) - val0).natAbs))) :=
      (hw.scale (Nat.cast_nonneg p.1)).rnd
    have := sums_rel hcw val0 t (n + 1) (S + p.1 * weightOf cw val0 p) (W + weightOf cw val0 p) _ _
      (fun q hq => hp q (by simp [hq])) (by omega) ((h1.add (hv.mono hn)).rnd) ((h2.add (hw.mono (by omega))).rnd)
    rw [List.length_cons, List.map_cons, List.map_cons, List.sum_cons, List.sum_cons, show n + (t.length + 1) = n + 1 + t.length by omega,
      ← add_assoc S, ← add_assoc W]
    exact this

theorem pow_near {n : Nat} (hn : n ≤ 2 ^ 32) :
    (1 - 1 / 2 ^ 21 : Rat) ≤ (1 - 1 / 2 ^ 53) ^ n ∧ (1 + 1 / 2 ^ 53 : Rat) ^ n * (1 - 1 / 2 ^ 21) ≤ 1 := by
  have b : (1 - 1 / 2 ^ 21 : Rat) ≤ (1 - 1 / 2 ^ 53) ^ n := by
    have := one_add_mul_le_pow (a := (-(1 / 2 ^ 53) : Rat)) (by norm_num) n
    have hc : (n : Rat) ≤ 2 ^ 32 := by exact_mod_cast hn
    rw [← sub_eq_add_neg] at this
    refine le_trans ?_ this
    have : (n : Rat) * (1 / 2 ^ 53) ≤ 2 ^ 32 * (1 / 2 ^ 53) := mul_le_mul_of_nonneg_right hc (by norm_num)
    have e : (2 : Rat) ^ 32 * (1 / 2 ^ 53) = 1 / 2 ^ 21 := by norm_num
    linarith
  refine ⟨b, ?_⟩
  have p : (0 : Rat) ≤ (1 + 1 / 2 ^ 53) ^ n := pow_nonneg (by norm_num) n
  refine le_trans (mul_le_mul_of_nonneg_left b p) ?_
  rw [← mul_pow]
  exact pow_le_one₀ (by norm_num) (by norm_num)

/-- The quotient of two sums. -/
theorem quot_near {n : Nat} (hn : n + 1 ≤ 2 ^ 32) {S W s w m : Rat} (h1 : Rel n S s) (h2 : Rel n W w) (hW : 0 < W) (hm : S = m * W) (hm' : m ≤ 2 ^ 16) :
    0 < w ∧ rnd 53 (s / w) ≤ m + 1 / 8 ∧ m - 1 / 8 ≤ rnd 53 (s / w) := by
  obtain ⟨a1, a2⟩ := pow_near (n := n) (by omega)
  obtain ⟨b1, b2⟩ := pow_near (n := n + 1) hn
  have hm0 : 0 ≤ m := by
    by_contra hc
    have := mul_neg_of_neg_of_pos (not_le.1 hc) hW
    linarith [h1.pos]
  have hw : 0 < w := lt_of_lt_of_le (mul_pos (lt_of_lt_of_le (by norm_num) a1) hW) h2.low
  have hs := h1.nonneg
  have q : Rel 1 (s / w) (rnd 53 (s / w)) := (Rel.self (div_nonneg hs hw.le)).rnd
  -- bounds of w
  have w1 : (1 - 1 / 2 ^ 21) * W ≤ w := le_trans (mul_le_mul_of_nonneg_right a1 hW.le) h2.low
  have w2 : w * (1 - 1 / 2 ^ 21) ≤ W := by
    have := mul_le_mul_of_nonneg_right h2.high (show (0 : Rat) ≤ 1 - 1 / 2 ^ 21 by norm_num)
    have e := mul_le_mul_of_nonneg_right a2 hW.le
    nlinarith
  have s1 : (1 - 1 / 2 ^ 21) * S ≤ s := le_trans (mul_le_mul_of_nonneg_right a1 h1.pos) h1.low
  have s2 : s * (1 - 1 / 2 ^ 21) ≤ S := by
    have := mul_le_mul_of_nonneg_right h1.high (show (0 : Rat) ≤ 1 - 1 / 2 ^ 21 by norm_num)
    have e := mul_le_mul_of_nonneg_right a2 h1.pos
    nlinarith
  have d1 : s / w ≤ m + m * 3 / 2 ^ 21 := by
    rw [div_le_iff₀ hw]
    have : (1 - 1 / 2 ^ 21) * ((1 - 1 / 2 ^ 21) * s) ≤ m * w := by
      have := mul_le_mul_of_nonneg_left w1 hm0
      nlinarith
    have hmw := mul_nonneg hm0 hw.le
    norm_num at this ⊢
    nlinarith
  have d2 : m - m / 2 ^ 20 ≤ s / w := by
    rw [le_div_iff₀ hw]
    have : m * ((1 - 1 / 2 ^ 21) * ((1 - 1 / 2 ^ 21) * w)) ≤ s := by
      have := mul_le_mul_of_nonneg_left w2 hm0
      nlinarith
    have hmw := mul_nonneg hm0 hw.le
    norm_num at this ⊢
    nlinarith
  refine ⟨hw, ?_, ?_⟩
  · have := q.high
    norm_num at this d1 hm' ⊢
    nlinarith
  · have := q.low
    norm_num at this d2 hm' ⊢
    nlinarith


/-! ### The places of a disk -/

/-- The offsets at most `r` away from the origin, row by row. -/
def disk (r : Nat) : List (Int × Int) :=
  ((grid (2 * r + 1) (2 * r + 1)).map fun p => ((p.1 : Int) - r, (p.2 : Int) - r)).filter fun o => o.1 ^ 2 + o.2 ^ 2 ≤ (r : Int) ^ 2

theorem diskWeights_eq (sw : Int → Int → Rat) (r : Nat) : diskWeights sw r = (disk r).map fun o => sw o.1 o.2 := by
  unfold diskWeights disk
  generalize (grid (2 * r + 1) (2 * r + 1)).map (fun p => ((p.1 : Int) - r, (p.2 : Int) - r)) = g
  induction g with
  | nil => rfl
  | cons o t ih =>
    rw [List.filterMap_cons, List.filter_cons, ih]
    by_cases h : o.1 * o.1 + o.2 * o.2 > (r * r : Int)
    · rw [if_pos h, if_neg (by simp [pow_two]; omega)]
    · rw [if_neg h, if_pos (by simp [pow_two]; omega)]
      rfl

/-- The offsets of one row. -/
def rowCount (r i : Nat) : Nat := (List.range (2 * r + 1)).countP fun (j : Nat) => decide (((i : Int) - r) ^ 2 + ((j : Int) - r) ^ 2 ≤ (r : Int) ^ 2)

theorem disk_length (r : Nat) : (disk r).length = ((List.range (2 * r + 1)).map (rowCount r)).sum := by
  unfold disk grid
  rw [List.map_flatMap, List.filter_flatMap, List.length_flatMap]
  congr 1
  apply List.map_congr_left
  intro i _
  rw [← List.countP_eq_length_filter, List.countP_map, List.countP_map]
  rfl

theorem rowCount_le (r i : Nat) : rowCount r i ≤ 2 * r + 1 := by
  have := List.countP_le_length (p := fun j : Nat => decide (((i : Int) - r) ^ 2 + ((j : Int) - r) ^ 2 ≤ (r : Int) ^ 2)) (l := List.range (2 * r + 1))
  simpa [rowCount] using this

/-- The first and the last row have one place. -/
theorem rowCount_end {r i : Nat} (h : i = 0 ∨ i = 2 * r) : rowCount r i ≤ 1 := by
  have : rowCount r i ≤ (List.range (2 * r + 1)).countP fun j => j == r := by
    unfold rowCount
    apply List.countP_mono_left
    intro j _ hj
    have hj := of_decide_eq_true hj
    have e : ((i : Int) - r) ^ 2 = (r : Int) ^ 2 := by
      rcases h with rfl | rfl
      · push_cast; ring
      · push_cast; ring
    rw [e] at hj
    have : ((j : Int) - r) ^ 2 = 0 := le_antisymm (by linarith) (sq_nonneg _)
    have := pow_eq_zero_iff (two_ne_zero) |>.1 this
    simp; omega
  refine le_trans this ?_
  rw [← List.count_eq_countP]
  exact List.nodup_iff_count_le_one.1 List.nodup_range r

/-- Only the middle row reaches both sides. -/
theorem rowCount_inner {r i : Nat} (hr : 1 ≤ r) (h : i ≠ r) : rowCount r i + 2 ≤ 2 * r + 1 := by
  have hi : 0 < ((i : Int) - r) ^ 2 := by
    have : (i : Int) - r ≠ 0 := by omega
    positivity
  unfold rowCount
  obtain ⟨k, hk⟩ : ∃ k, 2 * r = k + 1 := ⟨2 * r - 1, by omega⟩
  have e : List.range (2 * r + 1) = 0 :: (List.range k).map Nat.succ ++ [2 * r] := by
    rw [List.range_succ, hk, List.range_succ_eq_map]
  rw [e, List.countP_append, List.countP_cons, List.countP_singleton, if_neg, if_neg]
  · have := List.countP_le_length (p := fun j : Nat => decide (((i : Int) - r) ^ 2 + ((j : Int) - r) ^ 2 ≤ (r : Int) ^ 2)) (l := (List.range k).map Nat.succ)
    simp only [List.length_map, List.length_range] at this
    omega
  · simp only [decide_eq_true_eq]
    push_cast
    have : (2 * (r : Int) - r) ^ 2 = (r : Int) ^ 2 := by ring
    linarith
  · simp only [decide_eq_true_eq]
    push_cast
    have : (0 - (r : Int)) ^ 2 = (r : Int) ^ 2 := by ring
    linarith

theorem disk_count {r : Nat} (hr : 1 ≤ r) : (disk r).length + 4 * r ≤ 4 * (r * r) + 5 := by
  rw [disk_length]
  have key : ∀ n, n ≤ 2 * r + 1 → (((List.range n).map (rowCount r)).sum : Int) ≤
      (2 * r - 1) * n + (if r < n then 2 else 0) - (if 0 < n then 2 * r - 2 else 0) - (if 2 * r < n then 2 * r - 2 else 0) := by
    intro n
    induction n with
    | zero => intro _; simp
    | succ n ih =>
      intro hn
      have := ih (by omega)
      rw [List.range_succ, List.map_append, List.sum_append]
      simp only [List.map_cons, List.map_nil, List.sum_cons, List.sum_nil, Nat.add_zero]
      push_cast
      have x : (2 * (r : Int) - 1) * (n + 1) = (2 * r - 1) * n + (2 * r - 1) := by ring
      rw [x]
      generalize (2 * (r : Int) - 1) * n = q at this ⊢
      have a := rowCount_le r n
      by_cases h0 : n = 0
      · have b := rowCount_end (r := r) (i := n) (Or.inl h0)
        subst h0
        split_ifs at this ⊢ <;> omega
      · by_cases h1 : n = 2 * r
        · have b := rowCount_end (r := r) (i := n) (Or.inr h1)
          split_ifs at this ⊢ <;> omega
        · by_cases h2 : n = r
          · split_ifs at this ⊢ <;> omega
          · have b := rowCount_inner hr h2
            split_ifs at this ⊢ <;> omega
  have := key (2 * r + 1) le_rfl
  rw [if_pos (by omega), if_pos (by omega), if_pos (by omega)] at this
  push_cast at this
  have e : (2 * (r : Int) - 1) * (2 * r + 1) = 4 * (r * r) - 1 := by ring
  rw [e] at this
  zify
  generalize (r : Int) * r = q at this ⊢
  omega


/-! ### The samples around a place -/

theorem filterMap_get {β γ : Type} {f : β → Option γ} : ∀ (l : List β), (∀ b ∈ l, (f b).isSome) → ∀ k : Nat, (l.filterMap f)[k]? = l[k]?.bind f
  | [], _, k => by simp
  | b :: t, h, k => by
    obtain ⟨c, hc⟩ := Option.isSome_iff_exists.1 (h b (by simp))
    rw [List.filterMap_cons, hc]
    cases k with
    | zero => simp [hc]
    | succ k => simpa using filterMap_get t (fun b hb => h b (by simp [hb])) k

theorem ext_some {w h : Nat} {l : List Nat} (hw : 0 < w) (hh : 0 < h) (hl : l.length = w * h) (y x : Int) : (ext l w h y x).isSome := by
  unfold ext
  rw [List.getElem?_eq_getElem]
  · rfl
  · rw [hl]
    have a : (max 0 (min y (h - 1))).toNat < h := by omega
    have b : (max 0 (min x (w - 1))).toNat < w := by omega
    exact rowcol_lt b a

theorem neighbours_get {w h : Nat} {l : List Nat} (hw : 0 < w) (hh : 0 < h) (hl : l.length = w * h) (r y x : Nat) {k : Nat}
    (hk : k < (2 * r + 1) * (2 * r + 1)) :
    (neighbours l w h r y x)[k]? = ext l w h (y + (k / (2 * r + 1) : Nat) - r) (x + (k % (2 * r + 1) : Nat) - r) := by
  unfold neighbours
  rw [filterMap_get _ (fun p _ => ext_some hw hh hl _ _), grid_eq _ (by omega), List.getElem?_map, List.getElem?_range hk]
  rfl

/-! ### The filter -/

theorem zip_take_left {β γ : Type} : ∀ (l : List β) (a b : List γ), (l.zip (a ++ b)).take a.length = l.zip a
  | [], _, _ => by simp
  | _ :: _, [], _ => by simp
  | x :: t, y :: s, b => by simpa using zip_take_left t s b

/-- The weights are between 2⁻²⁵⁰ and 1, so that no product of two of them is too small for an f64. -/
def Weights (cw : Nat → Rat) (sw : Int → Int → Rat) : Prop :=
  (∀ k, 1 / 2 ^ 250 ≤ cw k ∧ cw k ≤ 1) ∧ ∀ i j, 1 / 2 ^ 250 ≤ sw i j ∧ sw i j ≤ 1

/-- The mean of samples with weights `a`, each multiplied by the weight of its difference to `c`. -/
def meanOf (cw : Nat → Rat) (c : Nat) (ps : List (Nat × Rat)) : Rat :=
  (ps.map fun p => p.1 * (p.2 * cw ((p.1 : Int) - c).natAbs)).sum / (ps.map fun p => p.2 * cw ((p.1 : Int) - c).natAbs).sum

theorem sum_pos {β : Type} {f : β → Rat} : ∀ {l : List β}, l ≠ [] → (∀ b ∈ l, 0 < f b) → 0 < (l.map f).sum
  | [], h, _ => absurd rfl h
  | [b], _, h => by simpa using h b (by simp)
  | b :: c :: t, _, h => by
    rw [List.map_cons, List.sum_cons]
    exact add_pos (h b (by simp)) (sum_pos (by simp) fun b hb => h b (by simp [hb]))

theorem sum_le {β : Type} {f g : β → Rat} : ∀ {l : List β}, (∀ b ∈ l, f b ≤ g b) → (l.map f).sum ≤ (l.map g).sum
  | [], _ => by simp
  | b :: t, h => by
    rw [List.map_cons, List.map_cons, List.sum_cons, List.sum_cons]
    exact add_le_add (h b (by simp)) (sum_le fun b hb => h b (by simp [hb]))

theorem sum_scale {β : Type} {f : β → Rat} (c : Rat) : ∀ l : List β, (l.map fun b => c * f b).sum = c * (l.map f).sum
  | [] => by simp
  | b :: t => by rw [List.map_cons, List.map_cons, List.sum_cons, List.sum_cons, sum_scale c t, mul_add]

theorem Weights.pos {cw : Nat → Rat} {sw : Int → Int → Rat} (h : Weights cw sw) : (∀ k, 0 < cw k) ∧ ∀ i j, 0 < sw i j :=
  ⟨fun k => lt_of_lt_of_le (by positivity) (h.1 k).1, fun i j => lt_of_lt_of_le (by positivity) (h.2 i j).1⟩

/-- A mean lies between any bounds of the samples. -/
theorem mean_mem {cw : Nat → Rat} (hcw : ∀ k, 0 < cw k) (c : Nat) {ps : List (Nat × Rat)} (h0 : ps ≠ []) (hp : ∀ p ∈ ps, 0 < p.2) {lo hi : Nat}
    (hb : ∀ p ∈ ps, lo ≤ p.1 ∧ p.1 ≤ hi) : (lo : Rat) ≤ meanOf cw c ps ∧ meanOf cw c ps ≤ hi := by
  have hw : ∀ p ∈ ps, 0 < p.2 * cw ((p.1 : Int) - c).natAbs := fun p h => mul_pos (hp p h) (hcw _)
  have hW := sum_pos h0 hw
  unfold meanOf
  rw [le_div_iff₀ hW, div_le_iff₀ hW, ← sum_scale, ← sum_scale]
  refine ⟨sum_le fun p h => mul_le_mul_of_nonneg_right ?_ (hw p h).le, sum_le fun p h => mul_le_mul_of_nonneg_right ?_ (hw p h).le⟩
  · exact_mod_cast (hb p h).1
  · exact_mod_cast (hb p h).2

theorem at_near {bits : Nat} (hbits : bits ≤ 16) {cw : Nat → Rat} (hcw : ∀ k, 0 < cw k) (c : Nat) {ps : List (Nat × Rat)} (h0 : ps ≠ [])
    (hlen : ps.length ≤ 2 ^ 31) (hp : ∀ p ∈ ps, 0 < p.2 ∧ p.1 < 2 ^ bits) :
    |(bilateralCast bits (ps.foldl (bilateralStep cw c) (0, 0)) : Rat) - meanOf cw c ps| ≤ 5 / 8 := by
  have hw : ∀ p ∈ ps, 0 < p.2 * cw ((p.1 : Int) - c).natAbs := fun p h => mul_pos (hp p h).1 (hcw _)
  have hW := sum_pos h0 hw
  have hm := mean_mem hcw c h0 (fun p h => (hp p h).1) (lo := 0) (hi := 2 ^ bits - 1) fun p h => ⟨by omega, by have := (hp p h).2; omega⟩
  obtain ⟨r1, r2⟩ := sums_rel (fun k => (hcw k).le) c ps 2 0 0 0 0 (fun p h => (hp p h).1.le) le_rfl
    ((Rel.self le_rfl).mono (by omega)) ((Rel.self le_rfl).mono (by omega))
  rw [zero_add] at r1 r2
  have h16 : (2 : Nat) ^ bits ≤ 2 ^ 16 := Nat.pow_le_pow_right (by omega) hbits
  have hm2 : meanOf cw c ps ≤ 2 ^ 16 := by
    refine le_trans hm.2 ?_
    have : 2 ^ bits - 1 ≤ 2 ^ 16 := by omega
    exact_mod_cast this
  obtain ⟨q0, q1, q2⟩ := quot_near (by omega) r1 r2 hW (m := meanOf cw c ps) (by unfold meanOf; exact (div_mul_cancel₀ _ hW.ne').symm) hm2
  unfold bilateralCast
  rw [if_neg q0.ne']
  generalize rnd 53 ((ps.foldl (bilateralStep cw c) (0, 0)).1 / (ps.foldl (bilateralStep cw c) (0, 0)).2) = q at q1 q2
  generalize meanOf cw c ps = m at hm q1 q2
  have hm0 : (0 : Rat) ≤ m := by simpa using hm.1
  have hf : (0 : Int) ≤ ⌊q + 1 / 2⌋ := Int.floor_nonneg.2 (by linarith)
  have f1 := Int.floor_le (q + 1 / 2)
  have f2 := Int.lt_floor_add_one (q + 1 / 2)
  obtain ⟨n, hn⟩ := Int.eq_ofNat_of_zero_le hf
  rw [hn] at f1 f2 ⊢
  simp only [Int.toNat_natCast, Int.cast_natCast] at f1 f2 ⊢
  rw [abs_le]
  rcases le_total n (2 ^ bits - 1) with h | h
  · rw [Nat.min_eq_right h]
    constructor <;> linarith
  · rw [Nat.min_eq_left h]
    have : ((2 ^ bits - 1 : Nat) : Rat) ≤ n := by exact_mod_cast h
    constructor <;> linarith [hm.2]

/-- What the filter does, window by window. -/
theorem bilateral_spec {bits w h d : Nat} {l : List Nat} {cw : Nat → Rat} {sw : Int → Int → Rat} (hw : 0 < w) (hh : 0 < h) (hl : l.length = w * h)
    (hd : 3 ≤ d) :
    ∃ res, bilateral bits cw sw d l w h = some res ∧ res.length = w * h ∧ ∀ y < h, ∀ x < w, ∃ c : Nat, ext l w h y (x + 1) = some c ∧
      res[y * w + x]? = some (bilateralCast bits (((neighbours l w h (d / 2) y x).zip ((disk (d / 2)).map fun o => sw o.1 o.2)).foldl
        (bilateralStep cw c) (0, 0))) := by
  obtain ⟨r, hr⟩ : ∃ r, r = d / 2 := ⟨_, rfl⟩
  have hr1 : 1 ≤ r := by omega
  have hcount := disk_count hr1
  have hdr : d = 2 * r ∨ d = 2 * r + 1 := by omega
  have hfit : (disk r).length ≤ d * d := by
    rcases hdr with h | h
    · have : 2 ≤ r := by omega
      rw [h]; nlinarith
    · rw [h]; nlinarith
  have hs : spaceWeight sw d = some ((disk r).map (fun o => sw o.1 o.2) ++ List.replicate (d * d - (disk r).length) 0) := by
    unfold spaceWeight
    rw [← hr, diskWeights_eq]
    simp only [List.length_map]
    rw [if_neg (by omega)]
  obtain ⟨p, h1, h2, h3⟩ := padReplicate_spec 0 hw hh hl r r
  have h2' : p.length = (r * 2 + h) * (r * 2 + w) := by rw [h2, Nat.add_comm h, Nat.add_comm w]
  have hlen : ∀ y < h, ∀ x < w, (neighbours l w h r y x).length = (2 * r + 1) * (2 * r + 1) := fun y hy x hx => neighbours_length hw hh h2' h3 hy hx
  have hmid : ∀ y < h, ∀ x < w, (neighbours l w h r y x)[((neighbours l w h r y x).length + 1) / 2]? = ext l w h y (x + 1) := by
    intro y hy x hx
    have e1 : ((2 * r + 1) * (2 * r + 1) + 1) / 2 = r * (2 * r + 1) + (r + 1) := by
      rw [show (2 * r + 1) * (2 * r + 1) + 1 = 2 * (r * (2 * r + 1) + (r + 1)) by ring]; omega
    rw [hlen y hy x hx, e1, neighbours_get hw hh hl]
    · congr 1
      · rw [Nat.mul_comm, Nat.mul_add_div (by omega), Nat.div_eq_of_lt (by omega)]; omega
      · rw [Nat.mul_comm, Nat.mul_add_mod, Nat.mod_eq_of_lt (by omega)]; omega
    · nlinarith
  obtain ⟨res, e1, e2, e3⟩ := spatialLoop_spec
    (f := fun (_ : Unit) win => (bilateralAt bits cw ((disk r).map (fun o => sw o.1 o.2) ++ List.replicate (d * d - (disk r).length) 0)
      (diskWeights sw r).length win).map fun v => (v, ())) (padded := p)
    (out := List.replicate l.length 0) (st := ()) hw h2' (by simpa using hl) (I := fun _ _ => True)
    (V := fun y x => bilateralCast bits (((neighbours l w h r y x).zip ((disk r).map fun o => sw o.1 o.2)).foldl
        (bilateralStep cw ((ext l w h y (x + 1)).getD 0)) (0, 0))) trivial
    (fun y hy x hx s _ => by
      refine ⟨(), ?_, trivial⟩
      rw [around_eq hw hh h2' h3 hy hx]
      obtain ⟨c, hc⟩ := Option.isSome_iff_exists.1 (ext_some hw hh hl y (x + 1))
      unfold bilateralAt
      rw [hmid y hy x hx, hc, diskWeights_eq]
      simp only [Option.map_some, Option.getD_some]
      congr 4
      exact zip_take_left _ _ _)
  refine ⟨res, ?_, e2, fun y hy x hx => ?_⟩
  · unfold bilateral
    rw [if_neg (by omega), Int.toNat_natCast, hs, ← hr, Option.bind_some, h1]
    exact e1
  · obtain ⟨c, hc⟩ := Option.isSome_iff_exists.1 (ext_some hw hh hl y (x + 1))
    refine ⟨c, hc, ?_⟩
    rw [← hr, e3 y hy x hx, hc]
    rfl


theorem disk_small {d : Nat} (hd : 3 ≤ d) (hd' : d ≤ 46340) : (disk (d / 2)).length ≤ 2 ^ 31 := by
  have := disk_count (r := d / 2) (by omega)
  have h : d / 2 ≤ 23170 := by omega
  have : d / 2 * (d / 2) ≤ 23170 * 23170 := Nat.mul_le_mul h h
  omega

theorem disk_ne {r : Nat} : disk r ≠ [] := by
  have : ((0 : Int), (0 : Int)) ∈ disk r := by
    unfold disk grid
    rw [List.mem_filter]
    refine ⟨List.mem_map.2 ⟨(r, r), List.mem_flatMap.2 ⟨r, List.mem_range.2 (by omega), List.mem_map.2 ⟨r, List.mem_range.2 (by omega), rfl⟩⟩, by simp⟩, ?_⟩
    simp only [decide_eq_true_eq]
    positivity
  intro h
  rw [h] at this
  cases this

/-- The pairs of samples and weights. -/
theorem zip_facts {bits w h d : Nat} {l : List Nat} {cw : Nat → Rat} {sw : Int → Int → Rat} (hw : 0 < w) (hh : 0 < h) (hl : l.length = w * h)
    (hb : ∀ v ∈ l, v < 2 ^ bits) (hd : 3 ≤ d) (hd' : d ≤ 46340) (hW : Weights cw sw) (y x : Nat) :
    let ps := (neighbours l w h (d / 2) y x).zip ((disk (d / 2)).map fun o => sw o.1 o.2)
    ps ≠ [] ∧ ps.length ≤ 2 ^ 31 ∧ ∀ p ∈ ps, 0 < p.2 ∧ p.1 < 2 ^ bits := by
  intro ps
  refine ⟨?_, ?_, ?_⟩
  · have h1 : neighbours l w h (d / 2) y x ≠ [] := by
      intro e
      have := neighbours_get hw hh hl (d / 2) y x (k := 0) (by positivity)
      have q := ext_some hw hh hl (y + (0 / (2 * (d / 2) + 1) : Nat) - (d / 2 : Nat)) (x + (0 % (2 * (d / 2) + 1) : Nat) - (d / 2 : Nat))
      rw [← this, e] at q
      simp at q
    have h2 : (disk (d / 2)).map (fun o => sw o.1 o.2) ≠ [] := by simpa using disk_ne
    obtain ⟨a, t, e1⟩ := List.exists_cons_of_ne_nil h1
    obtain ⟨b, u, e2⟩ := List.exists_cons_of_ne_nil h2
    simp only [ps, e1, e2]
    simp
  · have := disk_small hd hd'
    simp only [ps, List.length_zip, List.length_map]
    omega
  · intro p hp
    obtain ⟨p1, p2⟩ := p
    obtain ⟨h1, h2⟩ := List.of_mem_zip hp
    obtain ⟨o, _, rfl⟩ := List.mem_map.1 h2
    exact ⟨hW.pos.2 _ _, hb _ (neighbours_mem h1)⟩

/-- **C113 (partial)** For every diameter from 3 on, and all weights (in the range of f64), the filter succeeds, and its result at every place is, up to
rounding, the mean of samples whose weights are those of the places of a disk, multiplied by those of the differences to one sample.

Missing: the samples are not those of the disk (they are the first ones of the square around it, row by row), and the differences are taken to the sample at
the right and not to the one at the place: see `c113_disk_wrong` and `c113_below_wrong` (IP31). -/
theorem c113_mean_partial {bits w h d : Nat} {l : List Nat} {cw : Nat → Rat} {sw : Int → Int → Rat} (hbits : bits ≤ 16) (hw : 0 < w) (hh : 0 < h)
    (hl : l.length = w * h) (hb : ∀ v ∈ l, v < 2 ^ bits) (hd : 3 ≤ d) (hd' : d ≤ 46340) (hW : Weights cw sw) :
    ∃ res, bilateral bits cw sw d l w h = some res ∧ res.length = w * h ∧ ∀ y < h, ∀ x < w, ∃ v c : Nat, res[y * w + x]? = some v ∧
      ext l w h y (x + 1) = some c ∧
      |(v : Rat) - meanOf cw c ((neighbours l w h (d / 2) y x).zip ((disk (d / 2)).map fun o => sw o.1 o.2))| ≤ 5 / 8 := by
  obtain ⟨res, e1, e2, e3⟩ := bilateral_spec (bits := bits) (cw := cw) (sw := sw) hw hh hl hd
  refine ⟨res, e1, e2, fun y hy x hx => ?_⟩
  obtain ⟨c, hc, hv⟩ := e3 y hy x hx
  obtain ⟨f1, f2, f3⟩ := zip_facts hw hh hl hb hd hd' hW y x
  exact ⟨_, c, hv, hc, at_near hbits hW.pos.1 c f1 f2 f3⟩

/-- Weights for the examples: all of them 1, the limit of large sigmas. -/
theorem weights_one : Weights (fun _ => 1) (fun _ _ => 1) := ⟨fun _ => ⟨by norm_num, le_rfl⟩, fun _ _ => ⟨by norm_num, le_rfl⟩⟩

example : Weights (fun k => if k = 0 then 1 else 1 / 2) (fun i j => if i = 0 ∧ j = 0 then 1 else 3 / 4) := by
  refine ⟨fun k => ?_, fun i j => ?_⟩
  · dsimp only; split <;> norm_num
  · dsimp only; split <;> norm_num

/-- **C113** The filter stays between any two bounds of the samples in the square around a place. -/
theorem c113_range {bits w h d : Nat} {l : List Nat} {cw : Nat → Rat} {sw : Int → Int → Rat} (hbits : bits ≤ 16) (hw : 0 < w) (hh : 0 < h)
    (hl : l.length = w * h) (hb : ∀ v ∈ l, v < 2 ^ bits) (hd : 3 ≤ d) (hd' : d ≤ 46340) (hW : Weights cw sw) :
    ∃ res, bilateral bits cw sw d l w h = some res ∧ res.length = w * h ∧ ∀ y < h, ∀ x < w, ∀ lo hi : Nat,
      (∀ u ∈ neighbours l w h (d / 2) y x, lo ≤ u ∧ u ≤ hi) → ∃ v, res[y * w + x]? = some v ∧ lo ≤ v ∧ v ≤ hi := by
  obtain ⟨res, e1, e2, e3⟩ := c113_mean_partial hbits hw hh hl hb hd hd' hW
  refine ⟨res, e1, e2, fun y hy x hx lo hi hu => ?_⟩
  obtain ⟨v, c, hv, _, hm⟩ := e3 y hy x hx
  obtain ⟨f1, _, f3⟩ := zip_facts hw hh hl hb hd hd' hW y x
  have hmem := mean_mem hW.pos.1 c f1 (fun p hp => (f3 p hp).1) (lo := lo) (hi := hi) fun p hp => hu _ (List.of_mem_zip (a := p.1) (b := p.2) hp).1
  rw [abs_le] at hm
  refine ⟨v, hv, ?_, ?_⟩
  · have : (lo : Rat) < v + 1 := by linarith [hm.1, hmem.1]
    have : lo < v + 1 := by exact_mod_cast this
    omega
  · have : (v : Rat) < hi + 1 := by linarith [hm.2, hmem.2]
    have : v < hi + 1 := by exact_mod_cast this
    omega

example : ∀ u ∈ neighbours [10, 20, 30, 40, 50, 60] 3 2 1 0 0, 10 ≤ u ∧ u ≤ 50 := by decide

/-- **C113** A picture of one colour stays as it is. -/
theorem c113_constant {bits w h d c : Nat} {l : List Nat} {cw : Nat → Rat} {sw : Int → Int → Rat} (hbits : bits ≤ 16) (hw : 0 < w) (hh : 0 < h)
    (hl : l.length = w * h) (hc : ∀ v ∈ l, v = c) (hcb : c < 2 ^ bits) (hd : 3 ≤ d) (hd' : d ≤ 46340) (hW : Weights cw sw) :
    bilateral bits cw sw d l w h = some l := by
  obtain ⟨res, e1, e2, e3⟩ := c113_range hbits hw hh hl (fun v hv => by rw [hc v hv]; exact hcb) hd hd' hW
  rw [e1]
  congr 1
  apply List.ext_getElem? 
  intro k
  by_cases hk : k < w * h
  · obtain ⟨v, hv, h1, h2⟩ := e3 (k / w) (Nat.div_lt_of_lt_mul hk) (k % w) (Nat.mod_lt _ hw) c c fun u hu => by
      rw [hc u (neighbours_mem hu)]; exact ⟨le_rfl, le_rfl⟩
    rw [Nat.mul_comm, Nat.div_add_mod] at hv
    rw [hv, List.getElem?_eq_getElem (by omega), hc _ (List.getElem_mem _)]
    congr 1; omega
  · rw [List.getElem?_eq_none (by omega), List.getElem?_eq_none (by omega)]

example : (∀ v ∈ List.replicate 12 77, v = 77) ∧ (List.replicate 12 77).length = 4 * 3 := by decide

/-- **C113, disagreement IP32** With diameter 1 every picture makes the filter panic: the square has one sample, and the code takes the one after it. -/
theorem c113_panic_one {bits w h : Nat} {l : List Nat} {cw : Nat → Rat} {sw : Int → Int → Rat} (hw : 0 < w) (hh : 0 < h) (hl : l.length = w * h) :
    bilateral bits cw sw 1 l w h = none := by
  obtain ⟨p, h1, -, -⟩ := padReplicate_spec 0 hw hh hl 0 0
  have hat : ∀ space makx, ∀ win : List Nat, win.length = 1 → bilateralAt bits cw space makx win = none := by
    intro space makx win hwin
    unfold bilateralAt
    rw [hwin, List.getElem?_eq_none (by omega)]; rfl
  have hwin : ∀ W y x win, window p W 1 y x = some win → win.length = 1 := by
    intro W y x win e
    unfold window at e
    simp only [List.range_one, List.mapM_cons, List.mapM_nil] at e
    unfold sliceAt at e
    split at e
    · rename_i hle
      simp only [Nat.add_zero] at hle
      simp at e
      rw [← e]
      simp; omega
    · simp at e
  unfold bilateral
  rw [if_neg (by decide)]
  show (spaceWeight sw 1).bind (fun space => (padReplicate 0 l w h 0 0).bind fun padded => _) = none
  cases spaceWeight sw 1 with
  | none => rfl
  | some space =>
    rw [Option.bind_some, h1, Option.bind_some]
    unfold spatialLoop
    split
    · rfl
    · obtain ⟨n, hn⟩ : ∃ n, h * w = n + 1 := ⟨h * w - 1, by have := Nat.mul_pos hh hw; omega⟩
      rw [grid_eq h hw, hn, List.range_succ_eq_map, List.map_cons, List.foldlM_cons]
      cases e : window p w 1 0 0 with
      | none => simp [e]
      | some win =>
        have := hat space (diskWeights sw 0).length win (hwin _ _ _ _ e)
        simp [e, this]

/-- **C113, disagreement IP32** With diameter 2 every picture, and all weights, make the filter panic: five weights are stored in four places. -/
theorem c113_panic_two {bits w h : Nat} {l : List Nat} {cw : Nat → Rat} {sw : Int → Int → Rat} : bilateral bits cw sw 2 l w h = none := by
  have : spaceWeight sw 2 = none := by
    unfold spaceWeight
    rw [diskWeights_eq]
    simp only [List.length_map]
    rw [if_pos (by decide)]
  unfold bilateral
  rw [if_neg (by decide)]
  show (spaceWeight sw 2).bind _ = none
  rw [this]; rfl

/-- **C113, disagreement IP33** A diameter that is not positive is documented to be computed from the sigma; the filter does nothing. -/
theorem c113_not_positive {bits w h : Nat} {l : List Nat} {cw : Nat → Rat} {sw : Int → Int → Rat} {d : Int} (hd : d ≤ 0) :
    bilateral bits cw sw d l w h = some l := by
  unfold bilateral
  rw [if_pos (by omega)]

/-- The bilateral filter: the mean over the disk, weights by the place and by the difference to the sample in the middle. -/
def idealMean (cw : Nat → Rat) (sw : Int → Int → Rat) (l : List Nat) (w h r y x : Nat) (c : Nat) : Rat :=
  meanOf cw c ((disk r).filterMap fun o => (ext l w h (y + o.1) (x + o.2)).map fun v => (v, sw o.1 o.2))

theorem zip_congr {β γ : Type} : ∀ {a a' : List β} {b : List γ}, (∀ k < b.length, a[k]? = a'[k]?) → a.zip b = a'.zip b
  | _, _, [], _ => by simp
  | [], [], _ :: _, _ => rfl
  | [], _ :: _, _ :: _, h => by have := h 0 (by simp); simp at this
  | _ :: _, [], _ :: _, h => by have := h 0 (by simp); simp at this
  | x :: a, x' :: a', y :: b, h => by
    have h0 := h 0 (by simp)
    simp only [List.getElem?_cons_zero, Option.some.injEq] at h0
    rw [h0, List.zip_cons_cons, List.zip_cons_cons, zip_congr fun k hk => by simpa using h (k + 1) (by simpa using hk)]

/-- **C113, disagreement IP31** Whatever the diameter (from 3 on) and the weights, the samples `d / 2` rows below a place do not influence its result.  The one
in the same column belongs to the disk. -/
theorem c113_below_wrong {bits w h d : Nat} {l l' : List Nat} {cw : Nat → Rat} {sw : Int → Int → Rat} (hw : 0 < w) (hh : 0 < h) (hl : l.length = w * h)
    (hl' : l'.length = w * h) (hd : 3 ≤ d) {y x : Nat} (hy : y + d / 2 < h) (hx : x < w) (he : ∀ k < (y + d / 2) * w, l[k]? = l'[k]?) :
    ∃ res res', bilateral bits cw sw d l w h = some res ∧ bilateral bits cw sw d l' w h = some res' ∧
      res[y * w + x]? = res'[y * w + x]? ∧ (((d / 2 : Nat) : Int), (0 : Int)) ∈ disk (d / 2) := by
  obtain ⟨res, e1, _, e3⟩ := bilateral_spec (bits := bits) (cw := cw) (sw := sw) hw hh hl hd
  obtain ⟨res', e1', _, e3'⟩ := bilateral_spec (bits := bits) (cw := cw) (sw := sw) hw hh hl' hd
  refine ⟨res, res', e1, e1', ?_, ?_⟩
  · have hext : ∀ Y X : Int, Y < y + (d / 2 : Nat) → ext l w h Y X = ext l' w h Y X := by
      intro Y X hY
      unfold ext
      apply he
      have a : (max 0 (min Y (h - 1))).toNat < y + d / 2 := by omega
      have b : (max 0 (min X (w - 1))).toNat < w := by omega
      rw [Nat.mul_comm (y + d / 2)]
      exact rowcol_lt b a
    obtain ⟨c, hc, hv⟩ := e3 y (by omega) x hx
    obtain ⟨c', hc', hv'⟩ := e3' y (by omega) x hx
    rw [hext _ _ (by omega), hc'] at hc
    cases hc
    rw [hv, hv', zip_congr]
    intro k hk
    rw [List.length_map] at hk
    have hcount := disk_count (r := d / 2) (by omega)
    have hk2 : k < (2 * (d / 2)) * (2 * (d / 2) + 1) := by
      have : 1 ≤ d / 2 := by omega
      nlinarith
    have hk3 : k < (2 * (d / 2) + 1) * (2 * (d / 2) + 1) := Nat.lt_of_lt_of_le hk2 (Nat.mul_le_mul_right _ (by omega))
    rw [neighbours_get hw hh hl _ _ _ hk3, neighbours_get hw hh hl' _ _ _ hk3]
    apply hext
    have : k / (2 * (d / 2) + 1) < 2 * (d / 2) := by rw [Nat.div_lt_iff_lt_mul (by omega)]; exact hk2
    generalize k / (2 * (d / 2) + 1) = q at this ⊢
    omega
  · unfold disk grid
    generalize d / 2 = r
    rw [List.mem_filter]
    refine ⟨List.mem_map.2 ⟨(2 * r, r), List.mem_flatMap.2 ⟨2 * r, List.mem_range.2 (by omega), List.mem_map.2 ⟨r, List.mem_range.2 (by omega), rfl⟩⟩, ?_⟩, ?_⟩
    · simp; omega
    · simp

example : ∃ l l' : List Nat, l.length = 3 * 3 ∧ l'.length = 3 * 3 ∧ l ≠ l' ∧ ∀ k < (1 + 3 / 2) * 3, l[k]? = l'[k]? :=
  ⟨[0, 0, 0, 0, 0, 0, 0, 200, 0], [0, 0, 0, 0, 0, 0, 0, 7, 0], by decide⟩

/-- **C113, disagreement IP31** With all weights 1 and diameter 3 the result in the middle of a 3 × 3 picture should be 40, the mean of the five samples of the
disk, and is 0. -/
theorem c113_disk_wrong :
    ((bilateral 8 (fun _ => 1) (fun _ _ => 1) 3 [0, 0, 0, 0, 0, 0, 0, 200, 0] 3 3).bind fun r => r[4]?) = some 0 ∧
    idealMean (fun _ => 1) (fun _ _ => 1) [0, 0, 0, 0, 0, 0, 0, 200, 0] 3 3 1 1 1 0 = 40 := by
  decide +kernel

end Zune.Imageprocs
