/-
**C114**: the gaussian blur.
-/
import Verif.Imageprocs.GaussModel
import Verif.Imageprocs.FilterProps
import Verif.Imageprocs.BilateralProps
import Mathlib.Analysis.Real.Sqrt

namespace Zune.Imageprocs
open Zune.Float

/-! ### The passes -/

/-- A row whose samples have been replaced by what the box blur stores for them. -/
def blurRow (r : Nat) (row : List Nat) : List Nat := (List.range row.length).map (blurAt row r)

/-- Half of the window that is used for the radius `R` in a row of `n` samples. -/
def halfWindow (n R : Nat) : Nat := (min (2 * R + 1) n - 1) / 2

/-- A row after the blurs with the radii of a list. -/
def blurLine (radii : List Nat) (row : List Nat) : List Nat := radii.foldl (fun l R => blurRow (halfWindow row.length R) l) row

/-- The condition on a radius: the window is odd, and its sum fits into 32 bits. -/
def BoxFits (bits n R : Nat) : Prop := 0 < R ∧ (n % 2 = 1 ∨ 2 * R + 1 ≤ n) ∧ min (2 * R + 1) n * (2 ^ bits - 1) < 2 ^ 32 ∧ min (2 * R + 1) n < 2 ^ 32

theorem half_odd {bits n R : Nat} (h : BoxFits bits n R) : 2 * halfWindow n R + 1 = min (2 * R + 1) n := by
  obtain ⟨h0, h1, -, -⟩ := h
  unfold halfWindow
  omega

theorem blurRow_length (r : Nat) (row : List Nat) : (blurRow r row).length = row.length := by simp [blurRow]

theorem blurRow_lt {bits r : Nat} {row : List Nat} (h : 2 * r + 1 ≤ row.length) (hb : ∀ v ∈ row, v < 2 ^ bits) : ∀ v ∈ blurRow r row, v < 2 ^ bits := by
  intro v hv
  obtain ⟨x, hx, rfl⟩ := List.mem_map.1 hv
  exact blurAt_lt h hb (List.mem_range.1 hx)

theorem mem_of_rows {w h : Nat} {img : List Nat} (hw : 0 < w) (hi : img.length = w * h) {v : Nat} (hv : v ∈ img) : ∃ y < h, v ∈ rowOf img w y := by
  obtain ⟨k, hk, rfl⟩ := List.mem_iff_getElem.1 hv
  rw [hi] at hk
  refine ⟨k / w, Nat.div_lt_of_lt_mul hk, List.mem_of_getElem? (i := k % w) ?_⟩
  unfold rowOf
  rw [row_get _ (Nat.mod_lt _ hw), Nat.mul_comm, Nat.div_add_mod, List.getElem?_eq_getElem]

/-- One box blur, row by row. -/
theorem inner_rows {bits w h R : Nat} {img out : List Nat} (hw : 2 ≤ w) (hf : BoxFits bits w R) (hi : img.length = w * h) (ho : out.length = w * h)
    (hb : ∀ v ∈ img, v < 2 ^ bits) :
    ∃ res, boxInner bits img out w R = some res ∧ res.length = w * h ∧ (∀ v ∈ res, v < 2 ^ bits) ∧
      ∀ y < h, rowOf res w y = blurRow (halfWindow w R) (rowOf img w y) := by
  have ho2 := half_odd hf
  have hpos : 0 < halfWindow w R := by
    obtain ⟨h0, h1, -, -⟩ := hf
    omega
  obtain ⟨res, e1, e2, e3⟩ := boxInner_odd ho2 hpos hi ho hb (by rw [ho2]; exact hf.2.2.1) (by rw [ho2]; exact hf.2.2.2)
  have hrow : ∀ y < h, rowOf res w y = blurRow (halfWindow w R) (rowOf img w y) := by
    intro y hy
    apply List.ext_getElem?
    intro x
    have hl1 : (rowOf res w y).length = w := row_length e2 hy
    have hl2 : (rowOf img w y).length = w := row_length hi hy
    by_cases hx : x < w
    · have : (rowOf res w y)[x]? = res[y * w + x]? := by unfold rowOf; exact row_get _ hx
      rw [this, e3 y hy x hx]
      unfold blurRow
      rw [List.getElem?_map, List.getElem?_range (by omega)]
      rfl
    · rw [List.getElem?_eq_none (by omega), List.getElem?_eq_none (by rw [blurRow_length]; omega)]
  refine ⟨res, e1, e2, fun v hv => ?_, hrow⟩
  obtain ⟨y, hy, hv⟩ := mem_of_rows (by omega) e2 hv
  rw [hrow y hy] at hv
  refine blurRow_lt ?_ (fun u hu => hb u ?_) v hv
  · rw [show (rowOf img w y).length = w from row_length hi hy]; omega
  · exact List.mem_of_mem_drop (List.mem_of_mem_take hu)

theorem pass_rows {bits w h a b c : Nat} {img out : List Nat} (hw : 2 ≤ w) (hf : ∀ R ∈ [a, b, c], BoxFits bits w R) (hi : img.length = w * h)
    (ho : out.length = w * h) (hb : ∀ v ∈ img, v < 2 ^ bits) :
    ∃ i s, gaussPass bits img out w [a, b, c] = some (i, s) ∧ i.length = w * h ∧ s.length = w * h ∧ (∀ v ∈ s, v < 2 ^ bits) ∧
      ∀ y < h, rowOf s w y = blurLine [a, b, c] (rowOf img w y) := by
  obtain ⟨s1, a1, a2, a3, a4⟩ := inner_rows hw (hf a (by simp)) hi ho hb
  obtain ⟨i1, b1, b2, b3, b4⟩ := inner_rows hw (hf b (by simp)) a2 hi a3
  obtain ⟨s2, c1, c2, c3, c4⟩ := inner_rows hw (hf c (by simp)) b2 a2 b3
  refine ⟨i1, s2, ?_, b2, c2, c3, fun y hy => ?_⟩
  · unfold gaussPass
    simp only [a1, b1, c1, Option.bind_some, Option.map_some]
  · rw [c4 y hy, b4 y hy, a4 y hy]
    have hl : (rowOf img w y).length = w := row_length hi hy
    unfold blurLine
    simp only [List.foldl_cons, List.foldl_nil, hl]

/-- Column `x` of the picture after its rows have been blurred. -/
def gaussColumn (radii img : List Nat) (w h x : Nat) : List Nat := (List.range h).map fun y => (blurLine radii (rowOf img w y)).getD x 0

theorem blurLine_length (radii row : List Nat) : (blurLine radii row).length = row.length := by
  suffices ∀ (n : Nat) (l : List Nat), (radii.foldl (fun l R => blurRow (halfWindow n R) l) l).length = l.length from this _ row
  intro n
  induction radii with
  | nil => intro l; rfl
  | cons R t ih => intro l; rw [List.foldl_cons, ih, blurRow_length]

/-- **C114 (partial)** The blur replaces every row by the result of three box blurs with the radii of the list, and then every column.  Nothing wraps or panics.

Missing: sides below eight (where the transpose fails, C33) and even sides smaller than a window (IP3, C80); what a single box blur computes is C80, its window
is one sample too far to the right. -/
theorem c114_blur_partial (checks : Bool) {bits w h a b c : Nat} {img : List Nat} (hw : 8 ≤ w) (hh : 8 ≤ h) (hi : img.length = w * h)
    (hb : ∀ v ∈ img, v < 2 ^ bits) (hf : ∀ R ∈ [a, b, c], BoxFits bits w R ∧ BoxFits bits h R) :
    ∃ res, gaussianBlur checks bits [a, b, c] img (List.replicate (w * h) 0) w h = some res ∧ res.length = w * h ∧
      ∀ y < h, ∀ x < w, ∃ v, res[y * w + x]? = some v ∧ (blurLine [a, b, c] (gaussColumn [a, b, c] img w h x))[y]? = some v := by
  obtain ⟨i1, s1, a1, a2, a3, a4, a5⟩ := pass_rows (by omega) (fun R hR => (hf R hR).1) hi (List.length_replicate (n := w * h) (a := 0)) hb
  obtain ⟨t, b1, b2, b3⟩ := c33_transpose_partial checks 0 s1 i1 w h hw hh a3 a2
  have ht : ∀ v ∈ t, v < 2 ^ bits := by
    intro v hv
    obtain ⟨k, hk, rfl⟩ := List.mem_iff_getElem.1 hv
    rw [b2] at hk
    have := b3 _ (Nat.div_lt_of_lt_mul hk) _ (Nat.mod_lt k (by omega : 0 < h))
    rw [show k / h * h + k % h = k by rw [Nat.mul_comm]; exact Nat.div_add_mod k h, List.getElem?_eq_getElem (by rw [b2]; exact hk)] at this
    exact a4 _ (List.mem_of_getElem? this.symm)
  obtain ⟨i2, s2, c1, c2, c3, c4, c5⟩ := pass_rows (h := w) (by omega) (fun R hR => (hf R hR).2) b2 (by rw [a3, Nat.mul_comm] : s1.length = h * w) ht
  obtain ⟨res, d1, d2, d3⟩ := c33_transpose_partial checks 0 s2 i2 h w hh hw c3 c2
  have hcol : ∀ x < w, rowOf t h x = gaussColumn [a, b, c] img w h x := by
    intro x hx
    apply List.ext_getElem?
    intro y
    by_cases hy : y < h
    · have e1 : (rowOf t h x)[y]? = t[x * h + y]? := by unfold rowOf; exact row_get _ hy
      have e2 : (rowOf s1 w y)[x]? = s1[y * w + x]? := by unfold rowOf; exact row_get _ hx
      rw [e1, b3 x hx y hy, ← e2, a5 y hy]
      unfold gaussColumn
      rw [List.getElem?_map, List.getElem?_range hy]
      have hl : x < (blurLine [a, b, c] (rowOf img w y)).length := by rw [blurLine_length, show (rowOf img w y).length = w from row_length hi hy]; exact hx
      rw [List.getElem?_eq_getElem hl]
      simp [List.getD, List.getElem?_eq_getElem hl]
    · rw [List.getElem?_eq_none (by rw [show (rowOf t h x).length = h from row_length b2 hx]; omega), List.getElem?_eq_none (by simp [gaussColumn]; omega)]
  refine ⟨res, ?_, d2, fun y hy x hx => ?_⟩
  · unfold gaussianBlur
    simp only [a1, b1, c1, d1, Option.bind_some]
  · have hk : y * w + x < res.length := by rw [d2]; exact rowcol_lt hx hy
    refine ⟨res[y * w + x], List.getElem?_eq_getElem hk, ?_⟩
    rw [← List.getElem?_eq_getElem hk, d3 y hy x hx, ← hcol x hx, ← c5 x hx]
    unfold rowOf
    exact row_get _ hy

example : ∀ R ∈ [3, 3, 5], BoxFits 16 9 R ∧ BoxFits 16 12 R := by unfold BoxFits; decide

theorem blurLine_const {bits c : Nat} : ∀ (radii : List Nat) (row : List Nat), (∀ R ∈ radii, BoxFits bits row.length R) → (∀ v ∈ row, v = c) →
    ∀ v ∈ blurLine radii row, v = c := by
  intro radii row hf hc
  unfold blurLine
  generalize hn : row.length = n at hf
  induction radii generalizing row with
  | nil => exact hc
  | cons R t ih =>
    rw [List.foldl_cons]
    have := half_odd (hf R (by simp))
    refine ih (blurRow (halfWindow n R) row) ?_ (by rw [blurRow_length]; exact hn) fun R hR => hf R (by simp [hR])
    intro v hv
    obtain ⟨x, hx, rfl⟩ := List.mem_map.1 hv
    exact blurAt_const (by omega) hc (List.mem_range.1 hx)

/-- **C114** Under the same conditions a picture of one colour is not changed. -/
theorem c114_constant (checks : Bool) {bits w h a b c k : Nat} {img : List Nat} (hw : 8 ≤ w) (hh : 8 ≤ h) (hi : img.length = w * h)
    (hc : ∀ v ∈ img, v = k) (hb : k < 2 ^ bits) (hf : ∀ R ∈ [a, b, c], BoxFits bits w R ∧ BoxFits bits h R) :
    gaussianBlur checks bits [a, b, c] img (List.replicate (w * h) 0) w h = some img := by
  obtain ⟨res, e1, e2, e3⟩ := c114_blur_partial checks hw hh hi (fun v hv => by rw [hc v hv]; exact hb) hf
  rw [e1]
  congr 1
  refine image_ext e2 hi fun x hx y hy => ?_
  obtain ⟨v, h1, h2⟩ := e3 y hy x hx
  have hk : y * w + x < img.length := by rw [hi]; exact rowcol_lt hx hy
  rw [h1, List.getElem?_eq_getElem hk, hc _ (List.getElem_mem hk)]
  congr 1
  refine blurLine_const (bits := bits) _ _ ?_ ?_ v (List.mem_of_getElem? h2)
  · rw [show (gaussColumn [a, b, c] img w h x).length = h by simp [gaussColumn]]
    exact fun R hR => (hf R hR).2
  · intro u hu
    obtain ⟨y', hy', rfl⟩ := List.mem_map.1 hu
    rw [List.mem_range] at hy'
    have hl : (rowOf img w y').length = w := row_length hi hy'
    have hx' : x < (blurLine [a, b, c] (rowOf img w y')).length := by rw [blurLine_length, hl]; exact hx
    simp only [List.getD, List.getElem?_eq_getElem hx', Option.getD_some]
    exact blurLine_const (bits := bits) _ (rowOf img w y') (by rw [hl]; exact fun R hR => (hf R hR).1)
      (fun v hv => hc v (List.mem_of_mem_drop (List.mem_of_mem_take hv))) _ (List.getElem_mem hx')

/-! ### The radii -/

/-- `root` is a square root, up to two roundings to f32 and a bit. -/
def IsRoot (root : Rat → Rat) : Prop := ∀ x, 0 ≤ x → 0 ≤ root x ∧ |root x ^ 2 - x| ≤ x / 2 ^ 22


/-- The correctly rounded root of f32 (relative error 2⁻²⁴ at most) is one. -/
theorem root_rounded {x r : Rat} (hx : 0 ≤ x) (h : |(r : ℝ) - √(x : ℝ)| ≤ √(x : ℝ) / 2 ^ 24) : |r ^ 2 - x| ≤ x / 2 ^ 22 := by
  have hs := Real.sqrt_nonneg (x : ℝ)
  have hq : √(x : ℝ) * √(x : ℝ) = x := Real.mul_self_sqrt (by exact_mod_cast hx)
  have key : |(r : ℝ) ^ 2 - x| ≤ x / 2 ^ 22 := by
    rw [← hq]
    generalize √(x : ℝ) = s at h hs
    rw [abs_le] at h ⊢
    have h1 := h.1
    have h2 := h.2
    constructor <;> nlinarith
  exact_mod_cast key

example : ∃ root, IsRoot root := by
  have : ∀ x : Rat, ∃ r : Rat, 0 ≤ x → 0 ≤ r ∧ |r ^ 2 - x| ≤ x / 2 ^ 22 := by
    intro x
    rcases lt_trichotomy x 0 with h | h | h
    · exact ⟨0, fun h' => absurd h (not_lt.2 h')⟩
    · exact ⟨0, fun _ => by rw [h]; simp⟩
    · have hs : 0 < √(x : ℝ) := Real.sqrt_pos.2 (by exact_mod_cast h)
      obtain ⟨r, h1, h2⟩ := exists_rat_btwn (show √(x : ℝ) < √(x : ℝ) + √(x : ℝ) / 2 ^ 24 by linarith [div_pos hs (by norm_num : (0 : ℝ) < 2 ^ 24)])
      refine ⟨r, fun _ => ⟨?_, root_rounded h.le (by rw [abs_of_pos (by linarith)]; linarith)⟩⟩
      have : (0 : ℝ) ≤ r := by linarith
      exact_mod_cast this
  choose f hf using this
  exact ⟨f, hf⟩

/-- The relative error of a rounding to f32. -/
theorem rnd24_rel {x : Rat} (hx : 0 ≤ x) : (1 - 1 / 2 ^ 24) * x ≤ rnd 24 x ∧ rnd 24 x ≤ (1 + 1 / 2 ^ 24) * x := by
  have r : |Zune.Float.rnd 24 x - x| ≤ |x| / 2 ^ 24 := by rw [le_div_iff₀ (by norm_num)]; exact rnd_err 24 x
  rw [abs_of_nonneg hx, abs_le] at r
  constructor <;> linarith [r.1, r.2]

/-- The ideal width, 2σ + 1. -/
theorem lower_spec {root : Rat → Rat} (hroot : IsRoot root) {sigma : Rat} (hs : 0 < sigma) :
    gaussLower root sigma % 2 = 1 ∧ 1 ≤ gaussLower root sigma ∧
      (gaussLower root sigma : Rat) ≤ (2 * sigma + 1) * (1 + 1 / 2 ^ 19) ∧ (2 * sigma + 1) * (1 - 1 / 2 ^ 19) < gaussLower root sigma + 2 := by
  unfold gaussLower
  have a0 : (0 : Rat) ≤ 12 * sigma := by linarith
  obtain ⟨a1, a2⟩ := rnd24_rel a0
  generalize rnd 24 (12 * sigma) = a at a1 a2
  have a3 : 0 ≤ a := le_trans (mul_nonneg (by norm_num) a0) a1
  obtain ⟨b1, b2⟩ := rnd24_rel (mul_nonneg a3 hs.le)
  generalize rnd 24 (a * sigma) = b at b1 b2
  have a1' := mul_le_mul_of_nonneg_right a1 hs.le
  have a2' := mul_le_mul_of_nonneg_right a2 hs.le
  have b3 : 0 ≤ b := le_trans (mul_nonneg (by norm_num) (mul_nonneg a3 hs.le)) b1
  obtain ⟨t1, t2⟩ := rnd24_rel (div_nonneg b3 (by norm_num : (0 : Rat) ≤ 3))
  generalize rnd 24 (b / 3) = t at t1 t2
  have t3 : 0 ≤ t := le_trans (mul_nonneg (by norm_num) (div_nonneg b3 (by norm_num))) t1
  obtain ⟨r0, r1⟩ := hroot t t3
  generalize root t = r at r0 r1
  rw [abs_le] at r1
  have ss : 0 < sigma * sigma := mul_pos hs hs
  have tl : 4 * (sigma * sigma) * (1 - 1 / 2 ^ 22) ≤ t := by norm_num at *; nlinarith
  have tu : t ≤ 4 * (sigma * sigma) * (1 + 1 / 2 ^ 22) := by norm_num at *; nlinarith
  have rl : 2 * sigma * (1 - 1 / 2 ^ 20) ≤ r := by
    by_contra hc
    rw [not_le] at hc
    have := mul_self_lt_mul_self r0 hc
    have := r1.1
    norm_num at *
    nlinarith
  have ru : r ≤ 2 * sigma * (1 + 1 / 2 ^ 20) := by
    by_contra hc
    rw [not_le] at hc
    have := mul_self_lt_mul_self (by positivity) hc
    have := r1.2
    norm_num at *
    nlinarith
  obtain ⟨w1, w2⟩ := rnd24_rel (show (0 : Rat) ≤ r + 1 by linarith)
  have w3 : (1 : Rat) ≤ rnd 24 (r + 1) := le_rnd (by norm_num) (by simpa using fits_nat (p := 24) (n := 1) (by norm_num)) (by linarith)
  generalize rnd 24 (r + 1) = w at w1 w2 w3
  have f1 := Int.floor_le w
  have f2 := Int.lt_floor_add_one w
  have f3 : 1 ≤ ⌊w⌋ := Int.le_floor.2 (by simpa using w3)
  have wl : (2 * sigma + 1) * (1 - 1 / 2 ^ 19) ≤ w := by norm_num at *; nlinarith
  have wu : w ≤ (2 * sigma + 1) * (1 + 1 / 2 ^ 19) := by norm_num at *; nlinarith
  simp only
  split
  · refine ⟨by omega, by omega, ?_, ?_⟩ <;> push_cast <;> linarith
  · refine ⟨by omega, f3, by linarith, by linarith⟩

/-- **C114** The three widths chosen for a sigma are odd, differ by 2 at most, and surround 2σ + 1, the width of three boxes of that deviation (up to the errors
of f32). -/
theorem c114_widths {root : Rat → Rat} (hroot : IsRoot root) {sigma : Rat} (hs : 0 < sigma) (_hs' : sigma ≤ 2 ^ 28) :
    ∃ n : Nat, n % 2 = 1 ∧ (n : Rat) ≤ (2 * sigma + 1) * (1 + 1 / 2 ^ 19) ∧ (2 * sigma + 1) * (1 - 1 / 2 ^ 19) < n + 2 ∧
      (createBoxGauss root sigma).length = 3 ∧ ∀ R ∈ createBoxGauss root sigma, R = n ∨ R = n + 2 := by
  obtain ⟨h1, h2, h3, h4⟩ := lower_spec hroot hs
  obtain ⟨n, hn⟩ := Int.eq_ofNat_of_zero_le (show 0 ≤ gaussLower root sigma by omega)
  rw [hn] at h1 h3 h4
  refine ⟨n, by omega, by simpa using h3, by simpa using h4, ?_, ?_⟩
  · unfold createBoxGauss
    rw [if_pos hs]
    simp
  · intro R hR
    unfold createBoxGauss at hR
    rw [if_pos hs] at hR
    obtain ⟨c, hc, rfl⟩ := List.mem_map.1 hR
    obtain ⟨i, _, rfl⟩ := List.mem_map.1 hc
    rw [hn]
    split <;> split <;> omega

example : (0 : Rat) < 5 / 2 ∧ (5 / 2 : Rat) ≤ 2 ^ 28 := by norm_num

/-- The variance of the mean over 2r + 1 neighbours. -/
def boxVariance (r : Nat) : Rat := ((List.range (2 * r + 1)).map fun (i : Nat) => ((i : Rat) - r) ^ 2).sum / (2 * r + 1)

theorem boxVariance_eq (r : Nat) : boxVariance r = r * (r + 1) / 3 := by
  have key : ∀ n : Nat, ((List.range n).map fun (i : Nat) => ((i : Rat) - r) ^ 2).sum = (n - 1) * n * (2 * n - 1) / 6 - r * (n * (n - 1)) + n * r ^ 2 := by
    intro n
    induction n with
    | zero => simp
    | succ n ih =>
      rw [List.range_succ, List.map_append, List.sum_append, ih]
      simp only [List.map_cons, List.map_nil, List.sum_cons, List.sum_nil]
      push_cast
      ring
  unfold boxVariance
  rw [key]
  have : (2 * (r : Rat) + 1) ≠ 0 := by positivity
  field_simp
  push_cast
  ring

/-- **C114, disagreement IP34** The widths are used as radii: for every sigma from 1 on the three blurs of `c114_blur_partial` (windows of 2R + 1 samples) have a
variance of at least 1.9 σ², from 10 on of at least 3.7 σ², and not of σ². -/
theorem c114_wide_wrong {root : Rat → Rat} (hroot : IsRoot root) {sigma : Rat} (hs : 1 ≤ sigma) (hs' : sigma ≤ 2 ^ 28) :
    19 / 10 * sigma ^ 2 ≤ ((createBoxGauss root sigma).map boxVariance).sum ∧
      (10 ≤ sigma → 37 / 10 * sigma ^ 2 ≤ ((createBoxGauss root sigma).map boxVariance).sum) := by
  obtain ⟨n, _, _, h3, h4, h5⟩ := c114_widths hroot (by linarith) hs'
  have hn : (0 : Rat) ≤ n := Nat.cast_nonneg n
  have hvar : ∀ R ∈ createBoxGauss root sigma, (n : Rat) * (n + 1) / 3 ≤ boxVariance R := by
    intro R hR
    rw [boxVariance_eq]
    rcases h5 R hR with rfl | rfl
    · exact le_rfl
    · push_cast
      nlinarith
  have hsum : (n : Rat) * (n + 1) ≤ ((createBoxGauss root sigma).map boxVariance).sum := by
    have := sum_le (f := fun _ => (n : Rat) * (n + 1) / 3) (g := boxVariance) hvar
    rw [List.map_const', List.sum_replicate, h4] at this
    simp only [nsmul_eq_mul] at this
    push_cast at this
    linarith
  have key : 2 * sigma - 1 - (2 * sigma + 1) / 2 ^ 19 ≤ n := by linarith
  constructor
  · refine le_trans ?_ hsum
    have l1 : sigma * (99 / 100) ≤ n := by norm_num at key; linarith
    have l2 : 2 * sigma * (99 / 100) ≤ n + 1 := by norm_num at key; linarith
    have := mul_le_mul l1 l2 (by positivity) hn
    nlinarith
  · intro h10
    refine le_trans ?_ hsum
    have l1 : sigma * (189 / 100) ≤ n := by norm_num at key; linarith
    have l2 : sigma * (199 / 100) ≤ n + 1 := by norm_num at key; linarith
    have := mul_le_mul l1 l2 (by positivity) hn
    nlinarith

/-- **C114, disagreement IP35** A sigma of 0 (or less) is not the identity: the radii are 1, and the picture is blurred. -/
theorem c114_zero_wrong {root : Rat → Rat} {sigma : Rat} (hs : sigma ≤ 0) : createBoxGauss root sigma = [1, 1, 1] ∧
    gaussianChannel false 8 root sigma (List.replicate 80 0 ++ [250]) 9 9 ≠ some (List.replicate 80 0 ++ [250]) := by
  have h : createBoxGauss root sigma = [1, 1, 1] := by
    unfold createBoxGauss
    rw [if_neg (by linarith)]
    rfl
  refine ⟨h, ?_⟩
  unfold gaussianChannel
  rw [h]
  decide +kernel

theorem rnd24_abs (x : Rat) : |rnd 24 x - x| ≤ |x| / 2 ^ 24 := by
  rw [le_div_iff₀ (by norm_num)]; exact rnd_err 24 x

theorem rnd24_int {m : Int} (h : |m| ≤ 2 ^ 24) : rnd 24 m = m := rnd_fit (by norm_num) (fits_int h)

theorem roundAway_near {x : Rat} (h : 0 ≤ x) : |((roundAway x).toNat : Rat) - x| ≤ 1 / 2 := by
  unfold roundAway
  rw [if_pos h]
  have f1 := Int.floor_le (x + 1 / 2)
  have f2 := Int.lt_floor_add_one (x + 1 / 2)
  obtain ⟨n, hn⟩ := Int.eq_ofNat_of_zero_le (Int.floor_nonneg.2 (by linarith : (0 : Rat) ≤ x + 1 / 2))
  rw [hn] at f1 f2 ⊢
  simp only [Int.toNat_natCast, Int.cast_natCast] at f1 f2 ⊢
  rw [abs_le]
  constructor <;> linarith

/-- The numerator of `m_ideal`, in terms of L = wl + 1. -/
theorem num_near {sigma L : Rat} (hs : 0 < sigma) (hL1 : 1 ≤ L) (h2 : 2 * sigma ≤ L + 1 / 100) :
    |rnd 24 (rnd 24 (rnd 24 (rnd 24 (rnd 24 (12 * sigma) * sigma) - 3 * (L - 1) * (L - 1)) - 12 * (L - 1)) - 9) + (3 * (L + 1) ^ 2 - 3 - 12 * sigma ^ 2)| ≤
      L * L / 2 ^ 17 := by
  have hL0 : (0 : Rat) ≤ L * L := by positivity
  have hLL : L ≤ L * L := by nlinarith
  have s4 : 4 * (sigma * sigma) ≤ L * L * (103 / 100) := by nlinarith
  obtain ⟨a1, a2⟩ := rnd24_rel (show (0 : Rat) ≤ 12 * sigma by linarith)
  generalize rnd 24 (12 * sigma) = a at a1 a2 ⊢
  have a3 : 0 ≤ a := le_trans (mul_nonneg (by norm_num) (by linarith)) a1
  obtain ⟨b1, b2⟩ := rnd24_rel (mul_nonneg a3 hs.le)
  generalize rnd 24 (a * sigma) = b at b1 b2 ⊢
  have a1' := mul_le_mul_of_nonneg_right a1 hs.le
  have a2' := mul_le_mul_of_nonneg_right a2 hs.le
  have ss : 0 < sigma * sigma := mul_pos hs hs
  have bl : 12 * (sigma * sigma) - L * L / 2 ^ 20 ≤ b := by linarith
  have bu : b ≤ 12 * (sigma * sigma) + L * L / 2 ^ 20 := by linarith
  have b0 : 0 ≤ b := le_trans (mul_nonneg (by norm_num) (mul_nonneg a3 hs.le)) b1
  have eL : 3 * (L - 1) * (L - 1) = 3 * (L * L) - 6 * L + 3 := by ring
  rw [eL]
  have c := rnd24_abs (b - (3 * (L * L) - 6 * L + 3))
  have c0 : |b - (3 * (L * L) - 6 * L + 3)| ≤ 16 * (L * L) := by
    rw [abs_le]; constructor <;> linarith
  generalize rnd 24 (b - (3 * (L * L) - 6 * L + 3)) = c' at c ⊢
  have c1 : |c' - (b - (3 * (L * L) - 6 * L + 3))| ≤ L * L / 2 ^ 20 := by
    refine le_trans c ?_; linarith
  rw [abs_le] at c0 c1
  have d := rnd24_abs (c' - 12 * (L - 1))
  have d0 : |c' - 12 * (L - 1)| ≤ 32 * (L * L) := by
    rw [abs_le]; constructor <;> linarith [c0.1, c0.2, c1.1, c1.2]
  generalize rnd 24 (c' - 12 * (L - 1)) = d' at d ⊢
  have d1 : |d' - (c' - 12 * (L - 1))| ≤ L * L / 2 ^ 19 := by
    refine le_trans d ?_; linarith
  rw [abs_le] at d0 d1
  have e := rnd24_abs (d' - 9)
  have e0 : |d' - 9| ≤ 64 * (L * L) := by
    rw [abs_le]; constructor <;> linarith [d0.1, d0.2, d1.1, d1.2]
  generalize rnd 24 (d' - 9) = e' at e ⊢
  have e1 : |e' - (d' - 9)| ≤ L * L / 2 ^ 18 := by
    refine le_trans e ?_; linarith
  rw [abs_le] at e1
  rw [abs_le, show 3 * (L + 1) ^ 2 - 3 - 12 * sigma ^ 2 = 3 * (L * L) + 6 * L - 12 * (sigma * sigma) by ring]
  constructor <;> linarith [c1.1, c1.2, d1.1, d1.2, e1.1, e1.2]

/-- The quotient of `m_ideal`, rounded. -/
theorem quot_round {e' L N : Rat} (hL1 : 1 ≤ L) (hL2 : L ≤ 2003) (n1 : |e' + N| ≤ L * L / 2 ^ 17) (n2 : L ≤ N) (n3 : N ≤ 24 * L) :
    |((roundAway (rnd 24 (e' / (-4 * (L - 1) - 4)))).toNat : Rat) * (4 * L) - N| ≤ 51 / 100 * (4 * L) := by
  rw [abs_le] at n1
  have hLe : L * L / 2 ^ 17 ≤ L * (2003 / 2 ^ 17) := by
    have := mul_le_mul_of_nonneg_left hL2 (show 0 ≤ L by linarith)
    linarith
  obtain ⟨q, hq⟩ : ∃ q, q = e' / (-4 * (L - 1) - 4) := ⟨_, rfl⟩
  have hq' : q * (4 * L) = -e' := by
    rw [hq, show -4 * (L - 1) - 4 = -(4 * L) by ring]; field_simp
  rw [← hq]
  have q0 : 0 ≤ q := by
    by_contra hc
    have := mul_neg_of_neg_of_pos (not_le.1 hc) (show 0 < 4 * L by linarith)
    linarith [n1.2]
  have q1 : q ≤ 7 := by
    by_contra hc
    have := mul_lt_mul_of_pos_right (not_le.1 hc) (show 0 < 4 * L by linarith)
    linarith [n1.1]
  obtain ⟨r1, r2⟩ := rnd24_rel q0
  generalize rnd 24 q = r at r1 r2 ⊢
  have r0 : 0 ≤ r := le_trans (mul_nonneg (by norm_num) q0) r1
  have m1 := roundAway_near r0
  generalize ((roundAway r).toNat : Rat) = m at m1 ⊢
  rw [abs_le] at m1
  have g1 : m - q ≤ 501 / 1000 := by linarith [m1.2]
  have g2 : -(501 / 1000) ≤ m - q := by linarith [m1.1]
  have k1 := mul_le_mul_of_nonneg_right g1 (show 0 ≤ 4 * L by linarith)
  have k2 := mul_le_mul_of_nonneg_right g2 (show 0 ≤ 4 * L by linarith)
  rw [abs_le]
  constructor <;> linarith [n1.1, n1.2]

/-- The number of narrower boxes is the rounded solution of the equation for the variance. -/
theorem count_near {sigma : Rat} {n : Nat} (hs : 0 < sigma) (hn : n ≤ 2002) (h1 : (n : Rat) ≤ 2 * sigma + 1 + 1 / 100) (h2 : 2 * sigma ≤ n + 1 + 1 / 100) :
    |((gaussCount sigma (n : Int) : Nat) : Rat) * (4 * (n : Rat) + 4) - (3 * ((n : Rat) + 2) ^ 2 - 3 - 12 * sigma ^ 2)| ≤ 51 / 100 * (4 * (n : Rat) + 4) := by
  have hn' : (n : Rat) ≤ 2002 := by exact_mod_cast hn
  have hn0 : (0 : Rat) ≤ n := Nat.cast_nonneg n
  have hnn : (n : Int) * n ≤ 2002 * 2002 := by exact_mod_cast Nat.mul_le_mul hn hn
  have e0 : rnd 24 ((n : Int) : Rat) = n := by rw [rnd24_int (by rw [abs_of_nonneg (by omega)]; omega)]; simp
  have e1 : rnd 24 (3 * (n : Rat)) = 3 * n := by
    have := rnd24_int (m := 3 * n) (by rw [abs_of_nonneg (by omega)]; omega)
    push_cast at this; exact this
  have e2 : rnd 24 (3 * (n : Rat) * n) = 3 * n * n := by
    have := rnd24_int (m := 3 * n * n) (by rw [abs_of_nonneg (by positivity)]; nlinarith)
    push_cast at this; exact this
  have e3 : rnd 24 (12 * (n : Rat)) = 12 * n := by
    have := rnd24_int (m := 12 * n) (by rw [abs_of_nonneg (by omega)]; omega)
    push_cast at this; exact this
  have e4 : rnd 24 (-4 * (n : Rat)) = -4 * n := by
    have := rnd24_int (m := -4 * n) (by rw [abs_of_nonpos (by omega)]; omega)
    push_cast at this; exact this
  have e5 : rnd 24 (-4 * (n : Rat) - 4) = -4 * n - 4 := by
    have := rnd24_int (m := -4 * n - 4) (by rw [abs_of_nonpos (by omega)]; omega)
    push_cast at this; exact this
  unfold gaussCount
  simp only [e0, e1, e2, e3, e4, e5]
  obtain ⟨L, hL⟩ : ∃ L : Rat, L = n + 1 := ⟨_, rfl⟩
  have hnL : (n : Rat) = L - 1 := by linarith
  rw [hnL] at h1 h2 hn' hn0 ⊢
  have n1 := num_near hs (by linarith) (by linarith)
  generalize rnd 24 (rnd 24 (rnd 24 (rnd 24 (rnd 24 (12 * sigma) * sigma) - 3 * (L - 1) * (L - 1)) - 12 * (L - 1)) - 9) = e' at n1 ⊢
  rw [show 4 * (L - 1) + 4 = 4 * L by ring, show L - 1 + 2 = L + 1 by ring]
  exact quot_round (by linarith) (by linarith) n1 (by nlinarith) (by nlinarith)

/-- **C114** For every sigma up to 1000 the boxes of the three widths have, together, a variance that is at most half a step (the replacement of one width by the
next) below σ², and at most one and a half steps above it. -/
theorem c114_variance {root : Rat → Rat} (hroot : IsRoot root) {sigma : Rat} (hs : 0 < sigma) (hs' : sigma ≤ 1000) :
    ∃ n : Nat, (n : Rat) ≤ 2 * sigma + 1 + 1 / 100 ∧
      12 * sigma ^ 2 - 51 / 100 * (4 * n + 4) ≤ ((createBoxGauss root sigma).map fun (w : Nat) => ((w : Rat) ^ 2 - 1)).sum ∧
      ((createBoxGauss root sigma).map fun (w : Nat) => ((w : Rat) ^ 2 - 1)).sum ≤ 12 * sigma ^ 2 + 153 / 100 * (4 * n + 4) := by
  obtain ⟨h1, h2, h3, h4⟩ := lower_spec hroot hs
  obtain ⟨n, hn⟩ := Int.eq_ofNat_of_zero_le (show 0 ≤ gaussLower root sigma by omega)
  rw [hn] at h1 h2 h3 h4
  have b1 : (n : Rat) ≤ 2 * sigma + 1 + 1 / 100 := by simp only [Int.cast_natCast] at h3; linarith
  have b2 : 2 * sigma ≤ n + 1 + 1 / 100 := by simp only [Int.cast_natCast] at h4; linarith
  have b3 : n ≤ 2002 := by
    have : (n : Rat) < 2003 := by linarith
    have : n < 2003 := by exact_mod_cast this
    omega
  have hc := count_near hs b3 b1 b2
  refine ⟨n, b1, ?_⟩
  have hsum : ((createBoxGauss root sigma).map fun (w : Nat) => ((w : Rat) ^ 2 - 1)).sum =
      3 * ((n : Rat) + 2) ^ 2 - 3 - (min (gaussCount sigma n) 3 : Nat) * (4 * (n : Rat) + 4) := by
    unfold createBoxGauss
    rw [if_pos hs, hn]
    dsimp only
    have f1 : ∀ c : Nat, c % 2 = 1 → (if c % 2 = 0 then c + 1 else c) = c := fun c h => if_neg (by omega)
    generalize gaussCount sigma (n : Int) = m
    have hr : List.range 3 = [0, 1, 2] := rfl
    simp only [hr, List.map_cons, List.map_nil, List.sum_cons, List.sum_nil]
    have g1 : ((n : Int)).toNat = n := by omega
    have g2 : ((n : Int) + 2).toNat = n + 2 := by omega
    rw [g1, g2]
    rcases Nat.lt_or_ge m 3 with hm | hm
    · rw [Nat.min_eq_left hm.le]
      interval_cases m <;> simp only [Nat.lt_irrefl, Nat.not_lt_zero, if_true, if_false, Nat.zero_lt_one, Nat.zero_lt_two, Nat.one_lt_two, show ¬ (2 < 1) by omega, show ¬ (1 < 0) by omega] <;>
        rw [f1 _ (by omega)] <;> (try rw [f1 _ (by omega)]) <;> push_cast <;> ring
    · rw [if_pos (show 0 < m by omega), if_pos (show 1 < m by omega), if_pos (show 2 < m by omega), f1 _ (by omega), Nat.min_eq_right hm]
      push_cast; ring
  rw [hsum]
  have hn1 : (1 : Rat) ≤ n := by
    have : 1 ≤ n := by omega
    exact_mod_cast this
  rw [abs_le] at hc
  have hN : 3 * ((n : Rat) + 2) ^ 2 - 3 - 12 * sigma ^ 2 ≤ (4 * n + 4) * (453 / 100) := by nlinarith
  rcases le_total (gaussCount sigma (n : Int)) 3 with hm | hm
  · rw [Nat.min_eq_left hm]
    constructor <;> nlinarith [hc.1, hc.2]
  · rw [Nat.min_eq_right hm]
    have : (3 : Rat) ≤ ((gaussCount sigma (n : Int) : Nat) : Rat) := by exact_mod_cast hm
    have := mul_le_mul_of_nonneg_right this (show (0 : Rat) ≤ 4 * n + 4 by linarith)
    push_cast
    constructor <;> linarith [hc.1, hc.2]

example : (0 : Rat) < 5 / 2 ∧ (5 / 2 : Rat) ≤ 1000 := by norm_num

/-- **C114, disagreement IP36** The width of the boxes is taken as √(12σ²/3) + 1 instead of √(12σ²/3 + 1): for whole sigma all three widths are 2σ + 1, whose
variance is σ² + σ (three boxes of 2r + 1 samples, r = σ); a mixture with the width 2σ − 1 would be nearer to σ². -/
theorem c114_step_wrong {root : Rat → Rat} {k : Nat} (hk : 1 ≤ k) (hk' : k ≤ 1000) (hroot : root (4 * (k : Rat) * k) = 2 * k) :
    createBoxGauss root k = [2 * k + 1, 2 * k + 1, 2 * k + 1] ∧ 3 * boxVariance k = (k : Rat) ^ 2 + k := by
  have hkk : (k : Int) * k ≤ 1000 * 1000 := by exact_mod_cast Nat.mul_le_mul hk' hk'
  have hlow : gaussLower root k = 2 * k + 1 := by
    unfold gaussLower
    have e1 : rnd 24 (12 * (k : Rat)) = 12 * k := by
      have := rnd24_int (m := 12 * k) (by rw [abs_of_nonneg (by omega)]; omega)
      push_cast at this; exact this
    have e2 : rnd 24 (12 * (k : Rat) * k) = 12 * k * k := by
      have := rnd24_int (m := 12 * k * k) (by rw [abs_of_nonneg (by positivity)]; nlinarith)
      push_cast at this; exact this
    have e3 : rnd 24 (4 * (k : Rat) * k) = 4 * k * k := by
      have := rnd24_int (m := 4 * k * k) (by rw [abs_of_nonneg (by positivity)]; nlinarith)
      push_cast at this; exact this
    have e4 : rnd 24 (2 * (k : Rat) + 1) = ((2 * k + 1 : Int) : Rat) := by
      have := rnd24_int (m := 2 * k + 1) (by rw [abs_of_nonneg (by omega)]; omega)
      push_cast at this ⊢; exact this
    rw [e1, e2, show 12 * (k : Rat) * k / 3 = 4 * k * k by ring, e3, hroot, e4]
    simp only [Int.floor_intCast]
    rw [if_neg (by omega)]
  have hk1 : (1 : Rat) ≤ k := by exact_mod_cast hk
  have hc := count_near (sigma := k) (n := 2 * k + 1) (by linarith) (by omega) (by push_cast; linarith) (by push_cast; linarith)
  rw [abs_le] at hc
  have hm : 3 ≤ gaussCount (k : Rat) ((2 * k + 1 : Nat) : Int) := by
    by_contra h
    have h' : ((gaussCount (k : Rat) ((2 * k + 1 : Nat) : Int) : Nat) : Rat) ≤ 2 := by exact_mod_cast (by omega : gaussCount (k : Rat) ((2 * k + 1 : Nat) : Int) ≤ 2)
    have h1 := hc.1
    generalize ((gaussCount (k : Rat) ((2 * k + 1 : Nat) : Int) : Nat) : Rat) = m at h' h1
    push_cast at h1
    nlinarith
  constructor
  · unfold createBoxGauss
    rw [if_pos (by linarith), hlow]
    simp only [show (2 * (k : Int) + 1) = ((2 * k + 1 : Nat) : Int) by push_cast; ring]
    have hr : List.range 3 = [0, 1, 2] := rfl
    simp only [hr, List.map_cons, List.map_nil, if_pos (show 0 < gaussCount (k : Rat) ((2 * k + 1 : Nat) : Int) by omega),
      if_pos (show 1 < gaussCount (k : Rat) ((2 * k + 1 : Nat) : Int) by omega), if_pos (show 2 < gaussCount (k : Rat) ((2 * k + 1 : Nat) : Int) by omega),
      Int.toNat_natCast, if_neg (show ¬ (2 * k + 1) % 2 = 0 by omega)]
  · rw [boxVariance_eq]; ring

example : (fun _ => (14 : Rat)) (4 * ((7 : Nat) : Rat) * (7 : Nat)) = 2 * ((7 : Nat) : Rat) := by norm_num

end Zune.Imageprocs
