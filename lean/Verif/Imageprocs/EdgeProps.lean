import Verif.Imageprocs.EdgeModel
import Verif.Imageprocs.AreaProps
import Verif.Common.Float
import Mathlib.Analysis.Real.Sqrt
import Mathlib.Data.Nat.Sqrt

/-! # C99: the edge filters -/

namespace Zune.Imageprocs

/-! ## Specification -/

/-- The horizontal matrix of the filter, row by row, as in the comments of the source and in the literature. -/
def EdgeOp.kernelX : EdgeOp → List Int
  | .sobel => [-1, 0, 1, -2, 0, 2, -1, 0, 1]
  | .scharr => [-3, 0, 3, -10, 0, 10, -3, 0, 3]
  | .prewitt => [1, 0, -1, 1, 0, -1, 1, 0, -1]

/-- The vertical matrix. -/
def EdgeOp.kernelY : EdgeOp → List Int
  | .sobel => [-1, -2, -1, 0, 0, 0, 1, 2, 1]
  | .scharr => [-3, -10, -3, 0, 0, 0, 3, 10, 3]
  | .prewitt => [1, 1, 1, 0, 0, 0, -1, -1, -1]

/-- The matrix applied to nine samples. -/
def applyKernel (k : List Int) (n : List Nat) : Int := (List.zipWith (fun a (b : Nat) => a * (b : Int)) k n).sum

/-- `v` is the integer part of the root of `gx² + gy²`, at most the largest sample. -/
def IsMagnitude (bits : Nat) (gx gy : Int) (v : Nat) : Prop :=
  ∃ r : Nat, (r : Int) * r ≤ gx * gx + gy * gy ∧ gx * gx + gy * gy < (r + 1) * (r + 1) ∧ v = min (2 ^ bits - 1) r

/-- What the filter should give for the nine samples around a place. -/
def EdgeOp.Edge (op : EdgeOp) (bits : Nat) (n : List Nat) (v : Nat) : Prop :=
  IsMagnitude bits (applyKernel op.kernelX n) (applyKernel op.kernelY n) v

/-- The horizontal matrix that the code applies: the last number is at the place before. -/
def EdgeOp.codeX : EdgeOp → List Int
  | .sobel => [-1, 0, 1, -2, 0, 2, -1, 1, 0]
  | .scharr => [-3, 0, 3, -10, 0, 10, -3, 3, 0]
  | .prewitt => [1, 0, -1, 1, 0, -1, 1, -1, 0]

/-- The largest sample for which nothing overflows in 32 bits. -/
def EdgeOp.limit : EdgeOp → Nat
  | .sobel => 8191
  | .scharr => 2047
  | .prewitt => 10922

/-! ## The root -/

theorem rootBits_spec {n : Nat} : ∀ {k r : Nat}, r * r ≤ n → n < (r + 2 ^ k) * (r + 2 ^ k) →
    rootBits n k r * rootBits n k r ≤ n ∧ n < (rootBits n k r + 1) * (rootBits n k r + 1)
  | 0, r, h1, h2 => ⟨h1, by simpa [rootBits] using h2⟩
  | k + 1, r, h1, h2 => by
    simp only [rootBits]
    rw [pow_succ] at h2
    split
    · rename_i h
      exact rootBits_spec h (by convert h2 using 2 <;> ring)
    · rename_i h
      exact rootBits_spec h1 (by omega)

theorem rootBits_sqrt {n : Nat} (h : n < 2 ^ 32) : rootBits n 16 0 = n.sqrt :=
  Nat.eq_sqrt.2 (rootBits_spec (Nat.zero_le _) (by simpa using h))

open Zune.Float in
/-- **C99**: taking the integer root is exact: whatever `r` a correctly rounding square root of `f64` returns for a number below 2^32,
    its integer part is the integer root. -/
theorem c99_root {n : Nat} (hn : n < 2 ^ 32) {r : Rat} (hr : ∀ y : Rat, Fits 53 y → |(r : ℝ) - √(n : ℝ)| ≤ |(y : ℝ) - √(n : ℝ)|) :
    ⌊r⌋ = (rootBits n 16 0 : Int) := by
  rw [rootBits_sqrt hn]
  have hs0 := Nat.sqrt_le n
  have hs1 := Nat.lt_succ_sqrt n
  generalize hk : n.sqrt = k at *
  have hk16 : k < 2 ^ 16 := by nlinarith
  have h0 : (0 : ℝ) ≤ √(n : ℝ) := Real.sqrt_nonneg _
  have hkn : (k : ℝ) ≤ √(n : ℝ) := Real.le_sqrt_of_sq_le (by rw [sq]; exact_mod_cast hs0)
  rw [Int.floor_eq_iff]
  constructor
  · by_contra hc
    have hc' : (r : ℝ) < k := by exact_mod_cast not_le.1 hc
    have := hr k (fits_nat (by omega))
    push_cast at this
    rw [abs_of_nonpos (by linarith), abs_of_nonpos (by linarith)] at this
    linarith
  · by_contra hc
    have hc' : (k : ℝ) + 1 ≤ r := by exact_mod_cast not_lt.1 hc
    have hy := hr (((k + 1) * 2 ^ 26 - 1 : Int) * (2 : Rat) ^ (-26 : Int)) ⟨_, _, by rw [abs_le]; constructor <;> omega, rfl⟩
    have hn1 : (n : ℝ) ≤ k * k + 2 * k := by
      have : n ≤ k * k + 2 * k := by nlinarith
      exact_mod_cast this
    have e : (((((k + 1) * 2 ^ 26 - 1 : Int) : Rat) * (2 : Rat) ^ (-26 : Int) : Rat) : ℝ) = (k : ℝ) + 1 - 1 / 2 ^ 26 := by
      push_cast
      rw [zpow_neg]
      norm_num
      ring
    rw [e] at hy
    have hk' : (k : ℝ) ≤ 65536 := by exact_mod_cast hk16.le
    have hub : √(n : ℝ) ≤ (k : ℝ) + 1 - 1 / 2 ^ 26 := by
      rw [Real.sqrt_le_iff]
      constructor
      · have : (0 : ℝ) ≤ k := Nat.cast_nonneg k
        norm_num; linarith
      · norm_num; nlinarith
    rw [abs_of_nonneg (by linarith), abs_of_nonneg (by norm_num at hub ⊢; linarith)] at hy
    norm_num at hy
    linarith

example : (5 : Nat) < 2 ^ 32 := by decide

/-! ## The filters -/

/-- The samples around every place, given to a function of the window. -/
theorem edgeChannel_spec {bits w h : Nat} {l : List Nat} (hw : 0 < w) (hh : 0 < h) (hl : l.length = w * h) (op : EdgeOp) :
    ∃ res, edgeChannel bits op l w h = some res ∧ res.length = w * h ∧
      ∀ y < h, ∀ x < w, (neighbours l w h 1 y x).length = 9 ∧ res[y * w + x]? = some (op.inner bits (neighbours l w h 1 y x)) := by
  obtain ⟨p, h1, h2, h3⟩ := padReplicate_spec 0 hw hh hl 1 1
  have h2' : p.length = (1 * 2 + h) * (1 * 2 + w) := by rw [h2, Nat.add_comm h, Nat.add_comm w]
  obtain ⟨res, e1, e2, e3⟩ := spatialLoop_spec (f := fun (_ : Unit) win => some (op.inner bits win, ())) (padded := p)
    (out := List.replicate l.length 0) (st := ()) hw h2' (by simpa using hl) (I := fun _ _ => True)
    (V := fun y x => op.inner bits (neighbours l w h 1 y x)) trivial
    (fun y hy x hx s _ => ⟨(), by rw [around_eq hw hh h2' h3 hy hx], trivial⟩)
  refine ⟨res, ?_, e2, fun y hy x hx => ⟨by simpa using neighbours_length hw hh h2' h3 hy hx, e3 y hy x hx⟩⟩
  unfold edgeChannel edgeInt
  rw [h1]; exact e1

theorem nine {n : List Nat} (h : n.length = 9) : ∃ a b c d e f g i j, n = [a, b, c, d, e, f, g, i, j] := by
  match n, h with
  | [a, b, c, d, e, f, g, i, j], _ => exact ⟨a, b, c, d, e, f, g, i, j, rfl⟩

theorem sumA_eq (op : EdgeOp) {n : List Nat} (h : n.length = 9) : op.sumA (fun i => (n.getD i 0 : Nat)) = applyKernel op.codeX n := by
  obtain ⟨a, b, c, d, e, f, g, i, j, rfl⟩ := nine h
  cases op <;> simp [EdgeOp.sumA, EdgeOp.codeX, applyKernel] <;> ring

theorem sumB_eq (op : EdgeOp) {n : List Nat} (h : n.length = 9) : op.sumB (fun i => (n.getD i 0 : Nat)) = applyKernel op.kernelY n := by
  obtain ⟨a, b, c, d, e, f, g, i, j, rfl⟩ := nine h
  cases op <;> simp [EdgeOp.sumB, EdgeOp.kernelY, applyKernel] <;> ring

theorem root_magnitude (bits : Nat) {a b : Int} (h : a * a + b * b < 2 ^ 31) : IsMagnitude bits a b (rootCast bits (squares32 a b)) := by
  have ha := mul_self_nonneg a
  have hb := mul_self_nonneg b
  have e : squares32 a b = a * a + b * b := by
    unfold squares32
    rw [Int.bmod_eq_of_le (n := a * a) (by omega) (by omega), Int.bmod_eq_of_le (n := b * b) (by omega) (by omega),
      Int.bmod_eq_of_le (by omega) (by omega)]
  rw [e]
  obtain ⟨n, hn⟩ := Int.eq_ofNat_of_zero_le (show 0 ≤ a * a + b * b by omega)
  have hn32 : n < 2 ^ 32 := by omega
  refine ⟨n.sqrt, ?_, ?_, ?_⟩
  · rw [hn]; exact_mod_cast Nat.sqrt_le n
  · rw [hn]; exact_mod_cast Nat.lt_succ_sqrt n
  · unfold rootCast
    rw [if_neg (by omega), hn]
    show min _ (rootBits n 16 0) = _
    rw [rootBits_sqrt hn32]

theorem sums_small (op : EdgeOp) {n : List Nat} (h : n.length = 9) (hb : ∀ v ∈ n, v ≤ op.limit) :
    applyKernel op.codeX n * applyKernel op.codeX n + applyKernel op.kernelY n * applyKernel op.kernelY n < 2 ^ 31 := by
  obtain ⟨a, b, c, d, e, f, g, i, j, rfl⟩ := nine h
  simp only [List.mem_cons, List.not_mem_nil, or_false, forall_eq_or_imp, forall_eq] at hb
  obtain ⟨h0, h1, h2, h3, h4, h5, h6, h7, h8⟩ := hb
  have key : ∀ A B M : Int, -M ≤ A → A ≤ M → -M ≤ B → B ≤ M → A * A + B * B ≤ 2 * (M * M) := by intros; nlinarith
  cases op <;> simp only [EdgeOp.limit] at * <;> simp only [applyKernel, EdgeOp.codeX, EdgeOp.kernelY, List.zipWith, List.sum_cons, List.sum_nil]
  · exact lt_of_le_of_lt (key _ _ (4 * 8191) (by omega) (by omega) (by omega) (by omega)) (by norm_num)
  · exact lt_of_le_of_lt (key _ _ (16 * 2047) (by omega) (by omega) (by omega) (by omega)) (by norm_num)
  · exact lt_of_le_of_lt (key _ _ (3 * 10922) (by omega) (by omega) (by omega) (by omega)) (by norm_num)

/-- **C99 (partial: what the code computes)**: for samples that do not overflow, in particular for all pictures of 8 bits, every output sample is
    the magnitude of the gradient, where the horizontal matrix has its last number at the wrong place (`codeX`); the picture is continued by its
    border.  Nothing panics. -/
theorem c99_edges_partial {bits w h : Nat} {l : List Nat} (hw : 0 < w) (hh : 0 < h) (hl : l.length = w * h) (op : EdgeOp)
    (hb : ∀ v ∈ l, v ≤ op.limit) :
    ∃ res, edgeChannel bits op l w h = some res ∧ res.length = w * h ∧
      ∀ y < h, ∀ x < w, ∃ v, res[y * w + x]? = some v ∧ (neighbours l w h 1 y x).length = 9 ∧
        IsMagnitude bits (applyKernel op.codeX (neighbours l w h 1 y x)) (applyKernel op.kernelY (neighbours l w h 1 y x)) v := by
  obtain ⟨res, h1, h2, h3⟩ := edgeChannel_spec (bits := bits) hw hh hl op
  refine ⟨res, h1, h2, fun y hy x hx => ?_⟩
  obtain ⟨h9, hv⟩ := h3 y hy x hx
  refine ⟨_, hv, h9, ?_⟩
  unfold EdgeOp.inner
  simp only
  rw [sumA_eq op h9, sumB_eq op h9]
  exact root_magnitude bits (sums_small op h9 fun v hv => hb v (neighbours_mem hv))

/-- All pictures of 8 bits are below the limits. -/
example (op : EdgeOp) : 2 ^ 8 - 1 ≤ op.limit := by cases op <;> decide

example : edgeChannel 8 .sobel [10, 10, 50, 10, 10, 50, 10, 10, 50] 3 3 = some [0, 120, 160, 0, 120, 160, 0, 120, 160] := by decide +kernel

/-- **C99 (partial)**: the documented magnitude results wherever the sample below and the sample to its right are equal. -/
theorem c99_right_partial {bits w h : Nat} {l : List Nat} (hw : 0 < w) (hh : 0 < h) (hl : l.length = w * h) (op : EdgeOp)
    (hb : ∀ v ∈ l, v ≤ op.limit) :
    ∃ res, edgeChannel bits op l w h = some res ∧ ∀ y < h, ∀ x < w,
      (neighbours l w h 1 y x)[7]? = (neighbours l w h 1 y x)[8]? → ∃ v, res[y * w + x]? = some v ∧ op.Edge bits (neighbours l w h 1 y x) v := by
  obtain ⟨res, h1, h2, h3⟩ := c99_edges_partial (bits := bits) hw hh hl op hb
  refine ⟨res, h1, fun y hy x hx he => ?_⟩
  obtain ⟨v, hv, h9, hm⟩ := h3 y hy x hx
  refine ⟨v, hv, ?_⟩
  unfold EdgeOp.Edge
  have : applyKernel op.kernelX (neighbours l w h 1 y x) = applyKernel op.codeX (neighbours l w h 1 y x) := by
    obtain ⟨a, b, c, d, e, f, g, i, j, hn⟩ := nine h9
    rw [hn] at he ⊢
    simp only [List.getElem?_cons_succ, List.getElem?_cons_zero, Option.some.injEq] at he
    subst he
    cases op <;> simp [applyKernel, EdgeOp.kernelX, EdgeOp.codeX]
  rw [this]
  exact hm

/-- A place where the two samples are equal, and one where they are not. -/
example : (neighbours [10, 10, 50, 10, 10, 50] 3 2 1 0 0)[7]? = (neighbours [10, 10, 50, 10, 10, 50] 3 2 1 0 0)[8]? ∧
    (neighbours [10, 10, 50, 10, 10, 50] 3 2 1 0 1)[7]? ≠ (neighbours [10, 10, 50, 10, 10, 50] 3 2 1 0 1)[8]? := by decide +kernel

theorem magnitude_unique {bits : Nat} {a b : Int} {v u : Nat} (h1 : IsMagnitude bits a b v) (h2 : IsMagnitude bits a b u) : v = u := by
  obtain ⟨r, p1, p2, rfl⟩ := h1
  obtain ⟨s, q1, q2, rfl⟩ := h2
  have : r = s := by
    have h3 : (r : Int) < s + 1 := by nlinarith
    have h4 : (s : Int) < r + 1 := by nlinarith
    omega
  rw [this]

/-- **C99 (negative, general)**: where all samples around a place are 0 but the last one, `t`, the Sobel filter gives `t`; the documented magnitude is
    the integer part of `t√2`, which is larger for every `t ≥ 3` below the largest sample. -/
theorem c99_corner_wrong {bits w h y x t : Nat} {l : List Nat} (hw : 0 < w) (hh : 0 < h) (hl : l.length = w * h)
    (hb : ∀ v ∈ l, v ≤ 8191) (hy : y < h) (hx : x < w) (hn : neighbours l w h 1 y x = [0, 0, 0, 0, 0, 0, 0, 0, t]) (ht : 3 ≤ t)
    (htb : t + 1 < 2 ^ bits) :
    ∃ res, edgeChannel bits .sobel l w h = some res ∧ res[y * w + x]? = some t ∧
      ∀ v, EdgeOp.sobel.Edge bits (neighbours l w h 1 y x) v → t < v := by
  obtain ⟨res, h1, h2, h3⟩ := c99_edges_partial (bits := bits) hw hh hl .sobel hb
  obtain ⟨v, hv, h9, hm⟩ := h3 y hy x hx
  refine ⟨res, h1, ?_, ?_⟩
  · rw [hv]
    congr 1
    rw [hn] at hm
    refine magnitude_unique hm ⟨t, ?_, ?_, by omega⟩ <;> simp [applyKernel, EdgeOp.codeX, EdgeOp.kernelY]
    nlinarith
  · rintro u ⟨r, p1, p2, rfl⟩
    rw [hn] at p1 p2
    simp [applyKernel, EdgeOp.kernelX, EdgeOp.kernelY] at p1 p2
    have : t + 1 ≤ r := by
      by_contra hc
      have hc' : (r : Int) + 1 ≤ t + 1 := by omega
      have : ((r : Int) + 1) * (r + 1) ≤ (t + 1) * (t + 1) := by nlinarith
      have ht' : (3 : Int) ≤ t := by omega
      nlinarith
    omega

/-- Such a place: the sample in the middle of a 3 × 3 picture that is black but for its last sample. -/
example : neighbours [0, 0, 0, 0, 0, 0, 0, 0, 100] 3 3 1 1 1 = [0, 0, 0, 0, 0, 0, 0, 0, 100] ∧
    (edgeChannel 8 .sobel [0, 0, 0, 0, 0, 0, 0, 0, 100] 3 3).map (·.getD 4 0) = some 100 ∧ 100 + 1 < 2 ^ 8 := by decide +kernel

/-- **C99 (negative)**: with 16 bits the squares overflow 32 bits: at the strongest vertical edge the Sobel and the Scharr filter give 0, though the
    documented magnitude is the largest sample. -/
theorem c99_sixteen_wrong :
    (edgeChannel 16 .sobel [0, 0, 65535, 65535] 4 1).map (·.getD 1 0) = some 0 ∧
    EdgeOp.sobel.Edge 16 (neighbours [0, 0, 65535, 65535] 4 1 1 0 1) 65535 ∧
    (edgeChannel 16 .scharr [0, 0, 65535, 65535] 4 1).map (·.getD 1 0) = some 0 ∧
    EdgeOp.scharr.Edge 16 (neighbours [0, 0, 65535, 65535] 4 1 1 0 1) 65535 := by
  have e : neighbours [0, 0, 65535, 65535] 4 1 1 0 1 = [0, 0, 65535, 0, 0, 65535, 0, 0, 65535] := by decide +kernel
  refine ⟨by decide +kernel, ?_, by decide +kernel, ?_⟩
  · rw [e]; refine ⟨4 * 65535, ?_, ?_, by decide⟩ <;> decide
  · rw [e]; refine ⟨16 * 65535, ?_, ?_, by decide⟩ <;> decide

end Zune.Imageprocs
