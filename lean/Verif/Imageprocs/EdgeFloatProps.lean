import Verif.Imageprocs.EdgeFloatModel
import Verif.Imageprocs.EdgeProps
import Verif.Common.FloatErr

/-! # C121: the edge filters on float channels -/

namespace Zune.Imageprocs
open Zune.Float

/-! ## Specification -/

/-- The matrix applied to nine samples, exactly. -/
def applyKernelQ (k : List Int) (n : List Rat) : Rat := (List.zipWith (fun (a : Int) (b : Rat) => (a : Rat) * b) k n).sum

/-- The horizontal matrix that the float code applies. -/
def EdgeOp.codeXF : EdgeOp → List Int
  | .sobel => [-1, 0, 1, -2, 0, 2, -1, 1, 0]
  | .scharr => [-3, 0, 3, -10, 0, 10, -3, 30, 0]
  | .prewitt => [1, 0, -1, 1, 0, -1, 1, -1, 0]

/-- The size of a sum with these matrices, for samples of size 1. -/
def EdgeOp.gain : EdgeOp → Nat
  | .sobel => 8
  | .scharr => 59
  | .prewitt => 6

/-- The length of the gradient. -/
noncomputable def gradient (gx gy : Rat) : ℝ := √((gx : ℝ) ^ 2 + (gy : ℝ) ^ 2)

/-! ## Rounding is odd -/

theorem roundEven_neg (x : Rat) : roundEven (-x) = -roundEven x := by
  by_cases hx : x = ⌊x⌋
  · rw [hx, roundEven_int, ← Int.cast_neg, roundEven_int]
  · have h1 := Int.floor_le x
    have h2 := Int.lt_floor_add_one x
    have h3 : (⌊x⌋ : Rat) < x := lt_of_le_of_ne h1 (Ne.symm hx)
    have hf : ⌊-x⌋ = -⌊x⌋ - 1 := by
      rw [Int.floor_eq_iff]; push_cast; constructor <;> linarith
    unfold roundEven
    rw [hf]
    generalize ⌊x⌋ = f at *
    push_cast
    rcases lt_trichotomy (x - f) (1 / 2) with h | h | h
    · rw [if_pos h, if_neg (by linarith), if_pos (by linarith)]; ring
    · by_cases hp : f % 2 = 0
      · rw [if_neg (by linarith), if_neg (by linarith), if_neg (by omega), if_neg (by linarith), if_neg (by linarith), if_pos hp]; ring
      · rw [if_neg (by linarith), if_neg (by linarith), if_pos (by omega), if_neg (by linarith), if_neg (by linarith), if_neg hp]; ring
    · rw [if_pos (by linarith), if_neg (by linarith), if_pos h]; ring

theorem rnd_neg (p : Nat) (x : Rat) : rnd p (-x) = -rnd p x := by
  unfold rnd
  by_cases hx : x = 0
  · simp [hx]
  · rw [if_neg (by simpa using hx), if_neg hx]
    have hu : ulp p (-x) = ulp p x := by unfold ulp; rw [abs_neg]
    rw [hu, neg_div, roundEven_neg]
    push_cast; ring

/-! ## Errors -/

theorem pairF_approx (a u b v : Rat) : Approx 2 (|a| * |u| + |b| * |v|) (a * u + b * v) (pairF a u b v) :=
  ((((Approx.self a).mul (Approx.self u)).rnd).add (((Approx.self b).mul (Approx.self v)).rnd)).rnd

theorem sum3F_approx {A B C x y z p q r : Rat} (h1 : Approx 2 A x p) (h2 : Approx 2 B y q) (h3 : Approx 2 C z r) :
    Approx 5 (A + B + C) (x + y + z) (sum3F p q r) := by
  unfold sum3F
  rw [zero_add]
  exact ((h1.rnd.add (h2.mono (by omega))).rnd.add (h3.mono (by omega))).rnd

theorem sums_approx (op : EdgeOp) {M c0 c1 c2 c3 c4 c5 c6 c7 c8 : Rat}
    (h : ∀ v ∈ [c0, c1, c2, c3, c4, c5, c6, c7, c8], |v| ≤ M) :
    Approx 5 (op.gain * M) (applyKernelQ op.codeXF [c0, c1, c2, c3, c4, c5, c6, c7, c8])
      (op.sumAF ⟨c0, c1, c2, c3, c4, c5, c6, c7, c8⟩) ∧
    Approx 5 (op.gain * M) (applyKernelQ op.kernelY [c0, c1, c2, c3, c4, c5, c6, c7, c8])
      (op.sumBF ⟨c0, c1, c2, c3, c4, c5, c6, c7, c8⟩) := by
  simp only [List.mem_cons, List.not_mem_nil, or_false, forall_eq_or_imp, forall_eq] at h
  obtain ⟨h0, h1, h2, h3, h4, h5, h6, h7, h8⟩ := h
  have hM : 0 ≤ M := le_trans (abs_nonneg _) h0
  have fin : ∀ {A B x x' y : Rat}, Approx 5 A x y → A ≤ B → x' = x → Approx 5 B x' y := fun h hA hx => hx ▸ h.widen hA
  cases op
  · constructor
    · exact fin (sum3F_approx (pairF_approx c0 (-1) c2 1) (pairF_approx c3 (-2) c5 2) (pairF_approx c6 (-1) c7 1))
        (by norm_num [EdgeOp.gain]; linarith) (by simp [applyKernelQ, EdgeOp.codeXF]; ring)
    · exact fin (sum3F_approx (pairF_approx c0 (-1) c1 (-2)) (pairF_approx c2 (-1) c6 1) (pairF_approx c7 2 c8 1))
        (by norm_num [EdgeOp.gain]; linarith) (by simp [applyKernelQ, EdgeOp.kernelY]; ring)
  · constructor
    · exact fin (sum3F_approx (pairF_approx c0 (-3) c2 3) (pairF_approx c3 (-10) c5 10) (pairF_approx c6 (-3) c7 30))
        (by norm_num [EdgeOp.gain]; linarith) (by simp [applyKernelQ, EdgeOp.codeXF]; ring)
    · exact fin (sum3F_approx (pairF_approx c0 (-3) c1 (-10)) (pairF_approx c2 (-3) c6 3) (pairF_approx c7 10 c8 3))
        (by norm_num [EdgeOp.gain]; linarith) (by simp [applyKernelQ, EdgeOp.kernelY]; ring)
  · constructor
    · exact fin (sum3F_approx (pairF_approx c0 1 c2 (-1)) (pairF_approx c3 1 c5 (-1)) (pairF_approx c6 1 c7 (-1)))
        (by norm_num [EdgeOp.gain]; linarith) (by simp [applyKernelQ, EdgeOp.codeXF]; ring)
    · exact fin (sum3F_approx (pairF_approx c0 1 c1 1) (pairF_approx c2 1 c6 (-1)) (pairF_approx c7 (-1) c8 (-1)))
        (by norm_num [EdgeOp.gain]; linarith) (by simp [applyKernelQ, EdgeOp.kernelY]; ring)

/-- Triangle inequality for the length. -/
theorem hypot_lipschitz (a b x y : ℝ) : |√(a ^ 2 + b ^ 2) - √(x ^ 2 + y ^ 2)| ≤ |a - x| + |b - y| := by
  have tri : ∀ a b x y : ℝ, √(a ^ 2 + b ^ 2) ≤ √(x ^ 2 + y ^ 2) + (|a - x| + |b - y|) := by
    intro a b x y
    have hs := Real.sqrt_nonneg (x ^ 2 + y ^ 2)
    have hss := Real.sq_sqrt (show 0 ≤ x ^ 2 + y ^ 2 by positivity)
    have hx : |x| ≤ √(x ^ 2 + y ^ 2) := Real.abs_le_sqrt (by nlinarith [sq_nonneg y])
    have hy : |y| ≤ √(x ^ 2 + y ^ 2) := Real.abs_le_sqrt (by nlinarith [sq_nonneg x])
    generalize √(x ^ 2 + y ^ 2) = s at *
    have hu := abs_nonneg (a - x)
    have hv := abs_nonneg (b - y)
    rw [Real.sqrt_le_left (by linarith)]
    have e1 : a ^ 2 = x ^ 2 + 2 * (x * (a - x)) + |a - x| ^ 2 := by rw [sq_abs]; ring
    have e2 : b ^ 2 = y ^ 2 + 2 * (y * (b - y)) + |b - y| ^ 2 := by rw [sq_abs]; ring
    have i1 : x * (a - x) ≤ s * |a - x| := by
      refine le_trans (le_abs_self _) ?_
      rw [abs_mul]; exact mul_le_mul_of_nonneg_right hx hu
    have i2 : y * (b - y) ≤ s * |b - y| := by
      refine le_trans (le_abs_self _) ?_
      rw [abs_mul]; exact mul_le_mul_of_nonneg_right hy hv
    nlinarith [mul_nonneg hu hv]
  rw [abs_le]
  constructor
  · have := tri x y a b
    rw [abs_sub_comm x a, abs_sub_comm y b] at this
    linarith
  · linarith [tri a b x y]

/-- The computed root of the computed squares has a relative error of at most 5·2⁻²⁴. -/
theorem magnitudeF_err (a b : Rat) : |(magnitudeF a b : ℝ) - gradient a b| ≤ 5 / 2 ^ 24 * gradient a b := by
  unfold magnitudeF gradient
  have hq : Approx 2 (a * a + b * b) (a * a + b * b) (rnd 24 (rnd 24 (a * a) + rnd 24 (b * b))) := by
    have h1 : Approx 1 (a * a) (a * a) (rnd 24 (a * a)) := by
      have := (Approx.self (a * a)).rnd; rwa [abs_mul_self] at this
    have h2 : Approx 1 (b * b) (b * b) (rnd 24 (b * b)) := by
      have := (Approx.self (b * b)).rnd; rwa [abs_mul_self] at this
    exact (h1.add h2).rnd
  have he := hq.near (by omega)
  generalize rnd 24 (rnd 24 (a * a) + rnd 24 (b * b)) = q at *
  have hS : 0 ≤ a * a + b * b := by nlinarith [mul_self_nonneg a, mul_self_nonneg b]
  have hq0 : 0 ≤ q := by norm_num at he; linarith [he.2]
  have hf := fsqrt_err (p := 24) (by omega) hq0
  have e1 : (q : ℝ) ≤ (1 + 3 / 2 ^ 24) * ((a : ℝ) ^ 2 + (b : ℝ) ^ 2) := by
    have : q ≤ (1 + 3 / 2 ^ 24) * (a ^ 2 + b ^ 2) := by norm_num at he ⊢; linarith [he.1]
    have := (Rat.cast_le (K := ℝ)).2 this
    push_cast at this
    exact this
  have e2 : (1 - 3 / 2 ^ 24) * ((a : ℝ) ^ 2 + (b : ℝ) ^ 2) ≤ q := by
    have : (1 - 3 / 2 ^ 24) * (a ^ 2 + b ^ 2) ≤ q := by norm_num at he ⊢; linarith [he.2]
    have := (Rat.cast_le (K := ℝ)).2 this
    push_cast at this
    exact this
  have hS' : (0 : ℝ) ≤ (a : ℝ) ^ 2 + (b : ℝ) ^ 2 := by positivity
  have hq0' : (0 : ℝ) ≤ q := by exact_mod_cast hq0
  generalize (fsqrt 24 q : ℝ) = v at *
  generalize (a : ℝ) ^ 2 + (b : ℝ) ^ 2 = S at *
  generalize (q : ℝ) = Q at *
  have r0 := Real.sqrt_nonneg S
  have r1 : √Q ≤ (1 + 3 / 2 ^ 24) * √S := by
    rw [Real.sqrt_le_left (by positivity), mul_pow, Real.sq_sqrt hS']
    refine le_trans e1 (mul_le_mul_of_nonneg_right (by norm_num) hS')
  have r2 : (1 - 3 / 2 ^ 24) * √S ≤ √Q := by
    apply Real.le_sqrt_of_sq_le
    rw [mul_pow, Real.sq_sqrt hS']
    refine le_trans (mul_le_mul_of_nonneg_right (by norm_num) hS') e2
  rw [abs_le] at hf ⊢
  norm_num at hf r1 r2 ⊢
  constructor <;> linarith [hf.1, hf.2]

/-- One window. -/
theorem innerF_err (op : EdgeOp) {M : Rat} {n : List Rat} (hn : n.length = 9) (h : ∀ v ∈ n, |v| ≤ M) :
    ∃ v, op.innerF n = some v ∧
      |(v : ℝ) - gradient (applyKernelQ op.codeXF n) (applyKernelQ op.kernelY n)| ≤ op.gain * M / 2 ^ 19 := by
  match n, hn with
  | [c0, c1, c2, c3, c4, c5, c6, c7, c8], _ =>
    refine ⟨_, rfl, ?_⟩
    obtain ⟨ha, hb⟩ := sums_approx op h
    have hA0 := ha.pos
    generalize op.sumAF ⟨c0, c1, c2, c3, c4, c5, c6, c7, c8⟩ = a at *
    generalize op.sumBF ⟨c0, c1, c2, c3, c4, c5, c6, c7, c8⟩ = b at *
    generalize applyKernelQ op.codeXF [c0, c1, c2, c3, c4, c5, c6, c7, c8] = gx at *
    generalize applyKernelQ op.kernelY [c0, c1, c2, c3, c4, c5, c6, c7, c8] = gy at *
    have hcast : ((op.gain : ℝ) * M) = (((op.gain : Rat) * M : Rat) : ℝ) := by push_cast; rfl
    rw [hcast]
    generalize (op.gain : Rat) * M = A at *
    have hA0' : (0 : ℝ) ≤ A := by exact_mod_cast hA0
    have ea : |(a : ℝ) - gx| ≤ 6 / 2 ^ 24 * A := by
      have := le_trans ha.err (mul_le_mul_of_nonneg_right (unit_err (n := 5) (by omega)) hA0)
      have : |a - gx| ≤ 6 / 2 ^ 24 * A := by norm_num at this ⊢; exact this
      have := (Rat.cast_le (K := ℝ)).2 this
      push_cast at this
      exact this
    have eb : |(b : ℝ) - gy| ≤ 6 / 2 ^ 24 * A := by
      have := le_trans hb.err (mul_le_mul_of_nonneg_right (unit_err (n := 5) (by omega)) hA0)
      have : |b - gy| ≤ 6 / 2 ^ 24 * A := by norm_num at this ⊢; exact this
      have := (Rat.cast_le (K := ℝ)).2 this
      push_cast at this
      exact this
    have hx : |(gx : ℝ)| ≤ A := by exact_mod_cast ha.size
    have hy : |(gy : ℝ)| ≤ A := by exact_mod_cast hb.size
    have hl := hypot_lipschitz a b gx gy
    have hz := hypot_lipschitz gx gy 0 0
    have hm := magnitudeF_err a b
    have hg0 : 0 ≤ gradient gx gy := Real.sqrt_nonneg _
    simp only [gradient] at *
    simp only [ne_eq, OfNat.ofNat_ne_zero, not_false_eq_true, zero_pow, add_zero, Real.sqrt_zero, sub_zero, abs_of_nonneg hg0] at hz
    rw [abs_le] at hl hm ⊢
    norm_num at hl hm ea eb ⊢
    constructor <;> linarith [hl.1, hl.2, hm.1, hm.2]

theorem edgeChannelF_spec {w h : Nat} {l : List Rat} {M : Rat} (hw : 0 < w) (hh : 0 < h) (hl : l.length = w * h) (hM : ∀ v ∈ l, |v| ≤ M)
    (op : EdgeOp) :
    ∃ res, edgeChannelF op l w h = some res ∧ res.length = w * h ∧
      ∀ y < h, ∀ x < w, (neighbours l w h 1 y x).length = 9 ∧ ∃ v, op.innerF (neighbours l w h 1 y x) = some v ∧ res[y * w + x]? = some v := by
  obtain ⟨p, h1, h2, h3⟩ := padReplicate_spec 0 hw hh hl 1 1
  have h2' : p.length = (1 * 2 + h) * (1 * 2 + w) := by rw [h2, Nat.add_comm h, Nat.add_comm w]
  have h9 : ∀ y < h, ∀ x < w, (neighbours l w h 1 y x).length = 9 := fun y hy x hx => by
    simpa using neighbours_length hw hh h2' h3 hy hx
  have hin : ∀ y < h, ∀ x < w, op.innerF (neighbours l w h 1 y x) = some ((op.innerF (neighbours l w h 1 y x)).getD 0) := fun y hy x hx => by
    obtain ⟨v, hv, _⟩ := innerF_err op (h9 y hy x hx) (fun v hv => hM v (neighbours_mem hv))
    rw [hv]; rfl
  obtain ⟨res, e1, e2, e3⟩ := spatialLoop_spec (f := fun (_ : Unit) win => (op.innerF win).map fun v => (v, ())) (padded := p)
    (out := List.replicate l.length 0) (st := ()) hw h2' (by simpa using hl) (I := fun _ _ => True)
    (V := fun y x => (op.innerF (neighbours l w h 1 y x)).getD 0) trivial
    (fun y hy x hx s _ => ⟨(), by rw [around_eq hw hh h2' h3 hy hx, hin y hy x hx]; rfl, trivial⟩)
  refine ⟨res, ?_, e2, fun y hy x hx => ⟨h9 y hy x hx, _, hin y hy x hx, e3 y hy x hx⟩⟩
  unfold edgeChannelF edgeFloat
  rw [h1]; exact e1

/-! ## The claims -/

/-- **C121 (partial: what the code computes)**: for every float picture with samples of size at most `M`, every output sample is the length of the
    gradient up to `gain·M·2⁻¹⁹`; the picture is continued by its border and nothing panics.  The horizontal matrix is the one of the code, whose last
    number is at the wrong place and, for Scharr, ten times too large: `c121_scharr_flat_wrong`, `c121_corner_wrong`.  Missing besides: numbers so large or so small that
    the range of exponents of `f32` matters. -/
theorem c121_edges_partial {w h : Nat} {l : List Rat} {M : Rat} (hw : 0 < w) (hh : 0 < h) (hl : l.length = w * h) (hM : ∀ v ∈ l, |v| ≤ M)
    (op : EdgeOp) :
    ∃ res, edgeChannelF op l w h = some res ∧ res.length = w * h ∧
      ∀ y < h, ∀ x < w, ∃ v, res[y * w + x]? = some v ∧ (neighbours l w h 1 y x).length = 9 ∧
        |(v : ℝ) - gradient (applyKernelQ op.codeXF (neighbours l w h 1 y x)) (applyKernelQ op.kernelY (neighbours l w h 1 y x))|
          ≤ op.gain * M / 2 ^ 19 := by
  obtain ⟨res, h1, h2, h3⟩ := edgeChannelF_spec hw hh hl hM op
  refine ⟨res, h1, h2, fun y hy x hx => ?_⟩
  obtain ⟨h9, v, hv, hr⟩ := h3 y hy x hx
  obtain ⟨v', hv', he⟩ := innerF_err op h9 (fun v hv => hM v (neighbours_mem hv))
  rw [hv] at hv'
  obtain rfl := Option.some.inj hv'
  exact ⟨v, hr, h9, he⟩

/-- A vertical edge of height 1: in the middle of the picture the Sobel filter gives 3 up to 8·2⁻¹⁹
    (the documented matrices give 4). -/
example : ∃ (res : List Rat) (v : Rat), edgeChannelF .sobel [0, 0, 1, 0, 0, 1, 0, 0, 1] 3 3 = some res ∧ res[4]? = some v ∧
    |(v : ℝ) - gradient 3 0| ≤ 8 / 2 ^ 19 := by
  obtain ⟨res, h1, _, h3⟩ := c121_edges_partial (w := 3) (h := 3) (l := [0, 0, 1, 0, 0, 1, 0, 0, 1]) (M := 1) (by omega) (by omega) (by simp)
    (by intro v hv; simp at hv; rcases hv with rfl | rfl | rfl | rfl | rfl | rfl <;> norm_num) .sobel
  obtain ⟨v, hv, _, he⟩ := h3 1 (by omega) 1 (by omega)
  refine ⟨res, v, h1, hv, ?_⟩
  have hn : neighbours ([0, 0, 1, 0, 0, 1, 0, 0, 1] : List Rat) 3 3 1 1 1 = [0, 0, 1, 0, 0, 1, 0, 0, 1] := by decide +kernel
  rw [hn] at he
  norm_num [applyKernelQ, EdgeOp.codeXF, EdgeOp.kernelY, EdgeOp.gain] at he ⊢
  exact he

theorem neighbours_flat {l : List Rat} {w h y x : Nat} {c : Rat} (hc : ∀ v ∈ l, v = c) (h9 : (neighbours l w h 1 y x).length = 9) :
    neighbours l w h 1 y x = [c, c, c, c, c, c, c, c, c] := by
  have : neighbours l w h 1 y x = List.replicate 9 c := by
    rw [List.eq_replicate_iff]
    exact ⟨h9, fun v hv => hc v (neighbours_mem hv)⟩
  rw [this]; rfl

/-- **C121**: in a flat picture the Sobel and Prewitt filters give exactly 0 everywhere, rounding errors cancel. -/
theorem c121_flat {w h : Nat} {l : List Rat} {c : Rat} (hw : 0 < w) (hh : 0 < h) (hl : l.length = w * h) (hc : ∀ v ∈ l, v = c)
    (op : EdgeOp) (hop : op ≠ .scharr) : edgeChannelF op l w h = some (List.replicate (w * h) 0) := by
  obtain ⟨res, h1, h2, h3⟩ := edgeChannelF_spec (M := |c|) hw hh hl (fun v hv => by rw [hc v hv]) op
  rw [h1]
  congr 1
  rw [List.eq_replicate_iff]
  refine ⟨h2, fun v hv => ?_⟩
  obtain ⟨k, hk, hkv⟩ := List.getElem_of_mem hv
  rw [h2] at hk
  have hy : k / w < h := Nat.div_lt_of_lt_mul hk
  obtain ⟨h9, v', hv', hr⟩ := h3 (k / w) hy (k % w) (Nat.mod_lt _ hw)
  rw [Nat.div_add_mod', List.getElem?_eq_getElem (by omega), hkv] at hr
  obtain rfl := Option.some.inj hr
  rw [neighbours_flat hc h9] at hv'
  have hz : ∀ u : Rat, pairF c (-u) c u = 0 := fun u => by
    unfold pairF; rw [mul_neg, rnd_neg, neg_add_cancel, rnd_zero]
  have hz' : ∀ u : Rat, pairF c u c (-u) = 0 := fun u => by
    unfold pairF; rw [mul_neg, rnd_neg, add_neg_cancel, rnd_zero]
  have hneg : ∀ u t : Rat, pairF c (-u) c (-t) = -pairF c t c u := fun u t => by
    unfold pairF
    rw [mul_neg, mul_neg, rnd_neg, rnd_neg, ← neg_add, rnd_neg, add_comm]
  have hs0 : sum3F 0 0 0 = 0 := by simp [sum3F, rnd_zero]
  have hs : ∀ t : Rat, sum3F (-t) 0 (rnd 24 (rnd 24 t)) = 0 := fun t => by
    unfold sum3F; rw [zero_add, add_zero, rnd_neg, rnd_neg, neg_add_cancel, rnd_zero]
  have hidem : ∀ t : Rat, rnd 24 (rnd 24 t) = rnd 24 t := fun t => rnd_fit (by omega) (rnd_fits _ _)
  have hpf : ∀ a u b v : Rat, rnd 24 (pairF a u b v) = pairF a u b v := fun a u b v => hidem _
  have hs1 : ∀ u t : Rat, sum3F (-pairF c u c t) 0 (pairF c u c t) = 0 := fun u t => by
    have := hs (pairF c u c t); rwa [hpf, hpf] at this
  have hs2 : ∀ u t : Rat, sum3F (pairF c u c t) 0 (-pairF c u c t) = 0 := fun u t => by
    unfold sum3F; rw [zero_add, add_zero, hpf, hpf, add_neg_cancel, rnd_zero]
  have hm : magnitudeF 0 0 = 0 := by simp [magnitudeF, rnd_zero, fsqrt]
  cases op
  · simp only [EdgeOp.innerF, EdgeOp.sumAF, EdgeOp.sumBF, hz, hs0, hneg 1 2, hs1, hm] at hv'
    exact (Option.some.inj hv').symm
  · exact absurd rfl hop
  · simp only [EdgeOp.innerF, EdgeOp.sumAF, EdgeOp.sumBF, hz', hs0, hneg 1 1, hs2, hm] at hv'
    exact (Option.some.inj hv').symm

example : edgeChannelF .sobel [1 / 10, 1 / 10, 1 / 10, 1 / 10] 2 2 = some [0, 0, 0, 0] :=
  c121_flat (c := 1 / 10) (by omega) (by omega) (by simp) (by simp) .sobel (by decide)

/-- **C121 (negative, general)**: in a flat float picture of value `c > 0`, where there is no edge, the Scharr filter gives more than `26·c`
    everywhere. -/
theorem c121_scharr_flat_wrong {w h : Nat} {l : List Rat} {c : Rat} (hw : 0 < w) (hh : 0 < h) (hl : l.length = w * h) (hc : ∀ v ∈ l, v = c)
    (hc0 : 0 < c) :
    ∃ res, edgeChannelF .scharr l w h = some res ∧ ∀ y < h, ∀ x < w, ∃ v, res[y * w + x]? = some v ∧ 26 * c < v ∧
      gradient (applyKernelQ EdgeOp.scharr.kernelX (neighbours l w h 1 y x)) (applyKernelQ EdgeOp.scharr.kernelY (neighbours l w h 1 y x)) = 0 := by
  obtain ⟨res, h1, _, h3⟩ := c121_edges_partial (M := c) hw hh hl (fun v hv => by rw [hc v hv, abs_of_pos hc0]) .scharr
  refine ⟨res, h1, fun y hy x hx => ?_⟩
  obtain ⟨v, hv, h9, he⟩ := h3 y hy x hx
  refine ⟨v, hv, ?_, ?_⟩
  · rw [neighbours_flat hc h9] at he
    have hx : applyKernelQ EdgeOp.scharr.codeXF [c, c, c, c, c, c, c, c, c] = 27 * c := by
      simp [applyKernelQ, EdgeOp.codeXF]; ring
    have hy : applyKernelQ EdgeOp.scharr.kernelY [c, c, c, c, c, c, c, c, c] = 0 := by
      simp [applyKernelQ, EdgeOp.kernelY]
    have hc' : (0 : ℝ) < c := by exact_mod_cast hc0
    have hg : gradient (27 * c) 0 = 27 * (c : ℝ) := by
      unfold gradient
      push_cast
      rw [zero_pow (by norm_num), add_zero, Real.sqrt_sq (by positivity)]
    rw [hx, hy, hg, abs_le] at he
    have : (26 : ℝ) * c < v := by
      have := he.1
      norm_num [EdgeOp.gain] at this
      linarith
    exact_mod_cast this
  · rw [neighbours_flat hc h9]
    have hx : applyKernelQ EdgeOp.scharr.kernelX [c, c, c, c, c, c, c, c, c] = 0 := by
      simp [applyKernelQ, EdgeOp.kernelX]
    have hy : applyKernelQ EdgeOp.scharr.kernelY [c, c, c, c, c, c, c, c, c] = 0 := by
      simp [applyKernelQ, EdgeOp.kernelY]
    rw [hx, hy]
    simp [gradient]

example : ∃ res v, edgeChannelF .scharr [1 / 2] 1 1 = some res ∧ res[0]? = some v ∧ 13 < v := by
  obtain ⟨res, h1, h2⟩ := c121_scharr_flat_wrong (w := 1) (h := 1) (l := [1 / 2]) (c := 1 / 2) (by omega) (by omega) (by simp) (by simp) (by norm_num)
  obtain ⟨v, hv, hlt, _⟩ := h2 0 (by omega) 0 (by omega)
  exact ⟨res, v, h1, hv, by norm_num at hlt; exact hlt⟩

/-- **C121 (negative, general)**: where all samples around a place are 0 but the last one, `t > 0`, the Sobel filter gives less than `1.01·t`; the
    documented length is the root of two times `t`. -/
theorem c121_corner_wrong {w h y x : Nat} {l : List Rat} {t : Rat} (hw : 0 < w) (hh : 0 < h) (hl : l.length = w * h) (hM : ∀ v ∈ l, |v| ≤ t)
    (ht : 0 < t) (hy : y < h) (hx : x < w) (hn : neighbours l w h 1 y x = [0, 0, 0, 0, 0, 0, 0, 0, t]) :
    ∃ res v, edgeChannelF .sobel l w h = some res ∧ res[y * w + x]? = some v ∧ v < 101 / 100 * t ∧
      gradient (applyKernelQ EdgeOp.sobel.kernelX (neighbours l w h 1 y x)) (applyKernelQ EdgeOp.sobel.kernelY (neighbours l w h 1 y x))
        = √2 * (t : ℝ) := by
  obtain ⟨res, h1, _, h3⟩ := c121_edges_partial (M := t) hw hh hl hM .sobel
  obtain ⟨v, hv, h9, he⟩ := h3 y hy x hx
  have ht' : (0 : ℝ) < t := by exact_mod_cast ht
  refine ⟨res, v, h1, hv, ?_, ?_⟩
  · rw [hn] at he
    have e1 : applyKernelQ EdgeOp.sobel.codeXF [0, 0, 0, 0, 0, 0, 0, 0, t] = 0 := by simp [applyKernelQ, EdgeOp.codeXF]
    have e2 : applyKernelQ EdgeOp.sobel.kernelY [0, 0, 0, 0, 0, 0, 0, 0, t] = t := by simp [applyKernelQ, EdgeOp.kernelY]
    have hg : gradient 0 t = (t : ℝ) := by
      unfold gradient
      push_cast
      rw [zero_pow (by norm_num), zero_add, Real.sqrt_sq ht'.le]
    rw [e1, e2, hg, abs_le] at he
    have : (v : ℝ) < 101 / 100 * t := by
      have := he.2
      norm_num [EdgeOp.gain] at this
      linarith
    rw [← Rat.cast_lt (K := ℝ)]
    push_cast
    exact this
  · rw [hn]
    have e1 : applyKernelQ EdgeOp.sobel.kernelX [0, 0, 0, 0, 0, 0, 0, 0, t] = t := by simp [applyKernelQ, EdgeOp.kernelX]
    have e2 : applyKernelQ EdgeOp.sobel.kernelY [0, 0, 0, 0, 0, 0, 0, 0, t] = t := by simp [applyKernelQ, EdgeOp.kernelY]
    rw [e1, e2]
    unfold gradient
    rw [← two_mul, Real.sqrt_mul (by norm_num), Real.sqrt_sq ht'.le]

example : neighbours ([0, 0, 0, 0, 0, 0, 0, 0, 1] : List Rat) 3 3 1 1 1 = [0, 0, 0, 0, 0, 0, 0, 0, 1] := by decide +kernel

/-- **C99**: the square root of `f64` modelled by `fsqrt 53` is such a root, so the hypothesis of `c99_root` is met by it. -/
theorem c99_root_sqrt {n : Nat} (hn : n < 2 ^ 32) : ⌊fsqrt 53 n⌋ = (rootBits n 16 0 : Int) :=
  c99_root hn fun y hy => by
    have := fsqrt_best (p := 53) (by omega) (q := (n : Rat)) (Nat.cast_nonneg n) hy
    push_cast at this
    exact this

example : ⌊fsqrt 53 (200 : Nat)⌋ = 14 := by
  rw [c99_root_sqrt (by norm_num)]; decide +kernel

end Zune.Imageprocs
