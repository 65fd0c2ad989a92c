/-
**C106** (`blend`, `color_matrix`), **C107** (`hsv_adjust`), **C108** (`unsharpen`).
-/
import Verif.Imageprocs.MixModel
import Verif.Imageprocs.ConvolveProps
import Verif.Common.FloatErr

namespace Zune.Imageprocs
open Zune.Float

theorem rounded_approx {m n : Nat} {A x y : Rat} (h : Approx n A x y) (hn : n ≤ 15) : RoundedDown ((n + 1) / 2 ^ 24 * A) (clampQ 0 m x) (toSample m y) := by
  rw [toSample_clamp]
  exact rounded_clamp (h.near hn).1 (h.near hn).2

/-! ## C106: `blend` -/

/-- **C106** (blend).  For an alpha between 0 and 1 every sample is α·source + (1 − α)·destination, rounded down, up to the errors of `f32` (below 0.0001 at 8 bits, 0.02 at 16); up to 0
    the destination stays, for 1 it becomes the source. -/
theorem c106_blend {m : Nat} (hm : m = 255 ∨ m = 65535) {a : Rat} {src dst : List Nat} (hl : src.length = dst.length) (hs : ∀ v ∈ src, v ≤ m) (hd : ∀ v ∈ dst, v ≤ m) :
    (a ≤ 0 → blendChannel m a src dst = some dst) ∧ (a = 1 → blendChannel m a src dst = some src) ∧
    (0 < a → a < 1 → ∃ out, blendChannel m a src dst = some out ∧ out.length = dst.length ∧ ∀ (i s d : Nat), src[i]? = some s → dst[i]? = some d →
      ∃ v, out[i]? = some v ∧ RoundedDown (5 * m / 2 ^ 24) (a * s + (1 - a) * d) v) := by
  refine ⟨fun h => by rw [blendChannel, if_pos h], fun h => ?_, fun h0 h1 => ?_⟩
  · subst h
    unfold blendChannel
    rw [if_neg (by norm_num), if_neg (by simp [hl]), if_pos le_rfl]
    show some (List.zipWith (mixSample m 1) src src ++ List.drop src.length src) = some src
    rw [List.drop_length, List.append_nil]
    congr 1
    apply List.ext_getElem?
    intro i
    rw [List.getElem?_zipWith]
    cases hi : src[i]? with
    | none => rfl
    | some s =>
      simp only [mixSample, one_mul, sub_self, rnd_zero, zero_mul, add_zero]
      have := hs s (List.mem_of_getElem? hi)
      rw [rnd_nat (by omega), rnd_nat (by omega), toSample_nat this]
  · unfold blendChannel
    rw [if_neg (by linarith), if_neg (by intro h; linarith [h.1]), if_neg (by linarith)]
    refine ⟨_, rfl, by simp [hl], fun i s d h2 h3 => ?_⟩
    have hi := (List.getElem?_eq_some_iff.1 h2).1
    rw [List.getElem?_append_left (by simpa [hl] using by omega), List.getElem?_zipWith, h2, h3]
    refine ⟨_, rfl, ?_⟩
    have hs' : (s : Rat) ≤ m := by exact_mod_cast hs s (List.mem_of_getElem? h2)
    have hd' : (d : Rat) ≤ m := by exact_mod_cast hd d (List.mem_of_getElem? h3)
    have s0 : (0 : Rat) ≤ s := by positivity
    have d0 : (0 : Rat) ≤ d := by positivity
    have ap := (((((Approx.self a).mul (.self (s : Rat))).rnd).mono (show 0 + 0 + 1 ≤ 2 by omega)).add (((Approx.self (1 - a)).rnd.mul (.self (d : Rat))).rnd)).rnd
    have ap2 := ap.widen (B := m) (by
      rw [abs_of_pos h0, abs_of_pos (by linarith : 0 < 1 - a), abs_of_nonneg s0, abs_of_nonneg d0]
      nlinarith)
    have r := rounded_approx (m := m) ap2 (by norm_num)
    rw [clampQ_of_mem (add_nonneg (mul_nonneg h0.le s0) (mul_nonneg (by linarith) d0)) (by nlinarith)] at r
    have e : ((2 + 1 : Nat) + 1 : Rat) / 2 ^ 24 * m ≤ 5 * m / 2 ^ 24 := by
      have : (0 : Rat) ≤ m := by positivity
      push_cast
      linarith
    unfold mixSample
    constructor <;> linarith [r.1, r.2]

example : ∃ out, blendChannel 255 (1 / 2) [10, 200] [20, 101] = some out ∧ out.length = 2 ∧ ∀ (i s d : Nat), [10, 200][i]? = some s → [20, 101][i]? = some d →
    ∃ v, out[i]? = some v ∧ RoundedDown (5 * (255 : Nat) / 2 ^ 24) (1 / 2 * s + (1 - 1 / 2) * d) v :=
  (c106_blend (m := 255) (a := 1 / 2) (src := [10, 200]) (dst := [20, 101]) (.inl rfl) rfl (by simp) (by simp)).2.2 (by norm_num) (by norm_num)

/-- **C106** (negative).  "If above 1.0 source will become the destination" (blend.rs:61): the source is copied, but then the formula is applied all the same; with an alpha of 1.1 the sample
    61 becomes 60. -/
theorem c106_above_wrong (d : Nat) : blendChannel 255 (9227469 / 2 ^ 23) [61] [d] = some [60] := by
  have h : mixSample 255 (9227469 / 2 ^ 23) 61 61 = 60 := by decide +kernel
  unfold blendChannel
  rw [if_neg (by norm_num), if_neg (by simp), if_pos (by norm_num)]
  simp [h]

/-- **C106** (frames).  Channels of the destination beyond those of the source (when it has fewer frames) stay as they are. -/
theorem c106_channels {m : Nat} {a : Rat} : ∀ {ss ds : List (List Nat)}, (∀ s ∈ ss, ∀ d ∈ ds, s.length = d.length) →
    ∃ out, blendChannels m a ss ds = some out ∧ out.length = ds.length ∧
      (∀ (i : Nat) s d, ss[i]? = some s → ds[i]? = some d → ∃ r, blendChannel m a s d = some r ∧ out[i]? = some r) ∧ ∀ i, ss.length ≤ i → out[i]? = ds[i]?
  | [], ds, _ => ⟨ds, by simp [blendChannels], rfl, by simp, fun _ _ => rfl⟩
  | s :: ss, [], _ => ⟨[], by simp [blendChannels], rfl, by simp, fun _ _ => rfl⟩
  | s :: ss, d :: ds, h => by
    obtain ⟨out, h1, h2, h3, h4⟩ := c106_channels (m := m) (a := a) (ss := ss) (ds := ds) fun s hs d hd => h s (by simp [hs]) d (by simp [hd])
    have hb : ∃ r, blendChannel m a s d = some r := by
      unfold blendChannel
      have := h s (by simp) d (by simp)
      split
      · exact ⟨_, rfl⟩
      · rw [if_neg (by simp [this])]; exact ⟨_, rfl⟩
    obtain ⟨r, hr⟩ := hb
    refine ⟨r :: out, by simp [blendChannels, hr, h1], by simp [h2], ?_, ?_⟩
    · intro i s' d' hs hd
      cases i with
      | zero => simp at hs hd; subst hs; subst hd; exact ⟨r, hr, rfl⟩
      | succ i => exact h3 i s' d' (by simpa using hs) (by simpa using hd)
    · intro i hi
      cases i with
      | zero => simp at hi
      | succ i => simpa using h4 i (by simpa using hi)

example : blendChannels 255 0 [[1, 2]] [[3, 4], [5, 6]] = some [[3, 4], [5, 6]] := by decide +kernel

/-! ## C106: `color_matrix` -/

/-- The documented sum of a row (color_matrix.rs:6-12); the offset is a part of the largest sample. -/
def rowExact (m : Nat) (row : Nat → Rat) (r g b a : Nat) : Rat := row 0 * r + row 1 * g + row 2 * b + row 3 * a + row 4 * m

/-- The sum of the magnitudes. -/
def rowSize (m : Nat) (row : Nat → Rat) (r g b a : Nat) : Rat := |row 0| * r + |row 1| * g + |row 2| * b + |row 3| * a + |row 4| * m

theorem matrixRow_approx (m : Nat) (row : Nat → Rat) (r g b a : Nat) : Approx 5 (rowSize m row r g b a) (rowExact m row r g b a) (matrixRow m row r g b a) := by
  have p : ∀ (x : Nat) (k : Rat), Approx 1 (|k| * x) (k * x) (rnd 24 (x * k)) := by
    intro x k
    have := ((Approx.self (x : Rat)).mul (.self k)).rnd
    rw [abs_of_nonneg (show (0 : Rat) ≤ x by positivity), mul_comm (x : Rat) |k|] at this
    rw [mul_comm k]
    exact this
  have h1 := ((p r (row 0)).add (p g (row 1))).rnd
  have h2 := (h1.add ((p b (row 2)).mono (show 1 ≤ 1 + 1 by omega))).rnd
  have h3 := (h2.add ((p a (row 3)).mono (show 1 ≤ 1 + 1 + 1 by omega))).rnd
  exact (h3.add ((p m (row 4)).mono (show 1 ≤ 1 + 1 + 1 + 1 by omega))).rnd

/-- **C106** (matrix).  Every colour of the pixel is the documented sum of its row, saturated and rounded down, up to 6·2⁻²⁴ of the sum of the magnitudes. -/
theorem c106_matrix (m : Nat) (c : Nat → Nat → Rat) (r g b a : Nat) :
    ∃ r' g' b' a', matrixPixel m c (r, g, b, a) = (r', g', b', a') ∧
      ∀ i v, ([r', g', b', a'])[i]? = some v → RoundedDown (6 / 2 ^ 24 * rowSize m (c i) r g b a) (clampQ 0 m (rowExact m (c i) r g b a)) v := by
  refine ⟨_, _, _, _, rfl, fun i v hv => ?_⟩
  have key : ∀ i, RoundedDown (6 / 2 ^ 24 * rowSize m (c i) r g b a) (clampQ 0 m (rowExact m (c i) r g b a)) (toSample m (matrixRow m (c i) r g b a)) := by
    intro i
    have := rounded_approx (m := m) (matrixRow_approx m (c i) r g b a) (by omega)
    rwa [show ((5 : Nat) : Rat) + 1 = 6 by norm_num] at this
  match i, hv with
  | 0, hv => obtain rfl := Option.some.inj hv; exact key 0
  | 1, hv => obtain rfl := Option.some.inj hv; exact key 1
  | 2, hv => obtain rfl := Option.some.inj hv; exact key 2
  | 3, hv => obtain rfl := Option.some.inj hv; exact key 3
  | i + 4, hv => simp at hv

/-- The matrix for grey of the documentation on a red pixel. -/
example : ∃ r' g' b' a', matrixPixel 255 (fun i j => ([[2 / 10, 5 / 10, 3 / 10, 0, 0], [2 / 10, 5 / 10, 3 / 10, 0, 0], [2 / 10, 5 / 10, 3 / 10, 0, 0], [0, 0, 0, 1, 0]].getD i []).getD j 0)
    (200, 10, 10, 255) = (r', g', b', a') ∧ r' = 48 ∧ g' = 48 ∧ b' = 48 ∧ a' = 255 := ⟨48, 48, 48, 255, by decide +kernel, rfl, rfl, rfl, rfl⟩

/-- **C106** (identity).  The identity matrix changes nothing. -/
theorem c106_identity {m : Nat} (hm : m = 255 ∨ m = 65535) {r g b a : Nat} (hr : r ≤ m) (hg : g ≤ m) (hb : b ≤ m) (ha : a ≤ m) :
    matrixPixel m (fun i j => if i = j then 1 else 0) (r, g, b, a) = (r, g, b, a) := by
  have n : ∀ x : Nat, x ≤ m → rnd 24 (x : Rat) = x := fun x hx => rnd_nat (by omega)
  simp [matrixPixel, matrixRow, rnd_zero, n r hr, n g hg, n b hb, n a ha, toSample_nat hr, toSample_nat hg, toSample_nat hb, toSample_nat ha]

example : matrixPixel 65535 (fun i j => if i = j then 1 else 0) (1, 2, 3, 65535) = (1, 2, 3, 65535) :=
  c106_identity (.inr rfl) (by norm_num) (by norm_num) (by norm_num) (by norm_num)

/-- **C106** (negative).  The matrix which the documentation gives for inverting (color_matrix.rs:42-47) does not: white becomes blue. -/
theorem c106_invert_doc : matrixPixel 255 (fun i j => ([[-1, 0, 0, 0, 1], [0, -1, 0, 0, 1], [0, 0, -(1 / 10), 0, 1], [0, 0, 0, 1, 1]].getD i []).getD j 0) (255, 255, 255, 255) =
    (0, 0, 229, 255) := by decide +kernel

/-! ## C107: `hsv_adjust` -/

/-- The exact sum with the constants of the code. -/
def hsvExact (row : List (Int × Int × Int)) (c sn s v : Rat) (p : List Nat) : Rat :=
  (List.zipWith (fun (k : Int × Int × Int) (x : Nat) => ((k.1 : Rat) / 1000 * v + (k.2.1 : Rat) / 1000 * (v * s * c) + (k.2.2 : Rat) / 1000 * (v * s * sn)) * x) row p).sum

/-- The sum of the magnitudes. -/
def hsvSize (row : List (Int × Int × Int)) (c sn s v : Rat) (p : List Nat) : Rat :=
  (List.zipWith (fun (k : Int × Int × Int) (x : Nat) => (|(k.1 : Rat) / 1000| * |v| + |(k.2.1 : Rat) / 1000| * (|v| * |s| * |c|) + |(k.2.2 : Rat) / 1000| * (|v| * |s| * |sn|)) * x) row p).sum

theorem hsvRow_approx {k1 k2 k3 : Int × Int × Int} {r g b : Nat} (c sn s v : Rat) :
    Approx 9 (hsvSize [k1, k2, k3] c sn s v [r, g, b]) (hsvExact [k1, k2, k3] c sn s v [r, g, b])
      (hsvRow [k1, k2, k3] v (rnd 24 (rnd 24 (v * s) * c)) (rnd 24 (rnd 24 (v * s) * sn)) [r, g, b]) := by
  have vs := ((Approx.self v).mul (.self s)).rnd
  have term : ∀ (k : Int × Int × Int) (x : Nat), Approx 7
      ((|(k.1 : Rat) / 1000| * |v| + |(k.2.1 : Rat) / 1000| * (|v| * |s| * |c|) + |(k.2.2 : Rat) / 1000| * (|v| * |s| * |sn|)) * x)
      (((k.1 : Rat) / 1000 * v + (k.2.1 : Rat) / 1000 * (v * s * c) + (k.2.2 : Rat) / 1000 * (v * s * sn)) * x)
      (rnd 24 (hsvCoeff ((k.1 : Rat) / 1000) ((k.2.1 : Rat) / 1000) ((k.2.2 : Rat) / 1000) v (rnd 24 (rnd 24 (v * s) * c)) (rnd 24 (rnd 24 (v * s) * sn)) * x)) := by
    intro k x
    have a1 := ((Approx.self ((k.1 : Rat) / 1000)).rnd.mul (.self v)).rnd
    have a2 := ((Approx.self ((k.2.1 : Rat) / 1000)).rnd.mul (vs.mul (.self c)).rnd).rnd
    have a3 := ((Approx.self ((k.2.2 : Rat) / 1000)).rnd.mul (vs.mul (.self sn)).rnd).rnd
    have s1 := ((a1.mono (show 0 + 1 + 0 + 1 ≤ 4 by omega)).add (a2.mono (show 0 + 1 + (0 + 0 + 1 + 0 + 1) + 1 ≤ 4 by omega))).rnd
    have s2 := (s1.add (a3.mono (show 0 + 1 + (0 + 0 + 1 + 0 + 1) + 1 ≤ 4 + 1 by omega))).rnd
    have t := (s2.mul (.self (x : Rat))).rnd
    rw [abs_of_nonneg (show (0 : Rat) ≤ x by positivity)] at t
    exact t
  have u := ((((term k1 r).add (term k2 g)).rnd).add ((term k3 b).mono (show 7 ≤ 7 + 1 by omega))).rnd
  unfold hsvSize hsvExact hsvRow
  simp only [List.zipWith_cons_cons, List.zipWith_nil_left, List.sum_cons, List.sum_nil, add_zero, ← add_assoc]
  exact u

/-- **C107** (formula).  Every colour is the sum with the matrix of the code, saturated and rounded down, up to 10·2⁻²⁴ of the sum of the magnitudes. -/
theorem c107_formula (m : Nat) (c sn s v : Rat) (r g b : Nat) :
    ∃ r' g' b', hsvPixel m c sn s v [r, g, b] = [r', g', b'] ∧ ∀ (i : Nat) row u, hsvTable[i]? = some row → ([r', g', b'])[i]? = some u →
      RoundedDown (10 / 2 ^ 24 * hsvSize row c sn s v [r, g, b]) (clampQ 0 m (hsvExact row c sn s v [r, g, b])) u := by
  refine ⟨_, _, _, rfl, fun i row u hi hu => ?_⟩
  have key : ∀ k1 k2 k3 : Int × Int × Int, RoundedDown (10 / 2 ^ 24 * hsvSize [k1, k2, k3] c sn s v [r, g, b]) (clampQ 0 m (hsvExact [k1, k2, k3] c sn s v [r, g, b]))
      (toSample m (clampQ 0 m (hsvRow [k1, k2, k3] v (rnd 24 (rnd 24 (v * s) * c)) (rnd 24 (rnd 24 (v * s) * sn)) [r, g, b]))) := by
    intro k1 k2 k3
    have := rounded_approx (m := m) (hsvRow_approx (k1 := k1) (k2 := k2) (k3 := k3) (r := r) (g := g) (b := b) c sn s v) (by omega)
    rwa [toSample_clamp, show ((9 : Nat) : Rat) + 1 = 10 by norm_num] at this
  match i, hi, hu with
  | 0, hi, hu => obtain rfl := Option.some.inj hi; obtain rfl := Option.some.inj hu; exact key _ _ _
  | 1, hi, hu => obtain rfl := Option.some.inj hi; obtain rfl := Option.some.inj hu; exact key _ _ _
  | 2, hi, hu => obtain rfl := Option.some.inj hi; obtain rfl := Option.some.inj hu; exact key _ _ _
  | i + 3, hi, hu => simp at hu

/-- **C107** (saturation 0).  A saturation of 0 gives a grey picture. -/
theorem c107_grey (m : Nat) (c sn v : Rat) (r g b : Nat) : ∃ y, hsvPixel m c sn 0 v [r, g, b] = [y, y, y] := by
  simp [hsvPixel, hsvTable, hsvRow, hsvCoeff, rnd_zero]

example : ∃ y, hsvPixel 255 (8 / 10) (6 / 10) 0 1 [200, 10, 30] = [y, y, y] := c107_grey _ _ _ _ _ _ _

/-- **C107** (lightness 0).  A lightness of 0 gives a black picture. -/
theorem c107_black (m : Nat) (c sn s : Rat) (r g b : Nat) : hsvPixel m c sn s 0 [r, g, b] = [0, 0, 0] := by
  have h : toSample m (clampQ 0 m 0) = 0 := by simpa using clamp_sample (m := m) (x := 0) (by omega)
  simp [hsvPixel, hsvTable, hsvRow, hsvCoeff, rnd_zero, h]

example : hsvPixel 255 (8 / 10) (6 / 10) 1 0 [200, 10, 30] = [0, 0, 0] := c107_black _ _ _ _ _ _ _

/-- **C107** (neutral, partial).  No rotation, saturation and lightness 1: red and green stay; blue loses a thousandth of red and green (rounded down), which it should not. -/
theorem c107_neutral_partial {m : Nat} (hm : m = 255 ∨ m = 65535) {r g b : Nat} (hr : r ≤ m) (hg : g ≤ m) (hb : b ≤ m) :
    ∃ b', hsvPixel m 1 0 1 1 [r, g, b] = [r, g, b'] ∧ RoundedDown (30 * m / 2 ^ 24) (clampQ 0 m (b - (r + g) / 1000)) b' := by
  have n : ∀ x : Nat, x ≤ m → rnd 24 (x : Rat) = x := fun x hx => rnd_nat (by omega)
  have one : rnd 24 (1 : Rat) = 1 := by decide +kernel
  have c1 : hsvCoeff (299 / 1000) (701 / 1000) (168 / 1000) 1 1 0 = 1 := by decide +kernel
  have c2 : hsvCoeff (587 / 1000) (-587 / 1000) (330 / 1000) 1 1 0 = 0 := by decide +kernel
  have c3 : hsvCoeff (114 / 1000) (-114 / 1000) (-497 / 1000) 1 1 0 = 0 := by decide +kernel
  have c4 : hsvCoeff (299 / 1000) (-299 / 1000) (-328 / 1000) 1 1 0 = 0 := by decide +kernel
  have c5 : hsvCoeff (587 / 1000) (413 / 1000) (35 / 1000) 1 1 0 = 1 := by decide +kernel
  have c6 : hsvCoeff (114 / 1000) (-114 / 1000) (292 / 1000) 1 1 0 = 0 := by decide +kernel
  obtain ⟨r', g', b', h1, h2⟩ := c107_formula m 1 0 1 1 r g b
  have h3 := h2 2 _ b' rfl rfl
  have e : hsvPixel m 1 0 1 1 [r, g, b] = [r, g, b'] := by
    rw [h1]
    simp only [hsvPixel, hsvTable, hsvRow, mul_one, mul_zero, one, rnd_zero, List.map_cons, List.map_nil, List.cons.injEq, List.zipWith_cons_cons, List.zipWith_nil_left] at h1
    obtain ⟨e1, e2, -⟩ := h1
    push_cast at e1 e2
    simp only [c1, c2, c3, c4, c5, c6, one_mul, zero_mul, rnd_zero, List.getD_cons_zero, List.getD_cons_succ, add_zero, zero_add, n r hr, n g hg, clamp_sample hr, clamp_sample hg] at e1 e2
    rw [e1, e2]
  refine ⟨b', e, ?_⟩
  have m0 : (0 : Rat) ≤ m := by positivity
  have hr' : (r : Rat) ≤ m := by exact_mod_cast hr
  have hg' : (g : Rat) ≤ m := by exact_mod_cast hg
  have hb' : (b : Rat) ≤ m := by exact_mod_cast hb
  have x : hsvExact [(299, -300, 1250), (587, -588, -1050), (114, 886, -203)] 1 0 1 1 [r, g, b] = b - (r + g) / 1000 := by
    simp only [hsvExact, List.zipWith_cons_cons, List.zipWith_nil_left, List.sum_cons, List.sum_nil]
    push_cast
    ring
  have y : hsvSize [(299, -300, 1250), (587, -588, -1050), (114, 886, -203)] 1 0 1 1 [r, g, b] ≤ 3 * m := by
    simp only [hsvSize, List.zipWith_cons_cons, List.zipWith_nil_left, List.sum_cons, List.sum_nil]
    norm_num [abs_of_pos, abs_of_neg]
    linarith [show (0 : Rat) ≤ r by positivity, show (0 : Rat) ≤ g by positivity]
  rw [x] at h3
  have z : (10 : Rat) / 2 ^ 24 * hsvSize [(299, -300, 1250), (587, -588, -1050), (114, 886, -203)] 1 0 1 1 [r, g, b] ≤ 30 * m / 2 ^ 24 := by
    have := mul_le_mul_of_nonneg_left y (show (0 : Rat) ≤ 10 / 2 ^ 24 by norm_num)
    linarith
  exact ⟨by linarith [h3.1], by linarith [h3.2]⟩

example : ∃ b', hsvPixel 255 1 0 1 1 [200, 100, 50] = [200, 100, b'] ∧ RoundedDown (30 * (255 : Nat) / 2 ^ 24) (clampQ 0 (255 : Nat) ((50 : Nat) - ((200 : Nat) + (100 : Nat)) / 1000)) b' :=
  c107_neutral_partial (.inl rfl) (by norm_num) (by norm_num) (by norm_num)

/-- **C107** (negative).  The neutral setting (no rotation, saturation and lightness 1) is not neutral: white becomes slightly yellow, as the row for blue has 0.300 for 0.299 and
    0.588 for 0.587 (hsv_adjust.rs:173-174). -/
theorem c107_neutral_wrong : hsvPixel 255 1 0 1 1 [255, 255, 255] = [255, 255, 254] := by decide +kernel

/-- **C107** (negative).  "Values less than or equal to zero produce a black image" (hsv_adjust.rs:67-68): red with a hue of 180 degrees and a lightness of -1 does not become black. -/
theorem c107_negative_wrong : hsvPixel 255 (-1) 0 1 (-1) [255, 0, 0] ≠ [0, 0, 0] := by decide +kernel

/-! ## C108: the step of `unsharpen` -/

theorem mask8 (c : Prop) [Decidable c] (x y : UInt8) : (x &&& ~~~((if c then 1 else 0 : UInt8) - 1)) ||| (y &&& ((if c then 1 else 0 : UInt8) - 1)) = if c then x else y := by
  split
  · rw [show (1 - 1 : UInt8) = 0 from rfl]; simp
  · rw [show (0 - 1 : UInt8) = -1 from rfl]; simp

theorem mask16 (c : Prop) [Decidable c] (x y : UInt16) : (x &&& ~~~((if c then 1 else 0 : UInt16) - 1)) ||| (y &&& ((if c then 1 else 0 : UInt16) - 1)) = if c then x else y := by
  split
  · rw [show (1 - 1 : UInt16) = 0 from rfl]; simp
  · rw [show (0 - 1 : UInt16) = -1 from rfl]; simp

/-- **C108** (8 bits, partial).  A sample at least as bright as its blurred neighbourhood: if the difference exceeds the threshold, it is added (saturating), otherwise the sample stays.  For
    darker samples see `c108_darker_wrong`. -/
theorem c108_u8_partial {thr o b : UInt8} (h : b ≤ o) :
    (unsharpen8 thr o b).toNat = if thr.toNat < o.toNat - b.toNat then min 255 (2 * o.toNat - b.toNat) else o.toNat := by
  have hd : (o - b).toNat = o.toNat - b.toNat := UInt8.toNat_sub_of_le _ _ h
  have hb : b.toNat ≤ o.toNat := UInt8.le_iff_toNat_le.1 h
  have ho : o.toNat < 256 := o.toNat_lt
  unfold unsharpen8
  dsimp only
  rw [mask8]
  have e : o - b > thr ↔ thr.toNat < o.toNat - b.toNat := by rw [gt_iff_lt, UInt8.lt_iff_toNat_lt, hd]
  by_cases c : thr.toNat < o.toNat - b.toNat
  · rw [if_pos (e.2 c), if_pos c, hd]
    split
    · rw [UInt8.toNat_add, hd]; omega
    · show 255 = _; omega
  · rw [if_neg (fun x => c (e.1 x)), if_neg c]

example : (unsharpen8 5 200 150).toNat = 250 := by rw [c108_u8_partial (by decide)]; decide

/-- **C108** (negative, 8 bits).  A sample darker than its blurred neighbourhood should become darker (`original + (original − blurred)`) or, if only brightening is meant, stay; the
    difference wraps around, and the sample becomes brighter whenever 256 minus the difference exceeds the threshold. -/
theorem c108_darker_wrong {thr o b : UInt8} (h : o < b) (ht : thr.toNat < 256 - (b.toNat - o.toNat)) :
    (unsharpen8 thr o b).toNat = min 255 (2 * o.toNat + 256 - b.toNat) ∧ (0 < o.toNat → o.toNat < 255 → o.toNat < (unsharpen8 thr o b).toNat) := by
  have hb : o.toNat < b.toNat := UInt8.lt_iff_toNat_lt.1 h
  have hb2 : b.toNat < 256 := b.toNat_lt
  have hd : (o - b).toNat = 256 - (b.toNat - o.toNat) := by rw [UInt8.toNat_sub]; omega
  have r : (unsharpen8 thr o b).toNat = min 255 (2 * o.toNat + 256 - b.toNat) := by
    unfold unsharpen8
    dsimp only
    rw [mask8, if_pos (by rw [gt_iff_lt, UInt8.lt_iff_toNat_lt, hd]; exact ht), hd]
    split
    · rw [UInt8.toNat_add, hd]; omega
    · show 255 = _; omega
  exact ⟨r, fun h0 h1 => by rw [r]; omega⟩

/-- A sample of 100 in a neighbourhood of 110 becomes white. -/
example : (unsharpen8 10 100 110).toNat = 255 := by rw [(c108_darker_wrong (by decide) (by decide)).1]; decide

/-- **C108** (16 bits, partial).  While twice the sample less the blurred one fits 16 bits: the difference is added if it exceeds the threshold; samples darker than the neighbourhood stay. -/
theorem c108_u16_partial {thr o b : UInt16} (h : 2 * o.toNat - b.toNat < 65536) :
    (unsharpen16 thr o b).toNat = if thr.toNat < o.toNat - b.toNat then 2 * o.toNat - b.toNat else o.toNat := by
  unfold unsharpen16
  dsimp only
  rw [mask16]
  by_cases c : b ≤ o
  · have hd : (o - b).toNat = o.toNat - b.toNat := UInt16.toNat_sub_of_le _ _ c
    have hb : b.toNat ≤ o.toNat := UInt16.le_iff_toNat_le.1 c
    rw [if_pos c]
    have e : o - b > thr ↔ thr.toNat < o.toNat - b.toNat := by rw [gt_iff_lt, UInt16.lt_iff_toNat_lt, hd]
    by_cases c2 : thr.toNat < o.toNat - b.toNat
    · rw [if_pos (e.2 c2), if_pos c2, UInt16.toNat_add, hd]; omega
    · rw [if_neg (fun x => c2 (e.1 x)), if_neg c2]
  · have hb : o.toNat < b.toNat := by rw [UInt16.le_iff_toNat_le] at c; omega
    rw [if_neg c, if_neg (by rw [gt_iff_lt, UInt16.lt_iff_toNat_lt]; simp), if_neg (by omega)]

example : (unsharpen16 5 40000 39000).toNat = 41000 := by rw [c108_u16_partial (by decide)]; decide

/-- **C108** (negative, 16 bits).  Beyond 65535 the sum wraps around: bright samples become dark. -/
theorem c108_wrap_wrong {thr o b : UInt16} (h : 65536 ≤ 2 * o.toNat - b.toNat) (ht : thr.toNat < o.toNat - b.toNat) :
    (unsharpen16 thr o b).toNat = 2 * o.toNat - b.toNat - 65536 ∧ (unsharpen16 thr o b).toNat < o.toNat := by
  have ho : o.toNat < 65536 := o.toNat_lt
  have c : b ≤ o := UInt16.le_iff_toNat_le.2 (by omega)
  have hd : (o - b).toNat = o.toNat - b.toNat := UInt16.toNat_sub_of_le _ _ c
  have r : (unsharpen16 thr o b).toNat = 2 * o.toNat - b.toNat - 65536 := by
    unfold unsharpen16
    dsimp only
    rw [mask16, if_pos c, if_pos (by rw [gt_iff_lt, UInt16.lt_iff_toNat_lt, hd]; exact ht), UInt16.toNat_add, hd]
    omega
  exact ⟨r, by rw [r]; omega⟩

example : (unsharpen16 5 60000 50000).toNat = 4464 := by rw [(c108_wrap_wrong (by decide) (by decide)).1]; decide

end Zune.Imageprocs
