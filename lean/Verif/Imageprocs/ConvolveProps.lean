/-
**C104**: `convolve` is the weighted sum of the neighbourhood.
-/
import Verif.Imageprocs.ConvolveModel
import Verif.Imageprocs.ToneProps
import Verif.Imageprocs.Median

namespace Zune.Imageprocs
open Zune.Float

/-! ### Specification -/

/-- The sum of the products, weights and samples both row by row. -/
def dot (ws : List Rat) (n : List Nat) : Rat := (List.zipWith (fun (x : Nat) w => (x : Rat) * w) n ws).sum

/-- The sum of the magnitudes of the products. -/
def dotAbs (ws : List Rat) (n : List Nat) : Rat := (List.zipWith (fun (x : Nat) w => |(x : Rat) * w|) n ws).sum

/-! ### Lemmas -/

theorem convolveSize_spec {m r w h : Nat} {ws : List Rat} {scale : Rat} {l : List Nat} (hw : 0 < w) (hh : 0 < h) (hl : l.length = w * h) :
    ∃ res, convolveSize m r ws scale l (List.replicate l.length 0) w h = some res ∧ res.length = w * h ∧
      ∀ y < h, ∀ x < w, (neighbours l w h r y x).length = (2 * r + 1) * (2 * r + 1) ∧
        res[y * w + x]? = some (convolveInner m ws scale (neighbours l w h r y x)) := by
  obtain ⟨p, h1, h2, h3⟩ := padReplicate_spec 0 hw hh hl r r
  have h2' : p.length = (r * 2 + h) * (r * 2 + w) := by rw [h2, Nat.add_comm h, Nat.add_comm w]
  obtain ⟨res, e1, e2, e3⟩ := spatialLoop_spec (f := fun (_ : Unit) win => some (convolveInner m ws scale win, ())) (padded := p)
    (out := List.replicate l.length 0) (st := ()) hw h2' (by simpa using hl) (I := fun _ _ => True)
    (V := fun y x => convolveInner m ws scale (neighbours l w h r y x)) trivial
    (fun y hy x hx s _ => ⟨(), by rw [around_eq hw hh h2' h3 hy hx], trivial⟩)
  refine ⟨res, ?_, e2, fun y hy x hx => ⟨neighbours_length hw hh h2' h3 hy hx, e3 y hy x hx⟩⟩
  unfold convolveSize
  rw [h1]; exact e1

theorem rnd_abs (x : Rat) : |rnd 24 x - x| ≤ |x| / 2 ^ 24 := by
  rw [le_div_iff₀ (by norm_num)]; exact rnd_err 24 x

/-- One step: `acc` approximates `s` up to the part `E` of `A`. -/
theorem step_err {acc s A E p : Rat} (hE : 1 / 2 ^ 24 ≤ E) (hs : |s| ≤ A) (h : |acc - s| ≤ E * A) :
    |rnd 24 (acc + rnd 24 p) - (s + p)| ≤ ((1 + E) * (1 + 1 / 2 ^ 24) - 1) * (A + |p|) := by
  have r1 := rnd_abs p
  have r2 := rnd_abs (acc + rnd 24 p)
  have t1 : |acc + rnd 24 p| ≤ (1 + E) * A + (1 + 1 / 2 ^ 24) * |p| := by
    have e : acc + rnd 24 p = (acc - s) + s + ((rnd 24 p - p) + p) := by ring
    rw [e]
    have a1 := abs_add_le (acc - s + s) (rnd 24 p - p + p)
    have a2 := abs_add_le (acc - s) s
    have a3 := abs_add_le (rnd 24 p - p) p
    have : (1 + 1 / 2 ^ 24) * |p| = |p| + |p| / 2 ^ 24 := by ring
    linarith
  have e : rnd 24 (acc + rnd 24 p) - (s + p) = (rnd 24 (acc + rnd 24 p) - (acc + rnd 24 p)) + ((acc - s) + (rnd 24 p - p)) := by ring
  rw [e]
  have a1 := abs_add_le (rnd 24 (acc + rnd 24 p) - (acc + rnd 24 p)) ((acc - s) + (rnd 24 p - p))
  have a2 := abs_add_le (acc - s) (rnd 24 p - p)
  have t2 : |acc + rnd 24 p| / 2 ^ 24 ≤ ((1 + E) * A + (1 + 1 / 2 ^ 24) * |p|) / 2 ^ 24 := div_le_div_of_nonneg_right t1 (by norm_num)
  have hp : 0 ≤ |p| := abs_nonneg p
  have hEp : 1 / 2 ^ 24 * |p| ≤ E * |p| := mul_le_mul_of_nonneg_right hE hp
  have g : ((1 + E) * A + (1 + 1 / 2 ^ 24) * |p|) / 2 ^ 24 + (E * A + |p| / 2 ^ 24) ≤ ((1 + E) * (1 + 1 / 2 ^ 24) - 1) * (A + |p|) := by
    have e2 : ((1 + E) * (1 + 1 / 2 ^ 24) - 1) * (A + |p|) =
        ((1 + E) * A + (1 + 1 / 2 ^ 24) * |p|) / 2 ^ 24 + (E * A + |p| / 2 ^ 24) + (1 + 1 / 2 ^ 24) * (E * |p| - 1 / 2 ^ 24 * |p|) := by ring
    rw [e2]
    have : 0 ≤ (1 + 1 / 2 ^ 24) * (E * |p| - 1 / 2 ^ 24 * |p|) := mul_nonneg (by norm_num) (by linarith)
    linarith
  linarith

theorem fold_err : ∀ (l : List (Nat × Rat)) {acc s A : Rat} {k : Nat}, |s| ≤ A → |acc - s| ≤ ((1 + 1 / 2 ^ 24) ^ (k + 1) - 1) * A →
    |(l.foldl (fun acc (p : Nat × Rat) => rnd 24 (acc + rnd 24 (p.1 * p.2))) acc) - (s + (l.map fun p => (p.1 : Rat) * p.2).sum)| ≤
      ((1 + 1 / 2 ^ 24) ^ (k + l.length + 1) - 1) * (A + (l.map fun p => |(p.1 : Rat) * p.2|).sum)
  | [], acc, s, A, k, _, h => by simpa using h
  | p :: t, acc, s, A, k, hs, h => by
    have hk : 1 / 2 ^ 24 ≤ (1 + 1 / 2 ^ 24 : Rat) ^ (k + 1) - 1 := by
      have : (1 + 1 / 2 ^ 24 : Rat) ≤ (1 + 1 / 2 ^ 24) ^ (k + 1) := le_self_pow₀ (by norm_num) (by omega)
      linarith
    have st := step_err (p := p.1 * p.2) hk hs h
    have e : (1 + ((1 + 1 / 2 ^ 24 : Rat) ^ (k + 1) - 1)) * (1 + 1 / 2 ^ 24) - 1 = (1 + 1 / 2 ^ 24) ^ (k + 1 + 1) - 1 := by ring
    rw [e] at st
    have hs' : |s + p.1 * p.2| ≤ A + |(p.1 : Rat) * p.2| := le_trans (abs_add_le _ _) (by linarith)
    have ih := fold_err t hs' st
    rw [List.foldl_cons, List.map_cons, List.sum_cons, List.map_cons, List.sum_cons, List.length_cons, ← add_assoc s, ← add_assoc A,
      show k + (t.length + 1) + 1 = k + 1 + t.length + 1 by omega]
    exact ih

theorem zip_dot (ws : List Rat) (n : List Nat) : ((n.zip ws).map fun p => (p.1 : Rat) * p.2).sum = dot ws n := by
  unfold dot; rw [List.zip, List.map_zipWith]

theorem zip_dotAbs (ws : List Rat) (n : List Nat) : ((n.zip ws).map fun p => |(p.1 : Rat) * p.2|).sum = dotAbs ws n := by
  unfold dotAbs; rw [List.zip, List.map_zipWith]

theorem dotAbs_nonneg (ws : List Rat) (n : List Nat) : 0 ≤ dotAbs ws n := by
  rw [← zip_dotAbs]
  exact List.sum_nonneg fun x hx => by obtain ⟨p, _, rfl⟩ := List.mem_map.1 hx; exact abs_nonneg _

theorem dot_le (ws : List Rat) (n : List Nat) : |dot ws n| ≤ dotAbs ws n := by
  rw [← zip_dot, ← zip_dotAbs]
  induction n.zip ws with
  | nil => simp
  | cons p t ih => simp only [List.map_cons, List.sum_cons]; exact le_trans (abs_add_le _ _) (by linarith)

theorem inner_err {ws : List Rat} {n : List Nat} (scale : Rat) (hn : n.length = ws.length) (hl : ws.length ≤ 49) :
    |rnd 24 (weightedSum ws n * scale) - scale * dot ws n| ≤ 52 / 2 ^ 24 * (|scale| * dotAbs ws n) := by
  have f := fold_err (n.zip ws) (acc := 0) (s := 0) (A := 0) (k := 0) (by simp) (by simp)
  rw [zip_dot, zip_dotAbs, zero_add, zero_add, zero_add, List.length_zip, hn, Nat.min_self] at f
  have d := dot_le ws n
  have d0 := dotAbs_nonneg ws n
  change |weightedSum ws n - dot ws n| ≤ _ at f
  generalize weightedSum ws n = S at f ⊢
  generalize dot ws n = D at f d ⊢
  generalize dotAbs ws n = A at f d d0 ⊢
  have hp : (1 + 1 / 2 ^ 24 : Rat) ^ (ws.length + 1) ≤ (1 + 1 / 2 ^ 24) ^ 50 := pow_le_pow_right₀ (by norm_num) (by omega)
  have hp2 : (1 + 1 / 2 ^ 24 : Rat) ^ 50 - 1 ≤ 505 / 10 / 2 ^ 24 := by norm_num
  have f' : |S - D| ≤ 505 / 10 / 2 ^ 24 * A := le_trans f (mul_le_mul_of_nonneg_right (by linarith) d0)
  have r := rnd_abs (S * scale)
  have e : rnd 24 (S * scale) - scale * D = (rnd 24 (S * scale) - S * scale) + (S - D) * scale := by ring
  have a := abs_add_le (rnd 24 (S * scale) - S * scale) ((S - D) * scale)
  have b : |(S - D) * scale| ≤ 505 / 10 / 2 ^ 24 * A * |scale| := by rw [abs_mul]; exact mul_le_mul_of_nonneg_right f' (abs_nonneg _)
  have hS : |S| ≤ 101 / 100 * A := by
    have := abs_add_le (S - D) D
    rw [sub_add_cancel] at this
    norm_num at f'
    linarith
  have c : |S * scale| ≤ 101 / 100 * A * |scale| := by rw [abs_mul]; exact mul_le_mul_of_nonneg_right hS (abs_nonneg _)
  have q : 0 ≤ |scale| * A := mul_nonneg (abs_nonneg _) d0
  have e1 : 505 / 10 / 2 ^ 24 * A * |scale| = 505 / 10 / 2 ^ 24 * (|scale| * A) := by ring
  have e2 : 101 / 100 * A * |scale| = 101 / 100 * (|scale| * A) := by ring
  rw [e]
  rw [e1] at b
  rw [e2] at c
  norm_num at a b c r ⊢
  linarith

theorem toSample_clamp (m : Nat) (y : Rat) : toSample m y = toSample m (clampQ 0 m y) := by
  have hm : (0 : Rat) ≤ m := by positivity
  rcases lt_or_ge y 0 with h | h
  · have : clampQ 0 m y = ((0 : Nat) : Rat) := by unfold clampQ; rw [max_eq_left (le_trans (min_le_right _ _) h.le)]; simp
    rw [this, toSample_nat (by omega)]
    unfold toSample; rw [if_pos h]
  · rcases le_total y m with h' | h'
    · rw [clampQ_of_mem h h']
    · have : clampQ 0 m y = ((m : Nat) : Rat) := by unfold clampQ; rw [min_eq_left h', max_eq_right hm]
      rw [this, toSample_nat le_rfl]
      unfold toSample
      rw [if_neg (by linarith)]
      have : (m : Int) ≤ ⌊y⌋ := Int.le_floor.2 (by exact_mod_cast h')
      omega

theorem convolve_ok {m r w h : Nat} {ws : List Rat} {scale : Rat} {l : List Nat} (hr : r = 1 ∨ r = 2 ∨ r = 3) (hws : ws.length = (2 * r + 1) * (2 * r + 1))
    (hw : 0 < w) (hh : 0 < h) (hl : l.length = w * h) :
    ∃ res, convolveChannel m ws scale l w h = some (some res) ∧ res.length = w * h ∧
      ∀ y < h, ∀ x < w, (neighbours l w h r y x).length = ws.length ∧ res[y * w + x]? = some (convolveInner m ws scale (neighbours l w h r y x)) := by
  obtain ⟨res, h1, h2, h3⟩ := convolveSize_spec (m := m) (r := r) (ws := ws) (scale := scale) hw hh hl
  refine ⟨res, ?_, h2, by rw [hws]; exact h3⟩
  unfold convolveChannel convolve
  rcases hr with rfl | rfl | rfl <;> simp [hws, h1]

/-! ### The claims -/

/-- **C104**.  With 3 × 3, 5 × 5 or 7 × 7 weights every output sample is the sum of the neighbours (border samples repeated), each times the weight at the
    same place, times the scale: saturated, rounded down, up to 52·2⁻²⁴ of the sum of the magnitudes.  Nothing panics. -/
theorem c104_convolve {m r w h : Nat} {ws : List Rat} (scale : Rat) {l : List Nat} (hr : r = 1 ∨ r = 2 ∨ r = 3)
    (hws : ws.length = (2 * r + 1) * (2 * r + 1)) (hw : 0 < w) (hh : 0 < h) (hl : l.length = w * h) :
    ∃ res, convolveChannel m ws scale l w h = some (some res) ∧ res.length = w * h ∧
      ∀ y < h, ∀ x < w, ∃ v, res[y * w + x]? = some v ∧ (neighbours l w h r y x).length = ws.length ∧
        RoundedDown (52 / 2 ^ 24 * (|scale| * dotAbs ws (neighbours l w h r y x))) (clampQ 0 m (scale * dot ws (neighbours l w h r y x))) v := by
  obtain ⟨res, h1, h2, h3⟩ := convolve_ok (m := m) (scale := scale) hr hws hw hh hl
  refine ⟨res, h1, h2, fun y hy x hx => ?_⟩
  obtain ⟨h4, h5⟩ := h3 y hy x hx
  refine ⟨_, h5, h4, ?_⟩
  have e := inner_err scale h4 (by rw [hws]; rcases hr with rfl | rfl | rfl <;> norm_num)
  rw [abs_le] at e
  unfold convolveInner
  rw [toSample_clamp]
  exact rounded_clamp (by linarith [e.2]) (by linarith [e.1])

theorem dotAbs_int {m : Nat} : ∀ {ks : List Int} {n : List Nat}, (∀ v ∈ n, v ≤ m) →
    ∃ s : Int, dot (ks.map fun k : Int => (k : Rat)) n = s ∧ |s| ≤ m * (ks.map fun k : Int => |k|).sum
  | [], n, _ => ⟨0, by cases n <;> simp [dot], by simp⟩
  | k :: ks, [], _ => ⟨0, by simp [dot], by
      rw [abs_zero]; exact mul_nonneg (by positivity) (List.sum_nonneg fun x hx => by obtain ⟨p, _, rfl⟩ := List.mem_map.1 hx; exact abs_nonneg _)⟩
  | k :: ks, v :: n, h => by
    obtain ⟨s, h1, h2⟩ := dotAbs_int (ks := ks) (n := n) fun v hv => h v (by simp [hv])
    refine ⟨v * k + s, ?_, ?_⟩
    · unfold dot at h1 ⊢
      rw [List.map_cons, List.zipWith_cons_cons, List.sum_cons, h1]; push_cast; ring
    · rw [List.map_cons, List.sum_cons, mul_add]
      have hv : (v : Int) ≤ m := by exact_mod_cast h v (by simp)
      have : |(v : Int) * k| ≤ m * |k| := by rw [abs_mul, abs_of_nonneg (by positivity : (0 : Int) ≤ v)]; exact mul_le_mul_of_nonneg_right hv (abs_nonneg _)
      exact le_trans (abs_add_le _ _) (by linarith)

theorem fold_int {m : Nat} : ∀ {ks : List Int} {n : List Nat} {acc : Int}, (∀ v ∈ n, v ≤ m) → |acc| + m * (ks.map fun k : Int => |k|).sum ≤ 2 ^ 24 →
    (n.zip (ks.map fun k : Int => (k : Rat))).foldl (fun acc (p : Nat × Rat) => rnd 24 (acc + rnd 24 (p.1 * p.2))) (acc : Rat) =
      acc + dot (ks.map fun k : Int => (k : Rat)) n
  | [], n, acc, _, _ => by simp [dot]
  | k :: ks, [], acc, _, _ => by simp [dot]
  | k :: ks, v :: n, acc, h, hb => by
    rw [List.map_cons, List.sum_cons, mul_add] at hb
    have hv : (v : Int) ≤ m := by exact_mod_cast h v (by simp)
    have hvk : |(v : Int) * k| ≤ m * |k| := by rw [abs_mul, abs_of_nonneg (by positivity : (0 : Int) ≤ v)]; exact mul_le_mul_of_nonneg_right hv (abs_nonneg _)
    have h0 : 0 ≤ m * (ks.map fun k : Int => |k|).sum :=
      mul_nonneg (by positivity) (List.sum_nonneg fun x hx => by obtain ⟨p, _, rfl⟩ := List.mem_map.1 hx; exact abs_nonneg _)
    have ha := abs_nonneg acc
    have hs : |acc + v * k| ≤ |acc| + m * |k| := le_trans (abs_add_le _ _) (by linarith)
    have e1 : rnd 24 ((v : Rat) * (k : Rat)) = ((v * k : Int) : Rat) := by
      rw [show (v : Rat) * (k : Rat) = ((v * k : Int) : Rat) by push_cast; ring, rnd_int (by linarith)]
    have e2 : rnd 24 ((acc : Rat) + ((v * k : Int) : Rat)) = ((acc + v * k : Int) : Rat) := by
      rw [show (acc : Rat) + ((v * k : Int) : Rat) = ((acc + v * k : Int) : Rat) by push_cast; ring, rnd_int (by linarith)]
    rw [List.map_cons, List.zip_cons_cons, List.foldl_cons, e1, e2, fold_int (fun v hv => h v (by simp [hv])) (by linarith)]
    unfold dot
    rw [List.zipWith_cons_cons, List.sum_cons]; push_cast; ring

/-- **C104** (exact).  With whole weights whose magnitudes times the largest sample sum up to 2^24 at most, and one over a power of two as scale, the result is exact:
    the integer part of the scaled sum, saturated. -/
theorem c104_exact {m r w h j : Nat} {ks : List Int} {l : List Nat} (hr : r = 1 ∨ r = 2 ∨ r = 3) (hks : ks.length = (2 * r + 1) * (2 * r + 1))
    (hw : 0 < w) (hh : 0 < h) (hl : l.length = w * h) (hm : ∀ v ∈ l, v ≤ m) (hb : m * (ks.map fun k : Int => |k|).sum ≤ 2 ^ 24) :
    ∃ res, convolveChannel m (ks.map fun k : Int => (k : Rat)) (1 / 2 ^ j) l w h = some (some res) ∧ res.length = w * h ∧
      ∀ y < h, ∀ x < w, ∃ s : Int, dot (ks.map fun k : Int => (k : Rat)) (neighbours l w h r y x) = s ∧
        res[y * w + x]? = some (min m (s / 2 ^ j).toNat) := by
  obtain ⟨res, h1, h2, h3⟩ := convolve_ok (m := m) (ws := ks.map fun k : Int => (k : Rat)) (scale := 1 / 2 ^ j) hr (by simpa using hks) hw hh hl
  refine ⟨res, h1, h2, fun y hy x hx => ?_⟩
  have hn : ∀ v ∈ neighbours l w h r y x, v ≤ m := fun v hv => hm v (neighbours_mem hv)
  obtain ⟨s, e1, e2⟩ := dotAbs_int (ks := ks) hn
  refine ⟨s, e1, ?_⟩
  rw [(h3 y hy x hx).2]
  have f := fold_int (ks := ks) (acc := 0) hn (by rw [abs_zero]; linarith)
  rw [e1] at f
  have f' : weightedSum (ks.map fun k : Int => (k : Rat)) (neighbours l w h r y x) = s := by
    unfold weightedSum; simpa using f
  unfold convolveInner
  rw [f']
  have hf : rnd 24 ((s : Rat) * (1 / 2 ^ j)) = (s : Rat) / 2 ^ j := by
    rw [mul_one_div]
    refine rnd_fit (by norm_num) ⟨s, -(j : Int), le_trans e2 hb, ?_⟩
    rw [zpow_neg, zpow_natCast]; rfl
  rw [hf]
  have fl : ⌊(s : Rat) / 2 ^ j⌋ = s / 2 ^ j := by
    have := Rat.floor_intCast_div_natCast s (2 ^ j)
    push_cast at this
    exact this
  unfold toSample
  rw [fl]
  congr 1
  split
  · next hneg =>
    have : s < 0 := by
      by_contra hc
      have : (0 : Rat) ≤ s / 2 ^ j := div_nonneg (by exact_mod_cast not_lt.1 hc) (by positivity)
      linarith
    have : s / 2 ^ j < 0 := Int.ediv_neg_of_neg_of_pos this (by positivity)
    omega
  · rfl

/-- A 2 × 2 picture, weights 1 to 9, scaled by one eighth: at the top left the neighbours are 10 10 20 / 10 10 20 / 30 30 40. -/
example : ∃ res, convolveChannel 255 ([1, 2, 3, 4, 5, 6, 7, 8, 9].map fun k : Int => (k : Rat)) (1 / 2 ^ 3) [10, 20, 30, 40] 2 2 = some (some res) ∧ res.length = 2 * 2 ∧
    ∀ y < 2, ∀ x < 2, ∃ s : Int, dot ([1, 2, 3, 4, 5, 6, 7, 8, 9].map fun k : Int => (k : Rat)) (neighbours [10, 20, 30, 40] 2 2 1 y x) = s ∧
      res[y * 2 + x]? = some (min 255 (s / 2 ^ 3).toNat) :=
  c104_exact (r := 1) (.inl rfl) rfl (by omega) (by omega) rfl (by simp) (by simp)

example : neighbours [10, 20, 30, 40] 2 2 1 0 0 = [10, 10, 20, 10, 10, 20, 30, 30, 40] ∧
    dot ([1, 2, 3, 4, 5, 6, 7, 8, 9].map fun k : Int => (k : Rat)) [10, 10, 20, 10, 10, 20, 30, 30, 40] = (1110 : Int) ∧ (1110 : Int) / 2 ^ 3 = 138 := by
  refine ⟨by decide +kernel, by norm_num [dot], by norm_num⟩

/-- **C104** (errors).  Other numbers of weights give an error, whatever the picture. -/
theorem c104_error {m w h : Nat} {ws : List Rat} {scale : Rat} {l : List Nat} (h1 : ws.length ≠ 9) (h2 : ws.length ≠ 25) (h3 : ws.length ≠ 49) :
    convolveChannel m ws scale l w h = some none := by
  simp [convolveChannel, convolve, h1, h2, h3]

example : convolveChannel 255 (List.replicate 16 1) 1 [1, 2] 2 1 = some none := c104_error (by decide) (by decide) (by decide)

end Zune.Imageprocs
