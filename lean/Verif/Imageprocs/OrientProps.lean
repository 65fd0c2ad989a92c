/-
**C101**: the dimensions after a rotation, rotation by arbitrary angles.  **C102**: orientation by the exif tag.
-/
import Verif.Imageprocs.OrientModel
import Verif.Imageprocs.Geometry
import Mathlib.Tactic.Linarith
import Mathlib.Tactic.NormNum

namespace Zune.Imageprocs
variable {α : Type}
open Zune.Float

/-! ### C101: dimensions -/

theorem scale_eq {k n : Nat} (hk : k ≤ 23) : ((n * 2 ^ (23 - k) : Nat) : Rat) * (2 : Rat) ^ ((k : Int) - 23) = n := by
  have h : ((2 ^ (23 - k) : Nat) : Rat) = (2 : Rat) ^ (23 - (k : Int)) := by
    push_cast
    rw [← zpow_natCast, Nat.cast_sub hk]
    norm_num
  rw [Nat.cast_mul, h, mul_assoc, ← zpow_add₀ (by norm_num), show (23 - (k : Int)) + (k - 23) = 0 by ring, zpow_zero, mul_one]

theorem ceil_sum {n k : Nat} (h1 : 2 ^ k ≤ n) (h2 : n < 2 ^ (k + 1)) (hk : k ≤ 23) {δ : Rat} (h0 : 0 ≤ δ) :
    (δ < (2 : Rat) ^ ((k : Int) - 24) → ⌈rnd 24 (δ + n)⌉ = n) ∧ ((2 : Rat) ^ ((k : Int) - 24) < δ → δ ≤ 1 → ⌈rnd 24 (δ + n)⌉ = n + 1) := by
  have hn0 : 0 < n := lt_of_lt_of_le (by positivity) h1
  have hn : (2 : Rat) ^ (k : Int) ≤ n := by rw [zpow_natCast]; exact_mod_cast h1
  have hn' : (n : Rat) + 1 ≤ (2 : Rat) ^ ((k : Int) + 1) := by
    rw [show (k : Int) + 1 = ((k + 1 : Nat) : Int) by simp, zpow_natCast]; exact_mod_cast h2
  have hp : (2 : Rat) ^ ((k : Int) - 23) = 2 * (2 : Rat) ^ ((k : Int) - 24) := by
    rw [show (k : Int) - 23 = 1 + (k - 24) by ring, zpow_add₀ (by norm_num)]; norm_num
  have hpos : (0 : Rat) < (2 : Rat) ^ ((k : Int) - 24) := zpow_pos (by norm_num) _
  have hle : (2 : Rat) ^ ((k : Int) - 24) ≤ 1 / 2 := by
    have : (2 : Rat) ^ ((k : Int) - 24) ≤ (2 : Rat) ^ (-1 : Int) := zpow_le_zpow_right₀ (by norm_num) (by omega)
    norm_num at this ⊢; exact this
  have hs := scale_eq (n := n) hk
  constructor
  · intro hd
    have hr : rnd 24 (δ + n) = n := by
      have := rnd_eq (p := 24) (x := δ + n) ((n * 2 ^ (23 - k) : Nat) : Int) ((k : Int) - 23) (by positivity)
        (by rw [show (k : Int) - 23 + (24 : Nat) - 1 = k by push_cast; ring]; linarith)
        (by rw [show (k : Int) - 23 + (24 : Nat) = k + 1 by push_cast; ring]; linarith)
        (by rw [Int.cast_natCast, hs, add_sub_cancel_right, abs_of_nonneg h0, hp]; linarith)
      rw [this, Int.cast_natCast, hs]
    rw [hr]; exact_mod_cast Int.ceil_natCast n
  · intro hd h1'
    have hfit : Fits 24 ((n : Rat) + 2 ^ ((k : Int) - 23)) := by
      refine ⟨((n * 2 ^ (23 - k) + 1 : Nat) : Int), (k : Int) - 23, ?_, ?_⟩
      · have : n * 2 ^ (23 - k) + 1 ≤ 2 ^ 24 := by
          have e : 2 ^ (k + 1) * 2 ^ (23 - k) = 2 ^ 24 := by rw [← Nat.pow_add]; congr 1; omega
          have := Nat.mul_lt_mul_of_pos_right h2 (show 0 < 2 ^ (23 - k) by positivity)
          omega
        rw [abs_of_nonneg (by positivity)]; exact_mod_cast this
      · rw [Int.cast_natCast, Nat.cast_add, add_mul, hs]; simp
    have hlow : (n : Rat) < rnd 24 (δ + n) := by
      by_cases hc : (2 : Rat) ^ ((k : Int) - 23) ≤ δ
      · have := le_rnd (by norm_num) hfit (show (n : Rat) + 2 ^ ((k : Int) - 23) ≤ δ + n by linarith)
        rw [hp] at this; linarith
      · have hb := rnd_best (p := 24) (by norm_num) (δ + n) hfit
        rw [abs_of_nonneg (show 0 ≤ (n : Rat) + 2 ^ ((k : Int) - 23) - (δ + n) by linarith)] at hb
        have := (abs_le.1 hb).1
        rw [hp] at this
        linarith
    have hhigh : rnd 24 (δ + n) ≤ ((n + 1 : Nat) : Rat) := by
      refine rnd_le (by norm_num) (fits_nat ?_) (by push_cast; linarith)
      have : 2 ^ (k + 1) ≤ 2 ^ 24 := Nat.pow_le_pow_right (by norm_num) (by omega)
      omega
    rw [Int.ceil_eq_iff]
    constructor
    · push_cast; linarith
    · push_cast at hhigh ⊢; linarith

/-- The product of a size and a small cosine. -/
theorem size_cos {w : Nat} {c : Rat} (h0 : 0 ≤ c) (hw : w ≤ 2 ^ 24) : rnd 24 (w : Rat) = w ∧ 0 ≤ rnd 24 (w * c) ∧
    w * c * (1 - 1 / 2 ^ 24) ≤ rnd 24 (w * c) ∧ rnd 24 (w * c) ≤ w * c * (1 + 1 / 2 ^ 24) := by
  have h := rnd_err 24 ((w : Rat) * c)
  have h1 : 0 ≤ (w : Rat) * c := by positivity
  rw [abs_of_nonneg h1, ← le_div_iff₀ (by norm_num), abs_le] at h
  refine ⟨rnd_fit (by norm_num) (fits_nat hw), le_rnd (by norm_num) ?_ h1, ?_, ?_⟩
  · simpa using fits_nat (p := 24) (n := 0) (by norm_num)
  · linarith [h.1]
  · linarith [h.2]

/-- **C101** (dimensions).  Quarter turns: the width becomes the height and the other way round.  Partial: it is so as long as the side that becomes
    shorter is not above a limit that depends on the cosine, which is not quite zero in `f32`: 1.36 times the power of two below the other side
    for 90 degrees (cosine 4.37114e-8), 4.99 times for 270 degrees (cosine 1.192488e-8); see `c101_dims_wrong`. -/
theorem c101_dims_partial {w h k j : Nat} {c lim : Rat} (hw1 : 2 ^ j ≤ w) (hw2 : w < 2 ^ (j + 1)) (hj : j ≤ 23) (hh1 : 2 ^ k ≤ h)
    (hh2 : h < 2 ^ (k + 1)) (hk : k ≤ 23)
    (hc : (43711 / 10 ^ 12 ≤ c ∧ c ≤ 43712 / 10 ^ 12 ∧ lim = 136 / 100) ∨ (119248 / 10 ^ 13 ≤ c ∧ c ≤ 119249 / 10 ^ 13 ∧ lim = 499 / 100))
    (h1 : (w : Rat) ≤ lim * 2 ^ k) (h2 : (h : Rat) ≤ lim * 2 ^ j) : changeDims c 1 w h = (h, w) := by
  have hc0 : 0 ≤ c := by rcases hc with hc | hc <;> norm_num at hc <;> linarith [hc.1]
  have hcl : 0 ≤ lim ∧ lim * c * (1 + 1 / 2 ^ 24) < 1 / 2 ^ 24 := by
    rcases hc with ⟨a, b, rfl⟩ | ⟨a, b, rfl⟩ <;> norm_num at a b ⊢ <;> linarith
  have le24 : ∀ {n i : Nat}, n < 2 ^ (i + 1) → i ≤ 23 → n ≤ 2 ^ 24 := fun a b =>
    le_trans a.le (Nat.pow_le_pow_right (by norm_num) (by omega))
  have key : ∀ {a b i : Nat}, a ≤ 2 ^ 24 → 2 ^ i ≤ b → b < 2 ^ (i + 1) → i ≤ 23 → (a : Rat) ≤ lim * 2 ^ i → ⌈rnd 24 (rnd 24 (a * c) + b)⌉ = b := by
    intro a b i ha hb hb' hi hab
    obtain ⟨-, e1, -, e3⟩ := size_cos hc0 ha
    refine (ceil_sum hb hb' hi e1).1 (lt_of_le_of_lt e3 ?_)
    have e4 : (a : Rat) * c * (1 + 1 / 2 ^ 24) ≤ lim * 2 ^ i * c * (1 + 1 / 2 ^ 24) := by
      have := mul_le_mul_of_nonneg_right hab hc0
      exact mul_le_mul_of_nonneg_right this (by norm_num)
    refine lt_of_le_of_lt e4 ?_
    have e5 : (2 : Rat) ^ ((i : Int) - 24) = 2 ^ i * (1 / 2 ^ 24) := by
      rw [zpow_sub₀ (by norm_num), zpow_natCast]; norm_num
      ring
    rw [e5, show lim * 2 ^ i * c * (1 + 1 / 2 ^ 24) = 2 ^ i * (lim * c * (1 + 1 / 2 ^ 24)) by ring]
    exact mul_lt_mul_of_pos_left hcl.2 (by positivity)
  have hwl := le24 hw2 hj
  have hhl := le24 hh2 hk
  unfold changeDims rotatedDims
  rw [(size_cos hc0 hwl).1, (size_cos hc0 hhl).1, mul_one, mul_one, (size_cos hc0 hwl).1, (size_cos hc0 hhl).1, key hwl hh1 hh2 hk h1, add_comm (w : Rat),
    key hhl hw1 hw2 hj h2]
  rfl

/-- A 64 × 64 picture stays 64 × 64. -/
example : changeDims (437114 / 10 ^ 13) 1 64 64 = (64, 64) :=
  c101_dims_partial (k := 6) (j := 6) (by norm_num) (by norm_num) (by norm_num) (by norm_num) (by norm_num) (by norm_num)
    (.inl ⟨by norm_num, by norm_num, rfl⟩) (by norm_num) (by norm_num)

/-- **C101** (negative).  From 1.37 times (5 times for 270 degrees) the power of two below the other side on, the rotated picture is said to be one
    column wider than it is: `change_image_dims` sets the right dimensions and then overwrites them with the rounded up sum of
    width·cos and height·sin. -/
theorem c101_dims_wrong {w h k : Nat} {c lim : Rat} (hw : w ≤ 2 ^ 24) (hh1 : 2 ^ k ≤ h) (hh2 : h < 2 ^ (k + 1)) (hk : k ≤ 23)
    (hc : (43711 / 10 ^ 12 ≤ c ∧ c ≤ 43712 / 10 ^ 12 ∧ lim = 137 / 100) ∨ (119248 / 10 ^ 13 ≤ c ∧ c ≤ 119249 / 10 ^ 13 ∧ lim = 5))
    (h1 : lim * 2 ^ k ≤ (w : Rat)) : (changeDims c 1 w h).1 = h + 1 := by
  have hc0 : 0 ≤ c := by rcases hc with hc | hc <;> norm_num at hc <;> linarith [hc.1]
  have hcl : 1 / 2 ^ 24 < lim * c * (1 - 1 / 2 ^ 24) ∧ c * (1 + 1 / 2 ^ 24) ≤ 1 / 2 ^ 24 := by
    rcases hc with ⟨a, b, rfl⟩ | ⟨a, b, rfl⟩ <;> norm_num at a b ⊢ <;> constructor <;> linarith
  have hhl : h ≤ 2 ^ 24 := le_trans hh2.le (Nat.pow_le_pow_right (by norm_num) (by omega))
  obtain ⟨e0, e1, e2, e3⟩ := size_cos hc0 hw
  have e5 : (2 : Rat) ^ ((k : Int) - 24) = 2 ^ k * (1 / 2 ^ 24) := by
    rw [zpow_sub₀ (by norm_num), zpow_natCast]; norm_num
    ring
  have key := (ceil_sum hh1 hh2 hk e1).2 (by
    refine lt_of_lt_of_le ?_ e2
    have e4 : lim * 2 ^ k * c * (1 - 1 / 2 ^ 24) ≤ (w : Rat) * c * (1 - 1 / 2 ^ 24) := by
      have := mul_le_mul_of_nonneg_right h1 hc0
      exact mul_le_mul_of_nonneg_right this (by norm_num)
    refine lt_of_lt_of_le ?_ e4
    rw [e5, show lim * 2 ^ k * c * (1 - 1 / 2 ^ 24) = 2 ^ k * (lim * c * (1 - 1 / 2 ^ 24)) by ring]
    exact mul_lt_mul_of_pos_left hcl.1 (by positivity)) (by
    refine le_trans e3 ?_
    have hw' : (w : Rat) ≤ 2 ^ 24 := by exact_mod_cast hw
    have := mul_le_mul hw' hcl.2 (by positivity) (by norm_num)
    rw [← mul_assoc] at this
    refine le_trans this ?_
    norm_num)
  unfold changeDims rotatedDims
  rw [e0, (size_cos hc0 hhl).1, mul_one, (size_cos hc0 hhl).1, key]
  rfl

/-- A 100 × 100 picture becomes 101 columns wide (its channels have 10000 samples); so does every 1920 × 1080 one (1081). -/
example : (changeDims (437114 / 10 ^ 13) 1 100 100).1 = 101 ∧ (changeDims (437114 / 10 ^ 13) 1 1920 1080).1 = 1081 :=
  ⟨c101_dims_wrong (k := 6) (by norm_num) (by norm_num) (by norm_num) (by norm_num) (.inl ⟨by norm_num, by norm_num, rfl⟩) (by norm_num),
   c101_dims_wrong (k := 10) (by norm_num) (by norm_num) (by norm_num) (by norm_num) (.inl ⟨by norm_num, by norm_num, rfl⟩) (by norm_num)⟩

/-! ### C101: arbitrary angles -/

theorem mapM_some' {β γ : Type} {g : β → Option γ} : ∀ {l : List β}, (∀ a ∈ l, ∃ o, g a = some o) →
    ∃ out, l.mapM g = some out ∧ out.length = l.length ∧ ∀ (i : Nat) a, l[i]? = some a → out[i]? = g a
  | [], _ => ⟨[], rfl, rfl, by simp⟩
  | a :: l, h => by
    obtain ⟨o, ho⟩ := h a (by simp)
    obtain ⟨out, h1, h2, h3⟩ := mapM_some' (l := l) fun b hb => h b (by simp [hb])
    refine ⟨o :: out, by rw [List.mapM_cons, ho, h1]; rfl, by simp [h2], fun i b hi => ?_⟩
    cases i with
    | zero => simp at hi; rw [← hi, ho]; rfl
    | succ i => exact h3 i b (by simpa using hi)

theorem arbitrary_pixels {m : Nat} {c s : Rat} {len : Nat} {l : List Nat} {w h ow oh : Nat} (hlen : len = ow * oh)
    (hp : ∀ x < ow, ∀ y < oh, ∃ v, arbitraryPixel m c s l w h ow oh x y = some v) :
    ∃ out, rotateArbitrary m c s len l w h ow oh = some out ∧ out.length = ow * oh ∧
      ∀ x < ow, ∀ y < oh, out[y * ow + x]? = arbitraryPixel m c s l w h ow oh x y := by
  obtain ⟨out, h1, h2, h3⟩ := mapM_some' (g := fun i => arbitraryPixel m c s l w h ow oh (i % ow) (i / ow)) (l := List.range (ow * oh)) (by
    intro i hi
    rw [List.mem_range] at hi
    have : 0 < ow := Nat.pos_of_ne_zero (by rintro rfl; simp at hi)
    exact hp _ (Nat.mod_lt _ this) _ (Nat.div_lt_of_lt_mul hi))
  rw [List.length_range] at h2
  refine ⟨out, ?_, h2, fun x hx y hy => ?_⟩
  · unfold rotateArbitrary
    rw [h1]
    simp only [Option.bind_eq_bind, Option.bind_some]
    rw [if_neg (by omega), h2, hlen, Nat.sub_self, List.replicate_zero, List.append_nil]
  · have hlt : y * ow + x < ow * oh := rowcol_lt hx hy
    rw [h3 (y * ow + x) (y * ow + x) (List.getElem?_range hlt)]
    rw [Nat.mul_comm, Nat.mul_add_mod, Nat.mod_eq_of_lt hx, Nat.mul_add_div (by omega), Nat.div_eq_of_lt hx, Nat.add_zero]

/-- **C101** (arbitrary angles).  Whatever the sine and the cosine (any two numbers) and the size of the output: no index is out of range, every sample of the
    output is written, none is above the largest sample. -/
theorem c101_arbitrary {m : Nat} (c s : Rat) {l : List Nat} {w h : Nat} (ow oh : Nat) (hw : 0 < w) (hh : 0 < h) (hw' : w ≤ 2 ^ 24) (hh' : h ≤ 2 ^ 24)
    (hl : l.length = w * h) : ∃ out, rotateArbitrary m c s (ow * oh) l w h ow oh = some out ∧ out.length = ow * oh ∧ ∀ v ∈ out, v ≤ m := by
  have px : ∀ x y, ∃ v, arbitraryPixel m c s l w h ow oh x y = some v ∧ v ≤ m := by
    intro x y
    unfold arbitraryPixel
    generalize sourcePos c s w h ow oh x y = p
    simp only
    rw [if_neg (by omega)]
    split
    · rename_i hc
      obtain ⟨a1, a2, a3, a4⟩ := hc
      rw [rnd_fit (by norm_num) (fits_nat (by omega))] at a2 a4
      have fl : ∀ {q : Rat} {n : Nat}, 0 ≤ q → q < ((n - 1 : Nat) : Rat) → ⌊q⌋.toNat + 1 < n := by
        intro q n h0 h1
        have e1 : (⌊q⌋ : Rat) < ((n - 1 : Nat) : Rat) := lt_of_le_of_lt (Int.floor_le q) h1
        have e2 : ⌊q⌋ < ((n - 1 : Nat) : Int) := by exact_mod_cast e1
        have e3 := Int.floor_nonneg.2 h0
        omega
      have b1 := fl a1 a2
      have b2 := fl a3 a4
      generalize ⌊p.1⌋.toNat = x0 at b1 ⊢
      generalize ⌊p.2⌋.toNat = y0 at b2 ⊢
      have g : ∀ {a b : Nat}, a < w → b < h → ∃ v, l[b * w + a]? = some v := fun {a b} ha hb => by
        have : b * w + a < l.length := by rw [hl]; exact rowcol_lt ha hb
        exact ⟨_, List.getElem?_eq_getElem this⟩
      obtain ⟨v0, e0⟩ := g (a := x0) (b := y0) (by omega) (by omega)
      obtain ⟨v1, e1⟩ := g (a := x0 + 1) (b := y0) (by omega) (by omega)
      obtain ⟨v2, e2⟩ := g (a := x0) (b := y0 + 1) (by omega) (by omega)
      obtain ⟨v3, e3⟩ := g (a := x0 + 1) (b := y0 + 1) (by omega) (by omega)
      rw [e0, e1, e2, e3]
      exact ⟨_, rfl, Nat.min_le_left _ _⟩
    · exact ⟨m, rfl, le_rfl⟩
  obtain ⟨out, h1, h2, h3⟩ := arbitrary_pixels (m := m) (c := c) (s := s) (l := l) (w := w) (h := h) (ow := ow) (oh := oh) rfl
    fun x _ y _ => ⟨_, (px x y).choose_spec.1⟩
  refine ⟨out, h1, h2, fun v hv => ?_⟩
  obtain ⟨i, hi, rfl⟩ := List.getElem_of_mem hv
  have how : 0 < ow := Nat.pos_of_ne_zero (by rintro rfl; rw [h2] at hi; simp at hi)
  have := h3 (i % ow) (Nat.mod_lt _ how) (i / ow) (Nat.div_lt_of_lt_mul (by omega))
  rw [Nat.mul_comm, Nat.div_add_mod, List.getElem?_eq_getElem hi] at this
  obtain ⟨v, e1, e2⟩ := px (i % ow) (i / ow)
  rw [e1] at this
  rw [Option.some.inj this]; exact e2

example : ∃ out, rotateArbitrary 255 (7 / 10) (7 / 10) (3 * 3) [1, 2, 3, 4] 2 2 3 3 = some out ∧ out.length = 3 * 3 ∧ ∀ v ∈ out, v ≤ 255 :=
  c101_arbitrary _ _ 3 3 (by norm_num) (by norm_num) (by norm_num) (by norm_num) rfl

theorem fits_half {n : Int} (h : |n| ≤ 2 ^ 24) : Fits 24 ((n : Rat) / 2) := ⟨n, -1, h, by norm_num; ring⟩

/-- **C101** (negative).  Rotating by zero degrees makes the last row and the last column white; everything else stays. -/
theorem c101_zero_wrong {l : List Nat} {w h : Nat} (hw : 0 < w) (hh : 0 < h) (hw' : w ≤ 2 ^ 23) (hh' : h ≤ 2 ^ 23) (hl : l.length = w * h)
    (hb : ∀ v ∈ l, v ≤ 255) :
    ∃ out, rotateArbitrary 255 1 0 (w * h) l w h w h = some out ∧ out.length = w * h ∧
      ∀ x < w, ∀ y < h, out[y * w + x]? = if x + 1 < w ∧ y + 1 < h then l[y * w + x]? else some 255 := by
  have hn : ∀ {n : Nat}, n ≤ 2 ^ 24 → rnd 24 (n : Rat) = n := fun h => rnd_fit (by norm_num) (fits_nat h)
  have h1 : rnd 24 1 = 1 := by simpa using hn (n := 1) (by norm_num)
  have half : ∀ {n : Nat}, n ≤ 2 ^ 23 → rnd 24 ((n : Rat) / 2) = n / 2 := fun {n} h => by
    have := rnd_fit (p := 24) (by norm_num) (fits_half (n := n) (by rw [abs_of_nonneg (by positivity)]; exact_mod_cast (by omega : n ≤ 2 ^ 24)))
    simpa using this
  have diff : ∀ {n x : Nat}, n ≤ 2 ^ 23 → x < n → rnd 24 ((x : Rat) - n / 2) = x - n / 2 := fun {n x} h hx => by
    have e : (x : Rat) - n / 2 = ((2 * x - n : Int) : Rat) / 2 := by push_cast; ring
    rw [e]
    refine rnd_fit (by norm_num) (fits_half ?_)
    rw [abs_le]; constructor <;> omega
  have pos : ∀ x < w, ∀ y < h, sourcePos 1 0 w h w h x y = ((x : Rat), (y : Rat)) := by
    intro x hx y hy
    unfold sourcePos
    simp only
    rw [hn (n := w) (by omega), hn (n := h) (by omega), hn (n := x) (by omega), hn (n := y) (by omega), half hw', half hh', diff hw' hx, diff hh' hy]
    simp only [mul_one, mul_zero, rnd_zero, add_zero, zero_add]
    rw [diff hw' hx, diff hh' hy, diff hw' hx, diff hh' hy, sub_add_cancel, sub_add_cancel, hn (by omega), hn (by omega)]
  have px : ∀ x < w, ∀ y < h, arbitraryPixel 255 1 0 l w h w h x y = if x + 1 < w ∧ y + 1 < h then l[y * w + x]? else some 255 := by
    intro x hx y hy
    unfold arbitraryPixel
    simp only [pos x hx y hy]
    rw [if_neg (by omega), hn (by omega), hn (by omega)]
    by_cases hc : x + 1 < w ∧ y + 1 < h
    · rw [if_pos hc, if_pos ⟨by positivity, by exact_mod_cast (by omega : x < w - 1), by positivity, by exact_mod_cast (by omega : y < h - 1)⟩]
      have f1 : ∀ n : Nat, ⌊(n : Rat)⌋.toNat = n := fun n => by
        rw [show ⌊(n : Rat)⌋ = (n : Int) from by exact_mod_cast Int.floor_natCast (R := Rat) n, Int.toNat_natCast]
      rw [f1, f1, hn (by omega), hn (by omega), sub_self, sub_self, rnd_zero]
      have g : ∀ {a b : Nat}, a < w → b < h → ∃ v, l[b * w + a]? = some v ∧ v ≤ 255 := fun {a b} ha hb' => by
        have : b * w + a < l.length := by rw [hl]; exact rowcol_lt ha hb'
        exact ⟨_, List.getElem?_eq_getElem this, hb _ (List.getElem_mem _)⟩
      obtain ⟨v0, e0, b0⟩ := g (a := x) (b := y) (by omega) (by omega)
      obtain ⟨v1, e1, -⟩ := g (a := x + 1) (b := y) (by omega) (by omega)
      obtain ⟨v2, e2, -⟩ := g (a := x) (b := y + 1) (by omega) (by omega)
      obtain ⟨v3, e3, -⟩ := g (a := x + 1) (b := y + 1) (by omega) (by omega)
      rw [e0, e1, e2, e3]
      have eb : bilinear v0 v1 v2 v3 0 0 = v0 := by
        unfold bilinear
        simp only [sub_zero, h1, mul_one, mul_zero, rnd_zero, add_zero, hn (show v0 ≤ 2 ^ 24 by omega)]
      show some (min 255 ⌊bilinear v0 v1 v2 v3 0 0⌋.toNat) = some v0
      rw [eb, f1, Nat.min_eq_right b0]
    · rw [if_neg hc, if_neg]
      rintro ⟨-, c1, -, c2⟩
      have c1 : x < w - 1 := by exact_mod_cast c1
      have c2 : y < h - 1 := by exact_mod_cast c2
      omega
  obtain ⟨out, h1, h2, h3⟩ := arbitrary_pixels (m := 255) (c := 1) (s := 0) (l := l) (w := w) (h := h) (ow := w) (oh := h) rfl (by
    intro x hx y hy
    rw [px x hx y hy]
    have : y * w + x < l.length := by rw [hl]; exact rowcol_lt hx hy
    split
    · exact ⟨_, List.getElem?_eq_getElem this⟩
    · exact ⟨_, rfl⟩)
  exact ⟨out, h1, h2, fun x hx y hy => by rw [h3 x hx y hy, px x hx y hy]⟩

/-- The 3 × 2 picture of sixes keeps two pixels only. -/
example : ∃ out, rotateArbitrary 255 1 0 (3 * 2) [6, 6, 6, 6, 6, 6] 3 2 3 2 = some out ∧ out = [6, 6, 255, 255, 255, 255] := by
  obtain ⟨out, h1, h2, h3⟩ := c101_zero_wrong (l := [6, 6, 6, 6, 6, 6]) (w := 3) (h := 2) (by norm_num) (by norm_num) (by norm_num) (by norm_num) rfl
    (by decide)
  refine ⟨out, h1, List.ext_getElem? fun i => ?_⟩
  match i with
  | 0 => exact h3 0 (by norm_num) 0 (by norm_num)
  | 1 => exact h3 1 (by norm_num) 0 (by norm_num)
  | 2 => exact h3 2 (by norm_num) 0 (by norm_num)
  | 3 => exact h3 0 (by norm_num) 1 (by norm_num)
  | 4 => exact h3 1 (by norm_num) 1 (by norm_num)
  | 5 => exact h3 2 (by norm_num) 1 (by norm_num)
  | i + 6 => rw [List.getElem?_eq_none (by omega), List.getElem?_eq_none (by simp)]

/-! ### C102: orientation -/

/-- The sides of a displayed picture. -/
inductive Side
  | top
  | bottom
  | left
  | right
deriving DecidableEq

/-- The exif tag "Orientation" (TIFF 6.0, tag 274): the side of the displayed picture where the first row of the stored one is, and the side where
    its first column is. -/
def sides : Nat → Option (Side × Side)
  | 1 => some (.top, .left)
  | 2 => some (.top, .right)
  | 3 => some (.bottom, .right)
  | 4 => some (.bottom, .left)
  | 5 => some (.left, .top)
  | 6 => some (.right, .top)
  | 7 => some (.right, .bottom)
  | 8 => some (.left, .bottom)
  | _ => none

/-- Line `i` of the stored picture, counted from a side of the displayed one (`W` × `H`), fixes the column or the row there. -/
def Side.At (W H : Nat) (X Y i : Nat) : Side → Prop
  | .top => Y = i
  | .bottom => Y + i + 1 = H
  | .left => X = i
  | .right => X + i + 1 = W

/-- `r` (`W` × `H`) shows the stored channel `l` (`w` × `h`): the pixel of row `y` and column `x` is found where the sides say. -/
def Shows (n w h W H : Nat) (l r : List α) : Prop :=
  ∃ a b, sides n = some (a, b) ∧ r.length = W * H ∧ (W, H) = (if n < 5 then (w, h) else (h, w)) ∧
    ∀ x < w, ∀ y < h, ∃ X < W, ∃ Y < H, a.At W H X Y y ∧ b.At W H X Y x ∧ r[Y * W + X]? = l[y * w + x]?

theorem channels_mapM {g : List α → Option (List α)} {R : List α → List α → Prop} {ls : List (List α)} (h : ∀ l ∈ ls, ∃ r, g l = some r ∧ R l r) :
    ∃ rs, ls.mapM g = some rs ∧ List.Forall₂ R ls rs := by
  induction ls with
  | nil => exact ⟨[], rfl, .nil⟩
  | cons l ls ih =>
    obtain ⟨r, h1, h2⟩ := h l (by simp)
    obtain ⟨rs, h3, h4⟩ := ih fun l hl => h l (by simp [hl])
    exact ⟨r :: rs, by rw [List.mapM_cons, h1, h3]; rfl, .cons h2 h4⟩

/-- Specification: the first orientation of type SHORT in the list of fields has the values `v`. -/
def Oriented (v : List Nat) (fs : List ExifField) : Prop :=
  ∃ pre post, fs = pre ++ ⟨true, .short v⟩ :: post ∧ ∀ f ∈ pre, ∀ u, f ≠ ⟨true, .short u⟩

/-- Specification: each orientation has the value 1, all other fields are as they were. -/
def TagReset (fs gs : List ExifField) : Prop :=
  List.Forall₂ (fun f g => g = if f.orientation then ⟨true, .byte [1]⟩ else f) fs gs

theorem findOrientation_skip {pre : List ExifField} (h : ∀ f ∈ pre, ∀ u, f ≠ ⟨true, .short u⟩) (post : List ExifField) :
    findOrientation (pre ++ post) = findOrientation post := by
  induction pre with
  | nil => rfl
  | cons f pre ih =>
    have hf := h f (by simp)
    have ih := ih fun g hg => h g (by simp [hg])
    obtain ⟨o, v⟩ := f
    cases o with
    | false => exact ih
    | true =>
      cases v with
      | short u => exact absurd rfl (hf u)
      | byte u => exact ih
      | other => exact ih

theorem oriented_tag {n : Nat} {v : List Nat} {fs : List ExifField} (h : Oriented (n :: v) fs) : findOrientation fs = .tag n := by
  obtain ⟨pre, post, rfl, hp⟩ := h
  rw [findOrientation_skip hp]
  rfl

theorem resetOrientation_spec (fs : List ExifField) : TagReset fs (resetOrientation fs) := by
  unfold TagReset resetOrientation
  rw [List.forall₂_map_right_iff, List.forall₂_same]
  intro f _
  obtain ⟨o, v⟩ := f
  cases o <;> rfl

/-- **C102**.  A stored picture with an orientation 1 to 8 is turned so that it is shown as the tag says, and the tag is then reset.  Partial:
    8-bit channels; not orientation 3 (`c102_half_turn_wrong`); orientation 5 from 8 × 8 pixels on (C33); the orientations with a quarter turn only where the
    dimensions come out right (`c101_dims_partial`, `c101_dims_wrong`). -/
theorem c102_orient_partial {trig : Nat → Rat × Rat} {checks : Bool} {d : α} {i : OImage α} {fs : List ExifField} {n : Nat}
    (hw : 0 < i.w) (hh : 0 < i.h) (hc : ∀ l ∈ i.channels, l.length = i.w * i.h) (hf : i.exif = some fs) {v : List Nat} (ht : Oriented (n :: v) fs)
    (hn : 1 ≤ n ∧ n ≤ 8) (h3 : n ≠ 3) (h5 : n = 5 → 8 ≤ i.w ∧ 8 ≤ i.h)
    (h6 : n = 6 → changeDims (trig 90).1 (trig 90).2 i.w i.h = (i.h, i.w))
    (h7 : n = 7 ∨ n = 8 → changeDims (trig 270).1 (trig 270).2 i.w i.h = (i.h, i.w)) :
    ∃ j, autoOrient trig checks d i = some j ∧ List.Forall₂ (Shows n i.w i.h j.w j.h) i.channels j.channels ∧
      ∃ gs, j.exif = some gs ∧ TagReset fs gs := by
  suffices hs : ∃ j, i.apply trig checks d n = some j ∧ List.Forall₂ (Shows n i.w i.h j.w j.h) i.channels j.channels by
    obtain ⟨j, h1, h2⟩ := hs
    refine ⟨{ j with exif := some (resetOrientation fs) }, ?_, h2, _, rfl, resetOrientation_spec fs⟩
    unfold autoOrient
    rw [hf]
    simp only
    rw [oriented_tag ht]
    simp only
    rw [h1]
    rfl
  have hn' : n = 1 ∨ n = 2 ∨ n = 4 ∨ n = 5 ∨ n = 6 ∨ n = 7 ∨ n = 8 := by omega
  rcases hn' with rfl | rfl | rfl | rfl | rfl | rfl | rfl
  · refine ⟨i, rfl, ?_⟩
    rw [List.forall₂_same]
    intro l hl
    exact ⟨_, _, rfl, hc l hl, rfl, fun x hx y hy => ⟨x, hx, y, hy, rfl, rfl, rfl⟩⟩
  · obtain ⟨rs, h1, h2⟩ := channels_mapM (g := fun l => Imageprocs.flop l i.w) (R := Shows 2 i.w i.h i.w i.h) (ls := i.channels) (by
      intro l hl
      obtain ⟨r, a1, a2, a3⟩ := c31_flop l i.w i.h hw (hc l hl)
      refine ⟨r, a1, _, _, rfl, a2, rfl, fun x hx y hy => ⟨i.w - 1 - x, by omega, y, hy, rfl, by simp only [Side.At]; omega, ?_⟩⟩
      rw [a3 _ (by omega) y hy, show i.w - 1 - (i.w - 1 - x) = x by omega])
    exact ⟨{ i with channels := rs }, by simp [OImage.apply, OImage.flop, h1], h2⟩
  · obtain ⟨rs, h1, h2⟩ := channels_mapM (g := fun l => Imageprocs.verticalFlip l i.w) (R := Shows 4 i.w i.h i.w i.h) (ls := i.channels) (by
      intro l hl
      obtain ⟨r, a1, a2, a3⟩ := c31_vertical_flip l i.w i.h hw (hc l hl)
      refine ⟨r, a1, _, _, rfl, a2, rfl, fun x hx y hy => ⟨x, hx, i.h - 1 - y, by omega, by simp only [Side.At]; omega, rfl, ?_⟩⟩
      rw [a3 x hx _ (by omega), show i.h - 1 - (i.h - 1 - y) = y by omega])
    exact ⟨{ i with channels := rs }, by simp [OImage.apply, OImage.verticalFlip, h1], h2⟩
  · obtain ⟨rs, h1, h2⟩ := channels_mapM (g := fun l => transposeScalar checks d l (List.replicate (i.w * i.h) d) i.w i.h) (R := Shows 5 i.w i.h i.h i.w)
      (ls := i.channels) (by
      intro l hl
      obtain ⟨r, a1, a2, a3⟩ := c33_transpose_partial checks d l (List.replicate (i.w * i.h) d) i.w i.h (h5 rfl).1 (h5 rfl).2 (hc l hl) (by simp)
      exact ⟨r, a1, _, _, rfl, a2, rfl, fun x hx y hy => ⟨y, hy, x, hx, rfl, rfl, a3 x hx y hy⟩⟩)
    exact ⟨{ i with channels := rs, w := i.h, h := i.w }, by simp [OImage.apply, OImage.transpose, h1], h2⟩
  · obtain ⟨rs, h1, h2⟩ := channels_mapM (g := fun l => rotateChannel 1 90 d l i.w i.h) (R := Shows 6 i.w i.h i.h i.w) (ls := i.channels) (by
      intro l hl
      obtain ⟨r, a1, a2, a3⟩ := rotateChannel_8 90 d l i.w i.h hw (hc l hl) (Or.inl rfl)
      simp only [if_true] at a3
      exact ⟨r, a1, _, _, rfl, a2, rfl, fun x hx y hy => ⟨i.h - 1 - y, by omega, x, hx, by simp only [Side.At]; omega, rfl, a3 x hx y hy⟩⟩)
    exact ⟨{ i with channels := rs, w := i.h, h := i.w }, by simp [OImage.apply, OImage.rotate, h1, h6 rfl], h2⟩
  · obtain ⟨rs, h1, h2⟩ := channels_mapM (g := fun l => (rotateChannel 1 270 d l i.w i.h).bind fun r => Imageprocs.flop r i.h)
      (R := Shows 7 i.w i.h i.h i.w) (ls := i.channels) (by
      intro l hl
      obtain ⟨r, a1, a2, a3⟩ := rotateChannel_8 270 d l i.w i.h hw (hc l hl) (Or.inr rfl)
      obtain ⟨q, b1, b2, b3⟩ := c31_flop r i.h i.w hh a2
      simp only [show ¬ (270 = 90) by omega, if_false] at a3
      refine ⟨q, by rw [a1]; exact b1, _, _, rfl, b2, rfl, fun x hx y hy => ⟨i.h - 1 - y, by omega, i.w - 1 - x, by omega,
        by simp only [Side.At]; omega, by simp only [Side.At]; omega, ?_⟩⟩
      rw [b3 _ (by omega) _ (by omega), show i.h - 1 - (i.h - 1 - y) = y by omega, a3 x hx y hy])
    obtain ⟨ms, m1, m2⟩ := channels_mapM (g := fun l => rotateChannel 1 270 d l i.w i.h) (R := fun l r => rotateChannel 1 270 d l i.w i.h = some r)
      (ls := i.channels) (by
      intro l hl
      obtain ⟨r, a1, -, -⟩ := rotateChannel_8 270 d l i.w i.h hw (hc l hl) (Or.inr rfl)
      exact ⟨r, a1, a1⟩)
    have hm : ms.mapM (fun r => Imageprocs.flop r i.h) = some rs := by
      rw [← h1]
      clear h1 h2 m1 hc
      generalize i.channels = cs at m2
      induction m2 with
      | nil => rfl
      | cons e _ ih => rw [List.mapM_cons, List.mapM_cons, e, ih]; rfl
    refine ⟨{ i with channels := rs, w := i.h, h := i.w }, ?_, h2⟩
    simp [OImage.apply, OImage.rotate, m1, h7 (Or.inl rfl), OImage.flop, hm]
  · obtain ⟨rs, h1, h2⟩ := channels_mapM (g := fun l => rotateChannel 1 270 d l i.w i.h) (R := Shows 8 i.w i.h i.h i.w) (ls := i.channels) (by
      intro l hl
      obtain ⟨r, a1, a2, a3⟩ := rotateChannel_8 270 d l i.w i.h hw (hc l hl) (Or.inr rfl)
      simp only [show ¬ (270 = 90) by omega, if_false] at a3
      exact ⟨r, a1, _, _, rfl, a2, rfl, fun x hx y hy => ⟨y, hy, i.w - 1 - x, by omega, rfl, by simp only [Side.At]; omega, a3 x hx y hy⟩⟩)
    exact ⟨{ i with channels := rs, w := i.h, h := i.w }, by simp [OImage.apply, OImage.rotate, h1, h7 (Or.inr rfl)], h2⟩

/-- A 4 × 5 picture with orientation 6. -/
example (trig : Nat → Rat × Rat) (ht : trig 90 = (437114 / 10 ^ 13, 1)) :
    ∃ j, autoOrient trig true 0 ⟨[List.range 20], 4, 5, some [⟨false, .other⟩, ⟨true, .short [6]⟩]⟩ = some j ∧
    List.Forall₂ (Shows 6 4 5 j.w j.h) [List.range 20] j.channels ∧ ∃ gs, j.exif = some gs ∧ TagReset [⟨false, .other⟩, ⟨true, .short [6]⟩] gs := by
  have hd : changeDims (437114 / 10 ^ 13) 1 4 5 = (5, 4) := c101_dims_partial (lim := 136 / 100) (k := 2) (j := 2)
    (by norm_num) (by norm_num) (by norm_num) (by norm_num) (by norm_num) (by norm_num) (.inl ⟨by norm_num, by norm_num, rfl⟩) (by norm_num) (by norm_num)
  exact c102_orient_partial (i := ⟨[List.range 20], 4, 5, some [⟨false, .other⟩, ⟨true, .short [6]⟩]⟩) (n := 6) (by decide) (by decide) (by simp)
    rfl (v := []) ⟨[⟨false, .other⟩], [], rfl, by simp⟩ (by omega) (by omega) (by omega) (fun _ => by rw [ht]; exact hd) (by omega)

/-- A 2 × 1 picture with orientation 2. -/
example : autoOrient (fun _ => (0, 1)) true 0 ⟨[[1, 2]], 2, 1, some [⟨true, .short [2]⟩]⟩ = some ⟨[[2, 1]], 2, 1, some [⟨true, .byte [1]⟩]⟩ := by decide

/-- **C102**.  A picture without Exif fields, without an orientation of type SHORT, with an empty one or with one whose value is not between 2 and 8, stays as it
    is; its dimensions too. -/
theorem c102_stays {trig : Nat → Rat × Rat} {checks : Bool} {d : α} {i : OImage α}
    (h : ∀ fs, i.exif = some fs → (∀ f ∈ fs, ∀ u, f ≠ ⟨true, .short u⟩) ∨ ∃ v, Oriented v fs ∧ ∀ n ∈ v.head?, ¬ (2 ≤ n ∧ n ≤ 8)) :
    ∃ j, autoOrient trig checks d i = some j ∧ j.channels = i.channels ∧ j.w = i.w ∧ j.h = i.h := by
  unfold autoOrient
  cases hf : i.exif with
  | none => exact ⟨i, rfl, rfl, rfl, rfl⟩
  | some fs =>
    simp only
    rcases h fs hf with h | ⟨v, h, hv⟩
    · have e : findOrientation fs = .nothing := by
        rw [← List.append_nil fs, findOrientation_skip h]
        rfl
      rw [e]
      exact ⟨_, rfl, rfl, rfl, rfl⟩
    · cases v with
      | nil =>
        obtain ⟨pre, post, rfl, hp⟩ := h
        rw [findOrientation_skip hp]
        exact ⟨_, rfl, rfl, rfl, rfl⟩
      | cons n v =>
        rw [oriented_tag h]
        have hn := hv n (by simp)
        have e : i.apply trig checks d n = some i := by
          unfold OImage.apply
          split <;> first | omega | rfl
        simp only
        rw [e]
        exact ⟨_, rfl, rfl, rfl, rfl⟩

/-- Orientation 9 behind one of another type. -/
example : Oriented [9] [⟨true, .byte [6]⟩, ⟨true, .short [9]⟩] ∧ ∀ n ∈ [9].head?, ¬ (2 ≤ n ∧ n ≤ 8) :=
  ⟨⟨[⟨true, .byte [6]⟩], [], rfl, by simp⟩, by simp⟩

/-- **C102** (negative).  Orientation 3 (half turn): pictures of even height are turned upside down only, as for orientation 4. -/
theorem c102_half_turn_wrong {trig : Nat → Rat × Rat} {checks : Bool} {d : α} {i : OImage α} (hw : 0 < i.w) (he : i.h % 2 = 0)
    (hc : ∀ l ∈ i.channels, l.length = i.w * i.h) : i.apply trig checks d 3 = i.apply trig checks d 4 := by
  have : i.channels.mapM (fun l => rotateChannel 1 180 d l i.w i.h) = i.channels.mapM fun l => Imageprocs.verticalFlip l i.w := by
    revert hc
    generalize i.channels = cs
    intro hc
    induction cs with
    | nil => rfl
    | cons l ls ih =>
      rw [List.mapM_cons, List.mapM_cons, ih fun l hl => hc l (by simp [hl])]
      have hl := hc l (by simp)
      have : rotateChannel 1 180 d l i.w i.h = Imageprocs.verticalFlip l i.w := by
        rw [← (c32_rotate180_partial l i.w i.h hw hl).1 he]
        simp [rotateChannel, Nat.mod_one, hl]
      rw [this]
  simp [OImage.apply, OImage.rotate, OImage.verticalFlip, this]

/-- The picture 1 2 / 3 4 should be shown as 4 3 / 2 1. -/
example : autoOrient (fun _ => (0, 1)) true 0 ⟨[[1, 2, 3, 4]], 2, 2, some [⟨true, .short [3]⟩]⟩ =
    some ⟨[[3, 4, 1, 2]], 2, 2, some [⟨true, .byte [1]⟩]⟩ := by decide

/-- **C102**.  Orienting twice is orienting once, unless the value of the first orientation is empty (then neither does anything). -/
theorem c102_twice {trig : Nat → Rat × Rat} {checks : Bool} {d : α} {i j : OImage α} (h : autoOrient trig checks d i = some j) :
    autoOrient trig checks d j = some j := by
  have hr : ∀ fs, findOrientation (resetOrientation fs) = .nothing ∧ resetOrientation (resetOrientation fs) = resetOrientation fs := by
    intro fs
    induction fs with
    | nil => exact ⟨rfl, rfl⟩
    | cons f fs ih =>
      obtain ⟨o, v⟩ := f
      cases o with
      | true => exact ⟨ih.1, by show _ :: resetOrientation (resetOrientation fs) = _ :: resetOrientation fs; rw [ih.2]; rfl⟩
      | false => exact ⟨ih.1, by show _ :: resetOrientation (resetOrientation fs) = _ :: resetOrientation fs; rw [ih.2]; rfl⟩
  have hj : ∀ (k : OImage α) fs, k.exif = some (resetOrientation fs) → autoOrient trig checks d k = some k := by
    intro k fs hk
    unfold autoOrient
    rw [hk]
    simp only
    rw [(hr fs).1]
    simp only
    rw [(hr fs).2, ← hk]
  cases hx : i.exif with
  | none =>
    have h' := h
    unfold autoOrient at h
    rw [hx] at h
    cases h
    exact h'
  | some fs =>
    have h' := h
    unfold autoOrient at h
    rw [hx] at h
    simp only at h
    cases ht : findOrientation fs with
    | empty => rw [ht] at h; cases h; exact h'
    | nothing => rw [ht] at h; cases h; exact hj _ fs rfl
    | tag n =>
      rw [ht] at h
      simp only [Option.map_eq_some_iff] at h
      obtain ⟨k, -, rfl⟩ := h
      exact hj _ fs rfl

example : autoOrient (fun _ => (0, 1)) true 0 ⟨[[2, 1]], 2, 1, some [⟨true, .byte [1]⟩]⟩ = some ⟨[[2, 1]], 2, 1, some [⟨true, .byte [1]⟩]⟩ := by decide

end Zune.Imageprocs
