/-
**C100**: `composite`.  The specification is written here: where the samples of the source go, and what is put there.
-/
import Verif.Imageprocs.CompositeModel
import Verif.Imageprocs.Median
import Mathlib.Tactic.Linarith
import Mathlib.Tactic.NormNum

namespace Zune.Imageprocs
variable {α σ : Type}
open Zune.Float

/-! ### Specification -/

/-- `out` is `dest` (`wd` × `hd`) with `src` (`ws` × `hs`) laid over it with its corner at (x, y), what reaches beyond `dest` cut off; `f` says
    what becomes of two samples at the same place. -/
def IsOverlay (f : σ → α → α) (src : List σ) (ws hs : Nat) (dest : List α) (wd hd x y : Nat) (out : List α) : Prop :=
  out.length = wd * hd ∧ ∀ Y < hd, ∀ X < wd, out[Y * wd + X]? =
    if x ≤ X ∧ X < x + ws ∧ y ≤ Y ∧ Y < y + hs then src[(Y - y) * ws + (X - x)]?.bind fun s => dest[Y * wd + X]?.map (f s)
    else dest[Y * wd + X]?

/-- The same with a relation between the sample of the source, that of the destination and the new one. -/
def Overlaid (R : σ → α → α → Prop) (src : List σ) (ws hs : Nat) (dest : List α) (wd hd x y : Nat) (out : List α) : Prop :=
  out.length = wd * hd ∧ ∀ Y < hd, ∀ X < wd,
    if x ≤ X ∧ X < x + ws ∧ y ≤ Y ∧ Y < y + hs then
      ∃ s d o, src[(Y - y) * ws + (X - x)]? = some s ∧ dest[Y * wd + X]? = some d ∧ out[Y * wd + X]? = some o ∧ R s d o
    else out[Y * wd + X]? = dest[Y * wd + X]?

/-- `o` is α·s + (1 − α)·d with α = `a`/`m`, rounded down: 8 bits up to one unit where the value is an integer, 16 bits up to the errors of `f32`. -/
def Mix (m a s d o : Nat) : Prop :=
  (m = 255 → 255 * o ≤ a * s + (255 - a) * d ∧ a * s + (255 - a) * d ≤ 255 * o + 255) ∧
  |(o : Rat) - ((a * s + (m - a) * d) / m - 1 / 2)| ≤ 1 / 2 + 9 * m / 2 ^ 24 ∧ (a = m → o = s) ∧ (a = 0 → o = d)

/-- A picture as the library keeps it: as many channels as the colour space says, each of `w` × `h` samples, none above the largest. -/
def Pic.Ok (p : Pic) : Prop :=
  0 < p.w ∧ ∀ fr ∈ p.frames, fr.length = p.cs.numComponents ∧ ∀ ch ∈ fr, ch.length = p.w * p.h ∧ ∀ v ∈ ch, v ≤ p.max

/-- What is done to every channel of every frame that both pictures have; `R` gets the number of the channel and the frame of the source.  Further
    frames of the destination are left. -/
def Framewise (R : Nat → List (List Nat) → List Nat → List Nat → Prop) (S D O : List (List (List Nat))) : Prop :=
  O.length = D.length ∧ ∀ f dd, D[f]? = some dd → (S.length ≤ f → O[f]? = some dd) ∧
    ∀ ss, S[f]? = some ss → ∃ oo, O[f]? = some oo ∧ oo.length = dd.length ∧ ∀ c b, dd[c]? = some b → ∃ o, oo[c]? = some o ∧ R c ss b o

/-- Where the alpha channel is, by the names of the colour spaces. -/
def alphaIndex : ColorSpace → Nat
  | .ARGB => 0
  | .LumaA => 1
  | _ => 3

/-! ### Lemmas: the loop over rows -/

theorem mergeRow_length (f : σ → α → α) (x : Nat) (row : List α) (s : List σ) : (mergeRow f x row s).length = row.length := by
  unfold mergeRow; split
  · simp; omega
  · rfl

theorem mergeRow_get (f : σ → α → α) (x : Nat) (row : List α) (s : List σ) {X : Nat} (hX : X < row.length) : (mergeRow f x row s)[X]? =
    if x ≤ X ∧ X < x + s.length then s[X - x]?.bind fun a => row[X]?.map (f a) else row[X]? := by
  unfold mergeRow
  by_cases h : x ≤ row.length
  · rw [if_pos h]
    simp only
    by_cases h1 : X < x
    · rw [if_neg (by omega), List.append_assoc, List.getElem?_append_left (by simp; omega), List.getElem?_take_of_lt h1]
    by_cases h2 : X < x + s.length
    · rw [if_pos ⟨by omega, h2⟩, List.getElem?_append_left (by simp; omega), List.getElem?_append_right (by simp; omega)]
      rw [List.length_take, Nat.min_eq_left h, List.getElem?_zipWith, List.getElem?_take_of_lt (by simp; omega),
        List.getElem?_take_of_lt (by simp; omega), List.getElem?_drop, show x + (X - x) = X by omega]
      rw [List.getElem?_eq_getElem hX, List.getElem?_eq_getElem (show X - x < s.length by omega)]
      rfl
    · rw [if_neg (by omega), List.getElem?_append_right (by simp; omega)]
      simp only [List.length_append, List.length_take, List.length_zipWith, List.length_drop, List.getElem?_drop]
      congr 1; omega
  · rw [if_neg h, if_neg (by omega)]

theorem overlay_spec {f : σ → α → α} {src : List σ} {dest : List α} {ws hs wd hd : Nat} (hws : 0 < ws) (hwd : 0 < wd)
    (hs' : src.length = ws * hs) (hd' : dest.length = wd * hd) (x y : Nat) :
    ∃ out, overlay f src dest x y ws wd = some out ∧ IsOverlay f src ws hs dest wd hd x y out := by
  have hr : ∀ r ∈ (chunksOf wd dest).mapIdx fun i r =>
      if i < y then r else (chunksOf ws src)[i - y]?.elim r (mergeRow f x r), r.length = wd := by
    intro r h
    obtain ⟨i, hi, rfl⟩ := List.mem_mapIdx.1 h
    have h1 := chunksOf_mem hwd hd' (List.getElem_mem hi)
    split
    · exact h1
    · cases (chunksOf ws src)[i - y]? with
      | none => exact h1
      | some s => rw [Option.elim_some, mergeRow_length]; exact h1
  have hlen := rows_length hr
  rw [List.length_mapIdx, chunksOf_rows hwd hd', Nat.mul_comm] at hlen
  refine ⟨_, by unfold overlay; rw [if_neg (by omega)], ?_, ?_⟩
  · rw [List.length_append, hlen, List.length_drop, hd', Nat.mul_div_cancel_left _ hwd, Nat.mul_comm hd wd]; omega
  · intro Y hY X hX
    have hb := row_bound (w := wd) hY
    rw [List.getElem?_append_left (by rw [hlen]; omega), rows_get hr hX, List.getElem?_mapIdx, chunksOf_get hwd hd' hY]
    simp only [Option.map_some, Option.bind_some]
    by_cases h1 : Y < y
    · rw [if_pos h1, if_neg (by omega), row_get _ hX]
    rw [if_neg h1]
    by_cases h2 : Y - y < hs
    · rw [chunksOf_get hws hs' h2, Option.elim_some, mergeRow_get _ _ _ _ (by rw [row_length hd' hY]; exact hX), row_length hs' h2, row_get _ hX]
      by_cases h3 : x ≤ X ∧ X < x + ws
      · rw [if_pos h3, if_pos ⟨h3.1, h3.2, by omega, by omega⟩, row_get _ (by omega)]
      · rw [if_neg h3, if_neg (by omega)]
    · rw [show (chunksOf ws src)[Y - y]? = none from List.getElem?_eq_none (by rw [chunksOf_rows hws hs']; omega), if_neg (by omega)]
      exact row_get _ hX

/-! ### Lemmas: `f32` -/

theorem rnd_near {x X e : Rat} (hx : |x| ≤ X) (he : X / 2 ^ 24 ≤ e) : rnd 24 x - x ≤ e ∧ x - rnd 24 x ≤ e := by
  have h := rnd_err 24 x
  have h2 : |rnd 24 x - x| ≤ e := by
    refine le_trans ?_ he
    rw [le_div_iff₀ (by norm_num)]
    exact le_trans h hx
  rw [abs_le] at h2
  constructor <;> linarith [h2.1, h2.2]

theorem normalized_mem (m a : Nat) : 0 ≤ normalized m a ∧ normalized m a ≤ 1 := by
  unfold normalized
  exact ⟨le_max_left _ _, max_le (by norm_num) (min_le_left _ _)⟩

theorem normalized_near {m a : Nat} (hm : 0 < m) (ha : a ≤ m) : |normalized m a - a / m| ≤ 201 / 100 / 2 ^ 24 := by
  have hm' : (0 : Rat) < m := by exact_mod_cast hm
  have hA : (a : Rat) / m ≤ 1 := by rw [div_le_one hm']; exact_mod_cast ha
  have hA0 : (0 : Rat) ≤ (a : Rat) / m := by positivity
  have h1 := rnd_near (x := 1 / m) (X := 1 / m) (e := 1 / m / 2 ^ 24) (by rw [abs_of_pos (by positivity)]) le_rfl
  have h2 : (a : Rat) * rnd 24 (1 / m) - a / m ≤ 1 / 2 ^ 24 ∧ (a : Rat) / m - a * rnd 24 (1 / m) ≤ 1 / 2 ^ 24 := by
    have ha0 : (0 : Rat) ≤ a := by positivity
    have e1 := mul_le_mul_of_nonneg_left h1.1 ha0
    have e2 := mul_le_mul_of_nonneg_left h1.2 ha0
    have e3 : (a : Rat) * (1 / m / 2 ^ 24) = (a / m) / 2 ^ 24 := by ring
    have e4 : ((a : Rat) / m) / 2 ^ 24 ≤ 1 / 2 ^ 24 := div_le_div_of_nonneg_right hA (by positivity)
    have e5 : (a : Rat) * (1 / m) = a / m := by ring
    rw [e3, mul_sub, e5] at e1 e2
    constructor <;> linarith
  have h3 := rnd_near (x := a * rnd 24 (1 / m)) (X := 1 + 1 / 2 ^ 24) (e := 101 / 100 / 2 ^ 24)
    (by rw [abs_le]; constructor <;> norm_num at h2 ⊢ <;> linarith [h2.1, h2.2]) (by norm_num)
  unfold normalized
  generalize rnd 24 (a * rnd 24 (1 / m)) = t at h3 ⊢
  norm_num at h2 h3
  rw [abs_le]
  constructor
  · have : min 1 t ≤ max 0 (min 1 t) := le_max_right _ _
    rcases min_choice 1 t with h | h <;> rw [h] at this ⊢ <;> norm_num <;> linarith [h2.1, h2.2, h3.1, h3.2]
  · rcases max_choice 0 (min 1 t) with h | h
    · rw [h]; norm_num; linarith
    · rw [h]
      have : min 1 t ≤ t := min_le_right _ _
      rw [show (201 / 100 / 2 ^ 24 : Rat) = 201 / 1677721600 by norm_num]
      linarith [h2.1, h2.2, h3.1, h3.2]

/-- The number that is cut down to a sample. -/
def blendSum (m a s d : Nat) : Rat := rnd 24 (rnd 24 (normalized m a * s) + rnd 24 (rnd 24 (1 - normalized m a) * d))

theorem blendSum_near {m a s d : Nat} (hm : 0 < m) (ha : a ≤ m) (hs : s ≤ m) (hd : d ≤ m) :
    |blendSum m a s d - (a * s + (m - a) * d) / m| ≤ 9 * m / 2 ^ 24 := by
  have hm' : (0 : Rat) < m := by exact_mod_cast hm
  have hA : (a : Rat) / m ≤ 1 := by rw [div_le_one hm']; exact_mod_cast ha
  have hA0 : (0 : Rat) ≤ (a : Rat) / m := by positivity
  have hs' : (s : Rat) ≤ m := by exact_mod_cast hs
  have hd' : (d : Rat) ≤ m := by exact_mod_cast hd
  have hs0 : (0 : Rat) ≤ s := by positivity
  have hd0 : (0 : Rat) ≤ d := by positivity
  have hn := normalized_mem m a
  have hn1 := normalized_near hm ha
  unfold blendSum
  generalize normalized m a = n at hn hn1 ⊢
  have hE : ((a : Rat) * s + (m - a) * d) / m = a / m * s + (1 - a / m) * d := by field_simp
  rw [hE]
  generalize (a : Rat) / m = A at hA hA0 hn1 ⊢
  rw [abs_le] at hn1
  have hq := rnd_near (x := 1 - n) (X := 1) (e := 1 / 2 ^ 24) (by rw [abs_le]; constructor <;> linarith [hn.1, hn.2]) le_rfl
  have hq0 : 0 ≤ rnd 24 (1 - n) := le_rnd (by norm_num) (by simpa using fits_nat (p := 24) (n := 0) (by norm_num)) (by linarith [hn.2])
  have hq1 : rnd 24 (1 - n) ≤ 1 := rnd_le (by norm_num) (by simpa using fits_nat (p := 24) (n := 1) (by norm_num)) (by linarith [hn.1])
  generalize rnd 24 (1 - n) = q at hq hq0 hq1 ⊢
  -- the two products
  have p1 : n * s ≤ m := by nlinarith [hn.1, hn.2]
  have p10 : 0 ≤ n * s := mul_nonneg hn.1 hs0
  have p2 : q * d ≤ m := by nlinarith
  have p20 : 0 ≤ q * d := mul_nonneg hq0 hd0
  have r1 := rnd_near (x := n * s) (X := m) (e := m / 2 ^ 24) (by rw [abs_of_nonneg p10]; exact p1) le_rfl
  have r2 := rnd_near (x := q * d) (X := m) (e := m / 2 ^ 24) (by rw [abs_of_nonneg p20]; exact p2) le_rfl
  have bnd : ∀ {u v : Rat}, 0 ≤ v → v ≤ m → ∀ {c : Rat}, 0 ≤ c → -c ≤ u → u ≤ c → -(c * m) ≤ u * v ∧ u * v ≤ c * m := by
    intro u v h0 h1 c hc h2 h3
    have e1 := mul_le_mul_of_nonneg_right h2 h0
    have e2 := mul_le_mul_of_nonneg_right h3 h0
    have e3 := mul_le_mul_of_nonneg_left h1 hc
    constructor
    · rw [neg_mul] at e1; linarith
    · linarith
  have d1 := bnd hs0 hs' (c := 201 / 100 / 2 ^ 24) (by norm_num) hn1.1 hn1.2
  have d2 := bnd (u := q - (1 - A)) hd0 hd' (c := 301 / 100 / 2 ^ 24) (by norm_num) (by norm_num at hn1 hq ⊢; linarith [hn1.1, hn1.2, hq.1, hq.2])
    (by norm_num at hn1 hq ⊢; linarith [hn1.1, hn1.2, hq.1, hq.2])
  have t1 : 0 ≤ A * s := mul_nonneg hA0 hs0
  have t2 : A * s + (1 - A) * d ≤ m := by nlinarith
  have t3 : 0 ≤ (1 - A) * d := mul_nonneg (by linarith) hd0
  rw [sub_mul] at d1 d2
  generalize rnd 24 (n * s) = R1 at r1 ⊢
  generalize rnd 24 (q * d) = R2 at r2 ⊢
  norm_num at r1 r2 d1 d2
  have r3 := rnd_near (x := R1 + R2) (X := 101 / 100 * m) (e := 101 / 100 * m / 2 ^ 24)
    (by rw [abs_le]; constructor <;> linarith [r1.1, r1.2, r2.1, r2.2, d1.1, d1.2, d2.1, d2.2]) le_rfl
  norm_num at r3
  rw [abs_le]
  constructor <;> norm_num <;> linarith [r1.1, r1.2, r2.1, r2.2, d1.1, d1.2, d2.1, d2.2, r3.1, r3.2]

/-- The sample is at most one less than the exact value and, up to rounding, not above it. -/
theorem blend_near {m a s d : Nat} (hm : 0 < m) (hM : m ≤ 65535) (ha : a ≤ m) (hs : s ≤ m) (hd : d ≤ m) :
    (blend m a s d : Rat) ≤ (a * s + (m - a) * d) / m + 9 * m / 2 ^ 24 ∧
    (a * s + (m - a) * d) / m - 9 * m / 2 ^ 24 - 1 < (blend m a s d : Rat) := by
  have h := blendSum_near hm ha hs hd
  have hm' : (0 : Rat) < m := by exact_mod_cast hm
  have hM' : (m : Rat) ≤ 65535 := by exact_mod_cast hM
  have hA : (a : Rat) ≤ m := by exact_mod_cast ha
  have hs' : (s : Rat) ≤ m := by exact_mod_cast hs
  have hd' : (d : Rat) ≤ m := by exact_mod_cast hd
  have hT : ((a : Rat) * s + (m - a) * d) / m ≤ m := by
    rw [div_le_iff₀ hm']
    nlinarith [Nat.cast_nonneg (α := Rat) a]
  have hT0 : 0 ≤ ((a : Rat) * s + (m - a) * d) / m := by
    have : (0 : Rat) ≤ m - a := by linarith
    positivity
  show ((castSample m (blendSum m a s d) : Nat) : Rat) ≤ _ ∧ _ < ((castSample m (blendSum m a s d) : Nat) : Rat)
  generalize blendSum m a s d = r at h ⊢
  generalize ((a : Rat) * s + (m - a) * d) / m = T at h hT hT0 ⊢
  rw [abs_le] at h
  unfold castSample
  have f1 := Int.floor_le r
  have f2 := Int.lt_floor_add_one r
  have f3 : (⌊r⌋ : Rat) ≤ ((⌊r⌋.toNat : Nat) : Rat) := by exact_mod_cast Int.self_le_toNat ⌊r⌋
  have f4 : ((⌊r⌋.toNat : Nat) : Rat) ≤ T + 9 * m / 2 ^ 24 := by
    rcases le_total 0 ⌊r⌋ with h0 | h0
    · have : ((⌊r⌋.toNat : Nat) : Rat) = ⌊r⌋ := by exact_mod_cast Int.toNat_of_nonneg h0
      rw [this]; linarith [h.2]
    · rw [Int.toNat_of_nonpos h0]; simp; positivity
  rw [Nat.cast_min]
  constructor
  · exact le_trans (min_le_right _ _) f4
  · rw [lt_min_iff]
    constructor
    · have : (0 : Rat) ≤ 9 * m / 2 ^ 24 := by positivity
      linarith
    · linarith [h.1]

theorem normalized_zero (m : Nat) : normalized m 0 = 0 := by
  unfold normalized
  rw [Nat.cast_zero, zero_mul, rnd_zero]
  norm_num

theorem full_one {m : Nat} (hm : m = 255 ∨ m = 65535) : rnd 24 (m * rnd 24 (1 / m)) = 1 := by
  rcases hm with rfl | rfl
  · have h1 : rnd 24 (1 / ((255 : Nat) : Rat)) = (8421505 : Int) * (2 : Rat) ^ (-31 : Int) := by
      refine rnd_eq 8421505 (-31) (by norm_num) ?_ ?_ ?_
      · norm_num
      · norm_num
      · rw [abs_lt]; constructor <;> norm_num
    rw [h1]
    have h2 : rnd 24 (((255 : Nat) : Rat) * ((8421505 : Int) * (2 : Rat) ^ (-31 : Int))) = (8388608 : Int) * (2 : Rat) ^ (-23 : Int) := by
      refine rnd_eq 8388608 (-23) (by norm_num) ?_ ?_ ?_
      · norm_num
      · norm_num
      · rw [abs_lt]; constructor <;> norm_num
    rw [h2]; norm_num
  · have h1 : rnd 24 (1 / ((65535 : Nat) : Rat)) = (8388736 : Int) * (2 : Rat) ^ (-39 : Int) := by
      refine rnd_eq 8388736 (-39) (by norm_num) ?_ ?_ ?_
      · norm_num
      · norm_num
      · rw [abs_lt]; constructor <;> norm_num
    rw [h1]
    have h2 : rnd 24 (((65535 : Nat) : Rat) * ((8388736 : Int) * (2 : Rat) ^ (-39 : Int))) = (16777216 : Int) * (2 : Rat) ^ (-24 : Int) := by
      refine rnd_eq 16777216 (-24) (by norm_num) ?_ ?_ ?_
      · norm_num
      · norm_num
      · rw [abs_lt]; constructor <;> norm_num
    rw [h2]; norm_num

theorem normalized_full {m : Nat} (hm : m = 255 ∨ m = 65535) : normalized m m = 1 := by
  have h := full_one hm
  unfold normalized
  rw [h]; norm_num

theorem castSample_nat {m s : Nat} (h : s ≤ m) : castSample m s = s := by
  unfold castSample
  rw [show ⌊(s : Rat)⌋ = (s : Int) from by exact_mod_cast Int.floor_natCast (R := Rat) s, Int.toNat_natCast, Nat.min_eq_right h]

theorem rnd_sample {s : Nat} (h : s ≤ 65535) : rnd 24 (s : Rat) = s := rnd_fit (by norm_num) (fits_nat (by omega))

/-! ### The claims -/

/-- **C100** (two samples).  8 bits: the new sample is the integer part of α·s + (1 − α)·d, or one less where that is an integer (`n`/255 with `n` the
    sum below); 16 bits: the same up to the rounding of `f32`, that is, between the exact value less 1 + 9·65535/2²⁴ and the exact value plus
    9·65535/2²⁴.  An opaque source is copied, a transparent one leaves the destination. -/
theorem c100_blend {m a s d : Nat} (hm : m = 255 ∨ m = 65535) (ha : a ≤ m) (hs : s ≤ m) (hd : d ≤ m) : Mix m a s d (blend m a s d) := by
  have hM : m ≤ 65535 := by omega
  have h0 : 0 < m := by omega
  have hn := blend_near h0 hM ha hs hd
  refine ⟨?_, ?_, ?_, ?_⟩
  · rintro rfl
    have e : (a * s + (255 - a) * d : Nat) = (a * s + (((255 : Nat) : Rat) - a) * d : Rat) := by
      push_cast [Nat.cast_sub ha]; norm_num
    rw [← e] at hn
    generalize blend 255 a s d = b at hn ⊢
    generalize a * s + (255 - a) * d = N at hn ⊢
    norm_num at hn
    constructor
    · have : (255 * b : Rat) < N + 1 := by linarith [hn.1]
      have : 255 * b < N + 1 := by exact_mod_cast this
      omega
    · have : (N : Rat) < 255 * b + 255 + 1 := by linarith [hn.2]
      have : N < 255 * b + 255 + 1 := by exact_mod_cast this
      omega
  · rw [abs_le]; constructor <;> linarith [hn.1, hn.2]
  · rintro rfl
    unfold blend
    rw [normalized_full hm, one_mul, sub_self, rnd_zero, zero_mul, rnd_zero, add_zero, rnd_sample (by omega), rnd_sample (by omega), castSample_nat hs]
  · rintro rfl
    unfold blend
    rw [normalized_zero, zero_mul, rnd_zero, sub_zero, zero_add]
    rw [show rnd 24 1 = 1 by simpa using rnd_sample (s := 1) (by norm_num), one_mul, rnd_sample (by omega), rnd_sample (by omega), castSample_nat hd]

/-- Half transparent white on black is 128·255/255 = 128 or 127. -/
example : blend 255 128 255 0 = 127 ∨ blend 255 128 255 0 = 128 := by
  have := (c100_blend (m := 255) (a := 128) (s := 255) (d := 0) (.inl rfl) (by omega) (by omega) (by omega)).1 rfl
  omega

theorem overlaid_of {f : σ → α → α} {R : σ → α → α → Prop} {src : List σ} {ws hs : Nat} {dest : List α} {wd hd x y : Nat} {out : List α}
    (hs' : src.length = ws * hs) (hd' : dest.length = wd * hd) (hR : ∀ s ∈ src, ∀ d ∈ dest, R s d (f s d))
    (h : IsOverlay f src ws hs dest wd hd x y out) : Overlaid R src ws hs dest wd hd x y out := by
  refine ⟨h.1, fun Y hY X hX => ?_⟩
  have h2 := h.2 Y hY X hX
  by_cases hc : x ≤ X ∧ X < x + ws ∧ y ≤ Y ∧ Y < y + hs
  · rw [if_pos hc] at h2 ⊢
    have b1 := row_bound (w := wd) hY
    have b2 := row_bound (w := ws) (show Y - y < hs by omega)
    have l1 : Y * wd + X < dest.length := by omega
    have l2 : (Y - y) * ws + (X - x) < src.length := by omega
    refine ⟨_, _, _, List.getElem?_eq_getElem l2, List.getElem?_eq_getElem l1, ?_, hR _ (List.getElem_mem l2) _ (List.getElem_mem l1)⟩
    rw [h2, List.getElem?_eq_getElem l2, List.getElem?_eq_getElem l1]
    rfl
  · rw [if_neg hc] at h2 ⊢
    exact h2

theorem mapM_get {β γ : Type} {g : β → Option γ} : ∀ {l : List β}, (∀ a ∈ l, ∃ o, g a = some o) →
    ∃ out, l.mapM g = some out ∧ out.length = l.length ∧ ∀ (i : Nat) a, l[i]? = some a → ∃ o, out[i]? = some o ∧ g a = some o
  | [], _ => ⟨[], rfl, rfl, by simp⟩
  | a :: l, h => by
    obtain ⟨o, ho⟩ := h a (by simp)
    obtain ⟨out, h1, h2, h3⟩ := mapM_get (l := l) fun b hb => h b (by simp [hb])
    refine ⟨o :: out, by rw [List.mapM_cons, ho, h1]; rfl, by simp [h2], fun i b hi => ?_⟩
    cases i with
    | zero => simp at hi; exact ⟨o, rfl, hi ▸ ho⟩
    | succ i => exact h3 i b (by simpa using hi)

theorem imageSlices_plain {cs : ColorSpace} : ∀ {fs : List (List (List Nat))}, (∀ fr ∈ fs, fr.length = cs.numComponents) →
    imageSlices cs false fs = some (fs.map fun fr => ([], fr, []))
  | [], _ => rfl
  | fr :: fs, h => by
    have h1 := h fr (by simp)
    have h2 := imageSlices_plain (cs := cs) (fs := fs) fun b hb => h b (by simp [hb])
    unfold imageSlices at h2 ⊢
    rw [List.mapM_cons, h2]
    simp only [frameSlice, Bool.false_and, Bool.false_eq_true, if_false]
    rw [if_neg (by omega), ← h1, List.take_length, List.drop_length]
    rfl

theorem putBack_get {n : Nat} : ∀ {fs : List (List (List Nat))} {out : List (List Nat)}, (∀ fr ∈ fs, fr.length = n) →
    (putBack (fs.map fun fr => ([], fr, [])) out).length = fs.length ∧
    ∀ f < fs.length, (putBack (fs.map fun fr => ([], fr, [])) out)[f]? = some ((out.drop (f * n)).take n)
  | [], _, _ => ⟨rfl, by simp⟩
  | fr :: fs, out, h => by
    have h1 := h fr (by simp)
    obtain ⟨h2, h3⟩ := putBack_get (n := n) (fs := fs) (out := out.drop n) fun b hb => h b (by simp [hb])
    rw [List.map_cons, putBack, h1]
    refine ⟨by simp [h2], fun f hf => ?_⟩
    cases f with
    | zero => simp
    | succ f =>
      rw [List.getElem?_cons_succ, h3 f (by simpa using hf), List.drop_drop, Nat.add_mul, Nat.one_mul, Nat.add_comm n]

/-- Pictures without alpha: the channels of the flattened lists meet frame by frame. -/
theorem plain_frames {m : CompositeMethod} {R : Nat → List (List Nat) → List Nat → List Nat → Prop} {p : Nat × Nat} {src dst : Pic}
    (hs : src.Ok) (hd : dst.Ok) (hm : dst.max = src.max) (hc : dst.cs = src.cs) (ha : dst.cs.hasAlpha = false) (hi : m ≠ .dstIn)
    (hp : ∀ c ss a b, ss ∈ src.frames → ss[c]? = some a → b.length = dst.w * dst.h → ∃ o, compositePlain m dst.max a b p src.w dst.w = some o ∧ R c ss b o) :
    ∃ out, composite m p src dst = .ok { dst with frames := out } ∧ Framewise R src.frames dst.frames out := by
  have hS : ∀ fr ∈ src.frames, fr.length = dst.cs.numComponents := fun fr h => by rw [hc]; exact (hs.2 fr h).1
  have hD : ∀ fr ∈ dst.frames, fr.length = dst.cs.numComponents := fun fr h => (hd.2 fr h).1
  generalize hn : dst.cs.numComponents = n at hS hD
  obtain ⟨out, h1, h2, h3⟩ := mapM_get (g := fun (t : List Nat × List Nat) => compositePlain m dst.max t.1 t.2 p src.w dst.w)
    (l := src.frames.flatten.zip dst.frames.flatten) (by
      rintro ⟨a, b⟩ h
      have ha' := (List.of_mem_zip h).1
      have hb' := (List.of_mem_zip h).2
      obtain ⟨ss, hss, has⟩ := List.mem_flatten.1 ha'
      obtain ⟨dd, hdd, hbd⟩ := List.mem_flatten.1 hb'
      obtain ⟨c, hc', hca⟩ := List.getElem_of_mem has
      obtain ⟨o, ho, -⟩ := hp c ss a b hss (by rw [List.getElem?_eq_getElem hc', hca]) ((hd.2 dd hdd).2 b hbd).1
      exact ⟨o, ho⟩)
  have hlS := rows_length hS
  have hlD := rows_length hD
  rw [List.length_zip, hlS, hlD] at h2
  have hpb := putBack_get (n := n) (fs := dst.frames) (out := out ++ dst.frames.flatten.drop out.length) hD
  refine ⟨putBack (dst.frames.map fun fr => ([], fr, [])) (out ++ dst.frames.flatten.drop out.length), ?_, hpb.1, ?_⟩
  · unfold composite
    rw [if_neg (by simp [hm]), if_neg (by simp [hc]), if_neg hi, ha]
    simp only [Bool.false_eq_true, if_false]
    rw [imageSlices_plain (cs := src.cs) (by rw [← hc, hn]; exact hS), imageSlices_plain (cs := dst.cs) (by rw [hn]; exact hD)]
    simp only [List.map_map, Function.comp_def, List.map_id']
    rw [h1]
  · intro f dd hf
    have hfl := (List.getElem?_eq_some_iff.1 hf).1
    have hdl : dd.length = n := hD dd (List.mem_of_getElem? hf)
    constructor
    · intro hsf
      rw [hpb.2 f hfl]
      congr 1
      have hle : src.frames.length * n ≤ f * n := Nat.mul_le_mul_right n hsf
      have hmin : out.length = src.frames.length * n := by
        rw [h2, Nat.min_eq_left (Nat.mul_le_mul_right n (by omega))]
      apply List.ext_getElem?
      intro c
      by_cases hcn : c < n
      · rw [row_get _ hcn, List.getElem?_append_right (by omega), List.getElem?_drop, show out.length + (f * n + c - out.length) = f * n + c by omega,
          rows_get hD hcn, hf]
        rfl
      · rw [List.getElem?_eq_none (by rw [List.length_take]; omega), List.getElem?_eq_none (by omega)]
    · intro ss hss
      have hsl := (List.getElem?_eq_some_iff.1 hss).1
      have b1 := row_bound (w := n) hfl
      have b2 := row_bound (w := n) hsl
      have hol : f * n + n ≤ out.length := by
        rw [h2, Nat.le_min, Nat.mul_comm src.frames.length, Nat.mul_comm dst.frames.length]; exact ⟨b2, b1⟩
      refine ⟨_, hpb.2 f hfl, ?_, fun c b hb => ?_⟩
      · rw [List.length_take, List.length_drop, List.length_append]; omega
      · have hcn : c < n := by rw [← hdl]; exact (List.getElem?_eq_some_iff.1 hb).1
        have hsl' : ss.length = n := hS ss (List.mem_of_getElem? hss)
        obtain ⟨a, ha'⟩ : ∃ a, ss[c]? = some a := ⟨ss[c]'(by omega), List.getElem?_eq_getElem (by omega)⟩
        have hz : (src.frames.flatten.zip dst.frames.flatten)[f * n + c]? = some (a, b) := by
          rw [List.getElem?_zip_eq_some]
          exact ⟨by rw [rows_get hS hcn, hss]; exact ha', by rw [rows_get hD hcn, hf]; exact hb⟩
        obtain ⟨o, ho, hg⟩ := h3 _ _ hz
        obtain ⟨o', ho', hR⟩ := hp c ss a b (List.mem_of_getElem? hss) ha'
          ((hd.2 dd (List.mem_of_getElem? hf)).2 b (List.mem_of_getElem? hb)).1
        refine ⟨o, by rw [row_get _ hcn, List.getElem?_append_left (by omega)]; exact ho, ?_⟩
        have : o' = o := Option.some.inj (ho'.symm.trans hg)
        exact this ▸ hR

/-- **C100** (pictures without alpha).  `Over` puts the source at the place given, cut off at the edges of the destination, and leaves everything else;
    `Src` does the same on a white canvas; `Dst` changes nothing; nothing panics. -/
theorem c100_plain {p : Nat × Nat} {src dst : Pic} (hs : src.Ok) (hd : dst.Ok) (hm : dst.max = src.max) (hc : dst.cs = src.cs)
    (ha : dst.cs.hasAlpha = false) :
    (∃ out, composite .over p src dst = .ok { dst with frames := out } ∧ Framewise (fun c ss b o => ∃ a, ss[c]? = some a ∧
      Overlaid (fun s _ o => o = s) a src.w src.h b dst.w dst.h p.1 p.2 o) src.frames dst.frames out) ∧
    (∃ out, composite .src p src dst = .ok { dst with frames := out } ∧ Framewise (fun c ss _ o => ∃ a, ss[c]? = some a ∧
      Overlaid (fun s _ o => o = s) a src.w src.h (List.replicate (dst.w * dst.h) dst.max) dst.w dst.h p.1 p.2 o) src.frames dst.frames out) ∧
    composite .dst p src dst = .ok dst := by
  have hla : ∀ {c : Nat} {ss a}, ss ∈ src.frames → ss[c]? = some a → a.length = src.w * src.h := fun h1 h2 =>
    ((hs.2 _ h1).2 _ (List.mem_of_getElem? h2)).1
  refine ⟨plain_frames hs hd hm hc ha (by decide) ?_, plain_frames hs hd hm hc ha (by decide) ?_, ?_⟩
  · intro c ss a b h1 h2 h3
    obtain ⟨o, ho, hI⟩ := overlay_spec (f := fun s (_ : Nat) => s) hs.1 hd.1 (hla h1 h2) h3 p.1 p.2
    exact ⟨o, ho, a, h2, overlaid_of (hla h1 h2) h3 (fun _ _ _ _ => rfl) hI⟩
  · intro c ss a b h1 h2 h3
    have h4 : (List.replicate (dst.w * dst.h) dst.max).length = dst.w * dst.h := by simp
    obtain ⟨o, ho, hI⟩ := overlay_spec (f := fun s (_ : Nat) => s) hs.1 hd.1 (hla h1 h2) h4 p.1 p.2
    exact ⟨o, by rw [← h3] at ho; exact ho, a, h2, overlaid_of (hla h1 h2) h4 (fun _ _ _ _ => rfl) hI⟩
  · obtain ⟨out, ho, hl, hf⟩ := plain_frames (m := .dst) (R := fun _ _ b o => o = b) (p := p) hs hd hm hc ha (by decide)
      fun c ss a b _ _ _ => ⟨b, rfl, rfl⟩
    rw [ho]
    have : out = dst.frames := by
      apply List.ext_getElem?
      intro f
      cases hdf : dst.frames[f]? with
      | none => rw [List.getElem?_eq_none_iff] at hdf ⊢; omega
      | some dd =>
        obtain ⟨h1, h2⟩ := hf f dd hdf
        cases hsf : src.frames[f]? with
        | none => exact h1 (List.getElem?_eq_none_iff.1 hsf)
        | some ss =>
          obtain ⟨oo, h3, h4, h5⟩ := h2 ss hsf
          rw [h3]
          congr 1
          apply List.ext_getElem?
          intro c
          cases hdc : dd[c]? with
          | none => rw [List.getElem?_eq_none_iff] at hdc ⊢; omega
          | some b => obtain ⟨o, h6, h7⟩ := h5 c b hdc; rw [h6, h7]
    rw [this]

/-- A 1 × 2 picture on a 2 × 2 one, at (1, 1): the second row of the source is cut off. -/
example : composite .over (1, 1) ⟨.Luma, 255, 1, 2, [[[7, 8]]]⟩ ⟨.Luma, 255, 2, 2, [[[1, 2, 3, 4]]]⟩ = .ok ⟨.Luma, 255, 2, 2, [[[1, 2, 3, 7]]]⟩ := by
  decide

example : Pic.Ok ⟨.Luma, 255, 1, 2, [[[7, 8]]]⟩ ∧ Pic.Ok ⟨.Luma, 255, 2, 2, [[[1, 2, 3, 4]]]⟩ ∧ ColorSpace.Luma.hasAlpha = false :=
  ⟨⟨by decide, by decide⟩, ⟨by decide, by decide⟩, rfl⟩

/-- Pictures with alpha: frame by frame. -/
theorem alpha_frames {m : CompositeMethod} {R : Nat → List (List Nat) → List Nat → List Nat → Prop} {p : Nat × Nat} {src dst : Pic}
    (hm : dst.max = src.max) (hc : dst.cs = src.cs) (ha : dst.cs.hasAlpha = true) (hi : m ≠ .dstIn)
    (hp : ∀ ss dd, ss ∈ src.frames → dd ∈ dst.frames → ∃ oo, compositeFrame m dst.max dst.cs p src.w dst.w ss dd = some oo ∧ oo.length = dd.length ∧
      ∀ c b, dd[c]? = some b → ∃ o, oo[c]? = some o ∧ R c ss b o) :
    ∃ out, composite m p src dst = .ok { dst with frames := out } ∧ Framewise R src.frames dst.frames out := by
  obtain ⟨out, h1, h2, h3⟩ := mapM_get (g := fun (t : List (List Nat) × List (List Nat)) => compositeFrame m dst.max dst.cs p src.w dst.w t.1 t.2)
    (l := src.frames.zip dst.frames) (by
      rintro ⟨a, b⟩ h
      obtain ⟨oo, ho, -⟩ := hp a b (List.of_mem_zip h).1 (List.of_mem_zip h).2
      exact ⟨oo, ho⟩)
  rw [List.length_zip] at h2
  refine ⟨out ++ dst.frames.drop out.length, ?_, ?_, ?_⟩
  · unfold composite
    rw [if_neg (by simp [hm]), if_neg (by simp [hc]), if_neg hi, ha]
    simp only [if_true]
    rw [h1]
  · simp; omega
  · intro f dd hf
    have hfl := (List.getElem?_eq_some_iff.1 hf).1
    constructor
    · intro hsf
      rw [List.getElem?_append_right (by omega), List.getElem?_drop, show out.length + (f - out.length) = f by omega, hf]
    · intro ss hss
      have hsl := (List.getElem?_eq_some_iff.1 hss).1
      obtain ⟨oo, ho, hg⟩ := h3 f (ss, dd) (by rw [List.getElem?_zip_eq_some]; exact ⟨hss, hf⟩)
      obtain ⟨oo', h4, h5, h6⟩ := hp ss dd (List.mem_of_getElem? hss) (List.mem_of_getElem? hf)
      have : oo' = oo := Option.some.inj (h4.symm.trans hg)
      subst this
      exact ⟨_, by rw [List.getElem?_append_left (by omega)]; exact ho, h5, h6⟩

theorem alphaOver_spec {src dst : Pic} (hs : src.Ok) (hd : dst.Ok) (hm : dst.max = src.max) (hM : dst.max = 255 ∨ dst.max = 65535)
    {ss dd : List (List Nat)} (hss : ss ∈ src.frames) (hdd : dd ∈ dst.frames) {s a d : List Nat} (h1 : s ∈ ss) (h2 : a ∈ ss) (h3 : d ∈ dd) (p : Nat × Nat) :
    (∃ o, compositeAlpha .over dst.max s a d p src.w dst.w = some o ∧
      Overlaid (fun (t : Nat × Nat) d o => Mix dst.max t.2 t.1 d o) (s.zip a) src.w src.h d dst.w dst.h p.1 p.2 o) ∧
    ∃ o, compositeAlphaChannel .over dst.max a d p src.w dst.w = some o ∧
      Overlaid (fun a d o => Mix dst.max a a d o) a src.w src.h d dst.w dst.h p.1 p.2 o := by
  have l1 := ((hs.2 ss hss).2 s h1)
  have l2 := ((hs.2 ss hss).2 a h2)
  have l3 := ((hd.2 dd hdd).2 d h3)
  have lz : (s.zip a).length = src.w * src.h := by rw [List.length_zip, l1.1, l2.1, Nat.min_self]
  constructor
  · obtain ⟨o, ho, hI⟩ := overlay_spec (f := fun (t : Nat × Nat) d => blend dst.max t.2 t.1 d) hs.1 hd.1 lz l3.1 p.1 p.2
    refine ⟨o, ho, overlaid_of lz l3.1 ?_ hI⟩
    rintro ⟨u, v⟩ ht e he
    exact c100_blend hM (by rw [hm]; exact l2.2 v (List.of_mem_zip ht).2) (by rw [hm]; exact l1.2 u (List.of_mem_zip ht).1) (l3.2 e he)
  · obtain ⟨o, ho, hI⟩ := overlay_spec (f := fun a d => blend dst.max a a d) hs.1 hd.1 l2.1 l3.1 p.1 p.2
    refine ⟨o, ho, overlaid_of l2.1 l3.1 ?_ hI⟩
    intro u hu e he
    exact c100_blend hM (by rw [hm]; exact l2.2 u hu) (by rw [hm]; exact l2.2 u hu) (l3.2 e he)

/-- **C100** (pictures with alpha, `Over`).  Every colour channel of every common frame becomes α·source + (1 − α)·destination under the source, α being
    that of the source.  Partial: the colours are those of the "over" operation only where the destination is opaque
    (`c100_transparent_wrong`), the alpha channel is not (`c100_alpha_wrong`), LumaA takes the luma for alpha (`c100_luma_wrong`), `Src` and `Dst` panic
    (`c100_panic`), and 16 bits are exact only up to the errors of `f32`. -/
theorem c100_over_partial {p : Nat × Nat} {src dst : Pic} (hs : src.Ok) (hd : dst.Ok) (hm : dst.max = src.max) (hM : dst.max = 255 ∨ dst.max = 65535)
    (hc : dst.cs = src.cs) (ha : dst.cs = .RGBA ∨ dst.cs = .BGRA ∨ dst.cs = .ARGB) :
    ∃ out, composite .over p src dst = .ok { dst with frames := out } ∧ Framewise (fun c ss b o => ∃ s a, ss[c]? = some s ∧
      ss[alphaIndex dst.cs]? = some a ∧ if c = alphaIndex dst.cs then Overlaid (fun a d o => Mix dst.max a a d o) a src.w src.h b dst.w dst.h p.1 p.2 o
        else Overlaid (fun (t : Nat × Nat) d o => Mix dst.max t.2 t.1 d o) (s.zip a) src.w src.h b dst.w dst.h p.1 p.2 o)
      src.frames dst.frames out := by
  refine alpha_frames hm hc (by rcases ha with h | h | h <;> rw [h] <;> rfl) (by decide) ?_
  intro ss dd hss hdd
  have e4 : dst.cs.numComponents = 4 := by rcases ha with h | h | h <;> rw [h] <;> rfl
  have n1 := (hs.2 ss hss).1
  have n2 := (hd.2 dd hdd).1
  rw [← hc, e4] at n1
  rw [e4] at n2
  match ss, n1 with
  | [s0, s1, s2, s3], _ =>
  match dd, n2 with
  | [d0, d1, d2, d3], _ =>
  have ov := fun {s a d} h1 h2 h3 => alphaOver_spec hs hd hm hM hss hdd (s := s) (a := a) (d := d) h1 h2 h3 p
  have key : ∀ cs, cs = .RGBA ∨ cs = .BGRA → ∃ oo, compositeFrame .over dst.max cs p src.w dst.w [s0, s1, s2, s3] [d0, d1, d2, d3] = some oo ∧ oo.length = 4 ∧
      ∀ c b, [d0, d1, d2, d3][c]? = some b → ∃ o, oo[c]? = some o ∧ ∃ s a, [s0, s1, s2, s3][c]? = some s ∧
      [s0, s1, s2, s3][3]? = some a ∧ if c = 3 then Overlaid (fun a d o => Mix dst.max a a d o) a src.w src.h b dst.w dst.h p.1 p.2 o
        else Overlaid (fun (t : Nat × Nat) d o => Mix dst.max t.2 t.1 d o) (s.zip a) src.w src.h b dst.w dst.h p.1 p.2 o := by
    intro cs hcs
    obtain ⟨o0, a0, b0⟩ := (ov (s := s0) (a := s3) (d := d0) (by simp) (by simp) (by simp)).1
    obtain ⟨o1, a1, b1⟩ := (ov (s := s1) (a := s3) (d := d1) (by simp) (by simp) (by simp)).1
    obtain ⟨o2, a2, b2⟩ := (ov (s := s2) (a := s3) (d := d2) (by simp) (by simp) (by simp)).1
    obtain ⟨o3, a3, b3⟩ := (ov (s := s3) (a := s3) (d := d3) (by simp) (by simp) (by simp)).2
    refine ⟨[o0, o1, o2, o3], ?_, rfl, ?_⟩
    · have e1 : separate cs [s0, s1, s2, s3] = some ⟨[], [s0, s1, s2], [s3], s3⟩ := by rcases hcs with rfl | rfl <;> rfl
      have e2 : separate cs [d0, d1, d2, d3] = some ⟨[], [d0, d1, d2], [d3], d3⟩ := by rcases hcs with rfl | rfl <;> rfl
      simp only [compositeFrame, e1, e2, Option.bind_eq_bind, Option.bind_some, List.zip_cons_cons, List.zip_nil_left, List.mapM_cons, List.mapM_nil, a0, a1, a2, a3]
      rfl
    · intro c b hb
      match c with
      | 0 => cases hb; exact ⟨o0, rfl, s0, s3, rfl, rfl, by rw [if_neg (by decide)]; exact b0⟩
      | 1 => cases hb; exact ⟨o1, rfl, s1, s3, rfl, rfl, by rw [if_neg (by decide)]; exact b1⟩
      | 2 => cases hb; exact ⟨o2, rfl, s2, s3, rfl, rfl, by rw [if_neg (by decide)]; exact b2⟩
      | 3 => cases hb; exact ⟨o3, rfl, s3, s3, rfl, rfl, by rw [if_pos rfl]; exact b3⟩
      | c + 4 => simp at hb
  rcases ha with h | h | h
  · rw [h]; exact key .RGBA (.inl rfl)
  · rw [h]; exact key .BGRA (.inr rfl)
  · rw [h]
    obtain ⟨o0, a0, b0⟩ := (ov (s := s0) (a := s0) (d := d0) (by simp) (by simp) (by simp)).2
    obtain ⟨o1, a1, b1⟩ := (ov (s := s1) (a := s0) (d := d1) (by simp) (by simp) (by simp)).1
    obtain ⟨o2, a2, b2⟩ := (ov (s := s2) (a := s0) (d := d2) (by simp) (by simp) (by simp)).1
    obtain ⟨o3, a3, b3⟩ := (ov (s := s3) (a := s0) (d := d3) (by simp) (by simp) (by simp)).1
    refine ⟨[o0, o1, o2, o3], ?_, rfl, ?_⟩
    · have e1 : separate .ARGB [s0, s1, s2, s3] = some ⟨[s0], [s1, s2, s3], [], s0⟩ := rfl
      have e2 : separate .ARGB [d0, d1, d2, d3] = some ⟨[d0], [d1, d2, d3], [], d0⟩ := rfl
      simp only [compositeFrame, e1, e2, Option.bind_eq_bind, Option.bind_some, List.zip_cons_cons, List.zip_nil_left, List.mapM_cons, List.mapM_nil, a0, a1, a2, a3]
      rfl
    · intro c b hb
      match c with
      | 0 => cases hb; exact ⟨o0, rfl, s0, s0, rfl, rfl, by rw [if_pos (by decide)]; exact b0⟩
      | 1 => cases hb; exact ⟨o1, rfl, s1, s0, rfl, rfl, by rw [if_neg (by decide)]; exact b1⟩
      | 2 => cases hb; exact ⟨o2, rfl, s2, s0, rfl, rfl, by rw [if_neg (by decide)]; exact b2⟩
      | 3 => cases hb; exact ⟨o3, rfl, s3, s0, rfl, rfl, by rw [if_neg (by decide)]; exact b3⟩
      | c + 4 => simp at hb

example : Pic.Ok ⟨.RGBA, 255, 1, 1, [[[200], [100], [0], [128]]]⟩ ∧ Pic.Ok ⟨.RGBA, 255, 2, 1, [[[1, 2], [3, 4], [5, 6], [255, 255]]]⟩ :=
  ⟨⟨by decide, by decide⟩, ⟨by decide, by decide⟩⟩

/-- **C100** (negative).  The alpha channel should be α + β·(1 − α) (the comment in the code says so), it is α² + β·(1 − α): too small by
    α·(1 − α) or more, so that a half transparent picture makes holes into an opaque one. -/
theorem c100_alpha_wrong {a d : Nat} (h0 : 0 < a) (h1 : a < 255) (hd : d ≤ 255) :
    255 * blend 255 a a d + a * (255 - a) ≤ 255 * a + (255 - a) * d ∧ blend 255 a a 255 < 255 := by
  have h := (c100_blend (m := 255) (a := a) (s := a) (d := d) (.inl rfl) (by omega) (by omega) hd).1 rfl
  have h' := (c100_blend (m := 255) (a := a) (s := a) (d := 255) (.inl rfl) (by omega) (by omega) (by omega)).1 rfl
  have e1 : a * a + a * (255 - a) = 255 * a := by rw [← Nat.mul_add, show a + (255 - a) = 255 by omega, Nat.mul_comm]
  have e2 : a * a < 255 * a := Nat.mul_lt_mul_of_pos_right h1 h0
  constructor
  · omega
  · omega

example : blend 255 128 128 255 < 255 := (c100_alpha_wrong (a := 128) (d := 255) (by omega) (by omega) (by omega)).2

/-- **C100** (negative).  On a transparent destination the "over" operation yields the colour of the source; the code darkens it. -/
theorem c100_transparent_wrong {a s : Nat} (h1 : a < 255) (h0 : 0 < s) (hs : s ≤ 255) : blend 255 a s 0 < s := by
  have h := ((c100_blend (m := 255) (a := a) (s := s) (d := 0) (.inl rfl) (by omega) hs (by omega)).1 rfl).1
  have : a * s < 255 * s := Nat.mul_lt_mul_of_pos_right h1 h0
  omega

/-- **C100** (negative).  Grey pictures with alpha: a transparent white pixel of the source makes the destination white and transparent. -/
theorem c100_luma_wrong {d e : Nat} (hd : d ≤ 255) (he : e ≤ 255) :
    composite .over (0, 0) ⟨.LumaA, 255, 1, 1, [[[255], [0]]]⟩ ⟨.LumaA, 255, 1, 1, [[[d], [e]]]⟩ = .ok ⟨.LumaA, 255, 1, 1, [[[255], [0]]]⟩ := by
  have e1 : blend 255 255 255 d = 255 := (c100_blend (m := 255) (a := 255) (s := 255) (d := d) (.inl rfl) (by omega) (by omega) hd).2.2.1 rfl
  have e2 : blend 255 255 0 e = 0 := (c100_blend (m := 255) (a := 255) (s := 0) (d := e) (.inl rfl) (by omega) (by omega) he).2.2.1 rfl
  have : composite .over (0, 0) ⟨.LumaA, 255, 1, 1, [[[255], [0]]]⟩ ⟨.LumaA, 255, 1, 1, [[[d], [e]]]⟩ =
      .ok ⟨.LumaA, 255, 1, 1, [[[blend 255 255 255 d], [blend 255 255 0 e]]]⟩ := by
    have ov : ∀ {σ : Type} (f : σ → Nat → Nat) (s : σ) (d : Nat), overlay f [s] [d] 0 0 1 1 = some [f s d] := by intros; simp [overlay, chunksOf, mergeRow]
    simp [composite, compositeFrame, compositeAlpha, compositeAlphaChannel, separate, ColorSpace.hasAlpha, ColorSpace.numComponents,
      ColorSpace.alphaPosition, ov]
  rw [this, e1, e2]

/-- **C100** (negative).  With an alpha channel `Src` and `Dst` run into `unreachable!`; `DstIn` never changes anything, whatever the source. -/
theorem c100_panic {p : Nat × Nat} {src dst : Pic} (hs : src.Ok) (hd : dst.Ok) (hm : dst.max = src.max) (hc : dst.cs = src.cs) :
    (dst.cs.hasAlpha = true → src.frames ≠ [] → dst.frames ≠ [] → composite .src p src dst = .error .panic ∧ composite .dst p src dst = .error .panic) ∧
    composite .dstIn p src dst = .ok dst := by
  constructor
  · intro ha h1 h2
    obtain ⟨ss, st, h1⟩ := List.exists_cons_of_ne_nil h1
    obtain ⟨dd, dt, h2⟩ := List.exists_cons_of_ne_nil h2
    have n1 := (hs.2 ss (by simp [h1])).1
    have n2 := (hd.2 dd (by simp [h2])).1
    rw [← hc] at n1
    have key : ∀ m, m ≠ .over → compositeFrame m dst.max dst.cs p src.w dst.w ss dd = none := by
      intro m hm'
      have hn : ∀ s a d, compositeAlpha m dst.max s a d p src.w dst.w = none := by cases m <;> first | exact absurd rfl hm' | (intros; rfl)
      have h4 : (dst.cs = .RGBA ∨ dst.cs = .BGRA ∨ dst.cs = .ARGB) ∨ dst.cs = .LumaA := by revert ha; cases dst.cs <;> simp [ColorSpace.hasAlpha]
      rcases h4 with h4 | h4
      · have e4 : dst.cs.numComponents = 4 := by rcases h4 with h | h | h <;> rw [h] <;> rfl
        rw [e4] at n1 n2
        match ss, n1 with
        | [_, _, _, _], _ =>
        match dd, n2 with
        | [_, _, _, _], _ => rcases h4 with h | h | h <;> rw [h] <;>
            simp [compositeFrame, separate, ColorSpace.hasAlpha, ColorSpace.numComponents, ColorSpace.alphaPosition, hn]
      · rw [h4] at n1 n2 ⊢
        match ss, n1 with
        | [_, _], _ =>
        match dd, n2 with
        | [_, _], _ => simp [compositeFrame, separate, ColorSpace.hasAlpha, ColorSpace.numComponents, ColorSpace.alphaPosition, hn]
    have all : ∀ m, m ≠ .over → m ≠ .dstIn → composite m p src dst = .error .panic := by
      intro m hm' hi
      unfold composite
      rw [if_neg (by simp [hm]), if_neg (by simp [hc]), if_neg hi, ha]
      simp only [if_true]
      rw [h1, h2, List.zip_cons_cons, List.mapM_cons]
      simp only [key m hm']
      rfl
    exact ⟨all _ (by decide) (by decide), all _ (by decide) (by decide)⟩
  · unfold composite
    rw [if_neg (by simp [hm]), if_neg (by simp [hc]), if_pos rfl]

/-- **C100** (pictures that do not match).  Different depths or different colour spaces are errors. -/
theorem c100_reject (m : CompositeMethod) (p : Nat × Nat) (src dst : Pic) :
    (dst.max ≠ src.max → composite m p src dst = .error .depth) ∧ (dst.max = src.max → dst.cs ≠ src.cs → composite m p src dst = .error .colors) := by
  unfold composite
  exact ⟨fun h => if_pos h, fun h h' => by rw [if_neg (by simp [h]), if_pos h']⟩

example : composite .over (0, 0) ⟨.RGB, 255, 1, 1, [[[1], [2], [3]]]⟩ ⟨.Luma, 255, 1, 1, [[[9]]]⟩ = .error .colors :=
  (c100_reject ..).2 rfl (by decide)

/-- **C100** (gravity).  A source that is not larger lies wholly inside; the named sides touch; in the centre opposite margins differ by at most one. -/
theorem c100_gravity {ws hs wd hd : Nat} (hw : ws ≤ wd) (hh : hs ≤ hd) (g : Gravity) :
    let p := calculateGravity ws hs wd hd g
    let right := wd - (p.1 + ws)
    let below := hd - (p.2 + hs)
    p.1 + ws ≤ wd ∧ p.2 + hs ≤ hd ∧ match g with
    | .topLeft => p.1 = 0 ∧ p.2 = 0
    | .topRight => right = 0 ∧ p.2 = 0
    | .bottomLeft => p.1 = 0 ∧ below = 0
    | .bottomRight => right = 0 ∧ below = 0
    | .center => p.1 ≤ right + 1 ∧ right ≤ p.1 + 1 ∧ p.2 ≤ below + 1 ∧ below ≤ p.2 + 1 := by
  cases g <;> simp [calculateGravity] <;> omega

example : calculateGravity 2 2 5 4 .center = (1, 1) := by decide

end Zune.Imageprocs
