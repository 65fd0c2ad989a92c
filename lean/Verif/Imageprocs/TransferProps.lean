/-
**C109**: the tables of `image_transfer`.
-/
import Verif.Imageprocs.ResizeModel
import Verif.Imageprocs.ToneProps

namespace Zune.Imageprocs
open Zune.Float

theorem mapM_eq_map {β γ : Type} {g : β → Option γ} {f : β → γ} : ∀ {l : List β}, (∀ a ∈ l, g a = some (f a)) → l.mapM g = some (l.map f)
  | [], _ => rfl
  | a :: t, h => by
    rw [List.mapM_cons, h a (by simp), mapM_eq_map fun b hb => h b (by simp [hb])]
    rfl

/-- The channel is converted sample by sample, and nothing panics. -/
theorem transferChannel_eq {m : Nat} (f : Rat → Rat) {img : List Nat} (h : ∀ v ∈ img, v ≤ m) : transferChannel m f img = some (img.map (lutEntry m f)) := by
  unfold transferChannel
  refine mapM_eq_map fun v hv => ?_
  rw [List.getElem?_map, List.getElem?_range (by have := h v hv; omega)]
  rfl

/-- The transfer functions that map 0 to 0 and 1 to 1 without calling `powf`. -/
def Transfer.plain : Transfer → Bool
  | .srgb | .rec709 | .gamma2p2 | .gamma2p8 | .bt1361 | .smpte240 => true
  | _ => false

theorem twoPart_zero {t : Rat} {low high : Rat → Rat} (ht : 0 < t) (h : low 0 = 0) : twoPart t low high 0 = 0 := by
  unfold twoPart
  rw [if_neg (lt_irrefl _), if_pos ht, h]

theorem twoPart_one {t : Rat} {low high : Rat → Rat} (ht : t ≤ 1) : twoPart t low high 1 = 1 := by
  unfold twoPart
  rw [if_neg (by norm_num), if_neg (by linarith), if_neg (lt_irrefl _)]

theorem plain_ends {f : Transfer} (h : f.plain) (pow : Rat → Rat → Rat) (log : Rat → Rat) :
    (linearize pow f 0 = 0 ∧ linearize pow f 1 = 1) ∧ gammaOf pow log f 0 = 0 ∧ gammaOf pow log f 1 = 1 := by
  have t1 : (0 : Rat) < rnd 24 (rnd 24 (1292 / 100) * srgbT) ∧ rnd 24 (rnd 24 (1292 / 100) * srgbT) ≤ 1 := by decide +kernel
  have t2 : (0 : Rat) < rnd 24 (45 / 10 * recT) ∧ rnd 24 (45 / 10 * recT) ≤ 1 := by decide +kernel
  have t3 : (0 : Rat) < rnd 24 (4 * smpteT) ∧ rnd 24 (4 * smpteT) ≤ 1 := by decide +kernel
  have t4 : (0 : Rat) < srgbT ∧ srgbT ≤ 1 := by decide +kernel
  have t5 : (0 : Rat) < recT ∧ recT ≤ 1 := by decide +kernel
  have t6 : (0 : Rat) < smpteT ∧ smpteT ≤ 1 := by decide +kernel
  cases f <;> simp [Transfer.plain] at h <;> simp only [linearize, gammaOf]
  · exact ⟨⟨twoPart_zero t1.1 (by simp [rnd_zero]), twoPart_one t1.2⟩, twoPart_zero t4.1 (by simp [rnd_zero]), twoPart_one t4.2⟩
  · exact ⟨⟨twoPart_zero t2.1 (by simp [rnd_zero]), twoPart_one t2.2⟩, twoPart_zero t5.1 (by simp [rnd_zero]), twoPart_one t5.2⟩
  · simp [pureGamma]
  · simp [pureGamma]
  · exact ⟨⟨twoPart_zero t2.1 (by simp [rnd_zero]), twoPart_one t2.2⟩, twoPart_zero t5.1 (by simp [rnd_zero]), twoPart_one t5.2⟩
  · exact ⟨⟨twoPart_zero t3.1 (by simp [rnd_zero]), twoPart_one t3.2⟩, twoPart_zero t6.1 (by simp [rnd_zero]), twoPart_one t6.2⟩

theorem lut_zero {m : Nat} {f : Rat → Rat} (h : f 0 = 0) : lutEntry m f 0 = 0 := by
  unfold lutEntry
  simp only [Nat.cast_zero, zero_mul, rnd_zero, h]
  rw [min_eq_left (by positivity)]
  simp [toSample]

theorem lut_one {m : Nat} (hm : m = 255 ∨ m = 65535) {f : Rat → Rat} (h : f 1 = 1) : lutEntry m f m = m := by
  have e : rnd 24 ((m : Rat) * rnd 24 (1 / m)) = 1 := by
    rcases hm with rfl | rfl <;> decide +kernel
  unfold lutEntry
  rw [e, h, one_mul, rnd_nat (by omega), min_self, toSample_nat le_rfl]

/-- **C109** (ends).  For sRGB, Rec.709, gamma 2.2 and 2.8, BT.1361 and SMPTE 240 both tables keep black and white, whatever `powf` returns. -/
theorem c109_ends {m : Nat} (hm : m = 255 ∨ m = 65535) {f : Transfer} (h : f.plain) (pow : Rat → Rat → Rat) (log : Rat → Rat) :
    lutEntry m (linearize pow f) 0 = 0 ∧ lutEntry m (linearize pow f) m = m ∧ lutEntry m (gammaOf pow log f) 0 = 0 ∧ lutEntry m (gammaOf pow log f) m = m :=
  have p := plain_ends h pow log
  ⟨lut_zero p.1.1, lut_one hm p.1.2, lut_zero p.2.1, lut_one hm p.2.2⟩

example : Transfer.plain .srgb ∧ Transfer.plain .smpte240 := by decide

/-- **C109** (negative).  The transfer function "Linear" should keep all samples; `v.min(1.).min(0.)` (trc.rs:224) makes all of them black, in both directions. -/
theorem c109_linear_wrong (m : Nat) (pow : Rat → Rat → Rat) (log : Rat → Rat) (i : Nat) :
    lutEntry m (linearize pow .linear) i = 0 ∧ lutEntry m (gammaOf pow log .linear) i = 0 := by
  have h : lutEntry m trcLinear i = 0 := by
    have h1 : trcLinear (rnd 24 (i * rnd 24 (1 / m))) ≤ 0 := min_le_right _ _
    have h2 : rnd 24 (trcLinear (rnd 24 (i * rnd 24 (1 / m))) * m) ≤ 0 := by
      rw [← rnd_zero 24]
      exact rnd_mono (by norm_num) (mul_nonpos_of_nonpos_of_nonneg h1 (by positivity))
    have h3 := le_trans (min_le_left (rnd 24 (trcLinear (rnd 24 (i * rnd 24 (1 / m))) * m)) (m : Rat)) h2
    unfold lutEntry toSample
    split
    · rfl
    · rename_i h4
      have : min (rnd 24 (trcLinear (rnd 24 (i * rnd 24 (1 / m))) * m)) (m : Rat) = 0 := le_antisymm h3 (not_lt.1 h4)
      rw [this]; simp
  exact ⟨h, h⟩

/-- **C109** (negative).  Linearising and back loses dark samples at 8 bits (`Resize` does both): the samples 1 to 10 of an sRGB picture become 0, whatever `powf` returns. -/
theorem c109_dark_wrong (pow : Rat → Rat → Rat) (log : Rat → Rat) {i : Nat} (h : i ≤ 10) :
    lutEntry 255 (linearize pow .srgb) i = 0 ∧ lutEntry 255 (gammaOf pow log .srgb) (lutEntry 255 (linearize pow .srgb) i) = 0 := by
  have e : lutEntry 255 (linearize pow .srgb) i = 0 := by
    have t : rnd 24 ((i : Rat) * rnd 24 (1 / (255 : Nat))) < rnd 24 (rnd 24 (1292 / 100) * srgbT) ∧ ¬ rnd 24 ((i : Rat) * rnd 24 (1 / (255 : Nat))) < 0 ∧
        toSample 255 (min (rnd 24 (rnd 24 (rnd 24 ((i : Rat) * rnd 24 (1 / (255 : Nat))) * rnd 24 (1 / rnd 24 (1292 / 100))) * (255 : Nat))) (255 : Nat)) = 0 := by
      have : ∀ i : Nat, i ≤ 10 → rnd 24 ((i : Rat) * rnd 24 (1 / (255 : Nat))) < rnd 24 (rnd 24 (1292 / 100) * srgbT) ∧ ¬ rnd 24 ((i : Rat) * rnd 24 (1 / (255 : Nat))) < 0 ∧
        toSample 255 (min (rnd 24 (rnd 24 (rnd 24 ((i : Rat) * rnd 24 (1 / (255 : Nat))) * rnd 24 (1 / rnd 24 (1292 / 100))) * (255 : Nat))) (255 : Nat)) = 0 := by decide +kernel
      exact this i h
    unfold lutEntry
    simp only [linearize, twoPart]
    rw [if_neg t.2.1, if_pos t.1]
    exact t.2.2
  rw [e]
  exact ⟨rfl, (c109_ends (.inl rfl) (by decide) pow log).2.2.1⟩

/-! ### Monotony -/

theorem twoPart_mono {t : Rat} {low high : Rat → Rat} (l0 : 0 ≤ low 0) (lm : ∀ x y, 0 ≤ x → x ≤ y → low x ≤ low y)
    (hm : ∀ x y, t ≤ x → x ≤ y → y < 1 → high x ≤ high y) (hj : low t ≤ high t) (h0 : 0 ≤ t) (h1 : ∀ x, t ≤ x → x < 1 → high x ≤ 1) (lt1 : low t ≤ 1) {x y : Rat} (h : x ≤ y) :
    twoPart t low high x ≤ twoPart t low high y := by
  have low1 : ∀ x, 0 ≤ x → x ≤ t → low x ≤ low t := fun x a b => lm x t a b
  have hh : ∀ x, t ≤ x → x < 1 → 0 ≤ high x := fun x a b => by
    have := hm t x le_rfl a b
    have := lm 0 t le_rfl h0
    linarith
  unfold twoPart
  split_ifs with a b c d e f g
  all_goals try exact le_rfl
  all_goals try linarith
  · exact le_trans l0 (lm 0 y le_rfl (not_lt.1 b))
  · exact hh y (not_lt.1 c) d
  all_goals first
    | exact lm _ _ (not_lt.1 ‹_›) h
    | exact hm _ _ (not_lt.1 ‹_›) h ‹_›
    | exact h1 _ (not_lt.1 ‹_›) ‹_›
    | (have := low1 x (by linarith) (by linarith); first | linarith | (have := hm t y le_rfl (by linarith) (by linarith); linarith))

theorem lut_mono {m : Nat} {f : Rat → Rat} (hf : ∀ x y, x ≤ y → f x ≤ f y) {i j : Nat} (h : i ≤ j) : lutEntry m f i ≤ lutEntry m f j := by
  unfold lutEntry
  apply toSample_mono
  apply min_le_min_right
  apply rnd_mono (by norm_num)
  apply mul_le_mul_of_nonneg_right _ (by positivity)
  apply hf
  apply rnd_mono (by norm_num)
  apply mul_le_mul_of_nonneg_right (by exact_mod_cast h)
  rw [← rnd_zero 24]
  exact rnd_mono (by norm_num) (by positivity)

/-- What is asked of `powf`: growing in the base between 0 and 1 and at most 1 there. -/
structure PowOk (pow : Rat → Rat → Rat) : Prop where
  mono : ∀ e x y, 0 ≤ x → x ≤ y → y ≤ 1 → pow x e ≤ pow y e
  le_one : ∀ e x, 0 ≤ x → x ≤ 1 → pow x e ≤ 1
  nonneg : ∀ e x, 0 ≤ x → x ≤ 1 → 0 ≤ pow x e

theorem pureGamma_mono {pow : Rat → Rat → Rat} (hp : PowOk pow) (g : Rat) {x y : Rat} (h : x ≤ y) : pureGamma pow x g ≤ pureGamma pow y g := by
  unfold pureGamma
  split_ifs <;> first
    | exact le_rfl
    | (exfalso; linarith)
    | exact zero_le_one
    | exact hp.nonneg _ _ (by linarith) (by linarith)
    | exact hp.le_one _ _ (by linarith) (by linarith)
    | exact hp.mono _ _ _ (by linarith) h (by linarith)

theorem powTo_mono {pow : Rat → Rat → Rat} (hp : PowOk pow) {a b e x y : Rat} (ha : 0 ≤ a) (hb : 0 < b) (x0 : 0 ≤ x) (h : x ≤ y) (h1 : rnd 24 (rnd 24 (1 + a) / b) ≤ 1) (hy : y ≤ 1) :
    powTo pow a b e x ≤ powTo pow a b e y ∧ powTo pow a b e y ≤ 1 := by
  have m : ∀ u v : Rat, u ≤ v → rnd 24 (rnd 24 (u + a) / b) ≤ rnd 24 (rnd 24 (v + a) / b) := fun u v huv =>
    rnd_mono (by norm_num) (div_le_div_of_nonneg_right (rnd_mono (by norm_num) (by linarith)) hb.le)
  have z : ∀ u : Rat, 0 ≤ u → 0 ≤ rnd 24 (rnd 24 (u + a) / b) := by
    intro u hu
    rw [← rnd_zero 24]
    refine rnd_mono (by norm_num) (div_nonneg ?_ hb.le)
    rw [← rnd_zero 24]
    exact rnd_mono (by norm_num) (by linarith)
  exact ⟨hp.mono _ _ _ (z x x0) (m x y h) (le_trans (m y 1 hy) h1), hp.le_one _ _ (z y (by linarith)) (le_trans (m y 1 hy) h1)⟩

/-- **C109** (monotony).  If `powf` is growing and not below the line where the two parts of the function meet, the table that linearises sRGB is growing; that of gamma 2.2 without
    the second condition. -/
theorem c109_monotone {pow : Rat → Rat → Rat} (hp : PowOk pow)
    (hj : rnd 24 (rnd 24 (rnd 24 (1292 / 100) * srgbT) * rnd 24 (1 / rnd 24 (1292 / 100))) ≤ powTo pow srgbA srgbB (rnd 24 (24 / 10)) (rnd 24 (rnd 24 (1292 / 100) * srgbT)))
    (m : Nat) {i j : Nat} (h : i ≤ j) :
    lutEntry m (linearize pow .srgb) i ≤ lutEntry m (linearize pow .srgb) j ∧ lutEntry m (linearize pow .gamma2p2) i ≤ lutEntry m (linearize pow .gamma2p2) j := by
  have c1 : rnd 24 (rnd 24 (1292 / 100) * srgbT) ≤ 1 ∧ 0 ≤ rnd 24 (rnd 24 (1292 / 100) * srgbT) ∧ 0 ≤ srgbA ∧ 0 < srgbB ∧ rnd 24 (rnd 24 (1 + srgbA) / srgbB) ≤ 1 ∧
      0 ≤ rnd 24 (1 / rnd 24 (1292 / 100)) ∧ rnd 24 (rnd 24 (rnd 24 (1292 / 100) * srgbT) * rnd 24 (1 / rnd 24 (1292 / 100))) ≤ 1 := by decide +kernel
  obtain ⟨-, t0, a0, b0, e1, k0, l1⟩ := c1
  refine ⟨lut_mono (fun x y hxy => ?_) h, lut_mono (fun x y hxy => pureGamma_mono hp _ hxy) h⟩
  refine twoPart_mono ?_ (fun x y _ hxy => rnd_mono (by norm_num) (mul_le_mul_of_nonneg_right hxy k0)) (fun x y hx hxy hy => ?_) hj t0 (fun x hx hx1 => ?_) l1 hxy
  · simp [rnd_zero]
  · exact (powTo_mono hp a0 b0 (le_trans t0 hx) hxy e1 hy.le).1
  · exact (powTo_mono hp a0 b0 (le_trans t0 hx) le_rfl e1 hx1.le).2

/-- A function with these properties (a crude one; the exact power has them too). -/
example : ∃ pow : Rat → Rat → Rat, PowOk pow ∧ rnd 24 (rnd 24 (rnd 24 (1292 / 100) * srgbT) * rnd 24 (1 / rnd 24 (1292 / 100))) ≤
    powTo pow srgbA srgbB (rnd 24 (24 / 10)) (rnd 24 (rnd 24 (1292 / 100) * srgbT)) := by
  refine ⟨fun x _ => x, ⟨fun _ _ _ _ h _ => h, fun _ _ _ h => h, fun _ _ h _ => h⟩, ?_⟩
  show _ ≤ rnd 24 (rnd 24 (rnd 24 (rnd 24 (1292 / 100) * srgbT) + srgbA) / srgbB)
  decide +kernel

/-- **C109** (channel).  The conversion of a channel applies the table to every sample and does not panic. -/
theorem c109_channel {m : Nat} (f : Rat → Rat) {img : List Nat} (h : ∀ v ∈ img, v ≤ m) :
    ∃ out, transferChannel m f img = some out ∧ out.length = img.length ∧ ∀ (i v : Nat), img[i]? = some v → out[i]? = some (lutEntry m f v) :=
  ⟨_, transferChannel_eq f h, by simp, fun i v hv => by rw [List.getElem?_map, hv]; rfl⟩

example : ∀ v ∈ [3, 255], v ≤ 255 := by decide

end Zune.Imageprocs
