/- C30: depth conversions. -/
import Verif.Image.DepthModel
import Mathlib.Tactic.IntervalCases

namespace Zune.Depth

/-! The rounding is the nearest one: what makes `rnd` the IEEE rounding. -/

theorem log2_bounds {n : Nat} (h : n ≠ 0) : 2 ^ n.log2 ≤ n ∧ n < 2 ^ (n.log2 + 1) :=
  ⟨Nat.log2_self_le h, Nat.lt_log2_self⟩

/-- The result has 24 significant bits. -/
theorem scale_bounds {p q : Nat} (hp : p ≠ 0) (hq : q ≠ 0) (h : p.log2 ≤ 23 + q.log2) :
    2 ^ 23 ≤ p * 2 ^ scale p q / q ∧ p * 2 ^ scale p q / q < 2 ^ 24 := by
  obtain ⟨a1, a2⟩ := log2_bounds hp
  obtain ⟨b1, b2⟩ := log2_bounds hq
  have hq0 : 0 < q := by omega
  unfold scale
  simp only
  generalize hs : 23 + q.log2 - p.log2 = s
  have e : p.log2 + s = 23 + q.log2 := by omega
  have hup : p * 2 ^ s < 2 ^ 24 * q := by
    calc p * 2 ^ s < 2 ^ (p.log2 + 1) * 2 ^ s := Nat.mul_lt_mul_of_pos_right a2 (by positivity)
      _ = 2 ^ (p.log2 + s + 1) := by rw [← pow_add]; congr 1; omega
      _ = 2 ^ 24 * 2 ^ q.log2 := by rw [e, ← pow_add]; congr 1; omega
      _ ≤ 2 ^ 24 * q := Nat.mul_le_mul_left _ b1
  have hlo : 2 ^ 22 * q ≤ p * 2 ^ s := by
    calc 2 ^ 22 * q ≤ 2 ^ 22 * 2 ^ (q.log2 + 1) := Nat.mul_le_mul_left _ (le_of_lt b2)
      _ = 2 ^ (p.log2 + s) := by rw [e, ← pow_add]; congr 1; omega
      _ = 2 ^ p.log2 * 2 ^ s := by rw [pow_add]
      _ ≤ p * 2 ^ s := Nat.mul_le_mul_right _ a1
  split
  · rename_i hlt
    have hlt' := (Nat.div_lt_iff_lt_mul hq0).1 hlt
    constructor
    · rw [Nat.le_div_iff_mul_le hq0, pow_succ 2 s, ← Nat.mul_assoc]
      omega
    · rw [Nat.div_lt_iff_lt_mul hq0, pow_succ, ← Nat.mul_assoc]
      omega
  · rename_i hge
    exact ⟨by omega, (Nat.div_lt_iff_lt_mul hq0).2 hup⟩

/-- The result is within half a unit in the last place. -/
theorem rnd_nearest {p q : Nat} (hp : p ≠ 0) (hq : q ≠ 0) :
    2 * ((rnd p q).m * q) ≤ 2 * (p * 2 ^ (rnd p q).s) + q ∧ 2 * (p * 2 ^ (rnd p q).s) ≤ 2 * ((rnd p q).m * q) + q := by
  unfold rnd
  rw [if_neg hp]
  simp only
  generalize p * 2 ^ scale p q = N
  have hd := Nat.div_add_mod N q
  have hm := Nat.mod_lt N (show q > 0 by omega)
  have hc : q * (N / q) = N / q * q := Nat.mul_comm _ _
  generalize N / q = n at *
  generalize N % q = r at *
  split
  · rename_i h
    rw [Nat.add_mul]
    omega
  · rename_i h
    push Not at h
    omega

example : rnd 1 3 = ⟨11184811, 25⟩ ∧ recip 255 = ⟨8421505, 31⟩ ∧ recip 65535 = ⟨8388736, 39⟩ := by decide +kernel

/-! Complete tables -/

theorem table_8_16 : ∀ x : UInt8, u8ToU16 65535 x = UInt16.ofNat (257 * x.toNat) := by decide +kernel

theorem table_8_f32 : ∀ x : UInt8, f32ToU8 (u8ToF32 x) = x := by decide +kernel

theorem table_8_f32_16 : ∀ x : UInt8, f32ToU16 (u8ToF32 x) = UInt16.ofNat (257 * x.toNat) := by decide +kernel

theorem back_16_8 (x : UInt8) : u16ToU8 65535 (UInt16.ofNat (257 * x.toNat)) = x := by
  have := x.toNat_lt
  rw [u16ToU8, if_pos rfl]
  have e : (UInt16.ofNat (257 * x.toNat)).toNat = 257 * x.toNat := by
    simp only [UInt16.toNat_ofNat']; omega
  rw [e, Nat.mul_div_cancel_left _ (by omega)]
  simp

theorem mapM_some {β γ : Type} (f : β → Option γ) (g : β → γ) : ∀ (l : List β), (∀ x ∈ l, f x = some (g x)) →
    l.mapM f = some (l.map g)
  | [], _ => rfl
  | x :: l, h => by
    rw [List.mapM_cons, h x (by simp), mapM_some f g l (fun y hy => h y (by simp [hy]))]; rfl

/-- An image with 8 bit samples. -/
def image8 (cs : List (List UInt8)) : Image := ⟨.eight, cs.map .u8⟩

/-- An image with 16 bit samples. -/
def image16 (cs : List (List UInt16)) : Image := ⟨.sixteen, cs.map .u16⟩

theorem execute_map {i : Image} {dst : BitDepth} (h : i.depth ≠ dst) {g : Samples → Samples}
    (hg : ∀ c ∈ i.channels, convert i.depth dst c = some (g c)) :
    execute dst i = some ⟨dst, i.channels.map g⟩ := by
  rw [execute, if_neg h, mapM_some _ g _ hg]; rfl

/-- **C30** (8 to 16 to 8).  Converting any 8 bit image to 16 bits stores `257 * x` for each sample `x`, so that 0 and 255 become
    0 and 65535, in spite of the `f32` roundings on the way; converting back gives the original image. -/
theorem c30_8_16_8 (cs : List (List UInt8)) :
    execute .sixteen (image8 cs) = some (image16 (cs.map fun l => l.map fun x => UInt16.ofNat (257 * x.toNat))) ∧
    (execute .sixteen (image8 cs)).bind (execute .eight) = some (image8 cs) := by
  have e1 : execute .sixteen (image8 cs) =
      some (image16 (cs.map fun l => l.map fun x => UInt16.ofNat (257 * x.toNat))) := by
    rw [execute_map (i := image8 cs) (dst := .sixteen) (by simp [image8])
      (g := fun s => match s with
        | .u8 l => .u16 (l.map (u8ToU16 65535))
        | s => s)]
    · simp only [image8, image16, List.map_map, Option.some.injEq, Image.mk.injEq, true_and]
      apply List.map_congr_left
      intro l _
      simp [table_8_16]
    · intro c hc
      obtain ⟨l, _, rfl⟩ := List.mem_map.1 hc
      rfl
  refine ⟨e1, ?_⟩
  rw [e1, Option.bind_some, execute_map (i := image16 _) (dst := .eight) (by simp [image16])
    (g := fun s => match s with
      | .u16 l => .u8 (l.map (u16ToU8 65535))
      | s => s)]
  · simp only [image8, image16, List.map_map, Option.some.injEq, Image.mk.injEq, true_and]
    apply List.map_congr_left
    intro l _
    simp only [Function.comp, List.map_map, Samples.u8.injEq]
    conv_rhs => rw [← List.map_id l]
    apply List.map_congr_left
    intro x _
    exact back_16_8 x
  · intro c hc
    obtain ⟨l, _, rfl⟩ := List.mem_map.1 hc
    rfl

example : execute .sixteen (image8 [[0, 1, 128], [255, 7, 9]]) = some (image16 [[0, 257, 32896], [65535, 1799, 2313]]) := by
  decide +kernel

/-- **C30** (8 to float to 8).  Converting any 8 bit image to `f32` and back gives the original image. -/
theorem c30_8_f32_8 (cs : List (List UInt8)) :
    (execute .float32 (image8 cs)).bind (execute .eight) = some (image8 cs) := by
  rw [execute_map (i := image8 cs) (dst := .float32) (by simp [image8])
    (g := fun s => match s with
      | .u8 l => .f32 (l.map u8ToF32)
      | s => s), Option.bind_some, execute_map (dst := .eight) (by simp)
    (g := fun s => match s with
      | .f32 l => .u8 (l.map f32ToU8)
      | s => s)]
  · simp only [image8, List.map_map, Option.some.injEq, Image.mk.injEq, true_and]
    apply List.map_congr_left
    intro l _
    simp only [Function.comp, List.map_map, Samples.u8.injEq]
    conv_rhs => rw [← List.map_id l]
    apply List.map_congr_left
    intro x _
    exact table_8_f32 x
  · intro c hc
    simp only [image8, List.map_map, List.mem_map] at hc
    obtain ⟨l, _, rfl⟩ := hc
    rfl
  · intro c hc
    obtain ⟨l, _, rfl⟩ := List.mem_map.1 hc
    rfl

example : execute .float32 (image8 [[0, 1, 255]]) = some ⟨.float32, [.f32 [⟨0, 0⟩, ⟨8421505, 31⟩, ⟨8388608, 23⟩]]⟩ := by
  decide +kernel

/-- **C30** (disagreement).  16 bits to `f32` and back is not the identity: the sample 257 comes back as 256. -/
theorem c30_16_f32_16_false :
    (execute .float32 (image16 [[257]])).bind (execute .sixteen) = some (image16 [[256]]) := by decide +kernel

/-- The relative error of a rounding is at most `2^-24`. -/
theorem rnd_rel {p q : Nat} (hp : p ≠ 0) (hq : q ≠ 0) (h : p.log2 ≤ 23 + q.log2) :
    (rnd p q).m * q * 2 ^ 24 ≤ p * 2 ^ (rnd p q).s * (2 ^ 24 + 1) ∧
    p * 2 ^ (rnd p q).s * (2 ^ 24 - 1) ≤ (rnd p q).m * q * 2 ^ 24 := by
  obtain ⟨h1, h2⟩ := rnd_nearest hp hq
  have h3 := (scale_bounds hp hq h).1
  have hs : (rnd p q).s = scale p q := by rw [rnd, if_neg hp]
  rw [hs] at h1 h2 ⊢
  have h4 := (Nat.le_div_iff_mul_le (by omega)).1 h3
  generalize (rnd p q).m * q = A at *
  generalize p * 2 ^ scale p q = B at *
  constructor <;> omega

theorem log2_le {n k : Nat} (h : n < 2 ^ (k + 1)) : n.log2 ≤ k := by
  by_cases h0 : n = 0
  · subst h0; simp
  · have := (Nat.log2_lt h0).2 h; omega

theorem log2_two_pow (k : Nat) : (2 ^ k).log2 = k := Nat.log2_two_pow

theorem sixteen_bits {x : Nat} (h : x < 2 ^ 16) : x * (8388736 * (2 ^ 24 + 1)) ≤ 2 ^ 63 + 2 ^ 40 := by
  norm_num at h ⊢
  omega

theorem table_recip : recip 65535 = ⟨8388736, 39⟩ := by decide +kernel

/-- A 16 bit sample comes back from `f32` unchanged or one lower. -/
theorem back_16_f32 (x : UInt16) :
    f32ToU16 (u16ToF32 x) = x ∨ (f32ToU16 (u16ToF32 x)).toNat + 1 = x.toNat := by
  have hx := x.toNat_lt
  by_cases h0 : x.toNat = 0
  · have : x = 0 := UInt16.toNat_inj.1 (by simpa using h0)
    subst this
    exact Or.inl (by decide +kernel)
  · have hp1 : x.toNat * 8388736 ≠ 0 := by omega
    have l1 : (x.toNat * 8388736).log2 ≤ 23 + (2 ^ (0 + 39)).log2 := by
      rw [log2_two_pow]
      refine log2_le (lt_of_lt_of_le (show x.toNat * 8388736 < 2 ^ 40 by omega) (Nat.pow_le_pow_right (by omega) (by omega)))
    have e1 : u16ToF32 x = rnd (x.toNat * 8388736) (2 ^ (0 + 39)) := by
      rw [u16ToF32, table_recip]; rfl
    obtain ⟨a1, a2⟩ := rnd_rel hp1 (by positivity) l1
    obtain ⟨b1, b2⟩ := scale_bounds hp1 (by positivity) l1
    -- the significand is not zero and at most 2^24
    have hm1 : (rnd (x.toNat * 8388736) (2 ^ (0 + 39))).m ≠ 0 ∧ (rnd (x.toNat * 8388736) (2 ^ (0 + 39))).m ≤ 2 ^ 24 := by
      rw [rnd, if_neg hp1]
      simp only
      split <;> omega
    rw [← e1] at a1 a2 hm1
    generalize u16ToF32 x = f at *
    have hs : 23 ≤ 23 + (2 ^ (0 + f.s)).log2 := by omega
    have hp2 : 65535 * f.m ≠ 0 := by omega
    have l2 : (65535 * f.m).log2 ≤ 23 + (2 ^ (0 + f.s)).log2 := by
      rw [log2_two_pow]
      -- f.m / 2^f.s is about x / 65535 ≤ 1
      have hfm : f.m * 2 ^ 63 ≤ 2 ^ f.s * (2 ^ 63 + 2 ^ 40) := by
        have : f.m * 2 ^ (0 + 39) * 2 ^ 24 = f.m * 2 ^ 63 := by
          rw [Nat.mul_assoc, ← pow_add]
        rw [this] at a1
        refine le_trans a1 ?_
        rw [show x.toNat * 8388736 * 2 ^ f.s * (2 ^ 24 + 1) = 2 ^ f.s * (x.toNat * (8388736 * (2 ^ 24 + 1))) by ring]
        have k : x.toNat * (8388736 * (2 ^ 24 + 1)) ≤ 2 ^ 63 + 2 ^ 40 := sixteen_bits hx
        exact Nat.mul_le_mul_left _ k
      refine log2_le ?_
      have : 65535 * f.m < 2 ^ f.s * 2 ^ 17 := by
        generalize 2 ^ f.s = S at *
        omega
      refine lt_of_lt_of_le this ?_
      rw [← pow_add]
      exact Nat.pow_le_pow_right (by omega) (by omega)
    have e2 : f32ToU16 f = UInt16.ofNat ((rnd (65535 * f.m) (2 ^ (0 + f.s))).toInt 65535) := rfl
    obtain ⟨c1, c2⟩ := rnd_rel hp2 (by positivity) l2
    rw [e2]
    generalize rnd (65535 * f.m) (2 ^ (0 + f.s)) = g at *
    rw [Nat.zero_add] at c1 c2 a1 a2
    have hS : 0 < 2 ^ f.s := by positivity
    have hT : 0 < 2 ^ g.s := by positivity
    rw [F32.toInt]
    generalize 2 ^ f.s = S at *
    generalize 2 ^ g.s = T at *
    -- x - 1 ≤ g < x + 1
    have up : g.m * 2 ^ 87 ≤ 65535 * 8388736 * (2 ^ 24 + 1) ^ 2 * x.toNat * T := by
      have k := Nat.mul_le_mul c1 a1
      have : 0 < f.m * S := by apply Nat.mul_pos <;> omega
      apply Nat.le_of_mul_le_mul_left _ this
      calc f.m * S * (g.m * 2 ^ 87) = g.m * S * 2 ^ 24 * (f.m * 2 ^ 39 * 2 ^ 24) := by ring
        _ ≤ _ := k
        _ = _ := by ring
    have lo : 65535 * 8388736 * (2 ^ 24 - 1) ^ 2 * x.toNat * T ≤ g.m * 2 ^ 87 := by
      have k := Nat.mul_le_mul c2 a2
      have : 0 < f.m * S := by apply Nat.mul_pos <;> omega
      apply Nat.le_of_mul_le_mul_left _ this
      calc f.m * S * (65535 * 8388736 * (2 ^ 24 - 1) ^ 2 * x.toNat * T)
          = 65535 * f.m * T * (2 ^ 24 - 1) * (x.toNat * 8388736 * S * (2 ^ 24 - 1)) := by ring
        _ ≤ _ := k
        _ = _ := by ring
    have up' : g.m < (x.toNat + 1) * T := by
      have : 65535 * 8388736 * (2 ^ 24 + 1) ^ 2 * x.toNat * T < 2 ^ 87 * ((x.toNat + 1) * T) := by
        rw [← Nat.mul_assoc (2 ^ 87)]
        exact Nat.mul_lt_mul_of_pos_right (by omega) hT
      have := lt_of_le_of_lt up this
      rw [Nat.mul_comm] at this
      exact Nat.lt_of_mul_lt_mul_left this
    have lo' : (x.toNat - 1) * T ≤ g.m := by
      have : 2 ^ 87 * ((x.toNat - 1) * T) ≤ 65535 * 8388736 * (2 ^ 24 - 1) ^ 2 * x.toNat * T := by
        rw [← Nat.mul_assoc (2 ^ 87)]
        exact Nat.mul_le_mul_right _ (by omega)
      have := le_trans this lo
      rw [Nat.mul_comm g.m] at this
      exact Nat.le_of_mul_le_mul_left this (by positivity)
    have d1 : x.toNat - 1 ≤ g.m / T := (Nat.le_div_iff_mul_le hT).2 lo'
    have d2 : g.m / T < x.toNat + 1 := (Nat.div_lt_iff_lt_mul hT).2 up'
    have : min 65535 (g.m / T) = x.toNat ∨ min 65535 (g.m / T) + 1 = x.toNat := by omega
    rcases this with h | h
    · left; rw [h]; simp
    · right
      rw [UInt16.toNat_ofNat', Nat.mod_eq_of_lt (by omega)]
      exact h

/-- **C30** (16 to float to 16).  Converting any 16 bit image to `f32` and back succeeds and gives an image of the same shape in
    which every sample is unchanged or one lower.  Missing: unchanged, which is false (`c30_16_f32_16_false`). -/
theorem c30_16_f32_16_partial (cs : List (List UInt16)) :
    ∃ f : UInt16 → UInt16, (∀ x, f x = x ∨ (f x).toNat + 1 = x.toNat) ∧
      (execute .float32 (image16 cs)).bind (execute .sixteen) = some (image16 (cs.map (List.map f))) := by
  refine ⟨fun x => f32ToU16 (u16ToF32 x), back_16_f32, ?_⟩
  rw [execute_map (i := image16 cs) (dst := .float32) (by simp [image16])
    (g := fun s => match s with
      | .u16 l => .f32 (l.map u16ToF32)
      | s => s), Option.bind_some, execute_map (dst := .sixteen) (by simp)
    (g := fun s => match s with
      | .f32 l => .u16 (l.map f32ToU16)
      | s => s)]
  · simp only [image16, List.map_map, Option.some.injEq, Image.mk.injEq, true_and]
    apply List.map_congr_left
    intro l _
    simp only [Function.comp, List.map_map]
    rfl
  · intro c hc
    simp only [image16, List.map_map, List.mem_map] at hc
    obtain ⟨l, _, rfl⟩ := hc
    rfl
  · intro c hc
    obtain ⟨l, _, rfl⟩ := List.mem_map.1 hc
    rfl

example : f32ToU16 (u16ToF32 65535) = 65535 ∧ f32ToU16 (u16ToF32 257) = 256 ∧ f32ToU16 (u16ToF32 12345) = 12345 := by
  decide +kernel

/-- **C30** (8 to float to 16).  Going through `f32` gives the same 16 bit image as the direct conversion. -/
theorem c30_8_f32_16 (x : UInt8) : f32ToU16 (u8ToF32 x) = u8ToU16 65535 x := by
  rw [table_8_f32_16, table_8_16]

example : f32ToU16 (u8ToF32 200) = 51400 := by decide +kernel

end Zune.Depth
