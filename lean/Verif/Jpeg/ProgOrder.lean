import Mathlib.Data.List.Nodup
import Mathlib.Data.List.Range
import Verif.Jpeg.FrameModel
import Verif.Jpeg.ProgProps

/-!
# zune-jpeg: the blocks of a progressive scan

Model of the loops that choose the blocks of a scan in `parse_entropy_coded_data`
(`crates/zune-jpeg/src/mcu_prog.rs`), and properties.  A block is named by its component and its
place in the buffer of the component, in blocks.
-/

namespace Zune.Jpeg

/-! ## Model -/

/-- `is_interleaved` (misc.rs:226-230). -/
def isInterleaved (fs : List Factor) : Bool := decide (hMax fs ≠ 1 ∨ vMax fs ≠ 1)

/-- `mcu_width` and `mcu_height` of a scan of one component (mcu_prog.rs:250-265), with `mcu_x` and
`mcu_y` (misc.rs:219-224). -/
def oneSize (width height : Nat) (fs : List Factor) (f : Factor) : Nat × Nat :=
  if f.v ≠ 1 ∨ f.h ≠ 1 ∨ isInterleaved fs = false then (divCeil width 8, divCeil height 8)
  else (divCeil width (hMax fs * 8), divCeil height (vMax fs * 8))

/-- The blocks of a scan of one component (mcu_prog.rs:267-273). -/
def oneOrder (c stride : Nat) (size : Nat × Nat) : List Addr :=
  (List.range size.2).flatMap fun i =>
    (List.range size.1).map fun j => (c, j + i * (stride / 8))

/-- A component of an interleaved scan: number, factors and `width_stride`. -/
structure McuComp where
  /-- Number. -/
  c : Nat
  /-- Factors. -/
  f : Factor
  /-- `width_stride`. -/
  stride : Nat

/-- The blocks of a component in one MCU (mcu_prog.rs:404-408). -/
def McuComp.blocks (m : McuComp) (i j : Nat) : List Addr :=
  (List.range m.f.v).flatMap fun v =>
    (List.range m.f.h).map fun h =>
      (m.c, (j * m.f.h + h) + (i * m.f.v + v) * m.stride / 8)

/-- The blocks of an interleaved scan (mcu_prog.rs:390-408). -/
def mcuOrder (comps : List McuComp) (mcuX mcuY : Nat) : List Addr :=
  (List.range mcuY).flatMap fun i =>
    (List.range mcuX).flatMap fun j => comps.flatMap fun m => m.blocks i j

/-! ## Lemmas -/

theorem nodup_flat {α β : Type} {l : List α} (hl : l.Nodup) {f : α → List β}
    (h1 : ∀ x ∈ l, (f x).Nodup) (h2 : ∀ x ∈ l, ∀ y ∈ l, ∀ b, b ∈ f x → b ∈ f y → x = y) :
    (l.flatMap f).Nodup := by
  rw [List.nodup_flatMap]
  refine ⟨h1, ?_⟩
  refine List.Pairwise.imp_of_mem ?_ hl
  intro x y hx hy hne
  exact fun b hb hb' => hne (h2 x hx y hy b hb hb')

theorem row_col {w a b c d : Nat} (ha : a < w) (hc : c < w) (h : a + b * w = c + d * w) :
    a = c ∧ b = d := by
  have h1 : (a + b * w) % w = (c + d * w) % w := by rw [h]
  rw [Nat.add_mul_mod_self_right, Nat.add_mul_mod_self_right, Nat.mod_eq_of_lt ha,
    Nat.mod_eq_of_lt hc] at h1
  refine ⟨h1, ?_⟩
  have : b * w = d * w := by omega
  exact Nat.eq_of_mul_eq_mul_right (by omega) this

theorem ceil_ceil (a b n : Nat) (hb : 0 < b) (hn : 0 < n) :
    divCeil (divCeil a b) n = divCeil a (b * n) := by
  unfold divCeil
  have e : a + b * n - 1 = a + b - 1 + b * (n - 1) := by
    obtain ⟨m, rfl⟩ : ∃ m, n = m + 1 := ⟨n - 1, by omega⟩
    rw [Nat.mul_succ, Nat.add_sub_cancel]
    omega
  rw [e, ← Nat.div_div_eq_div_mul, Nat.add_mul_div_left _ _ hb, Nat.add_sub_assoc hn]

theorem divCeil_mul (a b : Nat) (hb : 0 < b) : divCeil (a * b) b = a := by
  unfold divCeil
  rw [show a * b + b - 1 = b - 1 + a * b by omega, Nat.add_mul_div_right _ _ hb,
    Nat.div_eq_of_lt (by omega), Nat.zero_add]

theorem divCeil_mono {a b : Nat} (n : Nat) (h : a ≤ b) : divCeil a n ≤ divCeil b n :=
  Nat.div_le_div_right (by omega)

theorem mul_add_inj {h a b c d : Nat} (hb : b < h) (hd : d < h) (e : a * h + b = c * h + d) :
    a = c ∧ b = d := by
  have := row_col hb hd (show b + a * h = d + c * h by omega)
  exact ⟨this.2, this.1⟩

theorem mul_add_lt {a b h n : Nat} (ha : a < n) (hb : b < h) : a * h + b < n * h := by
  calc a * h + b < a * h + h := by omega
    _ = (a + 1) * h := by rw [Nat.succ_mul]
    _ ≤ n * h := Nat.mul_le_mul_right _ ha

theorem place (y s : Nat) : y * (8 * s) / 8 = y * s := by
  rw [show y * (8 * s) = 8 * (y * s) by rw [← Nat.mul_assoc, ← Nat.mul_assoc, Nat.mul_comm y 8],
    Nat.mul_div_cancel_left _ (by omega)]

/-! ## Specification -/

/-- Numbers of blocks of a component across and down (T.81, A.1.1 and A.2.2): a component with the
factors `f` has `⌈X·H/Hmax⌉` by `⌈Y·V/Vmax⌉` samples, and its blocks have 8 by 8. -/
def blocksAcross (width : Nat) (fs : List Factor) (f : Factor) : Nat :=
  divCeil (divCeil (width * f.h) (hMax fs)) 8

/-- Number of blocks down. -/
def blocksDown (height : Nat) (fs : List Factor) (f : Factor) : Nat :=
  divCeil (divCeil (height * f.v) (vMax fs)) 8

theorem foldl_max_ge {α : Type} (g : α → Nat) (fs : List α) (m : Nat) :
    m ≤ fs.foldl (fun m f => max m (g f)) m := by
  induction fs generalizing m with
  | nil => exact le_refl m
  | cons f fs ih => exact le_trans (le_max_left _ _) (ih _)

theorem hMax_pos (fs : List Factor) : 1 ≤ hMax fs := foldl_max_ge Factor.h fs 1

theorem vMax_pos (fs : List Factor) : 1 ≤ vMax fs := foldl_max_ge Factor.v fs 1

/-! ## Theorems -/

/-- **C70** (in part) A scan of one component has the blocks of that component, for components with
the largest factors and for those with factors 1 and 1.  Missing: other components, for which the
numbers are wrong (`c70_too_wide`, `c70_too_tall`). -/
theorem c70_size_partial (width height : Nat) (fs : List Factor) (f : Factor)
    (h : (f.h = hMax fs ∧ f.v = vMax fs) ∨ (f.h = 1 ∧ f.v = 1)) :
    oneSize width height fs f = (blocksAcross width fs f, blocksDown height fs f) := by
  have h1 := hMax_pos fs
  have h2 := vMax_pos fs
  unfold oneSize blocksAcross blocksDown
  by_cases hc : f.v ≠ 1 ∨ f.h ≠ 1 ∨ isInterleaved fs = false
  · rw [if_pos hc]
    have hm : f.h = hMax fs ∧ f.v = vMax fs := by
      rcases h with h | h
      · exact h
      · rcases hc with hc | hc | hc
        · exact absurd h.2 hc
        · exact absurd h.1 hc
        · have : ¬ (hMax fs ≠ 1 ∨ vMax fs ≠ 1) := by simpa [isInterleaved] using hc
          omega
    rw [hm.1, hm.2, divCeil_mul _ _ h1, divCeil_mul _ _ h2]
  · rw [if_neg hc]
    have hv : f.v = 1 := by omega
    have hh : f.h = 1 := by omega
    rw [hv, hh, Nat.mul_one, Nat.mul_one, ceil_ceil _ _ _ h1 (by omega),
      ceil_ceil _ _ _ h2 (by omega)]

example : oneSize 100 50 [⟨2, 2⟩, ⟨1, 1⟩] ⟨1, 1⟩ = (7, 4) ∧
    oneSize 100 50 [⟨2, 2⟩, ⟨1, 1⟩] ⟨2, 2⟩ = (13, 7) := by decide

/-- **C70** For a component with fewer samples across than the image, other than 1 by 1, the decoder
takes too many blocks in each row. -/
theorem c70_too_wide (width height : Nat) (fs : List Factor) (f : Factor)
    (hf : f.v ≠ 1 ∨ f.h ≠ 1) (hh : 2 * f.h ≤ hMax fs) (hw : 8 < width) :
    blocksAcross width fs f < (oneSize width height fs f).1 := by
  have h1 := hMax_pos fs
  unfold oneSize blocksAcross
  rw [if_pos (by tauto)]
  have h2 : divCeil (width * f.h) (hMax fs) ≤ divCeil width 2 := by
    unfold divCeil
    rw [Nat.div_le_iff_le_mul_add_pred h1]
    have e1 : width ≤ 2 * ((width + 2 - 1) / 2) := by omega
    generalize (width + 2 - 1) / 2 = q at *
    have e2 : width * f.h ≤ hMax fs * q := by
      calc width * f.h ≤ 2 * q * f.h := Nat.mul_le_mul_right _ e1
        _ = 2 * f.h * q := by ring
        _ ≤ hMax fs * q := Nat.mul_le_mul_right _ hh
    omega
  refine lt_of_le_of_lt (divCeil_mono 8 h2) ?_
  unfold divCeil
  omega

example : blocksAcross 100 [⟨2, 2⟩, ⟨1, 2⟩] ⟨1, 2⟩ = 7 ∧
    (oneSize 100 50 [⟨2, 2⟩, ⟨1, 2⟩] ⟨1, 2⟩).1 = 13 := by decide

/-- **C70** For a component with fewer samples down than the image, other than 1 by 1, the decoder
takes too many rows of blocks. -/
theorem c70_too_tall (width height : Nat) (fs : List Factor) (f : Factor)
    (hf : f.v ≠ 1 ∨ f.h ≠ 1) (hh : 2 * f.v ≤ vMax fs) (hw : 8 < height) :
    blocksDown height fs f < (oneSize width height fs f).2 := by
  have h1 := vMax_pos fs
  unfold oneSize blocksDown
  rw [if_pos (by tauto)]
  have h2 : divCeil (height * f.v) (vMax fs) ≤ divCeil height 2 := by
    unfold divCeil
    rw [Nat.div_le_iff_le_mul_add_pred h1]
    have e1 : height ≤ 2 * ((height + 2 - 1) / 2) := by omega
    generalize (height + 2 - 1) / 2 = q at *
    have e2 : height * f.v ≤ vMax fs * q := by
      calc height * f.v ≤ 2 * q * f.v := Nat.mul_le_mul_right _ e1
        _ = 2 * f.v * q := by ring
        _ ≤ vMax fs * q := Nat.mul_le_mul_right _ hh
    omega
  refine lt_of_le_of_lt (divCeil_mono 8 h2) ?_
  unfold divCeil
  omega

example : blocksDown 50 [⟨2, 2⟩, ⟨2, 1⟩] ⟨2, 1⟩ = 4 ∧
    (oneSize 100 50 [⟨2, 2⟩, ⟨2, 1⟩] ⟨2, 1⟩).2 = 7 := by decide

/-- **C70** A scan of one component visits the blocks row by row, each row from left to right, and
none twice, if a row has room for them. -/
theorem c70_one (c stride : Nat) (size : Nat × Nat) (h : size.1 ≤ stride / 8) :
    (oneOrder c stride size).Nodup ∧ (oneOrder c stride size).length = size.1 * size.2 ∧
    ∀ i j, i < size.2 → j < size.1 →
      (oneOrder c stride size)[i * size.1 + j]? = some (c, i * (stride / 8) + j) := by
  refine ⟨?_, ?_, ?_⟩
  · refine nodup_flat List.nodup_range ?_ ?_
    · intro i _
      refine List.Nodup.map_on ?_ List.nodup_range
      intro a _ b _ hab
      simp only [Prod.mk.injEq, true_and] at hab
      omega
    · intro x _ y _ b hb hb'
      obtain ⟨j, hj, rfl⟩ := List.mem_map.1 hb
      obtain ⟨k, hk, he⟩ := List.mem_map.1 hb'
      rw [List.mem_range] at hj hk
      simp only [Prod.mk.injEq, true_and] at he
      exact ((row_col (by omega) (by omega) he).2).symm
  · simp [oneOrder, List.length_flatMap, Nat.mul_comm]
  · intro i j hi hj
    unfold oneOrder
    generalize size.2 = n at hi
    induction n with
    | zero => omega
    | succ n ih =>
      rw [List.range_succ, List.flatMap_append]
      have hl : ((List.range n).flatMap fun i =>
          (List.range size.1).map fun j => (c, j + i * (stride / 8))).length = n * size.1 := by
        simp [List.length_flatMap]
      by_cases hin : i < n
      · rw [List.getElem?_append_left (by rw [hl]; exact mul_add_lt hin hj)]
        exact ih hin
      · obtain rfl : i = n := by omega
        rw [List.getElem?_append_right (by rw [hl]; omega), hl,
          show i * size.1 + j - i * size.1 = j by omega]
        simp only [List.flatMap_cons, List.flatMap_nil, List.append_nil]
        rw [List.getElem?_map, List.getElem?_range hj]
        simp only [Option.map_some, Option.some.injEq, Prod.mk.injEq, true_and]
        omega

example : oneOrder 1 32 (3, 2) = [(1, 0), (1, 1), (1, 2), (1, 4), (1, 5), (1, 6)] := by decide

/-- **C70** An interleaved scan visits every block of each of its components (`mcuX·H` across and
`mcuY·V` down) exactly once, and no others, if the rows of the buffers are as long as that. -/
theorem c70_interleaved (comps : List McuComp) (mcuX mcuY : Nat) (hn : (comps.map McuComp.c).Nodup)
    (hs : ∀ m ∈ comps, m.stride = 8 * (mcuX * m.f.h)) :
    (mcuOrder comps mcuX mcuY).Nodup ∧
    ∀ a : Addr, a ∈ mcuOrder comps mcuX mcuY ↔
      ∃ m ∈ comps, a.1 = m.c ∧ a.2 < mcuX * m.f.h * (mcuY * m.f.v) := by
  have hmem : ∀ m ∈ comps, ∀ i j, j < mcuX → ∀ a : Addr, a ∈ m.blocks i j ↔ a.1 = m.c ∧
      ∃ v < m.f.v, ∃ h < m.f.h, a.2 = (j * m.f.h + h) + (i * m.f.v + v) * (mcuX * m.f.h) := by
    intro m hm i j _ a
    unfold McuComp.blocks
    simp only [List.mem_flatMap, List.mem_map, List.mem_range, hs m hm, place]
    constructor
    · rintro ⟨v, hv, h, hh, rfl⟩
      exact ⟨rfl, v, hv, h, hh, rfl⟩
    · rintro ⟨h1, v, hv, h, hh, h2⟩
      exact ⟨v, hv, h, hh, by rw [← h1, ← h2]⟩
  -- a place determines the MCU and the block in it
  have hinj : ∀ m ∈ comps, ∀ i j i' j' a, j < mcuX → j' < mcuX → a ∈ m.blocks i j →
      a ∈ m.blocks i' j' → i = i' ∧ j = j' := by
    intro m hm i j i' j' a hj hj' ha ha'
    obtain ⟨_, v, hv, h, hh, e⟩ := (hmem m hm i j hj a).1 ha
    obtain ⟨_, v', hv', h', hh', e'⟩ := (hmem m hm i' j' hj' a).1 ha'
    obtain ⟨e1, e2⟩ := row_col (mul_add_lt hj hh) (mul_add_lt hj' hh') (e.symm.trans e')
    exact ⟨(mul_add_inj hv hv' e2).1, (mul_add_inj hh hh' e1).1⟩
  have hcomp : ∀ m ∈ comps, ∀ m' ∈ comps, m.c = m'.c → m = m' := fun m hm m' hm' h =>
    List.inj_on_of_nodup_map hn hm hm' h
  have hfst : ∀ m i j a, a ∈ McuComp.blocks m i j → a.1 = m.c := by
    intro m i j a ha
    unfold McuComp.blocks at ha
    simp only [List.mem_flatMap, List.mem_map] at ha
    obtain ⟨v, _, h, _, rfl⟩ := ha
    rfl
  refine ⟨?_, fun a => ?_⟩
  · refine nodup_flat List.nodup_range ?_ ?_
    · intro i _
      refine nodup_flat List.nodup_range ?_ ?_
      · intro j hj
        rw [List.mem_range] at hj
        refine nodup_flat (List.Nodup.of_map _ hn) ?_ ?_
        · intro m hm
          refine nodup_flat List.nodup_range ?_ ?_
          · intro v _
            refine List.Nodup.map_on ?_ List.nodup_range
            intro a _ b _ hab
            simp only [Prod.mk.injEq, true_and] at hab
            omega
          · intro v _ v' _ b hb hb'
            rw [hs m hm] at hb hb'
            obtain ⟨h, hh, rfl⟩ := List.mem_map.1 hb
            obtain ⟨h', hh', he⟩ := List.mem_map.1 hb'
            rw [List.mem_range] at hh hh'
            simp only [Prod.mk.injEq, true_and, place] at he
            have := (row_col (mul_add_lt hj hh') (mul_add_lt hj hh) he).2
            omega
        · intro m hm m' hm' b hb hb'
          exact hcomp m hm m' hm' ((hfst m i j b hb).symm.trans (hfst m' i j b hb'))
      · intro j hj j' hj' b hb hb'
        rw [List.mem_range] at hj hj'
        obtain ⟨m, hm, hb⟩ := List.mem_flatMap.1 hb
        obtain ⟨m', hm', hb'⟩ := List.mem_flatMap.1 hb'
        obtain rfl := hcomp m hm m' hm' ((hfst m i j b hb).symm.trans (hfst m' i j' b hb'))
        exact (hinj m hm i j i j' b hj hj' hb hb').2
    · intro i _ i' _ b hb hb'
      obtain ⟨j, hj, hb⟩ := List.mem_flatMap.1 hb
      obtain ⟨j', hj', hb'⟩ := List.mem_flatMap.1 hb'
      rw [List.mem_range] at hj hj'
      obtain ⟨m, hm, hb⟩ := List.mem_flatMap.1 hb
      obtain ⟨m', hm', hb'⟩ := List.mem_flatMap.1 hb'
      obtain rfl := hcomp m hm m' hm' ((hfst m i j b hb).symm.trans (hfst m' i' j' b hb'))
      exact (hinj m hm i j i' j' b hj hj' hb hb').1
  · unfold mcuOrder
    simp only [List.mem_flatMap, List.mem_range]
    constructor
    · rintro ⟨i, hi, j, hj, m, hm, ha⟩
      obtain ⟨h1, v, hv, h, hh, e⟩ := (hmem m hm i j hj a).1 ha
      refine ⟨m, hm, h1, ?_⟩
      rw [e]
      have e1 := mul_add_lt hj hh
      have e2 := mul_add_lt hi hv
      have := mul_add_lt e2 e1
      rw [Nat.mul_comm (mcuX * m.f.h)]
      omega
    · rintro ⟨m, hm, h1, h2⟩
      have hW : 0 < mcuX * m.f.h := Nat.pos_of_ne_zero fun h0 => by rw [h0] at h2; omega
      have hh : 0 < m.f.h := Nat.pos_of_ne_zero fun h0 => by rw [h0] at hW; omega
      have hy : a.2 / (mcuX * m.f.h) < mcuY * m.f.v := Nat.div_lt_of_lt_mul h2
      have hv : 0 < m.f.v := Nat.pos_of_ne_zero fun h0 => by
        rw [h0, Nat.mul_zero] at hy
        exact Nat.not_lt_zero _ hy
      have hx : a.2 % (mcuX * m.f.h) < mcuX * m.f.h := Nat.mod_lt _ hW
      have e0 := Nat.mod_add_div a.2 (mcuX * m.f.h)
      generalize hX : a.2 % (mcuX * m.f.h) = X at *
      generalize hY : a.2 / (mcuX * m.f.h) = Y at *
      have hj : X / m.f.h < mcuX := Nat.div_lt_of_lt_mul (by rw [Nat.mul_comm]; exact hx)
      refine ⟨Y / m.f.v, Nat.div_lt_of_lt_mul (by rw [Nat.mul_comm]; exact hy), X / m.f.h, hj, m, hm,
        (hmem m hm _ _ hj a).2 ⟨h1, Y % m.f.v, Nat.mod_lt _ hv, X % m.f.h, Nat.mod_lt _ hh, ?_⟩⟩
      rw [Nat.div_add_mod', Nat.div_add_mod', Nat.mul_comm Y]
      exact e0.symm

-- four blocks of luma and one of each chroma component in each of two MCUs.
example : mcuOrder [⟨0, ⟨2, 2⟩, 32⟩, ⟨1, ⟨1, 1⟩, 16⟩, ⟨2, ⟨1, 1⟩, 16⟩] 2 1 =
    [(0, 0), (0, 1), (0, 4), (0, 5), (1, 0), (2, 0), (0, 2), (0, 3), (0, 6), (0, 7), (1, 1),
      (2, 1)] := by decide

end Zune.Jpeg
