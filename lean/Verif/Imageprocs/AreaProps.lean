/- Properties C78 (padding and neighbourhood statistics) and C79 (median filter). -/
import Verif.Imageprocs.Median

namespace Zune.Imageprocs
variable {α : Type}

/-! ### C78 -/

/-- **C78**: padding with `Replicate` continues the picture by its border samples: sample (Y, X) of the result is sample (Y - padY, X - padX) of the
    continued picture, corners included. -/
theorem c78_pad_replicate (d : α) {w h : Nat} {l : List α} (hw : 0 < w) (hh : 0 < h) (hl : l.length = w * h) (px py : Nat) :
    ∃ out, padReplicate d l w h px py = some out ∧ out.length = (w + px * 2) * (h + py * 2) ∧
      ∀ Y < h + py * 2, ∀ X < w + px * 2, out[Y * (w + px * 2) + X]? = ext l w h ((Y : Int) - py) ((X : Int) - px) := by
  obtain ⟨out, h1, h2, h3⟩ := padReplicate_spec d hw hh hl px py
  refine ⟨out, h1, by rw [h2, Nat.mul_comm], fun Y hY X hX => ?_⟩
  rw [h3 Y hY X hX]
  unfold ext
  have e1 : (max 0 (min ((Y : Int) - py) (h - 1))).toNat = min (Y - py) (h - 1) := by omega
  have e2 : (max 0 (min ((X : Int) - px) (w - 1))).toNat = min (X - px) (w - 1) := by omega
  rw [e1, e2]

example : padReplicate 0 [1, 2, 3, 4, 5, 6] 3 2 2 1 =
    some [1, 1, 1, 2, 3, 3, 3, 1, 1, 1, 2, 3, 3, 3, 4, 4, 4, 5, 6, 6, 6, 4, 4, 4, 5, 6, 6, 6] := by decide

/-- **C78**: padding with `Constant` puts the picture in the middle and the default value around it. -/
theorem c78_pad_constant (d : α) {w h : Nat} {l : List α} (hw : 0 < w) (hl : l.length = w * h) (px py : Nat) :
    ∃ out, padConstant d l w h px py = some out ∧ out.length = (w + px * 2) * (h + py * 2) ∧
      ∀ Y < h + py * 2, ∀ X < w + px * 2, out[Y * (w + px * 2) + X]? =
        if py ≤ Y ∧ Y < py + h ∧ px ≤ X ∧ X < px + w then l[(Y - py) * w + (X - px)]? else some d := by
  have hrow : ∀ y < h, (fillRow d px ((l.drop (y * w)).take w)).length = w + px * 2 := by
    intro y hy; simp only [fillRow, List.length_append, List.length_replicate, row_length hl hy]; omega
  have hc : padConstant d l w h px py = some (((List.range (h + py * 2)).map fun Y =>
      if py ≤ Y ∧ Y < py + h then fillRow d px ((l.drop ((Y - py) * w)).take w) else List.replicate (w + px * 2) d).flatten) := by
    unfold padConstant
    rw [if_neg (by omega)]
    simp only [replicate_mapIdx]
    congr 2
    apply List.map_congr_left
    intro Y _
    by_cases h1 : py ≤ Y ∧ Y < py + h
    · rw [if_pos h1, if_pos h1, chunksOf_get hw hl (by omega)]; rfl
    · rw [if_neg h1, if_neg h1]
  have hr : ∀ r ∈ (List.range (h + py * 2)).map (fun Y =>
      if py ≤ Y ∧ Y < py + h then fillRow d px ((l.drop ((Y - py) * w)).take w) else List.replicate (w + px * 2) d), r.length = w + px * 2 := by
    intro r hr
    obtain ⟨Y, _, rfl⟩ := List.mem_map.1 hr
    by_cases h1 : py ≤ Y ∧ Y < py + h
    · rw [if_pos h1, hrow _ (by omega)]
    · rw [if_neg h1, List.length_replicate]
  refine ⟨_, hc, by rw [rows_length hr, List.length_map, List.length_range, Nat.mul_comm], fun Y hY X hX => ?_⟩
  rw [rows_get hr hX, List.getElem?_map, List.getElem?_range hY, Option.map_some, Option.bind_some]
  by_cases h1 : py ≤ Y ∧ Y < py + h
  · have hlen := row_length hl (show Y - py < h by omega)
    rw [if_pos h1, fillRow]
    by_cases h2 : X < px
    · rw [if_neg (by omega), List.append_assoc, List.getElem?_append_left (by simpa using h2), List.getElem?_replicate_of_lt h2]
    · by_cases h3 : X < px + w
      · rw [if_pos ⟨h1.1, h1.2, by omega, h3⟩, List.getElem?_append_left (by rw [List.length_append, hlen, List.length_replicate]; omega),
          List.getElem?_append_right (by rw [List.length_replicate]; omega), List.length_replicate, row_get _ (by omega)]
      · rw [if_neg (by omega), List.getElem?_append_right (by rw [List.length_append, hlen, List.length_replicate]; omega),
          List.length_append, hlen, List.length_replicate, List.getElem?_replicate_of_lt (by omega)]
  · rw [if_neg h1, if_neg (by omega), List.getElem?_replicate_of_lt hX]

example : padConstant 0 [1, 2, 3, 4, 5, 6] 3 2 1 1 = some [0, 0, 0, 0, 0, 0, 1, 2, 3, 0, 0, 4, 5, 6, 0, 0, 0, 0, 0, 0] := by decide

/-- Neighbourhood statistic of a channel: every output sample is the function of the neighbours of the input sample. -/
theorem spatialChannel_spec {bits w h r : Nat} {l : List Nat} (hw : 0 < w) (hh : 0 < h) (hl : l.length = w * h) (op : SpatialOp) :
    ∃ res, spatialChannel bits op l r w h = some res ∧ res.length = w * h ∧
      ∀ y < h, ∀ x < w, (neighbours l w h r y x).length = (2 * r + 1) * (2 * r + 1) ∧ res[y * w + x]? = some (op.fn bits (neighbours l w h r y x)) := by
  obtain ⟨p, h1, h2, h3⟩ := padReplicate_spec 0 hw hh hl r r
  have h2' : p.length = (r * 2 + h) * (r * 2 + w) := by rw [h2, Nat.add_comm h, Nat.add_comm w]
  obtain ⟨res, e1, e2, e3⟩ := spatialLoop_spec (f := fun (_ : Unit) win => some (op.fn bits win, ())) (padded := p)
    (out := List.replicate l.length 0) (st := ()) hw h2' (by simpa using hl) (I := fun _ _ => True)
    (V := fun y x => op.fn bits (neighbours l w h r y x)) trivial
    (fun y hy x hx s _ => ⟨(), by rw [around_eq hw hh h2' h3 hy hx], trivial⟩)
  refine ⟨res, ?_, e2, fun y hy x hx => ⟨neighbours_length hw hh h2' h3 hy hx, e3 y hy x hx⟩⟩
  unfold spatialChannel spatialOps
  rw [h1]; exact e1

/-- What the documentation of `SpatialOperations` says of each statistic but `Contrast`. -/
def IsStat (op : SpatialOp) (l : List Nat) (v : Nat) : Prop :=
  match op with
  | .maximum => IsMax l v
  | .minimum => IsMin l v
  | .gradient => ∃ a b, IsMax l a ∧ IsMin l b ∧ v = a - b
  | .mean => v = l.sum / l.length
  | .contrast => ∃ a b, IsMax l a ∧ IsMin l b ∧ (a + b = 0 ∨ v = (a - b) / (a + b))

/-- **C78 (partial: all but `Contrast`, see `c78_contrast_wrong`; the mean for windows whose sum fits in 32 bits)**: every output sample of
    the maximum, minimum, gradient and mean filters is that statistic of the (2r + 1)² neighbours of the input sample at the same place, where
    the picture is continued by its border.  Nothing panics. -/
theorem c78_statistic_partial {bits w h r : Nat} {l : List Nat} (hw : 0 < w) (hh : 0 < h) (hl : l.length = w * h) (hb : ∀ v ∈ l, v < 2 ^ bits)
    (op : SpatialOp) (hop : op ≠ .contrast) (hm : op = .mean → (2 * r + 1) * (2 * r + 1) * (2 ^ bits - 1) < 2 ^ 32) :
    ∃ res, spatialChannel bits op l r w h = some res ∧ res.length = w * h ∧
      ∀ y < h, ∀ x < w, ∃ v, res[y * w + x]? = some v ∧ (neighbours l w h r y x).length = (2 * r + 1) * (2 * r + 1) ∧
        IsStat op (neighbours l w h r y x) v := by
  obtain ⟨res, h1, h2, h3⟩ := spatialChannel_spec (bits := bits) (r := r) hw hh hl op
  refine ⟨res, h1, h2, fun y hy x hx => ?_⟩
  obtain ⟨hn, hv⟩ := h3 y hy x hx
  refine ⟨_, hv, hn, ?_⟩
  have hpos : 1 ≤ (2 * r + 1) * (2 * r + 1) := Nat.mul_pos (by omega) (by omega)
  have hne : neighbours l w h r y x ≠ [] := by intro e; rw [e] at hn; simp at hn
  have hb' : ∀ v ∈ neighbours l w h r y x, v < 2 ^ bits := fun v hv => hb v (neighbours_mem hv)
  generalize neighbours l w h r y x = N at *
  cases op with
  | contrast => exact absurd rfl hop
  | maximum => exact findMax_isMax hne
  | minimum => exact findMin_isMin hne hb'
  | gradient => exact ⟨_, _, findMax_isMax hne, findMin_isMin hne hb', rfl⟩
  | mean =>
    have hs := sum_le_mul N (2 ^ bits - 1) (fun v hv => by have := hb' v hv; omega)
    have hm := hm rfl
    rw [← hn] at hm
    show (N.sum % 2 ^ 32) / N.length % 2 ^ bits = N.sum / N.length
    rw [Nat.mod_eq_of_lt (show N.sum < 2 ^ 32 by omega), Nat.mod_eq_of_lt]
    have : N.sum / N.length ≤ 2 ^ bits - 1 := Nat.div_le_of_le_mul hs
    have : 0 < 2 ^ bits := Nat.two_pow_pos bits
    omega

example : spatialChannel 8 .mean [10, 20, 30, 40, 50, 60] 1 3 2 = some [23, 30, 36, 33, 40, 46] := by decide +kernel
example : (2 * 5 + 1) * (2 * 5 + 1) * (2 ^ 16 - 1) < 2 ^ 32 := by decide

/-- **C78 (negative, general)**: `Contrast` does not compute (max - min) / (max + min): it is zero on every picture all of whose
    samples are below half of the range.  (The divisor is one too large, so the quotient is below one.) -/
theorem c78_contrast_zero {bits w h r : Nat} {l : List Nat} (hw : 0 < w) (hh : 0 < h) (hl : l.length = w * h)
    (hb : ∀ v ∈ l, 2 * v + 1 < 2 ^ bits) :
    ∃ res, spatialChannel bits .contrast l r w h = some res ∧ ∀ y < h, ∀ x < w, res[y * w + x]? = some 0 := by
  obtain ⟨res, h1, h2, h3⟩ := spatialChannel_spec (bits := bits) (r := r) hw hh hl .contrast
  refine ⟨res, h1, fun y hy x hx => ?_⟩
  obtain ⟨hn, hv⟩ := h3 y hy x hx
  rw [hv]
  have hpos : 1 ≤ (2 * r + 1) * (2 * r + 1) := Nat.mul_pos (by omega) (by omega)
  have hne : neighbours l w h r y x ≠ [] := by intro e; rw [e] at hn; simp at hn
  have hb' : ∀ v ∈ neighbours l w h r y x, 2 * v + 1 < 2 ^ bits := fun v hv => hb v (neighbours_mem hv)
  generalize neighbours l w h r y x = N at *
  have hM := findMax_isMax hne
  have hm := findMin_isMin (bits := bits) hne (fun v hv => by have := hb' v hv; omega)
  have h5 := hb' _ hM.1
  have h6 := hM.2 _ hm.1
  show some (findContrast bits N) = some 0
  unfold findContrast
  simp only
  rw [Nat.mod_eq_of_lt (by omega), Nat.div_eq_of_lt (by omega)]

/-- **C78 (negative)**: the documented contrast of a sample of value 100 next to one of value 0 is 1, and the code gives 0; that
    of 255 next to 1 is 0 (254 / 256), and the code gives 254 because the sum wraps to 0. -/
theorem c78_contrast_wrong :
    spatialChannel 8 .contrast [0, 100] 1 2 1 = some [0, 0] ∧ ¬ IsStat .contrast (neighbours [0, 100] 2 1 1 0 0) 0 ∧
    spatialChannel 8 .contrast [1, 255] 1 2 1 = some [254, 254] ∧ ¬ IsStat .contrast (neighbours [1, 255] 2 1 1 0 0) 254 := by
  refine ⟨by decide +kernel, ?_, by decide +kernel, ?_⟩
  · rintro ⟨a, b, ha, hb, h⟩
    have h1 : IsMax (neighbours [0, 100] 2 1 1 0 0) 100 := by unfold IsMax; decide +kernel
    have h2 : IsMin (neighbours [0, 100] 2 1 1 0 0) 0 := by unfold IsMin; decide +kernel
    rw [ha.unique h1, hb.unique h2] at h
    omega
  · rintro ⟨a, b, ha, hb, h⟩
    have h1 : IsMax (neighbours [1, 255] 2 1 1 0 0) 255 := by unfold IsMax; decide +kernel
    have h2 : IsMin (neighbours [1, 255] 2 1 1 0 0) 1 := by unfold IsMin; decide +kernel
    rw [ha.unique h1, hb.unique h2] at h
    omega

/-! ### C79 -/

/-- **C79 (partial: the code takes the sample one place below the median, see `c79_not_median`, and does nothing for a radius of one)**:
    for a radius of at least two the running histogram is that of the window at every position, nothing panics, and every output sample is the element at
    place (2r + 1)²/2 - 1, counted from zero, of the sorted neighbours of the input sample. -/
theorem c79_rank_partial {bits w h r : Nat} {l : List Nat} (hw : 0 < w) (hh : 0 < h) (hl : l.length = w * h) (hb : ∀ v ∈ l, v < 2 ^ bits) (hr : 2 ≤ r) :
    ∃ res, medianChannel bits l r w h = some res ∧ res.length = w * h ∧
      ∀ y < h, ∀ x < w, ∃ v, res[y * w + x]? = some v ∧ (neighbours l w h r y x).length = (2 * r + 1) * (2 * r + 1) ∧
        IsRank (neighbours l w h r y x) ((2 * r + 1) * (2 * r + 1) / 2 - 1) v := by
  obtain ⟨p, h1, h2, h3⟩ := padReplicate_spec 0 hw hh hl r r
  have h2' : p.length = (r * 2 + h) * (r * 2 + w) := by rw [h2, Nat.add_comm h, Nat.add_comm w]
  have hbp : ∀ v ∈ p, v < 2 ^ bits := by
    intro v hv
    obtain ⟨i, hi, rfl⟩ := List.mem_iff_getElem.1 hv
    have hW : 0 < w + r * 2 := by omega
    have hY : i / (w + r * 2) < h + r * 2 := Nat.div_lt_of_lt_mul (by rw [Nat.mul_comm]; rw [h2] at hi; exact hi)
    have := h3 _ hY _ (Nat.mod_lt i hW)
    rw [Nat.mul_comm, Nat.div_add_mod, List.getElem?_eq_getElem hi] at this
    exact hb _ (List.mem_of_getElem? this.symm)
  have hfit : ∀ y < h, ∀ x < w, ∀ k < 2 * r + 1, (y + k) * (r * 2 + w) + x + (2 * r + 1) ≤ p.length := by
    intro y hy x hx k hk; rw [h2']; exact fits hy hx hk
  have hlen : ∀ y < h, ∀ x < w, (around p (r * 2 + w) (2 * r + 1) y x).length = (2 * r + 1) * (2 * r + 1) :=
    fun y hy x hx => around_length (hfit y hy x hx)
  have hnn : 5 * 5 ≤ (2 * r + 1) * (2 * r + 1) := Nat.mul_le_mul (by omega) (by omega)
  obtain ⟨res, e1, e2, e3⟩ := spatialLoop_spec (f := medianStep bits (2 * r + 1) w) (padded := p)
    (out := List.replicate l.length 0) (st := ⟨List.replicate (2 ^ bits) 0, List.replicate (2 * r + 1) 0, 0⟩) hw h2' (by simpa using hl)
    (I := fun k st => st.counter = k ∧ st.dropped.length = 2 * r + 1 ∧ (k % w ≠ 0 →
      Hist bits st.hist (around p (r * 2 + w) (2 * r + 1) (k / w) (k % w - 1)) ∧ st.dropped = firstCol p (r * 2 + w) (2 * r + 1) (k / w) (k % w - 1)))
    (V := fun y x => ((neighbours l w h r y x).mergeSort (· ≤ ·))[(2 * r + 1) * (2 * r + 1) / 2 - 1]?.getD 0)
    ⟨rfl, by simp, fun hne => absurd (Nat.zero_mod w) hne⟩
    (by
      rintro y hy x hx st ⟨hc, hd, hs⟩
      have ek : (y * w + x) / w = y ∧ (y * w + x) % w = x := by
        rw [Nat.add_comm, Nat.add_mul_div_right _ _ hw, Nat.div_eq_of_lt hx, Nat.add_mul_mod_self_right, Nat.mod_eq_of_lt hx]; omega
      rw [ek.1, ek.2] at hs
      obtain ⟨v, st', f1, f2, f3, f4, f5⟩ := medianStep_spec (by omega) hx (hfit y hy x hx) hbp hc hd hs
      refine ⟨st', ?_, f3, by rw [f5]; simp [firstCol], ?_⟩
      · rw [around_eq hw hh h2' h3 hy hx] at f1 f2 ⊢
        have f2' := f2
        unfold IsRank at f2'
        rw [f1, f2']; rfl
      · intro hne
        have hx1 : x + 1 < w := by
          by_contra hcon
          have : x + 1 = w := by omega
          rw [Nat.add_assoc, this] at hne
          simp at hne
        have ek : (y * w + x + 1) / w = y ∧ (y * w + x + 1) % w = x + 1 := by
          rw [Nat.add_assoc, Nat.add_comm, Nat.add_mul_div_right _ _ hw, Nat.div_eq_of_lt hx1, Nat.add_mul_mod_self_right, Nat.mod_eq_of_lt hx1]; omega
        rw [ek.1, ek.2]
        exact ⟨f4, f5⟩)
  refine ⟨res, ?_, e2, fun y hy x hx => ⟨_, e3 y hy x hx, neighbours_length hw hh h2' h3 hy hx, ?_⟩⟩
  · unfold medianChannel median
    rw [if_neg (by omega), h1]; exact e1
  · unfold IsRank
    have : (2 * r + 1) * (2 * r + 1) / 2 - 1 < ((neighbours l w h r y x).mergeSort (· ≤ ·)).length := by
      rw [List.length_mergeSort, neighbours_length hw hh h2' h3 hy hx]; omega
    rw [List.getElem?_eq_getElem this]; rfl

/-- The 25 samples 0, …, 24. -/
def ramp : List Nat := List.range 25

example : ramp.length = 5 * 5 ∧ (∀ v ∈ ramp, v < 2 ^ 8) ∧ 2 ≤ 2 := by decide

/-- **C79 (negative)**: the output is not the median: for the 5 × 5 picture 0, …, 24 and radius 2 the sample in the middle is 11, and the median of its
    neighbours is 12. -/
theorem c79_not_median : (medianChannel 8 ramp 2 5 5).bind (·[12]?) = some 11 ∧ IsMedian (neighbours ramp 5 5 2 2 2) 12 := by
  constructor
  · decide +kernel
  · exact rank_of_count (by decide +kernel) (by decide +kernel)

/-- **C79**: the output is the median exactly when the two middle places of the sorted neighbours hold the same value. -/
theorem c79_median_iff {bits w h r : Nat} {l : List Nat} (hw : 0 < w) (hh : 0 < h) (hl : l.length = w * h) (hb : ∀ v ∈ l, v < 2 ^ bits) (hr : 2 ≤ r)
    {y x : Nat} (hy : y < h) (hx : x < w) :
    ∃ res v, medianChannel bits l r w h = some res ∧ res[y * w + x]? = some v ∧
      ∀ m, IsMedian (neighbours l w h r y x) m → (v = m ↔ IsRank (neighbours l w h r y x) ((2 * r + 1) * (2 * r + 1) / 2 - 1) m) := by
  obtain ⟨res, h1, _, h3⟩ := c79_rank_partial hw hh hl hb hr
  obtain ⟨v, hv, hn, hk⟩ := h3 y hy x hx
  exact ⟨res, v, h1, hv, fun m _ => ⟨fun e => e ▸ hk, fun hm => hk.unique hm⟩⟩

/-- **C79 (negative, general)**: with a radius of one, a search window of three by three, the filter does nothing to any picture. -/
theorem c79_radius_one (bits : Nat) (l : List Nat) (w h : Nat) : medianChannel bits l 1 w h = some l := rfl

/-- … though the median of the neighbours may be another value than the sample. -/
theorem c79_radius_one_wrong : IsMedian (neighbours [0, 0, 0, 0, 9, 0, 0, 0, 0] 3 3 1 1 1) 0 := rank_of_count (by decide +kernel) (by decide +kernel)

end Zune.Imageprocs
