/- Properties C80 (box blur), C81 (mirror) and C82 (contrast stretch). -/
import Verif.Imageprocs.BoxBlur

namespace Zune.Imageprocs
variable {α : Type}

/-! ### C80 -/

/-- Column `x` of a picture whose rows have been blurred. -/
def blurredColumn (img : List Nat) (w h r x : Nat) : List Nat := (List.range h).map fun y => blurAt (rowOf img w y) r x

/-- **C80 (partial: the code takes the window around the sample to the right and below, and other sums in the last columns and rows, see
    `c80_shift_wrong`; odd windows that fit; sides of at least eight)**: the blurred picture is obtained by replacing every row by its window means and then
    every column.  Here `blurAt row r x` is the mean of the 2r + 1 samples around column x + 1 if x + r + 1 is inside of the row, and otherwise the mean
    of 2r + 1 samples near the end of the row.  Nothing wraps or panics. -/
theorem c80_blur_partial (checks : Bool) {bits w h r rw rh : Nat} {img : List Nat} (hw : 8 ≤ w) (hh : 8 ≤ h) (hi : img.length = w * h)
    (hb : ∀ v ∈ img, v < 2 ^ bits) (hr : 2 ≤ r) (h1 : 2 * rw + 1 = min (2 * boxRadius r + 1) w) (h2 : 2 * rh + 1 = min (2 * boxRadius r + 1) h)
    (hd1 : (2 * rw + 1) * (2 ^ bits - 1) < 2 ^ 32) (hd2 : (2 * rh + 1) * (2 ^ bits - 1) < 2 ^ 32) (hdw : w < 2 ^ 32) (hdh : h < 2 ^ 32) :
    ∃ res, boxBlurChannel checks bits img w h r = some res ∧ res.length = w * h ∧
      ∀ y < h, ∀ x < w, res[y * w + x]? = some (blurAt (blurredColumn img w h rw x) rh y) := by
  have hR : 3 ≤ boxRadius r := by unfold boxRadius; split <;> omega
  obtain ⟨s1, a1, a2, a3⟩ := boxInner_odd (bits := bits) (out := List.replicate (w * h) 0) h1 (by omega) hi (by simp) hb hd1 (by omega)
  obtain ⟨i1, b1, b2, b3⟩ := c33_transpose_partial checks 0 s1 img w h hw hh a2 hi
  have hrow : ∀ y < h, (rowOf img w y).length = w := fun y hy => row_length hi hy
  have hi1 : ∀ v ∈ i1, v < 2 ^ bits := by
    intro v hv
    obtain ⟨k, hk, rfl⟩ := List.mem_iff_getElem.1 hv
    rw [b2] at hk
    have hx : k / h < w := Nat.div_lt_of_lt_mul hk
    have hy : k % h < h := Nat.mod_lt _ (by omega)
    have e : k / h * h + k % h = k := by rw [Nat.mul_comm]; exact Nat.div_add_mod k h
    have := b3 _ hx _ hy
    rw [e, a3 _ hy _ hx, List.getElem?_eq_getElem (by rw [b2]; exact hk)] at this
    rw [Option.some.inj this]
    exact blurAt_lt (by rw [hrow _ hy]; omega) (fun v hv => hb v (List.mem_of_mem_drop (List.mem_of_mem_take hv))) (by rw [hrow _ hy]; exact hx)
  obtain ⟨s2, c1, c2, c3⟩ := boxInner_odd (bits := bits) (out := s1) h2 (by omega) b2 (by rw [a2, Nat.mul_comm]) hi1 hd2 (by omega)
  obtain ⟨res, d1, d2, d3⟩ := c33_transpose_partial checks 0 s2 i1 h w hh hw c2 b2
  have hcol : ∀ x < w, rowOf i1 h x = blurredColumn img w h rw x := by
    intro x hx
    apply List.ext_getElem?
    intro y
    by_cases hy : y < h
    · unfold rowOf blurredColumn
      rw [row_get _ hy, b3 x hx y hy, a3 y hy x hx, List.getElem?_map, List.getElem?_range hy]; rfl
    · rw [List.getElem?_eq_none (by unfold rowOf; rw [row_length b2 hx]; omega), List.getElem?_eq_none (by simp [blurredColumn]; omega)]
  refine ⟨res, ?_, d2, fun y hy x hx => ?_⟩
  · unfold boxBlurChannel boxBlur
    rw [if_neg (by omega)]
    simp only [a1, b1, c1, d1, Option.bind_eq_bind, Option.bind_some]
  · rw [d3 y hy x hx, c3 x hx y hy, hcol x hx]

example : 2 * 3 + 1 = min (2 * boxRadius 2 + 1) 8 ∧ 2 * 3 + 1 = min (2 * boxRadius 2 + 1) 9 ∧ (2 * 3 + 1) * (2 ^ 16 - 1) < 2 ^ 32 := by decide

theorem boxSum_const {row : List Nat} {c : Nat} (h : 0 < row.length) (hc : ∀ v ∈ row, v = c) (r : Nat) (x : Int) : boxSum row r x = (2 * r + 1) * c :=
  sum_const _ _ _ (fun _ _ => hc _ (sampleAt_mem h _))

theorem sum_all (c : Nat) : ∀ l : List Nat, (∀ v ∈ l, v = c) → l.sum = l.length * c
  | [], _ => by simp
  | a :: t, h => by
    rw [List.sum_cons, List.length_cons, sum_all c t (fun v hv => h v (by simp [hv])), h a (by simp), Nat.add_mul]; omega

theorem blurAt_const {row : List Nat} {c r x : Nat} (h : 2 * r + 1 ≤ row.length) (hc : ∀ v ∈ row, v = c) (hx : x < row.length) : blurAt row r x = c := by
  unfold blurAt
  split
  · unfold boxMean
    rw [boxSum_const (by omega) hc, Nat.mul_div_cancel_left _ (by omega)]
  · rename_i h1
    have hne : row ≠ [] := by intro e; subst e; simp at h
    have e : edgeSum row r x = (2 * r + 1) * c := by
      unfold edgeSum
      rw [sum_all c _ (fun v hv => hc v (List.mem_of_mem_drop (List.mem_of_mem_take hv))), sum_all c _ (fun v hv => hc v (List.mem_of_mem_drop hv)),
        List.getLastD_eq_getLast?, List.getLast?_eq_some_getLast hne, Option.getD_some, hc _ (List.getLast_mem hne), ← Nat.add_mul, ← Nat.add_mul,
        List.length_take, List.length_drop, List.length_drop]
      congr 1; omega
    rw [e, Nat.mul_div_cancel_left _ (by omega)]

/-- **C80**: under the same conditions a picture of one colour is not changed. -/
theorem c80_constant (checks : Bool) {bits w h r rw rh c : Nat} {img : List Nat} (hw : 8 ≤ w) (hh : 8 ≤ h) (hi : img.length = w * h)
    (hc : ∀ v ∈ img, v = c) (hb : c < 2 ^ bits) (hr : 2 ≤ r) (h1 : 2 * rw + 1 = min (2 * boxRadius r + 1) w) (h2 : 2 * rh + 1 = min (2 * boxRadius r + 1) h)
    (hd1 : (2 * rw + 1) * (2 ^ bits - 1) < 2 ^ 32) (hd2 : (2 * rh + 1) * (2 ^ bits - 1) < 2 ^ 32) (hdw : w < 2 ^ 32) (hdh : h < 2 ^ 32) :
    boxBlurChannel checks bits img w h r = some img := by
  obtain ⟨res, e1, e2, e3⟩ := c80_blur_partial checks hw hh hi (fun v hv => by rw [hc v hv]; exact hb) hr h1 h2 hd1 hd2 hdw hdh
  have hrow : ∀ y < h, (rowOf img w y).length = w := fun y hy => row_length hi hy
  rw [e1]
  congr 1
  refine image_ext e2 hi fun x hx y hy => ?_
  rw [e3 y hy x hx]
  have hk : y * w + x < img.length := by rw [hi]; exact rowcol_lt hx hy
  rw [List.getElem?_eq_getElem hk, hc _ (List.getElem_mem hk)]
  congr 1
  refine blurAt_const (by simp [blurredColumn]; omega) ?_ (by simp [blurredColumn]; exact hy)
  intro v hv
  obtain ⟨y', hy', rfl⟩ := List.mem_map.1 hv
  rw [List.mem_range] at hy'
  exact blurAt_const (by rw [hrow _ hy']; omega) (fun v hv => hc v (List.mem_of_mem_drop (List.mem_of_mem_take hv))) (by rw [hrow _ hy']; exact hx)

/-- **C80 (negative)**: the window is one sample too far to the right: the blurred row of a single bright sample is not the row of
    the window means, and near the right end it is not even the row of window means displaced by one. -/
theorem c80_shift_wrong :
    boxRow 8 3 [0, 0, 0, 90, 0, 0, 0] [0, 0, 0, 0, 0, 0, 0] = some [0, 30, 30, 30, 0, 0, 0] ∧
    (List.range 7).map (fun (x : Nat) => boxMean [0, 0, 0, 90, 0, 0, 0] 1 (x : Int)) = [0, 0, 30, 30, 30, 0, 0] ∧
    boxRow 8 3 [0, 0, 0, 0, 0, 90, 0] [0, 0, 0, 0, 0, 0, 0] = some [0, 0, 0, 30, 30, 0, 0] ∧
    (List.range 7).map (fun (x : Nat) => boxMean [0, 0, 0, 0, 0, 90, 0] 1 ((x : Int) + 1)) = [0, 0, 0, 30, 30, 30, 0] := by decide +kernel

theorem slideSums_length : ∀ (ps : List (Nat × Nat)) (acc : Nat), (slideSums acc ps).length = ps.length
  | [], _ => rfl
  | (a, s) :: t, acc => by rw [slideSums]; simp [slideSums_length t]

theorem boxRow_even {bits w : Nat} {row out : List Nat} (he : w % 2 = 0) (hw : 2 ≤ w) (hr : row.length = w) (ho : out.length = w) :
    ∃ res, boxRow bits w row out = some res ∧ res.length = w ∧ res[w / 2 - 1]? = out[w / 2 - 1]? := by
  have hne : row ≠ [] := by intro e; subst e; simp at hr; omega
  obtain ⟨a, ha⟩ : ∃ a, row.head? = some a := ⟨row.head hne, List.head?_eq_some_head hne⟩
  obtain ⟨z, hz⟩ : ∃ z, row.getLast? = some z := ⟨row.getLast hne, List.getLast?_eq_some_getLast hne⟩
  unfold boxRow
  simp only [ha, hz, Option.bind_eq_bind, Option.bind_some, show (w + 1) / 2 = w / 2 by omega]
  generalize hs1 : slideSums (((row.take (w / 2)).sum + (w / 2 - 1) * a) % 2 ^ 32) (((row.drop (w / 2)).take (w / 2 - 1)).map fun x => (x, a)) = s1
  generalize hs2 : slideSums (s1.getLastD (((row.take (w / 2)).sum + (w / 2 - 1) * a) % 2 ^ 32)) ((row.drop w).zip row) = s2
  generalize hs3 : slideSums (s2.getLastD (s1.getLastD (((row.take (w / 2)).sum + (w / 2 - 1) * a) % 2 ^ 32)))
    (((row.drop (row.length - w / 2)).take (w / 2)).map fun x => (z, x)) = s3
  have n1 : (s1.map (boxQuot bits w)).length = w / 2 - 1 := by rw [List.length_map, ← hs1, slideSums_length]; simp; omega
  have n2 : (s2.map (boxQuot bits w)).length = 0 := by rw [List.length_map, ← hs2, slideSums_length]; simp; omega
  have n3 : (s3.map (boxQuot bits w)).length = w / 2 := by rw [List.length_map, ← hs3, slideSums_length]; simp; omega
  have w1 : (writeFrom out 0 (s1.map (boxQuot bits w))).length = w := by rw [writeFrom_length (by omega), ho]
  have w2 : (writeFrom (writeFrom out 0 (s1.map (boxQuot bits w))) (w / 2 - 1) (s2.map (boxQuot bits w))).length = w := by
    rw [writeFrom_length (by omega), w1]
  refine ⟨_, rfl, by rw [writeFrom_length (by omega), w2], ?_⟩
  rw [writeFrom_get (by omega), if_neg (by omega), writeFrom_get (by omega), if_neg (by omega), writeFrom_get (by omega), if_neg (by omega)]

/-- **C80 (negative, general)**: if the width is even and less than the diameter, the pass over the rows never stores anything in the column left of
    the middle: it keeps what the scratch space held, which has nothing to do with the picture. -/
theorem c80_even_column {bits w h R : Nat} {img out : List Nat} (he : w % 2 = 0) (hw : 2 ≤ w) (hR : w < R * 2 + 1) (hi : img.length = w * h)
    (ho : out.length = w * h) :
    ∃ res, boxInner bits img out w R = some res ∧ ∀ y < h, res[y * w + (w / 2 - 1)]? = out[y * w + (w / 2 - 1)]? := by
  let F : Nat → List Nat := fun y => (boxRow bits w (rowOf img w y) (rowOf out w y)).getD []
  have hF : ∀ y < h, boxRow bits w (rowOf img w y) (rowOf out w y) = some (F y) ∧ (F y).length = w ∧
      (F y)[w / 2 - 1]? = (rowOf out w y)[w / 2 - 1]? := by
    intro y hy
    obtain ⟨res, a, b, c⟩ := boxRow_even (bits := bits) he hw (row_length hi hy) (row_length ho hy)
    have : F y = res := by show Option.getD _ _ = _; unfold rowOf; rw [a]; rfl
    rw [this]; exact ⟨a, b, c⟩
  have hm : ((chunksOf w img).zip (chunksOf w out)).mapM (fun p => boxRow bits w p.1 p.2) = some ((List.range h).map F) := by
    rw [chunksOf_zip (by omega) hi ho, List.mapM_map]
    exact mapM_some _ _ _ (fun y hy => (hF y (List.mem_range.1 hy)).1)
  have hrows : ∀ r ∈ (List.range h).map F, r.length = w := by
    intro r hr
    obtain ⟨y, hy, rfl⟩ := List.mem_map.1 hr
    exact (hF y (List.mem_range.1 hy)).2.1
  refine ⟨((List.range h).map F).flatten, ?_, ?_⟩
  · unfold boxInner
    rw [if_neg (by omega), show min (R * 2 + 1) w = w by omega, hm]
    simp only [Option.bind_eq_bind, Option.bind_some]
    show some _ = _
    rw [List.drop_eq_nil_of_le (by rw [ho, List.length_map, List.length_range, Nat.mul_comm]), List.append_nil]
  · intro y hy
    rw [rows_get hrows (by omega), List.getElem?_map, List.getElem?_range hy]
    exact (hF y hy).2.2.trans (row_get _ (by omega))

/-- **C80 (negative)**: a white 8 × 9 picture blurred with radius 5 gets a black column, and white becomes grey beside it. -/
theorem c80_even_wrong : ((boxBlurChannel false 8 (List.replicate 72 255) 8 9 5).map fun l => l.take 8) = some [223, 223, 223, 0, 223, 223, 223, 223] := by
  decide +kernel

/-- **C80 (negative, general)**: the pass over the rows of a picture of width one stores nothing at all. -/
theorem c80_width_one (bits : Nat) (img out : List Nat) (R : Nat) : boxInner bits img out 1 R = some out := by
  unfold boxInner; rw [if_pos (Or.inl (by omega))]

/-! ### C81 -/

theorem mirrorRow_length (mode : MirrorMode) {w : Nat} {row : List α} (h : row.length = w) : (mirrorRow mode w row).length = w := by
  cases mode <;> simp [mirrorRow, h] <;> omega

theorem mirrorRow_west {w : Nat} {row : List α} (h : row.length = w) {x : Nat} (hx : x < w) : (mirrorRow .west w row)[x]? = row[min x (w - 1 - x)]? := by
  have hl : (row.take (w / 2)).length = w / 2 := by rw [List.length_take]; omega
  have hr : (row.drop (w / 2)).length = w - w / 2 := by rw [List.length_drop]; omega
  unfold mirrorRow
  simp only
  rw [List.take_of_length_le (l := row.take (w / 2)) (by omega)]
  by_cases h1 : x < w / 2
  · rw [List.getElem?_append_left (by omega), List.getElem?_take_of_lt h1, show min x (w - 1 - x) = x by omega]
  · rw [List.getElem?_append_right (by omega), hl]
    have hL : (row.take (w / 2) ++ (row.drop (w / 2)).reverse.drop (w / 2)).length = w - w / 2 := by
      rw [List.length_append, hl, List.length_drop, List.length_reverse, hr]; omega
    rw [List.getElem?_reverse (by omega), hL]
    by_cases h2 : w - w / 2 - 1 - (x - w / 2) < w / 2
    · rw [List.getElem?_append_left (by omega), List.getElem?_take_of_lt h2]; congr 1; omega
    · rw [List.getElem?_append_right (by omega), hl, List.getElem?_drop, List.getElem?_reverse (by omega), hr, List.getElem?_drop]; congr 1; omega

theorem mirrorRow_east {w : Nat} {row : List α} (h : row.length = w) {x : Nat} (hx : x < w) : (mirrorRow .east w row)[x]? = row[max x (w - 1 - x)]? := by
  have hl : (row.take (w / 2)).length = w / 2 := by rw [List.length_take]; omega
  have hr : (row.drop (w / 2)).length = w - w / 2 := by rw [List.length_drop]; omega
  unfold mirrorRow
  simp only
  rw [hl, List.drop_eq_nil_of_le (as := row.take (w / 2)) (by omega), List.append_nil]
  have hL : ((row.drop (w / 2)).reverse.take (w / 2)).length = w / 2 := by rw [List.length_take, List.length_reverse, hr]; omega
  by_cases h1 : x < w / 2
  · rw [List.getElem?_append_left (by omega), List.getElem?_take_of_lt h1, List.getElem?_reverse (by omega), hr, List.getElem?_drop]; congr 1; omega
  · rw [List.getElem?_append_right (by omega), hL, List.getElem?_drop]; congr 1; omega

theorem mirror_rows {w h : Nat} {l : List α} (hw : 0 < w) (hl : l.length = w * h) {mode : MirrorMode} (hm : mode = .east ∨ mode = .west) :
    ∃ out, mirror l w h mode = some out ∧ out.length = w * h ∧ ∀ y < h, ∀ x < w, out[y * w + x]? = (mirrorRow mode w (rowOf l w y))[x]? := by
  have hrows : ∀ r ∈ (chunksOf w l).map (mirrorRow mode w), r.length = w := by
    intro r hr
    obtain ⟨c, hc, rfl⟩ := List.mem_map.1 hr
    exact mirrorRow_length mode (chunksOf_mem hw hl hc)
  refine ⟨((chunksOf w l).map (mirrorRow mode w)).flatten, ?_, ?_, ?_⟩
  · unfold mirror
    rw [if_neg (by omega), if_pos hm, List.drop_eq_nil_of_le (as := l) (by rw [hl, Nat.mul_div_cancel_left _ hw, Nat.mul_comm]), List.append_nil]
  · rw [rows_length hrows, List.length_map, chunksOf_rows hw hl, Nat.mul_comm]
  · intro y hy x hx
    rw [rows_get hrows hx, List.getElem?_map, chunksOf_get hw hl hy]; rfl

/-- **C81 (partial: `East` and `West` are exchanged)**: mirroring to the `West` keeps the left half and `East` keeps the right half.  According to the
    documentation of `MirrorMode` and of `mirror` it is the other way round. -/
theorem c81_east_west_partial {w h : Nat} {l : List α} (hw : 0 < w) (hl : l.length = w * h) :
    (∃ out, mirror l w h .west = some out ∧ out.length = w * h ∧ ∀ y < h, ∀ x < w, out[y * w + x]? = l[y * w + min x (w - 1 - x)]?) ∧
    (∃ out, mirror l w h .east = some out ∧ out.length = w * h ∧ ∀ y < h, ∀ x < w, out[y * w + x]? = l[y * w + max x (w - 1 - x)]?) := by
  constructor
  · obtain ⟨out, h1, h2, h3⟩ := mirror_rows hw hl (mode := .west) (Or.inr rfl)
    refine ⟨out, h1, h2, fun y hy x hx => ?_⟩
    exact (h3 y hy x hx).trans ((mirrorRow_west (row_length hl hy) hx).trans (row_get _ (by omega)))
  · obtain ⟨out, h1, h2, h3⟩ := mirror_rows hw hl (mode := .east) (Or.inl rfl)
    refine ⟨out, h1, h2, fun y hy x hx => ?_⟩
    exact (h3 y hy x hx).trans ((mirrorRow_east (row_length hl hy) hx).trans (row_get _ (by omega)))

/-- **C81 (negative)**: the picture `a b c d e` of the documentation. -/
theorem c81_east_wrong : mirror ['a', 'b', 'c', 'd', 'e'] 5 1 .east = some ['e', 'd', 'c', 'd', 'e'] ∧
    mirror ['a', 'b', 'c', 'd', 'e'] 5 1 .west = some ['a', 'b', 'c', 'b', 'a'] := by decide

/-- **C81 (negative, general)**: `East` is as documented (the left half is kept) only for pictures that are symmetric already. -/
theorem c81_east_iff {w h : Nat} {l : List α} (hw : 0 < w) (hl : l.length = w * h) :
    ∃ out, mirror l w h .east = some out ∧
      ((∀ y < h, ∀ x < w, out[y * w + x]? = l[y * w + min x (w - 1 - x)]?) ↔ ∀ y < h, ∀ x < w, l[y * w + x]? = l[y * w + (w - 1 - x)]?) := by
  obtain ⟨_, out, h1, _, h3⟩ := c81_east_west_partial hw hl
  refine ⟨out, h1, fun hs y hy x hx => ?_, fun hs y hy x hx => ?_⟩
  · have a := hs y hy x hx
    rw [h3 y hy x hx] at a
    rcases Nat.le_total x (w - 1 - x) with hle | hle
    · rw [max_eq_right hle, min_eq_left hle] at a; exact a.symm
    · rw [max_eq_left hle, min_eq_right hle] at a; exact a
  · rw [h3 y hy x hx]
    rcases Nat.le_total x (w - 1 - x) with hle | hle
    · rw [max_eq_right hle, min_eq_left hle]; exact (hs y hy x hx).symm
    · rw [max_eq_left hle, min_eq_right hle]; exact hs y hy x hx

theorem rchunksOf_eq {w n : Nat} {l : List α} (hw : 0 < w) (hl : l.length = w * n) : rchunksOf w l = (chunksOf w l).reverse := by
  apply List.ext_getElem?
  intro i
  have hc := chunksOf_rows hw hl
  have hr : (rchunksOf w l).length = n := by simp [rchunksOf, hl, Nat.mul_div_cancel_left _ hw]
  by_cases hi : i < n
  · rw [List.getElem?_reverse (by omega), hc, chunksOf_get hw hl (by omega), List.getElem?_eq_getElem (by omega)]
    simp only [rchunksOf, List.getElem_map, List.getElem_range]
    congr 3
    rw [hl, Nat.mul_comm w n, ← Nat.sub_mul]; congr 1; omega
  · rw [List.getElem?_eq_none (by omega), List.getElem?_eq_none (by rw [List.length_reverse]; omega)]

/-- **C81**: mirroring to the `North` keeps the upper half and `South` keeps the lower half; the row in the middle of an odd number of rows is kept. -/
theorem c81_north_south {w h : Nat} {l : List α} (hw : 0 < w) (hl : l.length = w * h) :
    (∃ out, mirror l w h .north = some out ∧ out.length = w * h ∧ ∀ y < h, ∀ x < w, out[y * w + x]? = l[min y (h - 1 - y) * w + x]?) ∧
    (∃ out, mirror l w h .south = some out ∧ out.length = w * h ∧ ∀ y < h, ∀ x < w, out[y * w + x]? = l[max y (h - 1 - y) * w + x]?) := by
  have hle : w * (h / 2) ≤ l.length := by rw [hl]; exact Nat.mul_le_mul_left w (by omega)
  have ht : (l.take (w * (h / 2))).length = w * (h / 2) := by rw [List.length_take]; omega
  have hb : (l.drop (w * (h / 2))).length = w * (h - h / 2) := by rw [List.length_drop, hl, Nat.mul_sub]
  have ct := chunksOf_rows hw ht
  have cb := chunksOf_rows hw hb
  have tget : ∀ y < h / 2, (chunksOf w (l.take (w * (h / 2))))[y]? = some (rowOf l w y) := by
    intro y hy
    rw [chunksOf_get hw ht hy]
    congr 1
    unfold rowOf
    rw [List.drop_take, List.take_take]
    congr 1
    have := row_bound (w := w) hy; omega
  have bget : ∀ y < h - h / 2, (chunksOf w (l.drop (w * (h / 2))))[y]? = some (rowOf l w (h / 2 + y)) := by
    intro y hy
    rw [chunksOf_get hw hb hy]
    unfold rowOf
    rw [List.drop_drop, Nat.add_mul, Nat.mul_comm w (h / 2)]
  have rowlen : ∀ y < h, (rowOf l w y).length = w := fun y hy => row_length hl hy
  have flat : ∀ {m : List α} {n : Nat}, m.length = w * n → m = (chunksOf w m).flatten := by
    intro m n hm
    refine image_ext (h := n) hm (by rw [rows_length (fun r hr => chunksOf_mem hw hm hr), chunksOf_rows hw hm, Nat.mul_comm]) fun x hx y hy => ?_
    rw [rows_get (fun r hr => chunksOf_mem hw hm hr) hx, chunksOf_get hw hm hy]
    exact (row_get _ hx).symm
  have fin : ∀ (rows : List (List α)) (g : Nat → Nat), rows.length = h → (∀ y < h, g y < h ∧ rows[y]? = some (rowOf l w (g y))) →
      rows.flatten.length = w * h ∧ ∀ y < h, ∀ x < w, rows.flatten[y * w + x]? = l[g y * w + x]? := by
    intro rows g hlen hg
    have hrows : ∀ r ∈ rows, r.length = w := by
      intro r hr
      obtain ⟨y, hy, rfl⟩ := List.mem_iff_getElem.1 hr
      have := (hg y (by omega)).2
      rw [List.getElem?_eq_getElem hy] at this
      rw [Option.some.inj this]; exact rowlen _ (hg y (by omega)).1
    refine ⟨by rw [rows_length hrows, hlen, Nat.mul_comm], fun y hy x hx => ?_⟩
    rw [rows_get hrows hx, (hg y hy).2]
    exact row_get _ hx
  have hR := rchunksOf_eq hw hb
  constructor
  · have hlen : (chunksOf w (l.take (w * (h / 2))) ++
        ((chunksOf w (l.take (w * (h / 2)))) ++ (chunksOf w (l.drop (w * (h / 2)))).reverse.drop (h / 2)).reverse).length = h := by
      simp [ct, cb]; omega
    obtain ⟨f1, f2⟩ := fin (chunksOf w (l.take (w * (h / 2))) ++
        ((chunksOf w (l.take (w * (h / 2)))) ++ (chunksOf w (l.drop (w * (h / 2)))).reverse.drop (h / 2)).reverse) (fun y => min y (h - 1 - y)) hlen
      (by
        intro y hy
        refine ⟨by omega, ?_⟩
        by_cases h1 : y < h / 2
        · rw [List.getElem?_append_left (by omega), tget y h1, show min y (h - 1 - y) = y by omega]
        · rw [List.getElem?_append_right (by omega), ct, List.getElem?_reverse (by simp [ct, cb]; omega)]
          have : ((chunksOf w (l.take (w * (h / 2)))) ++ (chunksOf w (l.drop (w * (h / 2)))).reverse.drop (h / 2)).length - 1 - (y - h / 2) = h - 1 - y := by
            simp [ct, cb]; omega
          rw [this]
          by_cases h2 : h - 1 - y < h / 2
          · rw [List.getElem?_append_left (by omega), tget _ h2, show min y (h - 1 - y) = h - 1 - y by omega]
          · rw [List.getElem?_append_right (by omega), ct, List.getElem?_drop, List.getElem?_reverse (by omega), cb, bget _ (by omega)]
            congr 2; omega)
    refine ⟨_, ?_, f1, f2⟩
    unfold mirror
    rw [if_neg (by omega), if_neg (by simp), if_neg (by omega)]
    simp only [if_true]
    rw [hR, List.length_reverse, cb, ct, hb, Nat.mul_comm w (h - h / 2), Nat.sub_self, List.take_zero, List.append_nil,
      List.take_of_length_le (l := chunksOf w (l.take (w * (h / 2)))) (by omega), List.flatten_append, ← flat ht]
  · have hlen : ((chunksOf w (l.drop (w * (h / 2)))).reverse.take (h / 2) ++ chunksOf w (l.drop (w * (h / 2)))).length = h := by
      simp [cb]; omega
    obtain ⟨f1, f2⟩ := fin ((chunksOf w (l.drop (w * (h / 2)))).reverse.take (h / 2) ++ chunksOf w (l.drop (w * (h / 2)))) (fun y => max y (h - 1 - y)) hlen
      (by
        intro y hy
        have hL : ((chunksOf w (l.drop (w * (h / 2)))).reverse.take (h / 2)).length = h / 2 := by simp [cb]; omega
        refine ⟨by omega, ?_⟩
        by_cases h1 : y < h / 2
        · rw [List.getElem?_append_left (by omega), List.getElem?_take_of_lt h1, List.getElem?_reverse (by omega), cb, bget _ (by omega)]
          congr 2; omega
        · rw [List.getElem?_append_right (by omega), hL, bget _ (by omega)]
          congr 2; omega)
    refine ⟨_, ?_, f1, f2⟩
    unfold mirror
    rw [if_neg (by omega), if_neg (by simp), if_neg (by omega)]
    simp only [if_neg (show ¬ MirrorMode.south = .north by decide)]
    rw [hR, List.length_reverse, cb, ct, List.drop_eq_nil_of_le (as := chunksOf w (l.take (w * (h / 2)))) (by omega), List.append_nil,
      List.drop_eq_nil_of_le (as := l.take (w * (h / 2))) (by rw [ht, Nat.mul_comm]), List.append_nil, List.flatten_append, ← flat hb]

example : mirror [1, 2, 3, 4, 5, 6, 7, 8, 9, 10] 2 5 .north = some [1, 2, 3, 4, 5, 6, 3, 4, 1, 2] := by decide
example : mirror [1, 2, 3, 4, 5, 6, 7, 8, 9, 10] 2 5 .south = some [9, 10, 7, 8, 5, 6, 7, 8, 9, 10] := by decide

/-! ### C82 -/

/-- The value that the code stores. -/
theorem stretchPixel_eq {bits lower upper p : Nat} (hb : bits ≤ 16) (hu : upper < 2 ^ bits) (h : lower ≤ upper) :
    stretchPixel bits lower upper (2 ^ bits - 1) (min (upper - lower + 1) (2 ^ 32 - 1)) p =
      if upper ≤ p then 2 ^ bits - 1 else if p ≤ lower then 0 else (2 ^ bits - 1) * (p - lower) / (upper - lower + 1) := by
  unfold stretchPixel
  have h16 : 2 ^ bits ≤ 2 ^ 16 := Nat.pow_le_pow_right (by omega) hb
  by_cases h1 : upper ≤ p
  · rw [if_pos h1, if_pos h1]
  · rw [if_neg h1, if_neg h1]
    by_cases h2 : p ≤ lower
    · rw [if_pos h2, if_pos h2]
    · rw [if_neg h2, if_neg h2]
      have hm : (2 ^ bits - 1) * (p - lower) < 2 ^ 32 := by
        have : (2 ^ bits - 1) * (p - lower) ≤ (2 ^ 16 - 1) * (2 ^ 16 - 1) := Nat.mul_le_mul (by omega) (by omega)
        omega
      rw [show min (upper - lower + 1) (2 ^ 32 - 1) = upper - lower + 1 by omega, Nat.mod_eq_of_lt hm, c38_fastdiv _ _ hm (by omega) (by omega), Nat.mod_eq_of_lt]
      have : (2 ^ bits - 1) * (p - lower) / (upper - lower + 1) ≤ 2 ^ bits - 1 :=
        Nat.div_le_of_le_mul (by rw [Nat.mul_comm]; exact Nat.mul_le_mul_right _ (by omega))
      have : 0 < 2 ^ bits := Nat.two_pow_pos bits
      omega

/-- **C82 (partial: in the range between the bounds the code divides by upper - lower + 1 and not by upper - lower, see `c82_not_linear`)**: samples at
    or above `upper` become the maximum, other samples at or below `lower` become zero, and the others ⌊max (p - lower) / (upper - lower + 1)⌋,
    which is at most the linear value and below the maximum.  An error is returned exactly if upper < lower. -/
theorem c82_stretch_partial {bits : Nat} {l : List Nat} {lower upper : Nat} (hb : bits ≤ 16) (hu : upper < 2 ^ bits) :
    (upper < lower → stretchContrast bits l lower upper = none) ∧
    (lower ≤ upper → ∃ out, stretchContrast bits l lower upper = some out ∧ out.length = l.length ∧ ∀ (i p : Nat), l[i]? = some p →
      ∃ q, out[i]? = some q ∧ (upper ≤ p → q = 2 ^ bits - 1) ∧ (p < upper → p ≤ lower → q = 0) ∧
        (lower < p → p < upper → q = (2 ^ bits - 1) * (p - lower) / (upper - lower + 1) ∧ q ≤ linear (2 ^ bits - 1) lower upper p)) := by
  constructor
  · intro h; unfold stretchContrast; rw [if_pos h]
  · intro h
    refine ⟨_, by unfold stretchContrast; rw [if_neg (by omega)], by simp, fun i p hp => ?_⟩
    refine ⟨_, by rw [List.getElem?_map, hp]; rfl, ?_, ?_, ?_⟩
    · intro h1; rw [stretchPixel_eq hb hu h, if_pos h1]
    · intro h1 h2; rw [stretchPixel_eq hb hu h, if_neg (by omega), if_pos h2]
    · intro h1 h2
      rw [stretchPixel_eq hb hu h, if_neg (by omega), if_neg (by omega)]
      exact ⟨rfl, Nat.div_le_div_left (by omega) (by omega)⟩

example : stretchContrast 8 [5, 10, 60, 110, 111] 10 110 = some [0, 0, 126, 255, 255] := by decide

/-- **C82**: stretching keeps the order of samples. -/
theorem c82_monotone {bits lower upper p q : Nat} (hb : bits ≤ 16) (hu : upper < 2 ^ bits) (h : lower ≤ upper) (hpq : p ≤ q) :
    ∃ a b, stretchContrast bits [p, q] lower upper = some [a, b] ∧ a ≤ b := by
  refine ⟨_, _, by unfold stretchContrast; rw [if_neg (by omega)]; rfl, ?_⟩
  rw [stretchPixel_eq hb hu h, stretchPixel_eq hb hu h]
  have hle : ∀ t, t < upper → (2 ^ bits - 1) * (t - lower) / (upper - lower + 1) ≤ 2 ^ bits - 1 := fun t ht =>
    Nat.div_le_of_le_mul (by rw [Nat.mul_comm]; exact Nat.mul_le_mul_right _ (by omega))
  by_cases h1 : upper ≤ q
  · rw [if_pos h1]
    split
    · exact le_refl _
    · split
      · omega
      · exact hle p (by omega)
  · rw [if_neg h1, if_neg (show ¬ upper ≤ p by omega)]
    by_cases h2 : p ≤ lower
    · rw [if_pos h2]; omega
    · rw [if_neg h2, if_neg (by omega)]
      exact Nat.div_le_div_right (Nat.mul_le_mul_left _ (by omega))

/-- **C82 (negative, general)**: the map is not linear: the sample just below `upper` becomes less than the linear value rounded down, whenever the range
    is at least two and short enough that d (d + 1) ≤ max (d - 1) for d = upper - lower. -/
theorem c82_not_linear {bits lower upper : Nat} (hb : bits ≤ 16) (hu : upper < 2 ^ bits) (h : lower + 2 ≤ upper)
    (hd : (upper - lower) * (upper - lower + 1) ≤ (2 ^ bits - 1) * (upper - lower - 1)) :
    ∃ q, stretchContrast bits [upper - 1] lower upper = some [q] ∧ q < linear (2 ^ bits - 1) lower upper (upper - 1) := by
  refine ⟨_, by unfold stretchContrast; rw [if_neg (by omega)]; rfl, ?_⟩
  rw [stretchPixel_eq hb hu (by omega), if_neg (by omega), if_neg (by omega)]
  unfold linear
  obtain ⟨d, hd'⟩ : ∃ d, upper - lower = d := ⟨_, rfl⟩
  rw [hd'] at hd ⊢
  rw [show upper - 1 - lower = d - 1 by omega]
  generalize (2 ^ bits - 1) * (d - 1) = m at *
  have h1 := Nat.div_mul_le_self m (d + 1)
  have h3 : d * (m / (d + 1)) + d ≤ m := by
    by_cases hq : d ≤ m / (d + 1)
    · have : m / (d + 1) * (d + 1) = d * (m / (d + 1)) + m / (d + 1) := by rw [Nat.mul_add, Nat.mul_comm]; omega
      omega
    · have h4 : d ≤ m / (d + 1) := (Nat.le_div_iff_mul_le (by omega)).2 hd
      exact absurd h4 hq
  have h5 : m / (d + 1) + 1 ≤ m / d := (Nat.le_div_iff_mul_le (by omega)).2 (by rw [Nat.add_mul, Nat.mul_comm (m / (d + 1)) d]; omega)
  omega

example : (2 - 0) * (2 - 0 + 1) ≤ (2 ^ 8 - 1) * (2 - 0 - 1) ∧ stretchContrast 8 [1] 0 2 = some [85] ∧ linear 255 0 2 1 = 127 := by decide
example : (200 - 0) * (200 - 0 + 1) ≤ (2 ^ 8 - 1) * (200 - 0 - 1) := by decide

end Zune.Imageprocs
