/- Lemmas for the box blur (`FilterModel.lean`). -/
import Verif.Imageprocs.FilterModel
import Verif.Imageprocs.FilterSpec
import Verif.Imageprocs.Area
import Verif.Imageprocs.Median

namespace Zune.Imageprocs
variable {α : Type}

theorem sum_shift (f : Nat → Nat) : ∀ n, ((List.range n).map fun j => f (j + 1)).sum + f 0 = ((List.range n).map f).sum + f n
  | 0 => by simp
  | n + 1 => by
    have := sum_shift f n
    simp only [List.range_succ, List.map_append, List.sum_append, List.map_cons, List.map_nil, List.sum_cons, List.sum_nil]
    omega

theorem boxSum_step (row : List Nat) (r : Nat) (c : Int) :
    boxSum row r (c + 1) + sampleAt row (c - r) = boxSum row r c + sampleAt row (c + r + 1) := by
  have := sum_shift (fun j => sampleAt row (c + (j : Nat) - r)) (2 * r + 1)
  unfold boxSum
  have e1 : (List.range (2 * r + 1)).map (fun j => sampleAt row (c + 1 + (j : Nat) - r)) =
      (List.range (2 * r + 1)).map fun j => sampleAt row (c + ((j + 1 : Nat) : Int) - r) := by
    apply List.map_congr_left; intro j _; congr 1; omega
  rw [e1, show c - r = c + ((0 : Nat) : Int) - r by omega, show c + r + 1 = c + ((2 * r + 1 : Nat) : Int) - r by omega]
  exact this

theorem sampleAt_mem {row : List Nat} (h : 0 < row.length) (c : Int) : sampleAt row c ∈ row := by
  unfold sampleAt
  rw [List.getElem?_eq_getElem (by omega)]
  exact List.getElem_mem _

theorem sampleAt_in {row : List Nat} {c : Nat} (h : c < row.length) : sampleAt row c = row[c] := by
  unfold sampleAt
  rw [show (max 0 (min (c : Int) (row.length - 1))).toNat = c by omega, List.getElem?_eq_getElem h]; rfl

theorem sampleAt_left {row : List Nat} (h : 0 < row.length) {c : Int} (hc : c ≤ 0) : sampleAt row c = row[0] := by
  unfold sampleAt
  rw [show (max 0 (min (c : Int) (row.length - 1))).toNat = 0 by omega, List.getElem?_eq_getElem h]; rfl

theorem boxSum_le {row : List Nat} {m : Nat} (h : 0 < row.length) (hb : ∀ v ∈ row, v ≤ m) (r : Nat) (c : Int) : boxSum row r c ≤ (2 * r + 1) * m := by
  have := sum_le_mul ((List.range (2 * r + 1)).map fun j => sampleAt row (c + (j : Nat) - r)) m (by
    intro v hv
    obtain ⟨j, _, rfl⟩ := List.mem_map.1 hv
    exact hb _ (sampleAt_mem h _))
  simpa [boxSum] using this

theorem sum_const (n v : Nat) (f : Nat → Nat) (h : ∀ j < n, f j = v) : ((List.range n).map f).sum = n * v := by
  rw [List.map_congr_left (g := fun _ => v) (fun j hj => h j (List.mem_range.1 hj))]
  simp

theorem take_map_range (row : List Nat) (n s : Nat) (h : s + n ≤ row.length) (f : Nat → Nat) (hf : ∀ j < n, row[s + j]? = some (f j)) :
    (row.drop s).take n = (List.range n).map f := by
  rw [take_filterMap _ _ _ h, ← List.filterMap_eq_map']
  apply List.filterMap_congr
  intro j hj
  exact hf j (List.mem_range.1 hj)

theorem range_split (a b : Nat) (f : Nat → Nat) : ((List.range (a + b)).map f).sum = ((List.range a).map f).sum + ((List.range b).map fun j => f (a + j)).sum := by
  rw [List.range_add, List.map_append, List.sum_append, List.map_map]; rfl

theorem boxSum_zero {row : List Nat} {r : Nat} (h : r < row.length) : boxSum row r 0 = (row.take (r + 1)).sum + r * row[0] := by
  unfold boxSum
  rw [show 2 * r + 1 = r + (r + 1) by omega, range_split]
  rw [sum_const r row[0] _ (fun j hj => sampleAt_left (by omega) (by omega))]
  have := take_map_range row (r + 1) 0 (by omega) (fun j => sampleAt row (0 + ((r + j : Nat) : Int) - r)) (by
    intro j hj
    rw [show (0 : Int) + ((r + j : Nat) : Int) - r = ((j : Nat) : Int) by omega, sampleAt_in (show j < row.length by omega), Nat.zero_add,
      List.getElem?_eq_getElem (by omega)])
  rw [List.drop_zero] at this
  rw [this]; omega

theorem boxSum_inside {row : List Nat} {r c : Nat} (h1 : r ≤ c) (h2 : c + r < row.length) : boxSum row r c = ((row.drop (c - r)).take (2 * r + 1)).sum := by
  unfold boxSum
  rw [take_map_range row (2 * r + 1) (c - r) (by omega) (fun j => sampleAt row ((c : Int) + (j : Nat) - r))]
  intro j hj
  rw [show (c : Int) + (j : Nat) - r = ((c - r + j : Nat) : Int) by omega, sampleAt_in (show c - r + j < row.length by omega),
    List.getElem?_eq_getElem (by omega)]

/-! ### The loops -/

theorem slideSums_spec (T : Nat → Nat) : ∀ (ps : List (Nat × Nat)) (k acc : Nat), acc = T k →
    (∀ i a s, ps[i]? = some (a, s) → T (k + i + 1) + s = T (k + i) + a ∧ s < 2 ^ 32) → (∀ i ≤ ps.length, T (k + i) < 2 ^ 32) →
    slideSums acc ps = (List.range ps.length).map fun i => T (k + i + 1)
  | [], _, _, _, _, _ => rfl
  | (a, s) :: t, k, acc, h0, h1, h2 => by
    have e := h1 0 a s rfl
    have b1 := h2 1 (by simp)
    have hacc : (acc + a + (2 ^ 32 - s)) % 2 ^ 32 = T (k + 1) := by
      rw [h0, show T k + a + (2 ^ 32 - s) = T (k + 1) + 2 ^ 32 by
        have := e.1; simp only [Nat.add_zero] at this; omega, Nat.add_mod_right, Nat.mod_eq_of_lt b1]
    rw [slideSums]
    simp only [hacc]
    rw [slideSums_spec T t (k + 1) _ rfl (fun i a s h => by
        have := h1 (i + 1) a s (by simpa using h)
        rw [show k + 1 + i + 1 = k + (i + 1) + 1 by omega, show k + 1 + i = k + (i + 1) by omega]; exact this)
      (fun i hi => by have := h2 (i + 1) (by simpa using hi); rw [show k + 1 + i = k + (i + 1) by omega]; exact this)]
    rw [List.length_cons, List.range_succ_eq_map, List.map_cons, List.map_map]
    congr 1
    apply List.map_congr_left
    intro i _
    show T (k + 1 + i + 1) = T (k + (i + 1) + 1)
    congr 1; omega

theorem getLastD_map (T : Nat → Nat) (n k d : Nat) (h : d = T k) : ((List.range n).map fun i => T (k + i + 1)).getLastD d = T (k + n) := by
  cases n with
  | zero => simpa using h
  | succ n => rw [List.range_succ, List.map_append]; simp [Nat.add_assoc]

theorem writeFrom_length {out vals : List α} {i : Nat} (h : i + vals.length ≤ out.length) : (writeFrom out i vals).length = out.length := by
  simp [writeFrom]; omega

theorem writeFrom_get {out vals : List α} {i : Nat} (h : i + vals.length ≤ out.length) (x : Nat) :
    (writeFrom out i vals)[x]? = if i ≤ x ∧ x < i + vals.length then vals[x - i]? else out[x]? := by
  have ht : (out.take i).length = i := by rw [List.length_take]; omega
  unfold writeFrom
  by_cases h1 : x < i
  · rw [if_neg (by omega), List.append_assoc, List.getElem?_append_left (by omega), List.getElem?_take_of_lt h1]
  · by_cases h2 : x < i + vals.length
    · rw [if_pos ⟨by omega, h2⟩, List.getElem?_append_left (by rw [List.length_append, ht]; exact h2), List.getElem?_append_right (by omega), ht]
    · rw [if_neg (by omega), List.getElem?_append_right (by rw [List.length_append, ht]; omega), List.length_append, ht, List.getElem?_drop]
      congr 1; omega

theorem boxQuot_eq {bits d t : Nat} (hd : 0 < d) (hb : d * (2 ^ bits - 1) < 2 ^ 32) (hd2 : d < 2 ^ 32) (ht : t ≤ d * (2 ^ bits - 1)) : boxQuot bits d t = t / d := by
  unfold boxQuot
  rw [c38_fastdiv t d (by omega) hd hd2, Nat.mod_eq_of_lt]
  have : t / d ≤ 2 ^ bits - 1 := Nat.div_le_of_le_mul ht
  have : 0 < 2 ^ bits := Nat.two_pow_pos bits
  omega

/-- Sum that the code divides in the last columns of a row: the window ending at the end of the row, where the samples of its right half up to
    column `x` are replaced by the last sample. -/
def edgeSum (row : List Nat) (r x : Nat) : Nat :=
  ((row.drop (row.length - (2 * r + 1))).take r).sum + (row.drop (x + 1)).sum + (x + 1 - (row.length - (r + 1))) * row.getLastD 0

/-- What the code stores in column `x` of a row. -/
def blurAt (row : List Nat) (r x : Nat) : Nat :=
  if x + r + 1 < row.length then boxMean row r ((x : Int) + 1) else edgeSum row r x / (2 * r + 1)

theorem edgeSum_le {row : List Nat} {r m x : Nat} (hw : 2 * r + 1 ≤ row.length) (hb : ∀ v ∈ row, v ≤ m) (h1 : row.length ≤ x + r + 1)
    (h2 : x < row.length) : edgeSum row r x ≤ (2 * r + 1) * m := by
  have a1 := sum_le_mul ((row.drop (row.length - (2 * r + 1))).take r) m (fun v hv => hb v (List.mem_of_mem_drop (List.mem_of_mem_take hv)))
  have a2 := sum_le_mul (row.drop (x + 1)) m (fun v hv => hb v (List.mem_of_mem_drop hv))
  have hne : row ≠ [] := by intro e; subst e; simp at hw
  have a3 : row.getLastD 0 ≤ m := by rw [List.getLastD_eq_getLast?, List.getLast?_eq_some_getLast hne]; exact hb _ (List.getLast_mem hne)
  have a4 := Nat.mul_le_mul_left (x + 1 - (row.length - (r + 1))) a3
  rw [List.length_take, List.length_drop, show min r (row.length - (row.length - (2 * r + 1))) = r by omega] at a1
  rw [List.length_drop] at a2
  unfold edgeSum
  have e : (2 * r + 1) * m = r * m + (row.length - (x + 1)) * m + (x + 1 - (row.length - (r + 1))) * m := by
    rw [← Nat.add_mul, ← Nat.add_mul]; congr 1; omega
  omega

/-- One row, when the diameter is odd and fits in the row. -/
theorem boxRow_odd {bits r : Nat} {row out : List Nat} (hw : 2 * r + 1 ≤ row.length) (ho : out.length = row.length) (hb : ∀ v ∈ row, v < 2 ^ bits)
    (hd : (2 * r + 1) * (2 ^ bits - 1) < 2 ^ 32) (hd2 : 2 * r + 1 < 2 ^ 32) :
    ∃ res, boxRow bits (2 * r + 1) row out = some res ∧ res.length = row.length ∧ ∀ x < row.length, res[x]? = some (blurAt row r x) := by
  have hb' : ∀ v ∈ row, v ≤ 2 ^ bits - 1 := fun v hv => by have := hb v hv; omega
  have hpos : 0 < row.length := by omega
  have hf : row.head? = some row[0] := by rw [List.head?_eq_getElem?, List.getElem?_eq_getElem hpos]
  have hne : row ≠ [] := by intro e; subst e; simp at hpos
  have hl : row.getLast? = some (row.getLastD 0) := by rw [List.getLastD_eq_getLast?, List.getLast?_eq_some_getLast hne]; rfl
  have hhalf : (2 * r + 1 + 1) / 2 = r + 1 := by omega
  have hlast : row.getLastD 0 < 2 ^ bits := by rw [List.getLastD_eq_getLast?, List.getLast?_eq_some_getLast hne]; exact hb _ (List.getLast_mem hne)
  have h32 : ∀ v ∈ row, v < 2 ^ 32 := fun v hv => by
    have h1 := hb' v hv
    have := Nat.le_mul_of_pos_left (2 ^ bits - 1) (show 0 < 2 * r + 1 by omega)
    omega
  have hbox : ∀ k : Nat, boxSum row r k < 2 ^ 32 := fun k => lt_of_le_of_lt (boxSum_le hpos hb' r k) hd
  -- the first two loops follow the sliding window
  have hstep : ∀ k : Nat, boxSum row r ((k + 1 : Nat) : Int) + sampleAt row ((k : Int) - r) = boxSum row r (k : Int) + sampleAt row ((k : Int) + r + 1) :=
    fun k => by have := boxSum_step row r (k : Int); push_cast; exact this
  have e1 : slideSums (((row.take (r + 1)).sum + r * row[0]) % 2 ^ 32) (((row.drop (r + 1)).take r).map fun a => (a, row[0])) =
      (List.range r).map fun i => boxSum row r ((0 + i + 1 : Nat) : Int) := by
    have hlen : (((row.drop (r + 1)).take r).map fun a => (a, row[0])).length = r := by simp; omega
    have := slideSums_spec (fun k => boxSum row r (k : Int)) (((row.drop (r + 1)).take r).map fun a => (a, row[0])) 0
      (((row.take (r + 1)).sum + r * row[0]) % 2 ^ 32)
      (by rw [← boxSum_zero (by omega)]; exact Nat.mod_eq_of_lt (hbox 0))
      (by
        intro i a s h
        have hi : i < r := by have := (List.getElem?_eq_some_iff.1 h).1; omega
        rw [List.getElem?_map, List.getElem?_take_of_lt hi, List.getElem?_drop, List.getElem?_eq_getElem (by omega)] at h
        obtain ⟨rfl, rfl⟩ := Prod.mk.inj (Option.some.inj h)
        refine ⟨?_, h32 _ (List.getElem_mem _)⟩
        have := hstep (0 + i)
        rw [sampleAt_left hpos (by omega), show (((0 + i : Nat) : Int)) + r + 1 = ((r + 1 + i : Nat) : Int) by omega,
          sampleAt_in (show r + 1 + i < row.length by omega)] at this
        exact this)
      (fun i _ => hbox _)
    rw [hlen] at this; exact this
  have l1 : ((List.range r).map fun i => boxSum row r ((0 + i + 1 : Nat) : Int)).getLastD (((row.take (r + 1)).sum + r * row[0]) % 2 ^ 32) =
      boxSum row r ((r : Nat) : Int) := by
    have := getLastD_map (fun k => boxSum row r ((k : Nat) : Int)) r 0 (((row.take (r + 1)).sum + r * row[0]) % 2 ^ 32)
      (by rw [← boxSum_zero (by omega)]; exact Nat.mod_eq_of_lt (hbox 0))
    rw [Nat.zero_add] at this; exact this
  have e2 : slideSums (boxSum row r ((r : Nat) : Int)) ((row.drop (2 * r + 1)).zip row) =
      (List.range (row.length - (2 * r + 1))).map fun i => boxSum row r ((r + i + 1 : Nat) : Int) := by
    have hlen : ((row.drop (2 * r + 1)).zip row).length = row.length - (2 * r + 1) := by simp
    have := slideSums_spec (fun k => boxSum row r (k : Int)) ((row.drop (2 * r + 1)).zip row) r (boxSum row r ((r : Nat) : Int)) rfl
      (by
        intro i a s h
        have hi : i < row.length - (2 * r + 1) := by have := (List.getElem?_eq_some_iff.1 h).1; omega
        rw [List.getElem?_zip_eq_some] at h
        rw [List.getElem?_drop, List.getElem?_eq_getElem (by omega), List.getElem?_eq_getElem (by omega)] at h
        obtain ⟨h1, h2⟩ := h
        have h1 := Option.some.inj h1
        have h2 := Option.some.inj h2
        subst h1 h2
        refine ⟨?_, h32 _ (List.getElem_mem _)⟩
        have := hstep (r + i)
        rw [show (((r + i : Nat) : Int)) - r = ((i : Nat) : Int) by omega, sampleAt_in (show i < row.length by omega),
          show (((r + i : Nat) : Int)) + r + 1 = ((2 * r + 1 + i : Nat) : Int) by omega, sampleAt_in (show 2 * r + 1 + i < row.length by omega)] at this
        exact this)
      (fun i _ => hbox _)
    rw [hlen] at this; exact this
  have l2 : ((List.range (row.length - (2 * r + 1))).map fun i => boxSum row r ((r + i + 1 : Nat) : Int)).getLastD (boxSum row r ((r : Nat) : Int)) =
      boxSum row r ((row.length - (r + 1) : Nat) : Int) := by
    have := getLastD_map (fun k => boxSum row r ((k : Nat) : Int)) (row.length - (2 * r + 1)) r _ rfl
    rw [this]; congr 2; omega
  -- the third loop
  have e3 : slideSums (boxSum row r ((row.length - (r + 1) : Nat) : Int))
      (((row.drop (row.length - (r + 1))).take (r + 1)).map fun a => (row.getLastD 0, a)) =
      (List.range (r + 1)).map fun i => edgeSum row r (row.length - (r + 1) + i) := by
    have hlen : (((row.drop (row.length - (r + 1))).take (r + 1)).map fun a => (row.getLastD 0, a)).length = r + 1 := by simp; omega
    let T : Nat → Nat := fun k => ((row.drop (row.length - (2 * r + 1))).take r).sum + (row.drop (row.length - (r + 1) + k)).sum + k * row.getLastD 0
    have hT : ∀ k, T (k + 1) = edgeSum row r (row.length - (r + 1) + k) := by
      intro k
      show _ = _ + _ + (row.length - (r + 1) + k + 1 - (row.length - (r + 1))) * _
      rw [show row.length - (r + 1) + k + 1 - (row.length - (r + 1)) = k + 1 by omega]; rfl
    have hT0 : boxSum row r ((row.length - (r + 1) : Nat) : Int) = T 0 := by
      rw [boxSum_inside (by omega) (by omega), show row.length - (r + 1) - r = row.length - (2 * r + 1) by omega]
      show _ = ((row.drop (row.length - (2 * r + 1))).take r).sum + (row.drop (row.length - (r + 1) + 0)).sum + 0 * row.getLastD 0
      rw [Nat.zero_mul, Nat.add_zero, Nat.add_zero, ← List.sum_append, show 2 * r + 1 = r + (r + 1) by omega, List.take_add, List.drop_drop,
        show row.length - (r + (r + 1)) + r = row.length - (r + 1) by omega,
        List.take_of_length_le (l := row.drop (row.length - (r + 1))) (by simp; omega)]
      rfl
    have := slideSums_spec T (((row.drop (row.length - (r + 1))).take (r + 1)).map fun a => (row.getLastD 0, a)) 0
      (boxSum row r ((row.length - (r + 1) : Nat) : Int)) hT0
      (by
        intro i a s h
        have hi : i < r + 1 := by have := (List.getElem?_eq_some_iff.1 h).1; omega
        rw [List.getElem?_map, List.getElem?_take_of_lt hi, List.getElem?_drop, List.getElem?_eq_getElem (by omega)] at h
        obtain ⟨rfl, rfl⟩ := Prod.mk.inj (Option.some.inj h)
        refine ⟨?_, h32 _ (List.getElem_mem _)⟩
        show _ + (row.drop (row.length - (r + 1) + (0 + i + 1))).sum + (0 + i + 1) * row.getLastD 0 + row[row.length - (r + 1) + i] =
          _ + (row.drop (row.length - (r + 1) + (0 + i))).sum + (0 + i) * row.getLastD 0 + row.getLastD 0
        rw [Nat.zero_add, List.drop_eq_getElem_cons (show row.length - (r + 1) + i < row.length by omega), List.sum_cons, Nat.add_mul, Nat.one_mul]
        rw [← Nat.add_assoc (row.length - (r + 1)) i 1]
        omega)
      (fun i hi => by
        rw [hlen] at hi
        cases i with
        | zero => show T 0 < _; rw [← hT0]; exact hbox _
        | succ i => rw [show 0 + (i + 1) = i + 1 by omega, hT]; exact lt_of_le_of_lt (edgeSum_le hw hb' (by omega) (by omega)) hd)
    rw [hlen] at this
    rw [this]
    apply List.map_congr_left
    intro i _
    rw [Nat.zero_add]; exact hT i
  have hr : boxRow bits (2 * r + 1) row out = some (writeFrom (writeFrom (writeFrom out 0
      (((List.range r).map fun i => boxSum row r ((0 + i + 1 : Nat) : Int)).map (boxQuot bits (2 * r + 1)))) r
      (((List.range (row.length - (2 * r + 1))).map fun i => boxSum row r ((r + i + 1 : Nat) : Int)).map (boxQuot bits (2 * r + 1)))) (row.length - (r + 1))
      (((List.range (r + 1)).map fun i => edgeSum row r (row.length - (r + 1) + i)).map (boxQuot bits (2 * r + 1)))) := by
    unfold boxRow
    simp only [hf, hl, hhalf, Nat.add_sub_cancel, Option.bind_eq_bind, Option.bind_some, e1, l1, e2, l2, e3]
    rfl
  have n1 : (((List.range r).map fun i => boxSum row r ((0 + i + 1 : Nat) : Int)).map (boxQuot bits (2 * r + 1))).length = r := by simp
  have n2 : (((List.range (row.length - (2 * r + 1))).map fun i => boxSum row r ((r + i + 1 : Nat) : Int)).map (boxQuot bits (2 * r + 1))).length =
    row.length - (2 * r + 1) := by simp
  have n3 : (((List.range (r + 1)).map fun i => edgeSum row r (row.length - (r + 1) + i)).map (boxQuot bits (2 * r + 1))).length = r + 1 := by simp
  have q : ∀ t, t ≤ (2 * r + 1) * (2 ^ bits - 1) → boxQuot bits (2 * r + 1) t = t / (2 * r + 1) := fun t ht => boxQuot_eq (by omega) hd hd2 ht
  refine ⟨_, hr, ?_, ?_⟩
  · rw [writeFrom_length, writeFrom_length, writeFrom_length, ho]
    · rw [n1]; omega
    · rw [n2, writeFrom_length (by rw [n1]; omega)]; omega
    · rw [n3, writeFrom_length, writeFrom_length]
      · omega
      · rw [n1]; omega
      · rw [n2, writeFrom_length (by rw [n1]; omega)]; omega
  · intro x hx
    have w1 : (0 : Nat) + (((List.range r).map fun i => boxSum row r ((0 + i + 1 : Nat) : Int)).map (boxQuot bits (2 * r + 1))).length ≤ out.length := by
      rw [n1]; omega
    have w2 := writeFrom_length w1
    rw [writeFrom_get (by rw [n3, writeFrom_length (by rw [n2, w2]; omega), w2]; omega), n3, writeFrom_get (by rw [n2, w2]; omega), n2,
      writeFrom_get w1, n1]
    unfold blurAt
    by_cases h1 : x + r + 1 < row.length
    · rw [if_neg (by omega), if_pos h1]
      unfold boxMean
      by_cases h2 : r ≤ x
      · rw [if_pos (by omega), List.getElem?_map, List.getElem?_map, List.getElem?_range (by omega)]
        show some (boxQuot _ _ (boxSum row r ((r + (x - r) + 1 : Nat) : Int))) = _
        rw [q _ (boxSum_le hpos hb' _ _), show ((r + (x - r) + 1 : Nat) : Int) = (x : Int) + 1 by omega]
      · rw [if_neg (by omega), if_pos (by omega), List.getElem?_map, List.getElem?_map, List.getElem?_range (by omega)]
        show some (boxQuot _ _ (boxSum row r ((0 + (x - 0) + 1 : Nat) : Int))) = _
        rw [q _ (boxSum_le hpos hb' _ _), show ((0 + (x - 0) + 1 : Nat) : Int) = (x : Int) + 1 by omega]
    · rw [if_pos (by omega), if_neg h1, List.getElem?_map, List.getElem?_map, List.getElem?_range (by omega)]
      show some (boxQuot _ _ (edgeSum row r (row.length - (r + 1) + (x - (row.length - (r + 1)))))) = _
      rw [show row.length - (r + 1) + (x - (row.length - (r + 1))) = x by omega, q _ (edgeSum_le hw hb' (by omega) hx)]

/-! ### All rows, and both directions -/

/-- Row `y` of a picture. -/
def rowOf (l : List α) (w y : Nat) : List α := (l.drop (y * w)).take w

theorem chunksOf_zip {w h : Nat} {a b : List α} (hw : 0 < w) (ha : a.length = w * h) (hb : b.length = w * h) :
    (chunksOf w a).zip (chunksOf w b) = (List.range h).map fun y => (rowOf a w y, rowOf b w y) := by
  unfold chunksOf rowOf
  rw [ha, hb, Nat.mul_div_cancel_left _ hw, List.zip_map']

theorem boxInner_odd {bits w h R r : Nat} {img out : List Nat} (hr : 2 * r + 1 = min (2 * R + 1) w) (h1 : 0 < r) (hi : img.length = w * h)
    (ho : out.length = w * h) (hb : ∀ v ∈ img, v < 2 ^ bits) (hd : (2 * r + 1) * (2 ^ bits - 1) < 2 ^ 32) (hd2 : 2 * r + 1 < 2 ^ 32) :
    ∃ res, boxInner bits img out w R = some res ∧ res.length = w * h ∧ ∀ y < h, ∀ x < w, res[y * w + x]? = some (blurAt (rowOf img w y) r x) := by
  have hw : 2 * r + 1 ≤ w := by omega
  have hrl : ∀ y < h, (rowOf img w y).length = w := fun y hy => row_length hi hy
  have hrow : ∀ y < h, ∃ res, boxRow bits (min (R * 2 + 1) w) (rowOf img w y) (rowOf out w y) = some res ∧ res.length = w ∧
      ∀ x < w, res[x]? = some (blurAt (rowOf img w y) r x) := by
    intro y hy
    rw [show min (R * 2 + 1) w = 2 * r + 1 by omega]
    obtain ⟨res, a, b, c⟩ := boxRow_odd (row := rowOf img w y) (out := rowOf out w y) (by rw [hrl y hy]; exact hw) (by rw [hrl y hy]; exact row_length ho hy)
      (fun v hv => hb v (List.mem_of_mem_drop (List.mem_of_mem_take hv))) hd hd2
    rw [hrl y hy] at b c
    exact ⟨res, a, b, c⟩
  let F : Nat → List Nat := fun y => (boxRow bits (min (R * 2 + 1) w) (rowOf img w y) (rowOf out w y)).getD []
  have hF : ∀ y < h, boxRow bits (min (R * 2 + 1) w) (rowOf img w y) (rowOf out w y) = some (F y) ∧ (F y).length = w ∧
      ∀ x < w, (F y)[x]? = some (blurAt (rowOf img w y) r x) := by
    intro y hy
    obtain ⟨res, a, b, c⟩ := hrow y hy
    have : F y = res := by show Option.getD _ _ = _; rw [a]; rfl
    rw [this]; exact ⟨a, b, c⟩
  have hm : ((chunksOf w img).zip (chunksOf w out)).mapM (fun p => boxRow bits (min (R * 2 + 1) w) p.1 p.2) = some ((List.range h).map F) := by
    rw [chunksOf_zip (by omega) hi ho, List.mapM_map]
    exact mapM_some _ _ _ (fun y hy => (hF y (List.mem_range.1 hy)).1)
  have hrows : ∀ r ∈ (List.range h).map F, r.length = w := by
    intro r hr
    obtain ⟨y, hy, rfl⟩ := List.mem_map.1 hr
    exact (hF y (List.mem_range.1 hy)).2.1
  refine ⟨((List.range h).map F).flatten, ?_, ?_, ?_⟩
  · unfold boxInner
    rw [if_neg (by omega), hm]
    simp only [Option.bind_eq_bind, Option.bind_some]
    show some _ = _
    rw [List.drop_eq_nil_of_le (by rw [ho, List.length_map, List.length_range, Nat.mul_comm]), List.append_nil]
  · rw [rows_length hrows, List.length_map, List.length_range, Nat.mul_comm]
  · intro y hy x hx
    rw [rows_get hrows hx, List.getElem?_map, List.getElem?_range hy]
    exact (hF y hy).2.2 x hx

theorem boxMean_lt {row : List Nat} {bits : Nat} (h : 0 < row.length) (hb : ∀ v ∈ row, v < 2 ^ bits) (r : Nat) (c : Int) : boxMean row r c < 2 ^ bits := by
  have h1 := boxSum_le h (m := 2 ^ bits - 1) (fun v hv => by have := hb v hv; omega) r c
  have : boxSum row r c / (2 * r + 1) ≤ 2 ^ bits - 1 := Nat.div_le_of_le_mul h1
  have : 0 < 2 ^ bits := Nat.two_pow_pos bits
  unfold boxMean; omega

theorem blurAt_lt {row : List Nat} {bits r x : Nat} (h : 2 * r + 1 ≤ row.length) (hb : ∀ v ∈ row, v < 2 ^ bits) (hx : x < row.length) :
    blurAt row r x < 2 ^ bits := by
  unfold blurAt
  split
  · exact boxMean_lt (by omega) hb _ _
  · have h1 := edgeSum_le (m := 2 ^ bits - 1) h (fun v hv => by have := hb v hv; omega) (by omega) hx
    have : edgeSum row r x / (2 * r + 1) ≤ 2 ^ bits - 1 := Nat.div_le_of_le_mul h1
    have : 0 < 2 ^ bits := Nat.two_pow_pos bits
    omega

end Zune.Imageprocs
