/-
C120: the SSE4.1 transposition (transpose/sse41.rs).
-/
import Verif.Imageprocs.TransposeSseModel
import Verif.Imageprocs.Geometry
import Mathlib.Tactic.FinCases
import Mathlib.Data.Fintype.Basic

namespace Zune.Imageprocs
variable {α : Type}

/-- **C120**: the three passes of interleavings of `transpose_8_by_8_u16` transpose the tile, whatever its samples. -/
theorem c120_tile16 (r : Fin 8 → Fin 8 → α) (a b : Fin 8) : sseTile16 r a b = r b a := by
  fin_cases a <;> fin_cases b <;> rfl

/-- **C120**: shuffle and interleavings of `transpose_8_by_8_u8` transpose the tile, whatever its samples. -/
theorem c120_tile8 (r : Fin 8 → Fin 8 → α) (a b : Fin 8) : sseTile8 r a b = r b a := by
  fin_cases a <;> fin_cases b <;> rfl

/-- **C120**: `_MM_TRANSPOSE4_PS` transposes a 4x4 tile, whatever its samples. -/
theorem c120_tile4 (r : Fin 4 → Fin 4 → α) (a b : Fin 4) : sseTile32 r a b = r b a := by
  fin_cases a <;> fin_cases b <;> rfl

/-- The loads of a tile stay inside the slice and read the tile. -/
theorem loadTile_ok (n slack : Nat) (hs : slack ≤ n) (hn : 0 < n) (l : List α) (w h i j : Nat) (hl : l.length = w * h)
    (hi : i < h / n) (hj : j < w / n) :
    ∃ t : Fin n → Fin n → α, loadTile n slack (((l.drop (i * (n * w))).take (n * w)).drop (j * n)) w = some t ∧
      ∀ r c : Fin n, l[(i * n + r.1) * w + (j * n + c.1)]? = some (t r c) := by
  have hin : (i + 1) * n ≤ h := le_trans (Nat.mul_le_mul_right n hi) (Nat.div_mul_le_self h n)
  have hjn : (j + 1) * n ≤ w := le_trans (Nat.mul_le_mul_right n hj) (Nat.div_mul_le_self w n)
  have hlen : (((l.drop (i * (n * w))).take (n * w)).drop (j * n)).length = n * w - j * n := by
    simp only [List.length_drop, List.length_take, hl]
    have : (i + 1) * n * w ≤ w * h := by rw [Nat.mul_comm w h]; exact Nat.mul_le_mul_right w hin
    have : (i + 1) * n * w = i * (n * w) + n * w := by ring
    omega
  have hbound : ∀ r c : Fin n, r.1 * w + c.1 < n * w - j * n := fun r c => by
    have : r.1 * w + (j * n + c.1) < w * n := rowcol_lt (by have := c.2; rw [Nat.add_mul] at hjn; omega) r.2
    rw [Nat.mul_comm w n] at this
    omega
  have hall : ∀ r c : Fin n, r.1 * w + c.1 < (((l.drop (i * (n * w))).take (n * w)).drop (j * n)).length :=
    fun r c => by rw [hlen]; exact hbound r c
  refine ⟨fun r c => (((l.drop (i * (n * w))).take (n * w)).drop (j * n))[r.1 * w + c.1]'(hall r c), ?_, fun r c => ?_⟩
  · unfold loadTile
    rw [if_pos, dif_pos hall]
    have := hbound ⟨n - 1, by omega⟩ ⟨n - 1, by omega⟩
    simp only at this
    rw [hlen]; omega
  · rw [← List.getElem?_eq_getElem, List.getElem?_drop, List.getElem?_take, if_pos, List.getElem?_drop]
    · congr 1; ring
    · have := hbound r c; omega

/-- Effect of one tile: nothing is accessed out of bounds, positions already right stay right, the tile becomes right. -/
theorem sseTile_ok (n slack : Nat) (hs : slack ≤ n) (hn : 0 < n) (kernel : (Fin n → Fin n → α) → Fin n → Fin n → α)
    (hk : ∀ r a b, kernel r a b = r b a) (l out : List α) (w h i j : Nat) (hl : l.length = w * h) (ho : out.length = w * h)
    (hi : i < h / n) (hj : j < w / n) :
    ∃ o, sseTile n slack kernel ((l.drop (i * (n * w))).take (n * w)) w h i j out = some o ∧ o.length = w * h ∧
      (∀ k, out[k]? = Spec.transposed l w h k → o[k]? = Spec.transposed l w h k) ∧
      ∀ m < n, ∀ k < n, o[(j * n + m) * h + (i * n + k)]? = Spec.transposed l w h ((j * n + m) * h + (i * n + k)) := by
  obtain ⟨t, ht, hT⟩ := loadTile_ok n slack hs hn l w h i j hl hi hj
  have hin : (i + 1) * n ≤ h := le_trans (Nat.mul_le_mul_right n hi) (Nat.div_mul_le_self h n)
  have hjn : (j + 1) * n ≤ w := le_trans (Nat.mul_le_mul_right n hj) (Nat.div_mul_le_self w n)
  rw [Nat.add_mul] at hin hjn
  have hpos : ∀ m k, j * h * n + i * n + (m * h + k) = (j * n + m) * h + (i * n + k) := fun m k => by ring
  have hb : ∀ m k, m < n → k < n → j * h * n + i * n + (m * h + k) < out.length := fun m k hm hk => by
    rw [hpos, ho, Nat.mul_comm w h]
    exact rowcol_lt (by omega) (by omega)
  have hlast := hb (n - 1) (n - 1) (by omega) (by omega)
  have hch : j * n ≤ ((l.drop (i * (n * w))).take (n * w)).length := by
    simp only [List.length_drop, List.length_take, hl]
    have h1 : (i * n + 1 * n) * w ≤ w * h := by rw [Nat.mul_comm w h]; exact Nat.mul_le_mul_right w hin
    have h2 : (i * n + 1 * n) * w = i * (n * w) + n * w := by ring
    have h3 : j * n ≤ n * w := le_trans (show j * n ≤ w by omega) (Nat.le_mul_of_pos_left w hn)
    omega
  unfold sseTile
  rw [if_neg (by omega), ht, Option.bind_some]
  unfold storeTile
  rw [if_pos ⟨by omega, fun r c => hb r.1 c.1 r.2 c.2⟩]
  have hs := setAll_spec ((List.finRange n).flatMap fun r => (List.finRange n).map fun c =>
      (j * h * n + i * n + (r.1 * h + c.1), kernel t r c)) out (Spec.transposed l w h) (by
    intro p hp _
    simp only [List.mem_flatMap, List.mem_map, List.mem_finRange, true_and] at hp
    obtain ⟨r, c, rfl⟩ := hp
    simp only
    rw [hpos, transposed_at l (by have := c.2; omega), hk, hT])
  refine ⟨_, rfl, by simp [ho], fun k hk' => ?_, fun m hm k hk' => ?_⟩
  · by_cases hex : ∃ p ∈ (List.finRange n).flatMap fun r => (List.finRange n).map fun c =>
        (j * h * n + i * n + (r.1 * h + c.1), kernel t r c), p.1 = k
    · obtain ⟨p, hp, rfl⟩ := hex
      by_cases hlt : p.1 < out.length
      · exact hs.1 p hp hlt
      · rw [List.getElem?_eq_none (by simpa using Nat.le_of_not_lt hlt), ← hk', List.getElem?_eq_none (Nat.le_of_not_lt hlt)]
    · rw [hs.2 k (fun p hp hc => hex ⟨p, hp, hc.symm⟩), hk']
  · have := hs.1 (j * h * n + i * n + (m * h + k), kernel t ⟨m, hm⟩ ⟨k, hk'⟩) (by
      simp only [List.mem_flatMap, List.mem_map, List.mem_finRange, true_and]
      exact ⟨⟨m, hm⟩, ⟨k, hk'⟩, rfl⟩) (hb m k hm hk')
    rw [← hpos]
    exact this

theorem sseTiles_ok (n slack : Nat) (hs : slack ≤ n) (hn : 0 < n) (kernel : (Fin n → Fin n → α) → Fin n → Fin n → α)
    (hk : ∀ r a b, kernel r a b = r b a) (l : List α) (w h : Nat) (hl : l.length = w * h) (ij : List (Nat × Nat))
    (hij : ∀ p ∈ ij, p.1 < h / n ∧ p.2 < w / n) (out : List α) (ho : out.length = w * h) :
    ∃ o, sseTiles n slack kernel l w h ij out = some o ∧ o.length = w * h ∧
      (∀ k, out[k]? = Spec.transposed l w h k → o[k]? = Spec.transposed l w h k) ∧
      ∀ p ∈ ij, ∀ m < n, ∀ k < n,
        o[(p.2 * n + m) * h + (p.1 * n + k)]? = Spec.transposed l w h ((p.2 * n + m) * h + (p.1 * n + k)) := by
  induction ij generalizing out with
  | nil => exact ⟨out, rfl, ho, fun _ hk => hk, by simp⟩
  | cons p ps ih =>
    obtain ⟨i, j⟩ := p
    obtain ⟨hi, hj⟩ := hij (i, j) (by simp)
    obtain ⟨o1, a1, a2, a3, a4⟩ := sseTile_ok n slack hs hn kernel hk l out w h i j hl ho hi hj
    obtain ⟨o2, b1, b2, b3, b4⟩ := ih (fun q hq => hij q (by simp [hq])) o1 a2
    refine ⟨o2, ?_, b2, fun k hk => b3 k (a3 k hk), fun q hq m hm k hk => ?_⟩
    · simp only [sseTiles, a1, Option.bind_some, b1]
    · rcases List.mem_cons.1 hq with rfl | hq
      · exact b3 _ (a4 m hm k hk)
      · exact b4 q hq m hm k hk

/-- The whole transposition, for any tile size and any kernel that transposes tiles. -/
theorem sseTranspose_ok (n slack : Nat) (hs : slack ≤ n) (hn : 0 < n) (kernel : (Fin n → Fin n → α) → Fin n → Fin n → α)
    (hk : ∀ r a b, kernel r a b = r b a) (checks : Bool) (d : α) (l out : List α) (w h : Nat) (hw : n ≤ w)
    (hl : l.length = w * h) (ho : out.length = w * h) :
    ∃ r, sseTranspose n slack kernel checks d l out w h = some r ∧ r.length = h * w ∧
      ∀ x < w, ∀ y < h, r[x * h + y]? = l[y * w + x]? := by
  have hd : l.length / (n * w) = h / n := by
    rw [hl, Nat.mul_comm n w, Nat.mul_div_mul_left _ _ (by omega)]
  obtain ⟨o1, t0, t1, t2, t3⟩ := sseTiles_ok n slack hs hn kernel hk l w h hl (grid (l.length / (n * w)) (w / n))
    (by rintro ⟨i, j⟩ hp; obtain ⟨a, b⟩ := (mem_grid _ _ _ _).1 hp; exact ⟨by rw [← hd]; exact a, b⟩) out ho
  unfold sseTranspose
  rw [if_neg (by omega), if_neg (by omega), t0, Option.bind_some]
  refine ⟨_, rfl, by simp [t1, Nat.mul_comm], fun x hx y hy => ?_⟩
  have hmw : w % n ≤ w := Nat.mod_le _ _
  have hmh : h % n ≤ h := Nat.mod_le _ _
  have R := setAll_filterMap_spec (grid (h - (h - h % n)) w) l o1 w h
    (fun p => p.2 * h + (h - h % n + p.1)) (fun p => (h - h % n + p.1) * w + p.2) (by
      rintro ⟨i, j⟩ hp
      obtain ⟨a, b⟩ := (mem_grid _ _ _ _).1 hp
      exact transposed_at l (by simp only; omega))
  have Cc := setAll_filterMap_spec (grid (w - (w - w % n)) h) l
    (setAll o1 ((grid (h - (h - h % n)) w).filterMap fun (i, j) =>
      (l[(h - h % n + i) * w + j]?).map fun v => (j * h + (h - h % n + i), v))) w h
    (fun p => (w - w % n + p.1) * h + p.2) (fun p => p.2 * w + (w - w % n + p.1)) (by
      rintro ⟨i, j⟩ hp
      obtain ⟨a, b⟩ := (mem_grid _ _ _ _).1 hp
      exact transposed_at l b)
  have hlt : y * w + x < l.length := by rw [hl]; exact rowcol_lt hx hy
  by_cases hcol : w - w % n ≤ x
  · have := Cc.1 (x - (w - w % n), y) ((mem_grid _ _ _ _).2 ⟨by omega, hy⟩)
      (by simp only [setAll_length, t1]
          rw [show w - w % n + (x - (w - w % n)) = x by omega, Nat.mul_comm w h]
          exact rowcol_lt hy hx)
      (by simp only; rw [show w - w % n + (x - (w - w % n)) = x by omega]; exact hlt)
    simp only [show w - w % n + (x - (w - w % n)) = x by omega] at this
    exact this
  · have key : (setAll o1 ((grid (h - (h - h % n)) w).filterMap fun (i, j) =>
      (l[(h - h % n + i) * w + j]?).map fun v => (j * h + (h - h % n + i), v)))[x * h + y]? =
        Spec.transposed l w h (x * h + y) := by
      by_cases hrow : h - h % n ≤ y
      · have := R.1 (y - (h - h % n), x) ((mem_grid _ _ _ _).2 ⟨by omega, hx⟩)
          (by simp only [t1]
              rw [show h - h % n + (y - (h - h % n)) = y by omega, Nat.mul_comm w h]
              exact rowcol_lt hy hx)
          (by simp only; rw [show h - h % n + (y - (h - h % n)) = y by omega]; exact hlt)
        simp only [show h - h % n + (y - (h - h % n)) = y by omega] at this
        rw [transposed_at l hy]
        exact this
      · apply R.2
        have hx' : x / n < w / n := by
          have e := Nat.div_add_mod w n
          apply Nat.div_lt_of_lt_mul
          omega
        have hy' : y / n < h / n := by
          have e := Nat.div_add_mod h n
          apply Nat.div_lt_of_lt_mul
          omega
        have := t3 (y / n, x / n) ((mem_grid _ _ _ _).2 ⟨by rw [hd]; exact hy', hx'⟩) (x % n) (Nat.mod_lt _ hn) (y % n) (Nat.mod_lt _ hn)
        simp only [Nat.div_add_mod'] at this
        exact this
    have := Cc.2 _ key
    rw [transposed_at l hy] at this
    exact this

/-- Width from which the SSE code path is used, per sample type (sse41.rs:228, 305, 411). -/
def Spec.tileSide : TrBits → Nat
  | .u8 => 8
  | .u16 => 8
  | .f32 => 4

/-- **C120**, for pictures at least one tile wide (8 samples, 4 for floats), of **any height**: on a processor with SSE4.1 no
    assertion fails, no unchecked load or store leaves its slice, and sample `(x, y)` ends at `(y, x)`; `Transpose` replaces
    the channel by it.  Missing: narrower pictures, which the scalar code gets wrong (`c120_narrow_wrong`). -/
theorem c120_transpose_partial (b : TrBits) (checks : Bool) (d : α) (l : List α) (w h : Nat) (hw : Spec.tileSide b ≤ w)
    (hl : l.length = w * h) :
    ∃ r, transposeChannel true b checks d l w h = some r ∧ r.length = h * w ∧
      ∀ x < w, ∀ y < h, r[x * h + y]? = l[y * w + x]? := by
  unfold transposeChannel transposeDispatch
  rw [if_pos rfl]
  cases b
  · exact sseTranspose_ok 8 0 (by omega) (by omega) sseTile8 c120_tile8 checks d l _ w h hw hl (by simp)
  · exact sseTranspose_ok 8 8 (by omega) (by omega) sseTile16 c120_tile16 checks d l _ w h hw hl (by simp)
  · exact sseTranspose_ok 4 0 (by omega) (by omega) sseTile32 c120_tile4 checks d l _ w h hw hl (by simp)

/-- A 9x3 picture of bytes meets the hypotheses: its last sample of the first row is the first one of the last row of the
    result.  (The scalar code loses pictures of this height, `c33_small_images_wrong`.) -/
example : ∃ r, transposeChannel true .u8 true 0 (List.range 27) 9 3 = some r ∧ r[8 * 3 + 0]? = some 8 := by
  obtain ⟨r, h1, _, h2⟩ := c120_transpose_partial .u8 true 0 (List.range 27) 9 3 (by decide) (by simp)
  exact ⟨r, h1, by rw [h2 8 (by omega) 0 (by omega)]; decide⟩

/-- A 5x6 picture of floats meets them too. -/
example : ∃ r, transposeChannel true .f32 true 0 (List.range 30) 5 6 = some r ∧ r[4 * 6 + 5]? = some 29 := by
  obtain ⟨r, h1, _, h2⟩ := c120_transpose_partial .f32 true 0 (List.range 30) 5 6 (by decide) (by simp)
  exact ⟨r, h1, by rw [h2 4 (by omega) 5 (by omega)]; decide⟩

/-- **C120**: where the scalar code is right (both sides at least 8) the two processors produce the same picture. -/
theorem c120_same (b : TrBits) (checks checks' : Bool) (d : α) (l : List α) (w h : Nat) (hw : 8 ≤ w) (hh : 8 ≤ h)
    (hl : l.length = w * h) : transposeChannel true b checks d l w h = transposeChannel false b checks' d l w h := by
  obtain ⟨r, e1, l1, p1⟩ := c120_transpose_partial b checks d l w h (by cases b <;> simp only [Spec.tileSide] <;> omega) hl
  obtain ⟨s, e2, l2, p2⟩ := c33_transpose_partial checks' d l (List.replicate (w * h) d) w h hw hh hl (by simp)
  rw [e1, show transposeChannel false b checks' d l w h = some s from e2]
  congr 1
  exact image_ext l1 l2 fun x hx y hy => by rw [p1 y hy x hx, p2 y hy x hx]

example : transposeChannel true .u16 true 0 (List.range 72) 9 8 = transposeChannel false .u16 false 0 (List.range 72) 9 8 :=
  c120_same .u16 true false 0 _ 9 8 (by omega) (by omega) (by simp)

/-- **C120**: transposing twice gives the picture back when both sides have at least one tile. -/
theorem c120_twice_partial (b : TrBits) (checks : Bool) (d : α) (l : List α) (w h : Nat) (hw : Spec.tileSide b ≤ w)
    (hh : Spec.tileSide b ≤ h) (hl : l.length = w * h) :
    ((transposeChannel true b checks d l w h).bind fun r => transposeChannel true b checks d r h w) = some l := by
  obtain ⟨r, e1, l1, p1⟩ := c120_transpose_partial b checks d l w h hw hl
  obtain ⟨s, e2, l2, p2⟩ := c120_transpose_partial b checks d r h w hh l1
  rw [e1, Option.bind_some, e2]
  congr 1
  refine image_ext l2 hl fun x hx y hy => ?_
  rw [p2 y hy x hx, p1 x hx y hy]

example : ((transposeChannel true .f32 false 0 (List.range 20) 4 5).bind fun r => transposeChannel true .f32 false 0 r 5 4)
    = some (List.range 20) :=
  c120_twice_partial .f32 false 0 _ 4 5 (by decide) (by decide) (by simp)

/-- **C120, negation**: with overflow checks every picture narrower than a tile makes the transposition panic, with SSE4.1 as
    without; in release builds a picture that is also less than eight samples high comes out blank. -/
theorem c120_narrow_wrong (b : TrBits) (d : α) (l : List α) (w h : Nat) (hw : w < Spec.tileSide b) (hl : l.length = w * h) :
    transposeChannel true b true d l w h = none ∧
    (0 < w → h < 8 → transposeChannel true b false d l w h = some (List.replicate (w * h) d)) := by
  have h8 : w < 8 := lt_of_lt_of_le hw (by cases b <;> decide)
  have hrw : remRange w = none := by unfold remRange; rw [if_pos]; rw [Nat.mod_eq_of_lt h8]; omega
  have hw8 : w / 8 = 0 := Nat.div_eq_of_lt h8
  have hg : ∀ n, grid n 0 = [] := fun n => by simp [grid]
  have hscalar : ∀ c, transposeChannel true b c d l w h = transposeScalar c d l (List.replicate (w * h) d) w h := fun c => by
    unfold transposeChannel transposeDispatch
    rw [if_pos rfl]
    cases b <;> simp only [sseTransposeU8, sseTransposeU16, sseTransposeF32, sseTranspose] <;>
      rw [if_neg (by simp [hl]), if_pos (by simpa [Spec.tileSide] using hw)]
  rw [hscalar, hscalar]
  constructor
  · unfold transposeScalar
    split_ifs with h1 h2
    · rfl
    · rfl
    · exact absurd ⟨rfl, Or.inl hrw⟩ h2
  · intro h0 hh
    have hrh : remRange h = none := by unfold remRange; rw [if_pos]; rw [Nat.mod_eq_of_lt hh]; omega
    unfold transposeScalar
    rw [if_neg (by simp [hl]; omega)]
    simp only [hrw, hrh, hw8, hg, List.foldl_nil]
    rfl

/-- A 3x2 picture of bytes is such a picture. -/
example : transposeChannel true .u8 true 0 [1, 2, 3, 4, 5, 6] 3 2 = none ∧
    transposeChannel true .u8 false 0 [1, 2, 3, 4, 5, 6] 3 2 = some [0, 0, 0, 0, 0, 0] :=
  have h := c120_narrow_wrong .u8 0 [1, 2, 3, 4, 5, 6] 3 2 (by decide) (by simp)
  ⟨h.1, h.2 (by omega) (by omega)⟩

end Zune.Imageprocs
