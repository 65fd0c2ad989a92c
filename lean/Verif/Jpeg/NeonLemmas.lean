import Verif.Jpeg.NeonModel
import Verif.Jpeg.IdctProps
import Verif.Jpeg.UpsampleProps

/-!
# zune-jpeg: NEON kernels (lemmas)
-/

namespace Zune.Jpeg

/-! ### Upsampling -/

theorem hNeon8_eq (g : Nat → Int) (s : Nat) :
    hNeon8 (plane g s 10) = plane (two (fun i => tri (g i) (g (i - 1)))
      (fun i => tri (g i) (g (i + 1)))) (2 * (s + 1)) 16 := by
  rw [← flatMap_two _ _ (s + 1) 8]
  simp only [hNeon8, plane, List.range'_succ, List.range'_zero, List.map_cons, List.map_nil, vzip1, vzip2, List.take_succ_cons,
    List.take_zero, List.drop_succ_cons, List.drop_zero, List.zipWith_cons_cons, List.zipWith_nil_right, List.flatten_cons,
    List.flatten_nil, List.flatMap_cons, List.flatMap_nil, List.cons_append, List.nil_append, List.append_nil, Nat.add_sub_cancel]
  simp only [tri, Int.mul_comm _ (3 : Int)]

theorem hNeonLoop_eq (g : Nat → Int) : ∀ (fuel m s : Nat) (out : List Int), m < fuel →
    out.length = 2 * (m + 1) →
    ∃ k, 8 * k ≤ m ∧ m < 8 * k + 8 ∧ hNeonLoop fuel (plane g s (m + 2)) out =
      plane (two (fun i => tri (g i) (g (i - 1))) (fun i => tri (g i) (g (i + 1)))) (2 * (s + 1)) (16 * k)
        ++ out.drop (16 * k) := by
  intro fuel
  induction fuel with
  | zero => intro m s out h; omega
  | succ fuel ih =>
    intro m s out h ho
    unfold hNeonLoop
    rw [plane_length]
    by_cases hm : 8 ≤ m
    · rw [if_pos (by omega), plane_take _ _ _ _ (by omega), hNeon8_eq, plane_drop,
        show m + 2 - 8 = (m - 8) + 2 by omega]
      obtain ⟨k, h1, h2, e⟩ := ih (m - 8) (s + 8) (out.drop 16) (by omega)
        (by rw [List.length_drop]; omega)
      refine ⟨k + 1, by omega, by omega, ?_⟩
      rw [e, ← List.append_assoc, show 2 * (s + 8 + 1) = 2 * (s + 1) + 16 by omega, plane_append,
        List.drop_drop, show 16 * (k + 1) = 16 + 16 * k by omega]
    · rw [if_neg (by omega)]
      exact ⟨0, by omega, by omega, rfl⟩

theorem upHNeon_eq (g : Nat → Int) (n : Nat) (hn : 2 < n) (hg : ∀ i, Sample (g i)) (out : List Int)
    (ho : out.length = 2 * n) :
    upHNeon (plane g 0 n) out = some (plane (hSpec g n) 0 (2 * n)) := by
  unfold upHNeon
  rw [plane_length, if_pos (by omega)]
  by_cases hs : n < 10
  · rw [if_pos hs]
    exact upHScalar_eq g n hn hg out ho
  rw [if_neg hs]
  have := hEnds g n hn hg out ho
    (fun o => hNeonRest (plane g 0 n) (o.take 2 ++ hNeonLoop (n + 1) (plane g 0 n) (o.drop 2))) (by
      intro a b o hl
      obtain ⟨m, rfl⟩ : ∃ m, n = m + 2 := ⟨n - 2, by omega⟩
      obtain ⟨k, h1, h2, e⟩ := hNeonLoop_eq g (m + 2 + 1) m 0 o (by omega) (by omega)
      refine ⟨o.drop (2 * m), by rw [List.length_drop]; omega, ?_⟩
      show hNeonRest _ ([a, b] ++ hNeonLoop _ _ o) = _
      rw [e]
      have hq : hNeon8 ((plane g 0 (m + 2)).drop (m + 2 - 10)) = plane (two (fun i => tri (g i) (g (i - 1))) (fun i => tri (g i) (g (i + 1)))) (2 * (m - 8 + 1)) 16 := by
        rw [plane_drop, show m + 2 - (m + 2 - 10) = 10 by omega, hNeon8_eq,
          show 0 + (m + 2 - 10) + 1 = m - 8 + 1 by omega]
      generalize two (fun i => tri (g i) (g (i - 1))) (fun i => tri (g i) (g (i + 1))) = q at *
      have hlen : ([a, b] ++ (plane q (2 * (0 + 1)) (16 * k) ++ o.drop (16 * k))).length = 2 * (m + 2) := by
        simp only [List.length_cons, List.length_append, plane_length, List.length_nil, List.length_drop]
        omega
      unfold hNeonRest
      rw [plane_length, hlen, if_pos (by omega)]
      rw [hq]
      have t1 : ([a, b] ++ (plane q (2 * (0 + 1)) (16 * k) ++ o.drop (16 * k))).take (2 * (m + 2) - 2 - 16) =
          [a, b] ++ plane q 2 (2 * m - 16) := by
        rw [show 2 * (m + 2) - 2 - 16 = 2 * m - 16 + 1 + 1 by omega]
        show a :: b :: (plane q (2 * (0 + 1)) (16 * k) ++ o.drop (16 * k)).take (2 * m - 16) = _
        rw [List.take_append_of_le_length (by rw [plane_length]; omega), plane_take _ _ _ _ (by omega)]
        rfl
      have t2 : ([a, b] ++ (plane q (2 * (0 + 1)) (16 * k) ++ o.drop (16 * k))).drop (2 * (m + 2) - 2) =
          o.drop (2 * m) := by
        rw [show 2 * (m + 2) - 2 = 2 * m + 1 + 1 by omega]
        show (plane q (2 * (0 + 1)) (16 * k) ++ o.drop (16 * k)).drop (2 * m) = _
        rw [List.drop_append, List.drop_eq_nil_of_le (by rw [plane_length]; omega), plane_length,
          List.nil_append, List.drop_drop, show 16 * k + (2 * m - 16 * k) = 2 * m by omega]
      rw [t1, t2, List.append_assoc [a, b], show 2 * (m - 8 + 1) = 2 + (2 * m - 16) by omega,
        plane_append, show 2 * m - 16 + 16 = 2 * (m + 2 - 2) by omega]
      rfl)
  rw [← this]
  cases hFirst (plane g 0 n) out <;> rfl

theorem vNeon8_eq (g f : Nat → Int) (s n : Nat) :
    vNeon8 (plane g s n) (plane f s n) = plane (fun i => tri (g i) (f i)) s n := by
  unfold vNeon8 plane
  rw [zipWith_map_same]
  apply List.map_congr_left
  intro i _
  unfold tri
  rw [Int.mul_comm]

theorem vNeonLoop_eq (g f : Nat → Int) : ∀ (fuel n s : Nat) (out : List Int), n < fuel →
    out.length = n →
    ∃ k, 8 * k ≤ n ∧ n < 8 * k + 8 ∧ vNeonLoop fuel (plane g s n) (plane f s n) out =
      plane (fun i => tri (g i) (f i)) s (8 * k) ++ out.drop (8 * k) := by
  intro fuel
  induction fuel with
  | zero => intro n s out h; omega
  | succ fuel ih =>
    intro n s out h ho
    unfold vNeonLoop
    rw [plane_length, plane_length]
    by_cases hm : 8 ≤ n
    · rw [if_pos (by omega), plane_take _ _ _ _ hm, plane_take _ _ _ _ hm, vNeon8_eq, plane_drop,
        plane_drop]
      obtain ⟨k, h1, h2, e⟩ := ih (n - 8) (s + 8) (out.drop 8) (by omega)
        (by rw [List.length_drop]; omega)
      refine ⟨k + 1, by omega, by omega, ?_⟩
      rw [e, ← List.append_assoc, plane_append, List.drop_drop,
        show 8 * (k + 1) = 8 + 8 * k by omega]
    · rw [if_neg (by omega)]
      exact ⟨0, by omega, by omega, rfl⟩

theorem vNeonRow_eq (g f : Nat → Int) (n : Nat) (hn : 8 ≤ n) (out : List Int) (ho : out.length = n) :
    vNeonRest (plane g 0 n) (plane f 0 n) (vNeonLoop (n + 1) (plane g 0 n) (plane f 0 n) out) =
      plane (fun i => tri (g i) (f i)) 0 n := by
  obtain ⟨k, h1, h2, e⟩ := vNeonLoop_eq g f (n + 1) n 0 out (by omega) ho
  rw [e]
  have hl : (plane (fun i => tri (g i) (f i)) 0 (8 * k) ++ out.drop (8 * k)).length = n := by
    rw [List.length_append, plane_length, List.length_drop]; omega
  unfold vNeonRest
  rw [plane_length, plane_length, hl, if_pos (by omega), plane_drop, plane_drop,
    show n - (n - 8) = 8 by omega, vNeon8_eq, List.take_append_of_le_length
      (by rw [plane_length]; omega), plane_take _ _ _ _ (by omega), plane_append,
    show n - 8 + 8 = n by omega]

theorem upVNeon_eq (g up dn : Nat → Int) (n : Nat) (out : List Int) (ho : out.length = 2 * n) :
    upVNeon (plane g 0 n) (plane up 0 n) (plane dn 0 n) out =
      some (plane (fun i => tri (g i) (up i)) 0 n ++ plane (fun i => tri (g i) (dn i)) 0 n) := by
  unfold upVNeon
  rw [plane_length, plane_length, plane_length, if_pos ⟨by omega, rfl, rfl⟩]
  by_cases hs : n < 16
  · rw [if_pos hs, upVScalar_eq g up dn n out ho]
  · rw [if_neg hs, ho, show 2 * n / 2 = n by omega]
    simp only
    rw [vNeonRow_eq g up n (by omega) _ (by rw [List.length_take]; omega),
      vNeonRow_eq g dn n (by omega) _ (by rw [List.length_drop]; omega)]

/-! ### Inverse transform -/

/-- The eight lanes of a register. -/
def lanes {α} (a : (Fin 4 → α) × (Fin 4 → α)) : Fin 8 → α
  | 0 => a.1 0
  | 1 => a.1 1
  | 2 => a.1 2
  | 3 => a.1 3
  | 4 => a.2 0
  | 5 => a.2 1
  | 6 => a.2 2
  | 7 => a.2 3

theorem lanes_loadN (v : Block) : (fun r => lanes (loadN v r)) = v := by
  funext r c
  fin_cases c <;> rfl

theorem transposeN_row {α} (w : Fin 8 → (Fin 4 → α) × (Fin 4 → α)) (r : Fin 8) :
    transposeN w r = (![lanes (w 0) r, lanes (w 1) r, lanes (w 2) r, lanes (w 3) r],
      ![lanes (w 4) r, lanes (w 5) r, lanes (w 6) r, lanes (w 7) r]) := by
  fin_cases r <;> rfl

theorem lanes_transposeN {α} (w : Fin 8 → (Fin 4 → α) × (Fin 4 → α)) (r c : Fin 8) :
    lanes (transposeN w r) c = lanes (w c) r := by
  rw [transposeN_row]
  fin_cases c <;> rfl

theorem lanes_dctPassN (bias : I32) (scale : Nat) (w : Fin 8 → Ymm4) :
    (fun r => lanes (dctPassN bias scale w r)) = dctPass bias scale fun r => lanes (w r) := by
  funext r c
  fin_cases r <;> fin_cases c <;> rfl

theorem packClamp_eq (a : Ymm4) (c : Fin 8) : packClamp a c = clampI (lanes a c) := by
  have h : ∀ x, min (max (vqmovn x) 0) 255 = clampI x := by
    intro x
    unfold vqmovn clampI
    split_ifs <;> omega
  fin_cases c <;> exact h _

theorem neon_rows (v : Block) (r : Fin 8) :
    packClamp (transposeN (dctPassN scaleBits 17 (transposeN (dctPassN 512 10 (loadN v)))) r) = (idctFull v).rows r := by
  rw [← avx_rows]
  funext c
  rw [packClamp_eq, storeRows_spec, transpose_spec, lanes_transposeN]
  have h := congrFun (congrFun (lanes_dctPassN scaleBits 17 (transposeN (dctPassN 512 10 (loadN v)))) c) r
  rw [h]
  have t : (fun r => lanes (transposeN (dctPassN 512 10 (loadN v)) r)) = transpose (dctPass 512 10 v) := by
    funext a b
    rw [lanes_transposeN, transpose_spec]
    have h' := congrFun (congrFun (lanes_dctPassN 512 10 (loadN v)) b) a
    rw [h', lanes_loadN]
  rw [t]

theorem allZeroN_iff (a : Ymm4) : allZeroN a = true ↔ ∀ c, lanes a c = 0 := by
  have hf : (List.finRange 4).foldl (fun m l => max m (a.1 l ||| a.2 l).toNat) 0 =
      max (max (max (max 0 (a.1 0 ||| a.2 0).toNat) (a.1 1 ||| a.2 1).toNat) (a.1 2 ||| a.2 2).toNat) (a.1 3 ||| a.2 3).toNat := rfl
  have hz : ∀ x : I32, x.toNat = 0 ↔ x = 0 := fun x =>
    ⟨fun h => BitVec.eq_of_toNat_eq (by rw [h]; rfl), fun h => by rw [h]; rfl⟩
  unfold allZeroN
  rw [hf, beq_iff_eq]
  constructor
  · intro h c
    have h0 := or_eq_zero.1 ((hz (a.1 0 ||| a.2 0)).1 (by omega))
    have h1 := or_eq_zero.1 ((hz (a.1 1 ||| a.2 1)).1 (by omega))
    have h2 := or_eq_zero.1 ((hz (a.1 2 ||| a.2 2)).1 (by omega))
    have h3 := or_eq_zero.1 ((hz (a.1 3 ||| a.2 3)).1 (by omega))
    fin_cases c
    · exact h0.1
    · exact h1.1
    · exact h2.1
    · exact h3.1
    · exact h0.2
    · exact h1.2
    · exact h2.2
    · exact h3.2
  · intro h
    have h0 := (hz (a.1 0 ||| a.2 0)).2 (or_eq_zero.2 ⟨h 0, h 4⟩)
    have h1 := (hz (a.1 1 ||| a.2 1)).2 (or_eq_zero.2 ⟨h 1, h 5⟩)
    have h2 := (hz (a.1 2 ||| a.2 2)).2 (or_eq_zero.2 ⟨h 2, h 6⟩)
    have h3 := (hz (a.1 3 ||| a.2 3)).2 (or_eq_zero.2 ⟨h 3, h 7⟩)
    omega

theorem lanes_orTree (v : Block) (c : Fin 8) : lanes (orTree v) c = 0 ↔ acBitmap v c = 0 := by
  have h : lanes (orTree v) c = (v 1 c ||| (if h : c.val + 1 < 8 then v 0 ⟨c.val + 1, h⟩ else v 1 0) ||| (v 2 c ||| v 3 c)) |||
      (v 4 c ||| v 5 c ||| (v 6 c ||| v 7 c)) := by
    fin_cases c <;> rfl
  rw [h]
  unfold acBitmap
  simp only [or_eq_zero]
  tauto

theorem allZero_dcOnly (v : Block) : allZeroN (orTree v) = dcOnly v := by
  rw [Bool.eq_iff_iff, allZeroN_iff, ← bitmap_iff]
  simp only [List.all_eq_true, List.mem_finRange, forall_true_left, beq_iff_eq, lanes_orTree]

/-! ### Colour conversion -/

/-- An `i16`. -/
def InI16 (a : Int) : Prop := -32768 ≤ a ∧ a < 32768

theorem wrap32_id (x : Int) (h : -2147483648 ≤ x ∧ x < 2147483648) : wrap32 x = x := by
  unfold wrap32
  omega

theorem wrap16_inI16 (x : Int) : InI16 (wrap16 x) := by
  unfold InI16 wrap16
  omega

theorem sat_clamp (x : Int) : UInt8.ofNat (min 255 (max 0 (min 65535 x))).toNat = clampU8 x := by
  unfold clampU8
  congr 2
  omega

/-- What the lanes compute. -/
theorem neonLane (y cb cr : Int) (hy : InI16 y) :
    let u := wrap16 (cb - 128)
    let v := wrap16 (cr - 128)
    let acc := wrap32 (8191 + y * neonCoeffs 0)
    (⟨clampU8 (wrap32 (acc + v * neonCoeffs 1) / 2 ^ 14), clampU8 (wrap32 (wrap32 (acc + u * neonCoeffs 4) + v * neonCoeffs 3) / 2 ^ 14),
      clampU8 (wrap32 (acc + u * neonCoeffs 2) / 2 ^ 14)⟩ : Rgb) = ycbcrPixel y cb cr := by
  intro u v acc
  have hu : InI16 u := wrap16_inI16 _
  have hv : InI16 v := wrap16_inI16 _
  unfold InI16 at hy hu hv
  have e0 : neonCoeffs 0 = 16384 := rfl
  have e1 : neonCoeffs 1 = 22970 := rfl
  have e2 : neonCoeffs 2 = 29032 := rfl
  have e3 : neonCoeffs 3 = -11700 := rfl
  have e4 : neonCoeffs 4 = -5638 := rfl
  have ha : acc = y * 16384 + 8191 := by
    show wrap32 (8191 + y * neonCoeffs 0) = _
    rw [e0, wrap32_id _ (by omega)]
    omega
  have h : ycbcrPixel y cb cr = ⟨clampU8 ((y * 16384 + 8191 + v * 22970) / 2 ^ 14),
    clampU8 ((y * 16384 + 8191 + v * (-11700) + u * (-5638)) / 2 ^ 14), clampU8 ((y * 16384 + 8191 + u * 29032) / 2 ^ 14)⟩ := rfl
  rw [h, ha, e1, e2, e3, e4, wrap32_id (y * 16384 + 8191 + v * 22970) (by omega), wrap32_id (y * 16384 + 8191 + u * -5638) (by omega),
    wrap32_id (y * 16384 + 8191 + u * -5638 + v * -11700) (by omega), wrap32_id (y * 16384 + 8191 + u * 29032) (by omega)]
  congr 3
  omega

theorem conv16Neon_eq (alpha : Bool) (y cb cr : Nat → Int) (hy : ∀ i, InI16 (y i)) (s : Nat) :
    conv16Neon alpha (plane y s 16) (plane cb s 16) (plane cr s 16) =
      (List.range' s 16).flatMap fun i => (if alpha then Layout.rgba else Layout.rgb).store (ycbcrPixel (y i) (cb i) (cr i)) := by
  have hb : neonBase (plane y s 16) (plane cb s 16) (plane cr s 16) =
      ((List.range' s 16).map fun i => (ycbcrPixel (y i) (cb i) (cr i)).r, (List.range' s 16).map fun i => (ycbcrPixel (y i) (cb i) (cr i)).g,
        (List.range' s 16).map fun i => (ycbcrPixel (y i) (cb i) (cr i)).b) := by
    simp only [← neonLane _ _ _ (hy _)]
    simp only [neonBase, vmlal, vqshrun14, vqmovnU16, plane, List.range'_succ, List.range'_zero, List.map_cons, List.map_nil, List.take_succ_cons,
      List.take_zero, List.drop_succ_cons, List.drop_zero, List.replicate_succ, List.replicate_zero, List.zipWith_cons_cons,
      List.zipWith_nil_right, List.cons_append, List.nil_append, sat_clamp]
  unfold conv16Neon
  rw [hb]
  cases alpha
  · simp only [Bool.false_eq_true, if_false, vst3, List.zip_map', List.map_map, List.flatMap_def]
    rfl
  · simp only [if_true, vst4, List.zip_map', List.map_map, List.flatMap_def]
    rfl

end Zune.Jpeg
