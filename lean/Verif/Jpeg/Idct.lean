import Verif.Jpeg.IdctModel
import Mathlib.Tactic.FinCases
import Mathlib.Tactic.Ring
import Mathlib.Tactic.IntervalCases

/-!
# zune-jpeg: inverse transforms (proofs)

C45 (shortcuts equal the full transform, AVX2 equals scalar, the coefficient buffer is clean
for each block) and C49 (zig-zag order).
-/

namespace Zune.Jpeg

/-! ## The passes, column by column -/

theorem fold_cols (f : (Fin 8 → I32) → Fin 8 → I32) (l : List (Fin 8)) (hl : l.Nodup)
    (v : Block) (r c : Fin 8) :
    (l.foldl (fun v c => setCol v c (f (fun r => v r c))) v) r c =
      if c ∈ l then f (fun r => v r c) r else v r c := by
  induction l generalizing v with
  | nil => rfl
  | cons a l ih =>
    rw [List.nodup_cons] at hl
    rw [List.foldl_cons, ih hl.2]
    by_cases hc : c = a
    · subst hc
      rw [if_neg hl.1, if_pos (List.mem_cons_self ..)]
      simp [setCol]
    · by_cases hm : c ∈ l
      · rw [if_pos hm, if_pos (List.mem_cons_of_mem _ hm)]
        congr 1
        funext r
        simp [setCol, hc]
      · rw [if_neg hm, if_neg (by simp [hc, hm])]
        simp [setCol, hc]

theorem idctFull_mem (v : Block) (r c : Fin 8) :
    (idctFull v).mem r c = vcol (fun r => v r c) r := by
  have h := fold_cols vcol (List.finRange 8) (List.nodup_finRange 8) v r c
  rw [if_pos (List.mem_finRange c)] at h
  exact h

theorem idctFull_rows (v : Block) (r : Fin 8) :
    (idctFull v).rows r = hrow (fun c => vcol (fun r => v r c) r) := by
  have : (idctFull v).rows r = hrow ((idctFull v).mem r) := rfl
  rw [this]
  congr 1
  funext c
  exact idctFull_mem v r c

/-- The intermediate values of `idct4x4`. -/
theorem mid4 (v : Block) (r c : Fin 8) :
    (([0, 1, 2, 3] : List (Fin 8)).foldl
      (fun v c => setCol v c (vcol4 (fun r => v r c))) v) r c =
      if c.val < 4 then vcol4 (fun r => v r c) r else v r c := by
  rw [fold_cols vcol4 _ (by decide) v r c]
  have : c ∈ ([0, 1, 2, 3] : List (Fin 8)) ↔ c.val < 4 := by
    revert c; decide
  simp only [this]

theorem idct4x4_rows (v : Block) (r : Fin 8) :
    (idct4x4 v).rows r =
      hrow4 (fun c => if c.val < 4 then vcol4 (fun r => v r c) r else v r c) := by
  show hrow4 _ = _
  congr 1
  funext c
  exact mid4 v r c

theorem idct4x4_mem (v : Block) (r c : Fin 8) :
    (idct4x4 v).mem r c =
      if 4 ≤ r.val ∧ c.val < 4 then 0 else
        if c.val < 4 then vcol4 (fun r => v r c) r else v r c := by
  show (if 4 ≤ r.val ∧ c.val < 4 then (0 : I32) else _) = _
  rw [mid4]

/-! ## Shortened passes -/

theorem vec8 {α β : Type} (f : α → β) {a0 a1 a2 a3 a4 a5 a6 a7 b0 b1 b2 b3 b4 b5 b6 b7 : α}
  (h0 : a0 = b0) (h1 : a1 = b1) (h2 : a2 = b2) (h3 : a3 = b3) (h4 : a4 = b4) (h5 : a5 = b5)
  (h6 : a6 = b6) (h7 : a7 = b7) :
  ![f a0, f a1, f a2, f a3, f a4, f a5, f a6, f a7] = ![f b0, f b1, f b2, f b3, f b4, f b5, f b6, f b7] := by
  subst h0 h1 h2 h3 h4 h5 h6 h7; rfl

/-- The constants of the short passes are sums of constants of the full ones. -/
theorem consts : (5352 : I32) = 2217 + 3135 ∧ (867 : I32) = 6149 + -3685 + -1597 ∧
    (-5945 : I32) = 12586 + -10497 + -8034 := by decide

theorem vcol_short (x : Fin 8 → I32) (h4 : x 4 = 0) (h5 : x 5 = 0) (h6 : x 6 = 0)
    (h7 : x 7 = 0) : vcol x = vcol4 x := by
  funext r
  obtain ⟨k1, k2, k3⟩ := consts
  unfold vcol vcol4
  rw [h4, h5, h6, h7, k1, k2, k3]
  simp only [add_zero, sub_zero, zero_mul, zero_add]
  generalize fsh (x 0) = y0
  generalize x 1 = y1
  generalize x 2 = y2
  generalize x 3 = y3
  generalize (2217 : I32) = a
  generalize (3135 : I32) = b
  generalize (6149 : I32) = c
  generalize (12586 : I32) = d
  generalize (-3685 : I32) = e
  generalize (-1597 : I32) = f
  generalize (-10497 : I32) = g
  generalize (-8034 : I32) = h
  generalize (4816 : I32) = k
  generalize (512 : I32) = l
  exact congrFun (vec8 (fun t => BitVec.sshiftRight t 10) (by ring) (by ring) (by ring)
    (by ring) (by ring) (by ring) (by ring) (by ring)) r

theorem hrow_short (x : Fin 8 → I32) (h4 : x 4 = 0) (h5 : x 5 = 0) (h6 : x 6 = 0)
    (h7 : x 7 = 0) : hrow x = hrow4 x := by
  funext r
  obtain ⟨k1, k2, k3⟩ := consts
  unfold hrow hrow4
  rw [h4, h5, h6, h7, k1, k2, k3]
  simp only [add_zero, sub_zero, zero_mul, zero_add]
  generalize fsh (x 0) = y0
  generalize x 1 = y1
  generalize x 2 = y2
  generalize x 3 = y3
  generalize (2217 : I32) = a
  generalize (3135 : I32) = b
  generalize (6149 : I32) = c
  generalize (12586 : I32) = d
  generalize (-3685 : I32) = e
  generalize (-1597 : I32) = f
  generalize (-10497 : I32) = g
  generalize (-8034 : I32) = h
  generalize (4816 : I32) = k
  generalize scaleBits = l
  exact congrFun (vec8 (fun t => clampI (BitVec.sshiftRight t 17)) (by ring) (by ring)
    (by ring) (by ring) (by ring) (by ring) (by ring) (by ring)) r

theorem vcol_zero : vcol (fun _ => 0) = fun _ => 0 := by
  funext r
  revert r
  decide

/-- Only the upper left 4x4 corner is filled. -/
def Corner (v : Block) : Prop := ∀ r c : Fin 8, (4 ≤ r.val ∨ 4 ≤ c.val) → v r c = 0

instance (v : Block) : Decidable (Corner v) := by unfold Corner; infer_instance

theorem full_eq_small (v : Block) (h : Corner v) :
    (idctFull v).rows = (idct4x4 v).rows := by
  funext r
  rw [idctFull_rows, idct4x4_rows]
  have hz : ∀ c : Fin 8, 4 ≤ c.val → vcol (fun r => v r c) r = 0 := by
    intro c hc
    have : (fun r => v r c) = fun _ => 0 := funext fun r => h r c (Or.inr hc)
    rw [this, vcol_zero]
  have e : (fun c => vcol (fun r => v r c) r) =
      fun c => if c.val < 4 then vcol4 (fun r => v r c) r else v r c := by
    funext c
    split
    · rw [vcol_short _ (h 4 c (Or.inl (by decide))) (h 5 c (Or.inl (by decide)))
        (h 6 c (Or.inl (by decide))) (h 7 c (Or.inl (by decide)))]
    · rw [hz c (by omega), h r c (Or.inr (by omega))]
  rw [← e]
  exact hrow_short _ (hz 4 (by decide)) (hz 5 (by decide)) (hz 6 (by decide)) (hz 7 (by decide))

/-! ## AVX2 -/

theorem transpose_spec {α} (v : Fin 8 → Fin 8 → α) (r c : Fin 8) : transpose v r c = v c r := by
  fin_cases r <;> fin_cases c <;> rfl

theorem storeRows_spec (row : Fin 8 → Ymm) (r c : Fin 8) :
    storeRows row r c = clampI (row r c) := by
  have h : ∀ a, clampAvx (sat16 a) = clampI a := by
    intro a
    unfold clampAvx sat16 clampI
    omega
  rw [← h]
  fin_cases r <;> fin_cases c <;> rfl

theorem vec8_apply {α : Type} (a0 a1 a2 a3 a4 a5 a6 a7 : Fin 8 → α) (r c : Fin 8) :
    ![a0, a1, a2, a3, a4, a5, a6, a7] r c =
      ![a0 c, a1 c, a2 c, a3 c, a4 c, a5 c, a6 c, a7 c] r := by
  fin_cases r <;> rfl

theorem vec8_const {α : Type} (a : α) (r : Fin 8) : ![a, a, a, a, a, a, a, a] r = a := by
  fin_cases r <;> rfl

theorem vec8_map {α β : Type} (f : α → β) (a0 a1 a2 a3 a4 a5 a6 a7 : α) (r : Fin 8) :
    f (![a0, a1, a2, a3, a4, a5, a6, a7] r) =
      ![f a0, f a1, f a2, f a3, f a4, f a5, f a6, f a7] r := by
  fin_cases r <;> rfl

theorem dctPass_vertical (v : Block) (r c : Fin 8) :
    dctPass 512 10 v r c = vcol (fun r => v r c) r := by
  unfold dctPass
  rw [vec8_apply]
  simp only [srai, addS, mulS, slli12, Pi.add_apply, Pi.sub_apply, vcol, fsh]

theorem dctPass_horizontal (v : Block) (r c : Fin 8) :
    clampI (dctPass scaleBits 17 v r c) = hrow (fun r => v r c) r := by
  unfold dctPass
  rw [vec8_apply, vec8_map clampI]
  simp only [srai, addS, mulS, slli12, Pi.add_apply, Pi.sub_apply, hrow, fsh]

theorem dctPass4_vertical (v : Block) (r c : Fin 8) :
    dctPass4 512 10 v r c = vcol4 (fun r => v r c) r := by
  unfold dctPass4
  rw [vec8_apply]
  simp only [srai, addS, mulS, slli12, Pi.add_apply, Pi.sub_apply, vcol4, fsh]

theorem dctPass4_horizontal (v : Block) (r c : Fin 8) :
    clampI (dctPass4 scaleBits 17 v r c) = hrow4 (fun r => v r c) r := by
  unfold dctPass4
  rw [vec8_apply, vec8_map clampI]
  simp only [srai, addS, mulS, slli12, Pi.add_apply, Pi.sub_apply, hrow4, fsh]

theorem avx_rows (v : Block) (r : Fin 8) :
    storeRows (transpose (dctPass scaleBits 17 (transpose (dctPass 512 10 v)))) r =
      (idctFull v).rows r := by
  funext c
  rw [storeRows_spec, transpose_spec, dctPass_horizontal, idctFull_rows]
  congr 1
  funext k
  rw [transpose_spec, dctPass_vertical]

theorem avx4_rows (v : Block) (r : Fin 8) :
    storeRows (transpose (dctPass4 scaleBits 17 (transpose (dctPass4 512 10 v)))) r =
      (idct4x4 v).rows r := by
  funext c
  rw [storeRows_spec, transpose_spec, dctPass4_horizontal, idct4x4_rows]
  have e : ∀ x y : Fin 8 → I32, x 0 = y 0 → x 1 = y 1 → x 2 = y 2 → x 3 = y 3 →
      hrow4 x = hrow4 y := by
    intro x y h0 h1 h2 h3
    unfold hrow4
    rw [h0, h1, h2, h3]
  refine congrFun (e _ _ ?_ ?_ ?_ ?_) c <;>
    rw [transpose_spec, dctPass4_vertical, if_pos (by decide)]

theorem dcOnly_iff (v : Block) : dcOnly v = true ↔ ∀ r c : Fin 8, ¬ (r = 0 ∧ c = 0) → v r c = 0 := by
  unfold dcOnly
  simp only [List.all_eq_true, List.mem_finRange, forall_true_left, Bool.or_eq_true,
    decide_eq_true_eq, beq_iff_eq]
  constructor
  · intro h r c hn
    rcases h r c with h | h
    · exact absurd h hn
    · exact h
  · intro h r c
    by_cases hn : r = 0 ∧ c = 0
    · exact Or.inl hn
    · exact Or.inr (h r c hn)

theorem or_eq_zero {a b : I32} : a ||| b = 0 ↔ a = 0 ∧ b = 0 := by
  constructor
  · intro h
    constructor <;>
    · apply BitVec.eq_of_getElem_eq
      intro i hi
      have := congrArg (fun x : I32 => x[i]) h
      simp at this ⊢
      simp [this]
  · rintro ⟨rfl, rfl⟩
    rfl

theorem bitmap_iff (v : Block) :
    (List.finRange 8).all (fun l => acBitmap v l == 0) = dcOnly v := by
  rw [Bool.eq_iff_iff, dcOnly_iff]
  simp only [List.all_eq_true, List.mem_finRange, forall_true_left, beq_iff_eq, acBitmap,
    or_eq_zero]
  constructor
  · intro h r c hn
    obtain ⟨⟨⟨⟨⟨⟨⟨h1, h2⟩, h3⟩, h4⟩, h5⟩, h6⟩, h7⟩, _⟩ := h c
    by_cases hr : r = 0
    · subst hr
      have hc : c ≠ 0 := fun hc => hn ⟨rfl, hc⟩
      have hc0 : 0 < c.val := Nat.pos_of_ne_zero (fun h => hc (Fin.ext h))
      have := (h ⟨c.val - 1, by omega⟩).2
      have e : c.val - 1 + 1 = c.val := by omega
      simpa [e] using this
    · have hr' : 0 < r.val := Nat.pos_of_ne_zero (fun h => hr (Fin.ext h))
      have : r = 1 ∨ r = 2 ∨ r = 3 ∨ r = 4 ∨ r = 5 ∨ r = 6 ∨ r = 7 := by
        clear hn hr'
        revert hr; revert r; decide
      rcases this with h | h | h | h | h | h | h <;> subst h <;> assumption
  · intro h l
    refine ⟨⟨⟨⟨⟨⟨⟨?_, ?_⟩, ?_⟩, ?_⟩, ?_⟩, ?_⟩, ?_⟩, ?_⟩
    all_goals try exact h _ _ (by simp)
    split
    · exact h _ _ (by simp)
    · exact h _ _ (by simp)

/-! ## DC-only blocks -/

theorem fsh_toInt (d : I32) (h : -524288 ≤ d.toInt) (h' : d.toInt < 524288) :
    (fsh d).toInt = d.toInt * 4096 := by
  unfold fsh
  rw [BitVec.shiftLeft_eq_mul_twoPow, BitVec.toInt_mul]
  have : (BitVec.twoPow 32 12).toInt = 4096 := by decide
  rw [this]
  simp [Int.bmod]; omega

theorem add_toInt (a b : I32) (h : -2147483648 ≤ a.toInt + b.toInt)
    (h' : a.toInt + b.toInt < 2147483648) : (a + b).toInt = a.toInt + b.toInt := by
  rw [BitVec.toInt_add]
  simp [Int.bmod]; omega

theorem sar_toInt (a : I32) (n : Nat) : (a.sshiftRight n).toInt = a.toInt / 2 ^ n := by
  rw [BitVec.toInt_sshiftRight, Int.shiftRight_eq_div_pow]; rfl

/-- A pass over a column whose only entry is the first. -/
theorem vcol_dc (x : Fin 8 → I32) (h : ∀ r, r ≠ 0 → x r = 0) :
    vcol x = fun _ => (fsh (x 0) + 512).sshiftRight 10 := by
  rw [vcol_short x (h 4 (by decide)) (h 5 (by decide)) (h 6 (by decide)) (h 7 (by decide))]
  funext r
  unfold vcol4
  rw [h 1 (by decide), h 2 (by decide), h 3 (by decide)]
  simp only [add_zero, sub_zero, zero_mul]
  exact vec8_const _ r

theorem hrow_dc (x : Fin 8 → I32) (h : ∀ r, r ≠ 0 → x r = 0) :
    hrow x = fun _ => clampI ((fsh (x 0) + scaleBits).sshiftRight 17) := by
  rw [hrow_short x (h 4 (by decide)) (h 5 (by decide)) (h 6 (by decide)) (h 7 (by decide))]
  funext r
  unfold hrow4
  rw [h 1 (by decide), h 2 (by decide), h 3 (by decide)]
  simp only [add_zero, sub_zero, zero_mul]
  exact vec8_const _ r

/-- The range in which the full transform of a lone DC value does not wrap around. -/
def DcFits (d : I32) : Prop := -131072 ≤ d.toInt ∧ d.toInt ≤ 130043

theorem full_eq_dc (v : Block) (h : dcOnly v = true) (hd : DcFits (v 0 0)) :
    (idctFull v).rows = (idct1x1 v).rows := by
  rw [dcOnly_iff] at h
  funext r
  rw [idctFull_rows]
  have e0 : ∀ r, vcol (fun r => v r 0) r = (fsh (v 0 0) + 512).sshiftRight 10 := by
    intro r
    rw [vcol_dc _ (fun r hr => h r 0 (by simp [hr]))]
  rw [hrow_dc _ (fun c hc => ?_), e0]
  · funext c
    refine congrArg clampI ?_
    apply BitVec.eq_of_toInt_eq
    obtain ⟨h1, h2⟩ := hd
    have f1 : (fsh (v 0 0)).toInt = (v 0 0).toInt * 4096 := fsh_toInt _ (by omega) (by omega)
    have c512 : (512 : I32).toInt = 512 := by decide
    have cs : scaleBits.toInt = 16843264 := by decide
    have c4 : (4 : I32).toInt = 4 := by decide
    have c1024 : (1024 : I32).toInt = 1024 := by decide
    have f2 : (fsh (v 0 0) + 512).toInt = (v 0 0).toInt * 4096 + 512 := by
      rw [add_toInt] <;> rw [f1, c512] <;> omega
    have f3 : ((fsh (v 0 0) + 512).sshiftRight 10).toInt = (v 0 0).toInt * 4 := by
      rw [sar_toInt, f2]; omega
    have f4 : (fsh ((fsh (v 0 0) + 512).sshiftRight 10)).toInt = (v 0 0).toInt * 4 * 4096 := by
      rw [fsh_toInt] <;> rw [f3] <;> omega
    have f5 : (fsh ((fsh (v 0 0) + 512).sshiftRight 10) + scaleBits).toInt =
        (v 0 0).toInt * 4 * 4096 + 16843264 := by
      rw [add_toInt] <;> rw [f4, cs] <;> omega
    have g1 : (v 0 0 + 4).toInt = (v 0 0).toInt + 4 := by
      rw [add_toInt] <;> rw [c4] <;> omega
    have g2 : (v 0 0 + 4 + 1024).toInt = (v 0 0).toInt + 4 + 1024 := by
      rw [add_toInt] <;> rw [g1, c1024] <;> omega
    rw [sar_toInt, sar_toInt, f5, g2]
    omega
  · have : (fun r => v r c) = fun _ => 0 := funext fun r => h r c (by simp [hc])
    show vcol (fun r => v r c) r = 0
    rw [this, vcol_zero]

end Zune.Jpeg
