import Verif.Jpeg.Idct

/-!
# zune-jpeg: C45 and C49

Property theorems about the inverse transforms, the choice between them, the reuse of the
coefficient buffer and the zig-zag order.
-/

namespace Zune.Jpeg

/-! ## Zig-zag order (C49) -/

/-- Specification (T.81, figure A.6): the block is read along its anti-diagonals, alternately
upwards and downwards; each entry is (row, column). -/
def zigzagWalk : List (Nat × Nat) :=
  (List.range 15).flatMap fun d =>
    let down := ((List.range 8).filter fun r => decide (r ≤ d ∧ d - r < 8)).map fun r => (r, d - r)
    if d % 2 = 0 then down.reverse else down

/-- **C49.** The table sends coefficient index `i` to entry `8*row + column` of the walk along
the anti-diagonals (a complete check of the 64 entries). -/
theorem c49_zigzag_walk : unZigzag.take 64 = zigzagWalk.map fun p => 8 * p.1 + p.2 := by
  decide +kernel

/-- **C49.** Each coefficient index 0..63 goes to a position of its own and every position of
the block is reached. -/
theorem c49_permutation : (unZigzag.take 64).Perm (List.range 64) := by
  decide +kernel

/-- **C49.** The first ten coefficients lie in the upper left 4x4 corner; the eleventh does
not. -/
theorem c49_corner : (∀ i, i < 10 → ∃ k, unZigzag[i]? = some k ∧ k / 8 < 4 ∧ k % 8 < 4) ∧
    unZigzag[10]? = some 32 := by
  constructor
  · intro i hi
    interval_cases i <;> exact ⟨_, rfl, by decide, by decide⟩
  · rfl

/-- Every read of the table made by the decoders (`UN_ZIGZAG[min(pos, 63)] & 63`,
`UN_ZIGZAG[pos & 63] & 63`, bitstream.rs:401, 416) is within the table and within the block. -/
theorem c49_in_block (i : Nat) (h : i < 80) : ∃ k, unZigzag[i]? = some k ∧ k < 64 := by
  have : ∀ i : Fin 80, ∃ k : Fin 64, unZigzag[i.val]? = some k.val := by decide +kernel
  obtain ⟨k, hk⟩ := this ⟨i, h⟩
  exact ⟨k.val, hk, k.isLt⟩

/-! ## Transforms (C45) -/

/-- Entry `k` of the coefficient array. -/
def coef (v : Block) (k : Nat) (h : k < 64) : I32 :=
  v ⟨k / 8, by omega⟩ ⟨k % 8, by omega⟩

/-- Specification of a block of `len` coefficients: those with a later zig-zag index are zero. -/
def Short (len : Nat) (v : Block) : Prop :=
  ∀ i k, ∀ h : k < 64, unZigzag[i]? = some k → len ≤ i → i < 64 → coef v k h = 0

theorem short_zero (len : Nat) (v : Block) (hs : Short len v) (r c : Fin 8)
    (h : ∀ i, i < len → i < 64 → unZigzag[i]? ≠ some (8 * r.val + c.val)) : v r c = 0 := by
  have hk : 8 * r.val + c.val < 64 := by omega
  have hm : 8 * r.val + c.val ∈ unZigzag.take 64 :=
    c49_permutation.symm.subset (List.mem_range.2 hk)
  obtain ⟨i, hi, e⟩ := List.mem_iff_getElem.1 hm
  have hi64 : i < 64 := by
    rw [List.length_take] at hi; omega
  have e' : unZigzag[i]? = some (8 * r.val + c.val) := by
    rw [List.getElem_take] at e
    rw [← e]
    exact List.getElem?_eq_getElem _
  have hge : len ≤ i := by
    by_contra hlt
    exact h i (by omega) hi64 e'
  have := hs i _ hk e' hge hi64
  unfold coef at this
  rw [← this]
  congr 1 <;> (apply Fin.ext; simp only; omega)

theorem short_dcOnly (v : Block) (len : Nat) (hl : len ≤ 1) (hs : Short len v) :
    dcOnly v = true := by
  rw [dcOnly_iff]
  intro r c hn
  apply short_zero len v hs r c
  intro i hi _ he
  have : i = 0 := by omega
  subst this
  have h0 : 8 * r.val + c.val = 0 := (Option.some.inj he).symm
  exact hn ⟨Fin.ext (by omega), Fin.ext (by omega)⟩

theorem short_corner (v : Block) (len : Nat) (hl : len ≤ 10) (hs : Short len v) :
    Corner v := by
  intro r c hrc
  apply short_zero len v hs r c
  intro i hi _ he
  obtain ⟨k, hk, h1, h2⟩ := c49_corner.1 i (by omega)
  rw [hk] at he
  have := Option.some.inj he
  omega

/-- **C45.** Whatever instruction set the decoder was configured for and however many
coefficients a block has, the transform it selects stores exactly the samples of the full 8x8
transform.  Where all AC coefficients are zero the DC value must be in the range in which the
32-bit arithmetic of the full transform does not wrap around. -/
theorem c45_selected_partial (avx2 : Bool) (len : Nat) (v : Block) (hs : Short len v)
    (hd : dcOnly v = true → DcFits (v 0 0)) :
    (select (chooseIdct avx2) len v).rows = (idctFull v).rows := by
  have full : (idctInt v).rows = (idctFull v).rows := by
    unfold idctInt
    split
    · rename_i h
      exact (full_eq_dc v h (hd h)).symm
    · rfl
  have favx : (idctAvx2 v).rows = (idctFull v).rows := by
    unfold idctAvx2
    rw [bitmap_iff]
    split
    · rename_i h
      exact (full_eq_dc v h (hd h)).symm
    · funext r
      exact avx_rows v r
  have savx : (idctAvx24x4 v).rows = (idct4x4 v).rows := funext fun r => avx4_rows v r
  unfold select chooseIdct
  split
  · rename_i h1
    have e := short_dcOnly v len h1 hs
    have : (idct1x1 v).rows = (idctFull v).rows := (full_eq_dc v e (hd e)).symm
    cases avx2 <;> exact this
  · split
    · rename_i h10
      have e := full_eq_small v (short_corner v len h10 hs)
      cases avx2
      · exact e.symm
      · exact savx.trans e.symm
    · cases avx2
      · exact full
      · exact favx

/-- A block with three coefficients, as `select` meets it. -/
def sampleBlock : Block := fun r c =>
  if r = 0 ∧ c = 0 then 240 else if r = 0 ∧ c = 1 then -33 else if r = 1 ∧ c = 0 then 57 else 0

example : Short 3 sampleBlock ∧ (dcOnly sampleBlock = true → DcFits (sampleBlock 0 0)) ∧
    (select (chooseIdct true) 3 sampleBlock).rows 0 0 = 162 := by
  refine ⟨?_, fun h => absurd h (by decide), by decide +kernel⟩
  intro i k hk he h3 hi
  have : ∀ (i : Fin 64) (k : Fin 64), unZigzag[i.val]? = some k.val → 3 ≤ i.val →
      coef sampleBlock k.val k.isLt = 0 := by decide +kernel
  exact this ⟨i, hi⟩ ⟨k, hk⟩ he h3

example : Short 1 (fun r c => if r = 0 ∧ c = 0 then 240 else 0) := by
  intro i k hk he h3 hi
  have : ∀ (i : Fin 64) (k : Fin 64), unZigzag[i.val]? = some k.val → 1 ≤ i.val →
      coef (fun r c => if r = 0 ∧ c = 0 then 240 else 0) k.val k.isLt = 0 := by decide +kernel
  exact this ⟨i, hi⟩ ⟨k, hk⟩ he h3

/-- **C45.** The AVX2 transforms store exactly the samples of the scalar ones, for every
coefficient block. -/
theorem c45_avx2 (v : Block) :
    (idctAvx2 v).rows = (idctInt v).rows ∧ (idctAvx24x4 v).rows = (idct4x4 v).rows := by
  constructor
  · unfold idctAvx2 idctInt
    rw [bitmap_iff]
    split
    · rfl
    · funext r
      exact avx_rows v r
  · funext r
    exact avx4_rows v r

/-- **C45**, the limit of `c45_selected_partial` (DESIGN J1): for a lone DC value outside that range the
shortcut and the full transform differ, because the full one wraps around. -/
theorem c45_wrap : ∃ v : Block, dcOnly v = true ∧
    (idct1x1 v).rows 0 0 = 255 ∧ (idctFull v).rows 0 0 = 0 :=
  ⟨fun r c => if r = 0 ∧ c = 0 then 131072 else 0, by decide +kernel, by decide +kernel,
    by decide +kernel⟩

theorem hrow_range (x : Fin 8 → I32) (c : Fin 8) : 0 ≤ hrow x c ∧ hrow x c ≤ 255 := by
  have h : ∀ a, 0 ≤ clampI a ∧ clampI a ≤ 255 := by
    intro a
    unfold clampI
    omega
  unfold hrow
  rw [← vec8_map clampI]
  exact h _

/-- **C45.** Every sample stored by the transform chosen for a block is in 0..255. -/
theorem c45_range (avx2 : Bool) (len : Nat) (v : Block) (r c : Fin 8) :
    0 ≤ (select (chooseIdct avx2) len v).rows r c ∧
      (select (chooseIdct avx2) len v).rows r c ≤ 255 := by
  have h : ∀ a, 0 ≤ clampI a ∧ clampI a ≤ 255 := by
    intro a
    unfold clampI
    omega
  have hf : 0 ≤ (idctInt v).rows r c ∧ (idctInt v).rows r c ≤ 255 := by
    unfold idctInt
    split
    · exact h _
    · rw [idctFull_rows]
      exact hrow_range _ _
  have h4 : 0 ≤ (idct4x4 v).rows r c ∧ (idct4x4 v).rows r c ≤ 255 := by
    rw [idct4x4_rows]
    unfold hrow4
    rw [← vec8_map clampI]
    exact h _
  have hav := c45_avx2 v
  unfold select chooseIdct
  split
  · cases avx2 <;> exact h _
  · split
    · cases avx2
      · exact h4
      · show 0 ≤ (idctAvx24x4 v).rows r c ∧ (idctAvx24x4 v).rows r c ≤ 255
        rw [hav.2]
        exact h4
    · cases avx2
      · exact hf
      · show 0 ≤ (idctAvx2 v).rows r c ∧ (idctAvx2 v).rows r c ≤ 255
        rw [hav.1]
        exact hf

/-! ### The buffer -/

/-- What `decode_mcu_block` may do to the coefficients when it returns `len`: store at the
positions of the first `len` zig-zag indices (and at the DC position). -/
def Writes (len : Nat) (dec : Block → Block) : Prop :=
  ∀ v r c, (∀ i, (i < len ∨ i = 0) → i < 64 → unZigzag[i]? ≠ some (8 * r.val + c.val)) →
    dec v r c = v r c

theorem clean_step (avx2 : Bool) (st : Bool × Block) (job : Option (Nat × (Block → Block)))
    (hj : ∀ len dec, job = some (len, dec) → Writes len dec)
    (hst : ∀ r c, clobber st.1 st.2 r c = 0) :
    ∀ r c, clobber (blockStep (chooseIdct avx2) st job).1
      (blockStep (chooseIdct avx2) st job).2 r c = 0 := by
  match job with
  | none => exact hst
  | some (len, dec) =>
    intro r c
    by_cases h10 : 10 < len
    · simp [blockStep, clobber, h10]
    · simp only [blockStep, clobber, h10, decide_false, Bool.false_eq_true, if_false]
      split
      · rfl
      · rename_i hr
        have hz : clobber st.1 st.2 = fun _ _ => 0 := funext fun r => funext fun c => hst r c
        have hw : ∀ r c : Fin 8, 4 ≤ r.val ∨ 4 ≤ c.val → dec (clobber st.1 st.2) r c = 0 := by
          intro r c hrc
          rw [hj len dec rfl, hz]
          intro i hi _ he
          obtain ⟨k, hk, h1, h2⟩ := c49_corner.1 i (by omega)
          rw [hk] at he
          have := Option.some.inj he
          omega
        have hkeep := hw r c (Or.inl (by omega))
        have hsm : (idct4x4 (dec (clobber st.1 st.2))).mem r c = 0 := by
          rw [idct4x4_mem]
          split
          · rfl
          · rw [if_neg (by omega)]
            exact hkeep
        unfold select chooseIdct
        split
        · cases avx2 <;> exact hkeep
        · rw [if_pos (by omega)]
          cases avx2
          · exact hsm
          · exact hkeep

/-- **C45.** The coefficient buffer is reused from block to block and only partly cleared after
a short block; nevertheless each block of a row of MCUs is decoded into a buffer of zeroes,
whatever the sequence of blocks (of any component, needed or not) and their contents. -/
theorem c45_clean_buffer (avx2 : Bool) (tmp : Block)
    (jobs : List (Option (Nat × (Block → Block))))
    (hj : ∀ len dec, some (len, dec) ∈ jobs → Writes len dec) (r c : Fin 8) :
    let st := jobs.foldl (blockStep (chooseIdct avx2)) (true, tmp)
    clobber st.1 st.2 r c = 0 := by
  intro st
  have : ∀ (jobs : List (Option (Nat × (Block → Block)))) (st : Bool × Block),
      (∀ len dec, some (len, dec) ∈ jobs → Writes len dec) →
      (∀ r c, clobber st.1 st.2 r c = 0) →
      ∀ r c, clobber (jobs.foldl (blockStep (chooseIdct avx2)) st).1
        (jobs.foldl (blockStep (chooseIdct avx2)) st).2 r c = 0 := by
    intro jobs
    induction jobs with
    | nil => intro st _ h; exact h
    | cons j jobs ih =>
      intro st hj h
      apply ih
      · exact fun len dec hm => hj len dec (List.mem_cons_of_mem _ hm)
      · exact clean_step avx2 st j (fun len dec e => hj len dec (by rw [e]; simp)) h
  exact this jobs (true, tmp) hj (fun r c => by simp [clobber]) r c

/-- The stores of a block with two coefficients. -/
def twoStores : Block → Block := fun v r c =>
  if r = 0 ∧ c = 0 then 800 else if r = 0 ∧ c = 1 then -50 else v r c

example : Writes 2 twoStores ∧ (idct4x4 (twoStores fun _ _ => 0)).mem 2 1 ≠ 0 := by
  constructor
  · intro v r c h
    have h0 := h 0 (by omega) (by omega)
    have h1 := h 1 (by omega) (by omega)
    have h0 : (0 : Nat) ≠ 8 * r.val + c.val := fun e => h0 (by rw [← e]; rfl)
    have h1 : (1 : Nat) ≠ 8 * r.val + c.val := fun e => h1 (by rw [← e]; rfl)
    unfold twoStores
    rw [if_neg, if_neg]
    · rintro ⟨rfl, rfl⟩; exact h1 rfl
    · rintro ⟨rfl, rfl⟩; exact h0 rfl
  · decide +kernel

/-! ### The stores -/

theorem putRow_length {out o : List Int} {pos : Nat} {row : Fin 8 → Int}
    (h : putRow out pos row = some o) : o.length = out.length := by
  unfold putRow at h
  split at h
  · cases h
    simp
    omega
  · cases h

theorem putRow_get {out o : List Int} {pos : Nat} {row : Fin 8 → Int}
    (h : putRow out pos row = some o) (k : Nat) :
    o[k]? = if hk : pos ≤ k ∧ k - pos < 8 then some (row ⟨k - pos, hk.2⟩) else out[k]? := by
  unfold putRow at h
  split at h
  · rename_i hl
    cases h
    have l1 : (out.take pos).length = pos := by simp; omega
    rw [List.append_assoc]
    by_cases h1 : k < pos
    · rw [List.getElem?_append_left (by omega), dif_neg (by omega), List.getElem?_take, if_pos h1]
    · rw [List.getElem?_append_right (by omega), l1]
      by_cases h2 : k - pos < 8
      · rw [List.getElem?_append_left (by simpa using h2), dif_pos ⟨by omega, h2⟩,
          List.getElem?_ofFn, dif_pos h2]
      · rw [List.getElem?_append_right (by simpa using Nat.le_of_not_lt h2), dif_neg (by omega),
          List.length_ofFn, List.getElem?_drop]
        congr 1
        omega
  · cases h

theorem putRows_aux (stride : Nat) (hs : 8 ≤ stride) (rows : Fin 8 → Fin 8 → Int)
    (l : List (Fin 8)) (hl : l.Nodup) (out : List Int)
    (hlen : ∀ r ∈ l, r.val * stride + 8 ≤ out.length) :
    ∃ o, l.foldlM (fun o r => putRow o (r.val * stride) (rows r)) out = some o ∧
      o.length = out.length ∧
      (∀ r ∈ l, ∀ c : Fin 8, o[r.val * stride + c.val]? = some (rows r c)) ∧
      (∀ k, (∀ r ∈ l, ∀ c : Fin 8, k ≠ r.val * stride + c.val) → o[k]? = out[k]?) := by
  induction l generalizing out with
  | nil => exact ⟨out, rfl, rfl, by simp, fun _ _ => rfl⟩
  | cons a l ih =>
    rw [List.nodup_cons] at hl
    have ha := hlen a (by simp)
    obtain ⟨o1, h1⟩ : ∃ o1, putRow out (a.val * stride) (rows a) = some o1 := by
      unfold putRow
      rw [if_pos ha]
      exact ⟨_, rfl⟩
    have hl1 := putRow_length h1
    obtain ⟨o, ho, hol, hin, hout⟩ := ih hl.2 o1 (fun r hr => by
      rw [hl1]; exact hlen r (List.mem_cons_of_mem _ hr))
    refine ⟨o, ?_, by omega, ?_, ?_⟩
    · rw [List.foldlM_cons, h1]
      exact ho
    · intro r hr c
      rcases List.mem_cons.1 hr with rfl | hr
      · rw [hout, putRow_get h1, dif_pos ⟨by omega, by omega⟩]
        · congr 2
          apply Fin.ext
          simp
        · intro r' hr' c' e
          have hne : r'.val ≠ r.val := fun h => hl.1 (by rwa [← Fin.ext h])
          rcases Nat.lt_or_gt_of_ne hne with h | h
          · have := Nat.mul_le_mul_right stride (Nat.succ_le_of_lt h)
            rw [Nat.succ_mul] at this
            omega
          · have := Nat.mul_le_mul_right stride (Nat.succ_le_of_lt h)
            rw [Nat.succ_mul] at this
            omega
      · exact hin r hr c
    · intro k hk
      rw [hout k (fun r hr c => hk r (List.mem_cons_of_mem _ hr) c), putRow_get h1, dif_neg]
      rintro ⟨hge, hlt⟩
      exact hk a (by simp) ⟨k - a.val * stride, hlt⟩ (by simp only; omega)

/-- **C45.** The stores of a transform fill exactly an 8x8 tile: sample (r, c) at
`r * stride + c`, every other sample of the plane unchanged, no panic. -/
theorem c45_tile (stride : Nat) (hs : 8 ≤ stride) (rows : Fin 8 → Fin 8 → Int) (out : List Int)
    (hlen : 7 * stride + 8 ≤ out.length) :
    ∃ o, putRows out stride rows = some o ∧ o.length = out.length ∧
      (∀ r c : Fin 8, o[r.val * stride + c.val]? = some (rows r c)) ∧
      (∀ k, (∀ r c : Fin 8, k ≠ r.val * stride + c.val) → o[k]? = out[k]?) := by
  obtain ⟨o, h1, h2, h3, h4⟩ := putRows_aux stride hs rows (List.finRange 8)
    (List.nodup_finRange 8) out (fun r _ => by
      have := Nat.mul_le_mul_right stride (show r.val ≤ 7 by omega)
      omega)
  exact ⟨o, h1, h2, fun r c => h3 r (List.mem_finRange r) c,
    fun k hk => h4 k (fun r _ c => hk r c)⟩

example : 8 ≤ 24 ∧ 7 * 24 + 8 ≤ (List.replicate 192 (7 : Int)).length := by
  rw [List.length_replicate]; omega

end Zune.Jpeg
