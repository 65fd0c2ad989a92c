/- PNG filters: C16 (reconstruction inverts the specified filters), C17 (predictors equal the specification). -/
import Verif.Png.Filters
import Mathlib.Data.Nat.Bitwise

namespace Zune.Png

/-! ### Predictors -/

/-- **C17** (Paeth).  The branch-free predictor selects the neighbour RFC 2083 prescribes, for all 2^24 triples. -/
theorem c17_paeth (a b c : UInt8) : (paeth a b c).toNat = Spec.paeth a.toNat b.toNat c.toNat := by
  have ha := a.toNat_lt; have hb := b.toNat_lt; have hc := c.toNat_lt
  simp only [paeth, Spec.paeth, UInt8.lt_iff_toNat_lt]
  split_ifs <;> omega

theorem add_eq_and_xor (a b : Nat) : a + b = 2 * (a &&& b) + (a ^^^ b) := by
  induction a using Nat.strongRecOn generalizing b with
  | _ a ih =>
    by_cases h : a = 0
    · subst h; simp
    · have := ih (a / 2) (by omega) (b / 2)
      have h1 : (a &&& b) / 2 = a / 2 &&& b / 2 := Nat.and_div_two
      have h2 : (a ^^^ b) / 2 = a / 2 ^^^ b / 2 := Nat.xor_div_two
      have h3 : (a ^^^ b) % 2 = (a + b) % 2 := Nat.xor_mod_two_eq
      have h4 : (a &&& b) % 2 = a % 2 * (b % 2) := by
        have : (a &&& b) % 2 ^ 1 = (a % 2 ^ 1) &&& (b % 2 ^ 1) := Nat.and_mod_two_pow
        simp only [pow_one] at this
        rw [this]
        rcases Nat.mod_two_eq_zero_or_one a with h | h <;> rcases Nat.mod_two_eq_zero_or_one b with h' | h' <;>
          simp [h, h']
      rcases Nat.mod_two_eq_zero_or_one a with h5 | h5 <;> rcases Nat.mod_two_eq_zero_or_one b with h6 | h6 <;>
        rw [h5, h6] at h4 <;> omega

/-- **C17** (Average).  The overflow-free average is `floor((left + above) / 2)`. -/
theorem c17_avg (a b : UInt8) : (avg a b).toNat = (a.toNat + b.toNat) / 2 := by
  have ha := a.toNat_lt; have hb := b.toNat_lt
  have h := add_eq_and_xor a.toNat b.toNat
  have hx : (a.toNat ^^^ b.toNat) < 2 ^ 8 := Nat.xor_lt_two_pow ha hb
  simp only [avg, UInt8.toNat_add, UInt8.toNat_and, UInt8.toNat_shiftRight, UInt8.toNat_xor, UInt8.toNat_one,
    (by decide : 1 % 8 = 1), Nat.shiftRight_eq_div_pow, pow_one]
  omega

/-- **C17** (Average, SSE lane).  The rounded-up average with its correction is the same number. -/
theorem c17_avg_sse (a b : UInt8) : (avgSse a b).toNat = (a.toNat + b.toNat) / 2 := by
  have ha := a.toNat_lt; have hb := b.toNat_lt
  have h3 : (a.toNat ^^^ b.toNat) % 2 = (a.toNat + b.toNat) % 2 := Nat.xor_mod_two_eq
  simp only [avgSse, UInt8.toNat_sub, UInt8.toNat_and, UInt8.toNat_xor, UInt8.toNat_one, Nat.and_one_is_mod,
    UInt8.toNat_ofNat']
  omega

theorem abs16_sub (x y : Nat) (hx : x < 1024) (hy : y < 1024) :
    (abs16 (BitVec.ofNat 16 x - BitVec.ofNat 16 y)).toNat = ((x : Int) - y).natAbs := by
  have h : (BitVec.ofNat 16 x - BitVec.ofNat 16 y).toNat = (2 ^ 16 - y + x) % 2 ^ 16 := by
    rw [BitVec.toNat_sub, BitVec.toNat_ofNat, BitVec.toNat_ofNat, Nat.mod_eq_of_lt (a := x) (by omega),
      Nat.mod_eq_of_lt (a := y) (by omega)]
  generalize hv : BitVec.ofNat 16 x - BitVec.ofNat 16 y = v at h
  have h0 : (0 : BitVec 16).toInt = 0 := rfl
  have hs : v.slt 0 = decide (2 ^ 15 ≤ v.toNat) := by
    rw [BitVec.slt, h0, BitVec.toInt_eq_toNat_cond, decide_eq_decide]
    have := v.isLt
    split <;> omega
  unfold abs16
  rw [hs]
  by_cases hc : 2 ^ 15 ≤ v.toNat
  · rw [if_pos (by simpa using hc), BitVec.toNat_neg]
    omega
  · rw [if_neg (by simpa using hc)]
    omega

theorem min16_toNat (x y : BitVec 16) (hx : x.toNat < 2 ^ 15) (hy : y.toNat < 2 ^ 15) :
    (min16 x y).toNat = min x.toNat y.toNat := by
  have hs : x.slt y = decide (x.toNat < y.toNat) := by
    rw [BitVec.slt, BitVec.toInt_eq_toNat_cond, BitVec.toInt_eq_toNat_cond, decide_eq_decide]
    split <;> split <;> omega
  unfold min16
  rw [hs]
  by_cases hc : x.toNat < y.toNat
  · rw [if_pos (by simpa using hc)]; omega
  · rw [if_neg (by simpa using hc)]; omega

/-- The three distances the 16-bit lanes hold. -/
theorem lanes (a b c : UInt8) :
    (abs16 (b.toBitVec.zeroExtend 16 - c.toBitVec.zeroExtend 16)).toNat = ((b.toNat : Int) - c.toNat).natAbs ∧
    (abs16 (a.toBitVec.zeroExtend 16 - c.toBitVec.zeroExtend 16)).toNat = ((a.toNat : Int) - c.toNat).natAbs ∧
    (abs16 (b.toBitVec.zeroExtend 16 - c.toBitVec.zeroExtend 16 + (a.toBitVec.zeroExtend 16 - c.toBitVec.zeroExtend 16))).toNat
      = ((b.toNat : Int) + a.toNat - 2 * c.toNat).natAbs := by
  have ha := a.toNat_lt; have hb := b.toNat_lt; have hc := c.toNat_lt
  have e : ∀ x : UInt8, x.toBitVec.zeroExtend 16 = BitVec.ofNat 16 x.toNat := by
    intro x
    apply BitVec.eq_of_toNat_eq
    simp
  have s : b.toBitVec.zeroExtend 16 - c.toBitVec.zeroExtend 16 + (a.toBitVec.zeroExtend 16 - c.toBitVec.zeroExtend 16) =
      BitVec.ofNat 16 (a.toNat + b.toNat) - BitVec.ofNat 16 (c.toNat + c.toNat) := by
    rw [e, e, e, BitVec.ofNat_add, BitVec.ofNat_add, BitVec.sub_eq_add_neg, BitVec.sub_eq_add_neg, BitVec.sub_eq_add_neg, BitVec.neg_add, BitVec.sub_eq_add_neg]
    ac_rfl
  refine ⟨?_, ?_, ?_⟩
  · rw [e, e]; exact abs16_sub _ _ (by omega) (by omega)
  · rw [e, e]; exact abs16_sub _ _ (by omega) (by omega)
  · rw [s, abs16_sub _ _ (by omega) (by omega)]; omega

theorem bv16_eq_iff (x y : BitVec 16) : x = y ↔ x.toNat = y.toNat := BitVec.toNat_inj.symm

/-- **C17** (Paeth, SSE lane).  The comparisons on 16-bit lanes select the same neighbour. -/
theorem c17_paeth_sse (a b c : UInt8) : (paethSse a b c).toNat = Spec.paeth a.toNat b.toNat c.toNat := by
  obtain ⟨l1, l2, l3⟩ := lanes a b c
  have ha := a.toNat_lt; have hb := b.toNat_lt; have hc := c.toNat_lt
  simp only [paethSse]
  generalize abs16 _ = pa at *
  generalize abs16 _ = pb at *
  generalize abs16 _ = pc at *
  have hm : (min16 pc (min16 pa pb)).toNat = min pc.toNat (min pa.toNat pb.toNat) := by
    rw [min16_toNat _ _ (by omega) (by rw [min16_toNat _ _ (by omega) (by omega)]; omega),
      min16_toNat _ _ (by omega) (by omega)]
  simp only [bv16_eq_iff, hm, l1, l2, l3, Spec.paeth]
  split_ifs <;> omega

/-- **C17** (Paeth, portable SIMD lane). -/
theorem c17_paeth_portable (a b c : UInt8) : (paethPortable a b c).toNat = Spec.paeth a.toNat b.toNat c.toNat := by
  obtain ⟨l1, l2, l3⟩ := lanes a b c
  have ha := a.toNat_lt; have hb := b.toNat_lt; have hc := c.toNat_lt
  simp only [paethPortable]
  generalize abs16 _ = pa at *
  generalize abs16 _ = pb at *
  generalize abs16 _ = pc at *
  have hm : (min16 (min16 pa pb) pc).toNat = min (min pa.toNat pb.toNat) pc.toNat := by
    rw [min16_toNat _ _ (by rw [min16_toNat _ _ (by omega) (by omega)]; omega) (by omega),
      min16_toNat _ _ (by omega) (by omega)]
  simp only [bv16_eq_iff, hm, l1, l2, l3, Spec.paeth]
  split_ifs <;> omega

/-! ### Loops -/

theorem fillLoop_succ (g : Nat → List UInt8 → UInt8) (lo k : Nat) (c : List UInt8) :
    fillLoop g lo (lo + (k + 1)) c = (fillLoop g lo (lo + k) c).set (lo + k) (g (lo + k) (fillLoop g lo (lo + k) c)) := by
  simp only [fillLoop, Nat.add_sub_cancel_left]
  rw [List.range'_concat, List.foldl_append]
  simp

theorem fillLoop_spec (g : Nat → List UInt8 → UInt8)
    (hg : ∀ i c c', (∀ j, j < i → c[j]? = c'[j]?) → g i c = g i c') (lo k : Nat) (c : List UInt8) (hk : lo + k ≤ c.length) :
    (fillLoop g lo (lo + k) c).length = c.length ∧
    ∀ i, (fillLoop g lo (lo + k) c)[i]? =
      if lo ≤ i ∧ i < lo + k then some (g i (fillLoop g lo (lo + k) c)) else c[i]? := by
  induction k with
  | zero =>
    simp only [fillLoop, Nat.add_zero, Nat.sub_self, List.range'_zero, List.foldl_nil]
    refine ⟨trivial, fun i => ?_⟩
    rw [if_neg (by omega)]
  | succ k ih =>
    obtain ⟨ih1, ih2⟩ := ih (by omega)
    rw [fillLoop_succ]
    generalize hr : fillLoop g lo (lo + k) c = r at ih1 ih2 ⊢
    refine ⟨by simp [ih1], fun i => ?_⟩
    have hsame : ∀ i, i ≤ lo + k → g i (r.set (lo + k) (g (lo + k) r)) = g i r := by
      intro i hi
      apply hg
      intro j hj
      rw [List.getElem?_set_ne (by omega)]
    rw [List.getElem?_set]
    by_cases h1 : lo + k = i
    · subst h1
      rw [if_pos rfl, if_pos (by omega), if_pos (by omega), hsame _ (le_refl _)]
    · rw [if_neg h1, ih2]
      by_cases h2 : lo ≤ i ∧ i < lo + k
      · rw [if_pos h2, if_pos (by omega), hsame _ (by omega)]
      · rw [if_neg h2, if_neg (by omega)]

theorem predict_lt (t : Nat) (a b c : Nat) (ha : a < 256) (hb : b < 256) (hc : c < 256) :
    Spec.predict t a b c < 256 := by
  unfold Spec.predict
  split <;> try omega
  simp only [Spec.paeth]
  split_ifs <;> omega

theorem before_lt (row : List UInt8) (n i : Nat) : Spec.before row n i < 256 := by
  unfold Spec.before
  split
  · exact UInt8.toNat_lt _
  · omega

theorem above_lt (row : List UInt8) (i : Nat) : Spec.above row i < 256 := UInt8.toNat_lt _

theorem unsub (x q : UInt8) (p : Nat) (hp : q.toNat = p) : UInt8.ofNat ((x.toNat + 256 - p) % 256) + q = x := by
  apply UInt8.toNat_inj.mp
  have := x.toNat_lt; have := q.toNat_lt
  simp only [UInt8.toNat_add, UInt8.toNat_ofNat']
  omega

theorem filterRow_length (t n : Nat) (prev row : List UInt8) : (Spec.filterRow t n prev row).length = row.length := by
  simp [Spec.filterRow]

theorem filterRow_at (t n : Nat) (prev row : List UInt8) (i : Nat) (h : i < row.length) :
    at' (Spec.filterRow t n prev row) i = UInt8.ofNat
      (((at' row i).toNat + 256 - Spec.predict t (Spec.before row n i) (Spec.above prev i) (Spec.before prev n i)) % 256) := by
  simp [at', Spec.filterRow, List.getD_eq_getElem?_getD, List.getElem?_mapIdx, List.getElem?_eq_getElem h]

/-- A buffer whose bytes satisfy the reconstruction equations holds the row. -/
theorem recon_eq (t n : Nat) (hn : 0 < n) (prev row cur r : List UInt8) (q : Nat → UInt8) 
    (h1 : ∀ i, i < row.length → r[i]? = some (at' (Spec.filterRow t n prev row) i + q i))
    (h2 : ∀ i, i < row.length →
      (q i).toNat = Spec.predict t (Spec.before r n i) (Spec.above prev i) (Spec.before prev n i))
    (h3 : ∀ i, row.length ≤ i → r[i]? = cur[i]?) : r = row ++ cur.drop row.length := by
  have key : ∀ i, i < row.length → r[i]? = row[i]? := by
    intro i
    induction i using Nat.strongRecOn with
    | _ i ih =>
      intro hi
      rw [h1 i hi, filterRow_at t n prev row i hi]
      have hb : Spec.before r n i = Spec.before row n i := by
        unfold Spec.before
        split
        · rename_i hni
          rw [List.getD_eq_getElem?_getD, List.getD_eq_getElem?_getD, ih (i - n) (by omega) (by omega)]
        · rfl
      have := h2 i hi
      rw [hb] at this
      rw [unsub _ _ _ this]
      simp [at', List.getD_eq_getElem?_getD, List.getElem?_eq_getElem hi]
  apply List.ext_getElem?
  intro i
  by_cases hi : i < row.length
  · rw [key i hi, List.getElem?_append_left hi]
  · rw [h3 i (by omega), List.getElem?_append_right (by omega), List.getElem?_drop]
    congr 1; omega

theorem at'_toNat_above (row : List UInt8) (i : Nat) : (at' row i).toNat = Spec.above row i := rfl

theorem before_ge (row : List UInt8) (n i : Nat) (h : n ≤ i) : Spec.before row n i = (at' row (i - n)).toNat := by
  simp [Spec.before, at', h]

theorem before_lt_n (row : List UInt8) (n i : Nat) (h : i < n) : Spec.before row n i = 0 := by
  simp [Spec.before, Nat.not_le.mpr h]

theorem above_nil (i : Nat) : Spec.above [] i = 0 := by simp [Spec.above]
theorem before_nil (n i : Nat) : Spec.before [] n i = 0 := by simp [Spec.before]

/-- Two loops: the first `n` bytes, then the others. -/
theorem two_loops (t n : Nat) (hn : 0 < n) (prev row cur : List UInt8) (hnr : n ≤ row.length) (hc : row.length ≤ cur.length)
    (q1 : Nat → UInt8) (q2 : Nat → UInt8 → UInt8)
    (h1 : ∀ i, i < n → (q1 i).toNat = Spec.predict t 0 (Spec.above prev i) 0)
    (h2 : ∀ i a, n ≤ i → i < row.length →
      (q2 i a).toNat = Spec.predict t a.toNat (Spec.above prev i) (at' prev (i - n)).toNat) :
    fillLoop (fun i c => at' (Spec.filterRow t n prev row) i + q2 i (at' c (i - n))) n row.length
      (fillLoop (fun i _ => at' (Spec.filterRow t n prev row) i + q1 i) 0 n cur) = row ++ cur.drop row.length := by
  set raw := Spec.filterRow t n prev row with hraw
  obtain ⟨l1, s1⟩ := fillLoop_spec (fun i _ => at' raw i + q1 i) (fun _ _ _ _ => rfl) 0 n cur (by omega)
  rw [Nat.zero_add] at l1 s1
  generalize hr1 : fillLoop (fun i _ => at' raw i + q1 i) 0 n cur = r1 at l1 s1 ⊢
  have hg : ∀ (i : Nat) (c c' : List UInt8), n ≤ i → (∀ j, j < i → c[j]? = c'[j]?) →
      at' raw i + q2 i (at' c (i - n)) = at' raw i + q2 i (at' c' (i - n)) := by
    intro i c c' hni h
    rw [at', at', at', List.getD_eq_getElem?_getD, List.getD_eq_getElem?_getD (l := c), List.getD_eq_getElem?_getD (l := c'),
      h (i - n) (by omega)]
  -- below `n` the step function reads nothing relevant; make it constant there
  have hloop : fillLoop (fun i c => at' raw i + q2 i (at' c (i - n))) n row.length r1 =
      fillLoop (fun i c => if n ≤ i then at' raw i + q2 i (at' c (i - n)) else 0) n row.length r1 := by
    simp only [fillLoop]
    apply List.foldl_ext
    intro c i hi
    simp only [List.mem_range'] at hi
    rw [if_pos (by omega)]
  rw [hloop]
  obtain ⟨l2, s2⟩ := fillLoop_spec (fun i c => if n ≤ i then at' raw i + q2 i (at' c (i - n)) else 0)
    (by
      intro i c c' h
      by_cases hni : n ≤ i
      · simp only [hni, if_true]; exact hg i c c' hni h
      · simp only [hni, if_false]) n (row.length - n) r1 (by omega)
  rw [Nat.add_sub_cancel' hnr] at l2 s2
  generalize hr2 : fillLoop (fun i c => if n ≤ i then at' raw i + q2 i (at' c (i - n)) else 0) n row.length r1 = r at l2 s2 ⊢
  refine recon_eq t n hn prev row cur r (fun i => if i < n then q1 i else q2 i (at' r (i - n))) ?_ ?_ ?_
  · intro i hi
    rw [s2]
    by_cases h : i < n
    · rw [if_neg (by omega), s1, if_pos (by omega)]
      simp only [h, if_true]
      rfl
    · rw [if_pos (by omega)]
      simp only [Nat.not_lt.mp h, h, if_true, if_false]
      rfl
  · intro i hi
    by_cases h : i < n
    · simp only [h, if_true]
      rw [h1 i h, before_lt_n _ _ _ h, before_lt_n _ _ _ h]
    · simp only [h, if_false]
      rw [h2 i _ (Nat.not_lt.mp h) hi, before_ge _ _ _ (Nat.not_lt.mp h), before_ge _ _ _ (Nat.not_lt.mp h)]
  · intro i hi
    rw [s2, if_neg (by omega), s1, if_neg (by omega)]

/-! ### Scalar reconstruction -/

theorem handleAvg_eq (n : Nat) (hn : 0 < n) (h8 : n ≤ 8) (prev row cur : List UInt8) (hnr : n ≤ row.length)
    (hc : row.length ≤ cur.length) (hp : row.length ≤ prev.length) :
    handleAvg prev (Spec.filterRow 3 n prev row) cur n = row ++ cur.drop row.length := by
  have hl := filterRow_length 3 n prev row
  have hf : (fillLoop (fun i _ => at' (Spec.filterRow 3 n prev row) i + (at' prev i >>> 1)) 0 n cur).length = cur.length := by
    have := (fillLoop_spec (fun i _ => at' (Spec.filterRow 3 n prev row) i + (at' prev i >>> 1)) (fun _ _ _ _ => rfl) 0 n cur
      (by omega)).1
    rwa [Nat.zero_add] at this
  simp only [handleAvg]
  rw [if_neg (by omega), if_neg (by omega), hf, hl, show min (min cur.length row.length) prev.length = row.length by omega]
  refine two_loops 3 n hn prev row cur hnr hc (fun i => at' prev i >>> 1) (fun i a => avg a (at' prev i)) ?_ ?_
  · intro i _
    simp [Spec.predict, UInt8.toNat_shiftRight, Nat.shiftRight_eq_div_pow, Spec.above, at']
  · intro i a _ _
    rw [c17_avg]; rfl

theorem handleSub_eq (n : Nat) (hn : 0 < n) (prev row cur : List UInt8) (hnr : n ≤ row.length)
    (hc : row.length ≤ cur.length) :
    handleSub (Spec.filterRow 1 n prev row) cur n = row ++ cur.drop row.length := by
  have hl := filterRow_length 1 n prev row
  have hf : (fillLoop (fun i _ => at' (Spec.filterRow 1 n prev row) i) 0 n cur).length = cur.length := by
    have := (fillLoop_spec (fun i _ => at' (Spec.filterRow 1 n prev row) i) (fun _ _ _ _ => rfl) 0 n cur (by omega)).1
    rwa [Nat.zero_add] at this
  simp only [handleSub]
  rw [if_neg (by omega), hf, hl, show min cur.length row.length = row.length by omega]
  have := two_loops 1 n hn prev row cur hnr hc (fun _ => 0) (fun i a => a) (fun _ _ => rfl) (fun _ _ _ _ => rfl)
  simpa using this

theorem handlePaeth_eq (n : Nat) (hn : 0 < n) (h8 : n ≤ 8) (prev row cur : List UInt8) (hnr : n ≤ row.length)
    (hc : row.length ≤ cur.length) (hp : row.length ≤ prev.length) :
    handlePaeth prev (Spec.filterRow 4 n prev row) cur n = row ++ cur.drop row.length := by
  have hl := filterRow_length 4 n prev row
  have hf : (fillLoop (fun i _ => at' (Spec.filterRow 4 n prev row) i + paeth 0 (at' prev i) 0) 0 n cur).length =
      cur.length := by
    have := (fillLoop_spec (fun i _ => at' (Spec.filterRow 4 n prev row) i + paeth 0 (at' prev i) 0) (fun _ _ _ _ => rfl) 0 n
      cur (by omega)).1
    rwa [Nat.zero_add] at this
  simp only [handlePaeth]
  rw [if_neg (by omega), if_neg (by omega), hf, hl, show min (min cur.length row.length) prev.length = row.length by omega]
  refine two_loops 4 n hn prev row cur hnr hc (fun i => paeth 0 (at' prev i) 0)
    (fun i a => paeth a (at' prev i) (at' prev (i - n))) ?_ ?_
  · intro i _
    rw [c17_paeth]; rfl
  · intro i a _ _
    rw [c17_paeth]; rfl

theorem handleUp_eq (n : Nat) (prev row cur : List UInt8) (hc : row.length ≤ cur.length) (hp : row.length ≤ prev.length) :
    handleUp prev (Spec.filterRow 2 n prev row) cur = row ++ cur.drop row.length := by
  have e : Spec.filterRow 2 n prev row = row.mapIdx fun i x => UInt8.ofNat ((x.toNat + 256 - (at' prev i).toNat) % 256) := rfl
  rw [e]
  clear e
  induction row generalizing prev cur with
  | nil => cases prev <;> simp [handleUp]
  | cons x row ih =>
    cases prev with
    | nil => simp at hp
    | cons u prev =>
      cases cur with
      | nil => simp at hc
      | cons y cur =>
        simp only [List.length_cons, Nat.add_le_add_iff_right] at hc hp
        rw [List.mapIdx_cons, handleUp]
        simp only [List.length_cons, List.drop_succ_cons, List.cons_append]
        rw [unsub x u _ (by simp [at'])]
        have := ih prev cur hc hp
        simp only [at', List.getD_cons_succ] at this ⊢
        rw [this]

theorem handlePaethFirst_eq (n : Nat) (hn : 0 < n) (row cur : List UInt8) (hnr : n ≤ row.length)
    (hc : row.length ≤ cur.length) :
    handlePaethFirst (Spec.filterRow 4 n [] row) cur n = row ++ cur.drop row.length := by
  have hl := filterRow_length 4 n [] row
  have hf : (fillLoop (fun i _ => at' (Spec.filterRow 4 n [] row) i) 0 n cur).length = cur.length := by
    have := (fillLoop_spec (fun i _ => at' (Spec.filterRow 4 n [] row) i) (fun _ _ _ _ => rfl) 0 n cur (by omega)).1
    rwa [Nat.zero_add] at this
  simp only [handlePaethFirst]
  rw [if_neg (by omega), hf, hl, show min cur.length row.length = row.length by omega]
  have := two_loops 4 n hn [] row cur hnr hc (fun _ => 0) (fun i a => paeth a 0 0)
    (fun i _ => by simp [Spec.predict, Spec.paeth, above_nil]) (fun i a _ _ => by rw [c17_paeth]; rfl)
  simpa using this

theorem handleAvgFirst_eq (n : Nat) (hn : 0 < n) (row cur : List UInt8) (hnr : n ≤ row.length)
    (hc : row.length ≤ cur.length) :
    handleAvgFirst (Spec.filterRow 3 n [] row) cur n = row ++ cur.drop row.length := by
  have hl := filterRow_length 3 n [] row
  have hf : (fillLoop (fun i _ => at' (Spec.filterRow 3 n [] row) i) 0 n cur).length = cur.length := by
    have := (fillLoop_spec (fun i _ => at' (Spec.filterRow 3 n [] row) i) (fun _ _ _ _ => rfl) 0 n cur (by omega)).1
    rwa [Nat.zero_add] at this
  simp only [handleAvgFirst]
  rw [if_neg (by omega), hf, hl, show min cur.length row.length = row.length by omega]
  have := two_loops 3 n hn [] row cur hnr hc (fun _ => 0) (fun i a => a >>> 1)
    (fun i _ => by simp [Spec.predict, above_nil])
    (fun i a _ _ => by simp [Spec.predict, above_nil, UInt8.toNat_shiftRight, Nat.shiftRight_eq_div_pow])
  simpa using this

theorem filterRow_zero (n : Nat) (prev row : List UInt8) : Spec.filterRow 0 n prev row = row := by
  apply List.ext_getElem?
  intro i
  simp only [Spec.filterRow, List.getElem?_mapIdx, Spec.predict]
  cases row[i]? with
  | none => rfl
  | some x =>
    have := x.toNat_lt
    simp only [Option.map_some, Option.some.injEq]
    apply UInt8.toNat_inj.mp
    simp

theorem filterRow_up_first (n : Nat) (row : List UInt8) : Spec.filterRow 2 n [] row = row := by
  have := filterRow_zero n [] row
  simpa [Spec.filterRow, Spec.predict, above_nil] using this

end Zune.Png
