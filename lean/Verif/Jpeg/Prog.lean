import Verif.Jpeg.ProgModel
import Verif.Jpeg.BlockProps

/-!
# zune-jpeg: progressive scans (lemmas)
-/

namespace Zune.Jpeg

open Zune.Canon

/-! ## The end-of-band run beside the bits -/

theorem refillByte_eob (s s' : Bs) (g : Bool) (h : s.refillByte = .ok (g, s')) :
    s'.eobRun = s.eobRun := by
  unfold Bs.refillByte at h
  simp only at h
  split at h
  · split at h
    · cases h; rfl
    · split at h
      · split at h
        · cases h; rfl
        · cases h; rfl
      · cases h
  · cases h; rfl

theorem refillBytes_eob (n : Nat) (s s' : Bs) (h : s.refillBytes n = .ok s') :
    s'.eobRun = s.eobRun := by
  induction n generalizing s with
  | zero => cases h; rfl
  | succ n ih =>
    rw [Bs.refillBytes] at h
    split at h
    · cases h
    · rename_i s1 h1
      rw [ih _ h, refillByte_eob _ _ _ h1]
    · rename_i s1 h1
      cases h
      exact refillByte_eob _ _ _ h1

theorem refill_eob (s s' : Bs) (h : s.refill = .ok s') : s'.eobRun = s.eobRun := by
  unfold Bs.refill at h
  simp only at h
  split at h
  · split at h
    · cases h; rfl
    · split at h
      · split at h
        · exact refillBytes_eob _ _ _ h
        · cases h; rfl
      · exact refillBytes_eob _ _ _ h
  · cases h; rfl

/-- `Str`, with the end-of-band run. -/
structure StrE (s : Bs) (V : List Bool) (e : Option (UInt8 × List UInt8)) (n : Nat) : Prop where
  str : Str s V e
  run : s.eobRun = n

theorem str_eob {s : Bs} {V : List Bool} {e} (h : Str s V e) (n : Nat) :
    Str { s with eobRun := n } V e := by
  obtain ⟨⟨bs, ⟨⟨a1, a2, a3, a4⟩, b1, b2⟩, ⟨⟨c1, c2, c3, c4⟩, d1, d2, d3⟩⟩, f, g⟩ := h
  exact ⟨⟨bs, ⟨⟨a1, a2, a3, a4⟩, b1, b2⟩, ⟨⟨c1, c2, c3, c4⟩, d1, d2, d3⟩⟩, f, g⟩

theorem strE_refill {s : Bs} {V : List Bool} {e} {n : Nat} (h : StrE s V e n) :
    ∃ s', s.refill = .ok s' ∧ StrE s' V e n ∧ (32 ≤ s'.left ∨ V.length ≤ s'.left) := by
  obtain ⟨s', a, b, c⟩ := str_refill h.str
  exact ⟨s', a, ⟨b, by rw [refill_eob _ _ a, h.run]⟩, c⟩

theorem str_bit {s : Bs} {b : Bool} {V : List Bool} {e} (h : Str s (b :: V) e) (hl : 1 ≤ s.left) :
    s.bit.1 = (if b then 1 else 0) ∧ Str s.bit.2 V e := by
  have h' : Str s ([b] ++ V) e := h
  have h1 := str_peek h' (by simpa using hl) 1 (by simp) (by omega)
  refine ⟨?_, (str_drop h' 1 rfl hl).1⟩
  have h2 : s.bit.1 = s.peek 1 := rfl
  rw [h2]
  simp only [List.length_singleton, Nat.sub_self, pow_zero, Nat.div_one] at h1
  rw [h1]
  cases b <;> rfl

theorem strE_bit {s : Bs} {b : Bool} {V : List Bool} {e} {n : Nat} (h : StrE s (b :: V) e n)
    (hl : 1 ≤ s.left) :
    s.bit.1 = (if b then 1 else 0) ∧ StrE s.bit.2 V e n := by
  obtain ⟨a, b⟩ := str_bit h.str hl
  exact ⟨a, b, h.run⟩

/-! ## Coefficients in 16 bits -/

theorem toInt16 (v : Int) (h : v.natAbs < 2 ^ 15) : (BitVec.ofInt 16 v).toInt = v := by
  rw [BitVec.toInt_ofInt, Int.bmod_eq_of_le (by omega) (by omega)]

theorem ofInt_mul16 (a b : Int) :
    BitVec.ofInt 16 (a * b) = BitVec.ofInt 16 a * BitVec.ofInt 16 b := by
  rw [BitVec.ofInt_mul]

theorem setWidth_ofInt (v : Int) : (BitVec.ofInt 32 v).setWidth 16 = BitVec.ofInt 16 v := by
  apply BitVec.eq_of_toNat_eq
  rw [BitVec.toNat_setWidth, BitVec.toNat_ofInt, BitVec.toNat_ofInt]
  omega

/-- The place of a coefficient bit: `2 ^ al`. -/
def mask (al : Nat) : I16 := BitVec.ofInt 16 (2 ^ al)

theorem mask_twoPow (al : Nat) (h : al ≤ 13) : mask al = BitVec.twoPow 16 al := by
  unfold mask
  interval_cases al <;> decide

theorem and_mask (h : Int) (al : Nat) (hal : al ≤ 13) :
    BitVec.ofInt 16 (h * 2 ^ (al + 1)) &&& mask al = 0#16 := by
  have e : BitVec.ofInt 16 (2 ^ (al + 1)) = BitVec.twoPow 16 (al + 1) := by
    interval_cases al <;> decide
  rw [mask_twoPow al hal, BitVec.and_twoPow, ofInt_mul16, e, BitVec.mul_twoPow_eq_shiftLeft,
    BitVec.getLsbD_shiftLeft]
  simp

/-- A coefficient `q` known to the bit `al`, as it is stored; and as it was stored one bit
earlier. -/
def nowAt (al : Nat) (q : Int) : I16 := BitVec.ofInt 16 (q * 2 ^ al)

/-- The coefficient before its last bit was sent. -/
def wasAt (al : Nat) (q : Int) : I16 := BitVec.ofInt 16 (q.tdiv 2 * 2 ^ (al + 1))

theorem tdiv_two (q : Int) : (q.tdiv 2 = q / 2 ∧ 0 ≤ q) ∨ (q.tdiv 2 = -((-q) / 2) ∧ q < 0) := by
  rcases lt_or_ge q 0 with h | h
  · right
    refine ⟨?_, h⟩
    have h1 : q = -(-q) := by omega
    rw [h1, Int.neg_tdiv, Int.tdiv_eq_ediv_of_nonneg (by omega)]
    simp
  · left
    exact ⟨Int.tdiv_eq_ediv_of_nonneg h, h⟩

theorem was_bound (al : Nat) (q : Int) (h : q.natAbs * 2 ^ al < 2 ^ 15) :
    (q.tdiv 2 * 2 ^ (al + 1)).natAbs < 2 ^ 15 := by
  have hp : 0 < 2 ^ al := Nat.two_pow_pos al
  rw [Int.natAbs_mul, Int.natAbs_pow, show (2 : Int).natAbs = 2 from rfl, pow_succ]
  refine lt_of_le_of_lt ?_ h
  have : (q.tdiv 2).natAbs * 2 ≤ q.natAbs := by
    rcases tdiv_two q with ⟨h1, h2⟩ | ⟨h1, h2⟩ <;> rw [h1] <;> omega
  nlinarith

theorem was_zero (al : Nat) (q : Int) (h : q.natAbs * 2 ^ al < 2 ^ 15) :
    wasAt al q = 0#16 ↔ q.natAbs ≤ 1 := by
  have hb := was_bound al q h
  have hti := toInt16 _ hb
  have hq : q.tdiv 2 = 0 ↔ q.natAbs ≤ 1 := by
    rcases tdiv_two q with ⟨h1, h2⟩ | ⟨h1, h2⟩ <;> rw [h1] <;> omega
  rw [← hq]
  constructor
  · intro hw
    unfold wasAt at hw
    rw [hw] at hti
    simp only [BitVec.toInt_zero] at hti
    rcases Int.mul_eq_zero.1 hti.symm with h0 | h0
    · exact h0
    · exact absurd h0 (by positivity)
  · intro h0
    unfold wasAt
    rw [h0, Int.zero_mul]
    rfl

theorem now_was (al : Nat) (q : Int) (h : q.natAbs % 2 = 0) : nowAt al q = wasAt al q := by
  unfold nowAt wasAt
  have : q = q.tdiv 2 * 2 := by
    rcases tdiv_two q with ⟨h1, h2⟩ | ⟨h1, h2⟩ <;> rw [h1] <;> omega
  congr 1
  generalize q.tdiv 2 = d at *
  rw [this, pow_succ]
  ring

theorem corrected_was (al : Nat) (hal : al ≤ 13) (q : Int) (h : q.natAbs * 2 ^ al < 2 ^ 15)
    (h2 : 2 ≤ q.natAbs) (ho : q.natAbs % 2 = 1) :
    corrected (mask al) (wasAt al q) = nowAt al q := by
  have hb := was_bound al q h
  have hti := toInt16 _ hb
  have hp : (0 : Int) < 2 ^ (al + 1) := by positivity
  unfold corrected
  rw [if_pos (show wasAt al q &&& mask al = 0#16 from and_mask _ al hal)]
  have hti' : (wasAt al q).toInt = q.tdiv 2 * 2 ^ (al + 1) := hti
  rw [hti']
  unfold wasAt nowAt mask
  rcases tdiv_two q with ⟨h1, h3⟩ | ⟨h1, h3⟩
  · have hq : q = q.tdiv 2 * 2 + 1 := by rw [h1]; omega
    have hnn : 0 ≤ q.tdiv 2 * 2 ^ (al + 1) := Int.mul_nonneg (by rw [h1]; omega) hp.le
    rw [if_pos hnn, ← BitVec.ofInt_add]
    congr 1
    generalize q.tdiv 2 = d at *
    rw [hq, pow_succ]
    ring
  · have hq : q = q.tdiv 2 * 2 - 1 := by rw [h1]; omega
    have hneg : ¬ 0 ≤ q.tdiv 2 * 2 ^ (al + 1) := by
      have : q.tdiv 2 < 0 := by rw [h1]; omega
      nlinarith
    rw [if_neg hneg, BitVec.sub_eq_add_neg, ← BitVec.ofInt_neg, ← BitVec.ofInt_add]
    congr 1
    generalize q.tdiv 2 = d at *
    rw [hq, pow_succ]
    ring

/-! ## The band within a block -/

/-- Store values at successive zig-zag indices. -/
def setBand : (Nat → I16) → Nat → List I16 → Nat → I16
  | block, _, [] => block
  | block, k, w :: ws => setBand (setAt block (zz k) w) (k + 1) ws

/-- The block has these values at successive zig-zag indices. -/
def HasBand (block : Nat → I16) (k : Nat) (ws : List I16) : Prop :=
  ∀ i w, ws[i]? = some w → block (zz (k + i)) = w

theorem setAt_same {α} (b : Nat → α) (i : Nat) : setAt b i (b i) = b := by
  funext j
  unfold setAt
  split
  · rename_i h; rw [h]
  · rfl

theorem hasBand_cons {block : Nat → I16} {k : Nat} {w : I16} {ws : List I16} :
    HasBand block k (w :: ws) ↔ block (zz k) = w ∧ HasBand block (k + 1) ws := by
  constructor
  · intro h
    refine ⟨h 0 w rfl, fun i v hv => ?_⟩
    have := h (i + 1) v (by simpa using hv)
    rwa [show k + (i + 1) = k + 1 + i by omega] at this
  · rintro ⟨h1, h2⟩ i v hv
    cases i with
    | zero =>
      simp only [List.getElem?_cons_zero, Option.some.injEq] at hv
      rw [← hv, Nat.add_zero, h1]
    | succ i =>
      rw [List.getElem?_cons_succ] at hv
      rw [show k + (i + 1) = k + 1 + i by omega]
      exact h2 i v hv

theorem hasBand_append {block : Nat → I16} {k : Nat} {us ws : List I16} :
    HasBand block k (us ++ ws) ↔ HasBand block k us ∧ HasBand block (k + us.length) ws := by
  induction us generalizing k with
  | nil => simp [HasBand]
  | cons u us ih =>
    rw [List.cons_append, hasBand_cons, hasBand_cons, ih, List.length_cons,
      show k + (us.length + 1) = k + 1 + us.length by omega]
    exact and_assoc.symm

theorem setBand_append (block : Nat → I16) (k : Nat) (us ws : List I16) :
    setBand block k (us ++ ws) = setBand (setBand block k us) (k + us.length) ws := by
  induction us generalizing block k with
  | nil => rfl
  | cons u us ih =>
    rw [List.cons_append, setBand, ih, setBand, List.length_cons,
      show k + (us.length + 1) = k + 1 + us.length by omega]

theorem setBand_other (block : Nat → I16) (k : Nat) (ws : List I16) (hk : k + ws.length ≤ 64)
    (j : Nat) (hj : ∀ i < ws.length, j ≠ zz (k + i)) : setBand block k ws j = block j := by
  induction ws generalizing block k with
  | nil => rfl
  | cons w ws ih =>
    rw [List.length_cons] at hk
    rw [setBand, ih _ _ (by omega) (fun i hi => by
      have := hj (i + 1) (by simp; omega)
      rwa [show k + (i + 1) = k + 1 + i by omega] at this), setAt,
      if_neg (show j ≠ zz k from hj 0 (by simp))]

theorem setBand_has (block : Nat → I16) (k : Nat) (ws : List I16) (hk : k + ws.length ≤ 64) :
    HasBand (setBand block k ws) k ws := by
  induction ws generalizing block k with
  | nil => intro i w h; simp at h
  | cons w ws ih =>
    rw [List.length_cons] at hk
    rw [hasBand_cons, setBand]
    refine ⟨?_, ih _ _ (by omega)⟩
    rw [setBand_other _ _ _ (by omega) _ (fun i hi h => by
      have := zz_inj k (k + 1 + i) (by omega) (by omega) h
      omega), setAt, if_pos rfl]

theorem hasBand_setAt {block : Nat → I16} {k j : Nat} {ws : List I16} {w : I16} (hj : j < k)
    (hk : k + ws.length ≤ 64) (h : HasBand block k ws) : HasBand (setAt block (zz j) w) k ws := by
  intro i v hv
  have hi : i < ws.length := (List.getElem?_eq_some_iff.1 hv).1
  rw [setAt, if_neg (fun hz => by
    have := zz_inj (k + i) j (by omega) (by omega) hz
    omega)]
  exact h i v hv

theorem hasBand_setBand {block : Nat → I16} {k j : Nat} {us ws : List I16} (hj : j + us.length ≤ k)
    (hk : k + ws.length ≤ 64) (h : HasBand block k ws) : HasBand (setBand block j us) k ws := by
  induction us generalizing block j with
  | nil => exact h
  | cons u us ih =>
    rw [List.length_cons] at hj
    rw [setBand]
    exact ih (by omega) (hasBand_setAt (by omega) hk h)

theorem setBand_same {block : Nat → I16} {k : Nat} {ws : List I16} (h : HasBand block k ws) :
    setBand block k ws = block := by
  induction ws generalizing k with
  | nil => rfl
  | cons w ws ih =>
    rw [hasBand_cons] at h
    rw [setBand, ← h.1, setAt_same, ih h.2]

/-! ## First scans -/

/-- The encodings of the coefficients `qs` of a band in a first scan (T.81, G.1.2.2), with the
number of blocks after this one that the end-of-band run covers. -/
inductive FirstBits (cnt values : Nat → Nat) : List Int → List Bool → Nat → Prop
  | full : FirstBits cnt values [] [] 0
  | coef (r : Nat) (q : Int) (t : List Int) (code bits : List Bool) (n : Nat) : q ≠ 0 →
      q.natAbs < 2 ^ 15 → r ≤ 15 → IsCode cnt values (16 * r + category q) code →
      FirstBits cnt values t bits n →
      FirstBits cnt values (List.replicate r 0 ++ q :: t)
        (code ++ toBits (category q) (magnitude q) ++ bits) n
  | zrl (t : List Int) (code bits : List Bool) (n : Nat) : IsCode cnt values 0xF0 code →
      FirstBits cnt values t bits n →
      FirstBits cnt values (List.replicate 16 0 ++ t) (code ++ bits) n
  | eob (m r x : Nat) (code : List Bool) : 0 < m → r ≤ 14 → x < 2 ^ r →
      IsCode cnt values (16 * r) code →
      FirstBits cnt values (List.replicate m 0) (code ++ toBits r x) (2 ^ r + x - 1)

theorem firstBits_nil {cnt values : Nat → Nat} {bits : List Bool} {n : Nat}
    (h : FirstBits cnt values [] bits n) : bits = [] ∧ n = 0 := by
  generalize hq : ([] : List Int) = qs at h
  cases h with
  | full => exact ⟨rfl, rfl⟩
  | coef r q t => simp at hq
  | zrl t => simp [List.replicate_succ] at hq
  | eob m r x code hm =>
    have := congrArg List.length hq
    simp only [List.length_nil, List.length_replicate] at this
    omega

theorem firstStep_coef {cnt values : Nat → Nat} {t : Huff} {f : Nat → Int}
    (T : AcTable cnt values t f) (bd : Band) {r k : Nat} {q : Int} {code V : List Bool}
    (hc : IsCode cnt values (16 * r + category q) code) (hq : q ≠ 0) (h15 : q.natAbs < 2 ^ 15)
    (hp : k + r ≤ 63) {s : Bs} {e} {n : Nat}
    (h : StrE s (code ++ toBits (category q) (magnitude q) ++ V) e n) (block : Nat → I16) :
    ∃ s', Bs.firstStep t f bd k s block = .ok (decide (k + r + 1 ≤ bd.se), k + r + 1, s',
        setAt block (zz (k + r)) (BitVec.ofInt 16 q * bd.bit)) ∧
      StrE s' V e n := by
  have h1 := category_pos q hq
  have h2 := category_le q h15
  have hx := magnitude_lt q
  have hext := extend_magnitude q
  generalize category q = m at *
  generalize magnitude q = x at *
  obtain ⟨s1, r1, r2, r3⟩ := strE_refill h
  have hcl := isCode_length hc
  have hlen : (code ++ toBits m x).length = code.length + m := by
    rw [List.length_append, toBits_length]
  have hl : code.length + m ≤ s1.left := by
    rcases r3 with r3 | r3
    · omega
    · rw [List.length_append, hlen] at r3; omega
  have r2' : Str s1 (code ++ (toBits m x ++ V)) e := by rw [← List.append_assoc]; exact r2.str
  have hw := str_peek r2' (by omega) 16 (by omega) (by omega)
  have hd := isCode_decode T.good T.small hc _ hw
  have hmod : (16 * r + m) % 16 = m := by omega
  have hdiv : (16 * r + m) / 16 = r := by omega
  by_cases hf : f (s1.peek 16 / 2 ^ 7) = 0
  · obtain ⟨g1, g2, g3⟩ := str_huff T.good T.small hc r2' (by omega)
    obtain ⟨b1, b2, _⟩ := str_get g2 m (toBits_length m x).symm (by rw [g3]; omega)
    rw [val_toBits, Nat.mod_eq_of_lt hx] at b1
    refine ⟨_, ?_, ⟨b2, r2.run⟩⟩
    unfold Bs.firstStep
    rw [r1]
    simp only [peek_nine, hf, ne_eq, not_true, if_false, g1, hmod, hdiv, if_pos (show ¬ m = 0 by omega)]
    rw [Nat.mod_eq_of_lt (show k + r < 64 by omega), Bs.extra, b1, extra_eq m x h1 (by omega) hx,
      setWidth_ofInt, hext]
  · obtain ⟨rs, len, q1, q2, q3, q4, q5, q6, q7⟩ := T.fast _ hf
    rw [hd] at q1
    simp only [Option.some.injEq, Prod.mk.injEq] at q1
    obtain ⟨rfl, rfl⟩ := q1
    rw [hmod] at q4 q5 q7
    rw [hdiv] at q6
    have hp2 := str_peek r2.str (by rw [hlen]; exact hl) 16 (by rw [hlen]; omega) (by omega)
    rw [hlen, val_append, toBits_length, val_toBits, Nat.mod_eq_of_lt hx, ← Nat.sub_sub] at hp2
    rw [hp2, Nat.mul_add_mod', Nat.mod_eq_of_lt hx, hext] at q5
    obtain ⟨d1, _⟩ := str_drop r2.str (code.length + m) hlen.symm hl
    refine ⟨_, ?_, ⟨d1, r2.run⟩⟩
    unfold Bs.firstStep
    rw [r1]
    simp only [peek_nine, ne_eq, hf, not_false_eq_true, if_true, q5, q6, q7, Int.toNat_natCast]
    rw [min_eq_left hp]

theorem firstStep_end {cnt values : Nat → Nat} {t : Huff} {f : Nat → Int}
    (T : AcTable cnt values t f) (bd : Band) {r k x : Nat} {code V : List Bool} (hx : x < 2 ^ r)
    (hr : r ≤ 14) (hc : IsCode cnt values (16 * r) code) {s : Bs} {e} {n : Nat}
    (h : StrE s (code ++ toBits r x ++ V) e n) (block : Nat → I16) :
    ∃ s', Bs.firstStep t f bd k s block = .ok (false, k, s', block) ∧
      StrE s' V e (2 ^ r + x - 1) := by
  obtain ⟨s1, r1, r2, r3⟩ := strE_refill h
  have hcl := isCode_length hc
  have hl : code.length + r ≤ s1.left := by
    rcases r3 with r3 | r3
    · omega
    · rw [List.length_append, List.length_append, toBits_length] at r3; omega
  have r2' : Str s1 (code ++ (toBits r x ++ V)) e := by rw [← List.append_assoc]; exact r2.str
  have hw := str_peek r2' (by omega) 16 (by omega) (by omega)
  have hd := isCode_decode T.good T.small hc _ hw
  have hmod : (16 * r) % 16 = 0 := by omega
  have hdiv : (16 * r) / 16 = r := by omega
  have hf : f (s1.peek 16 / 2 ^ 7) = 0 := by
    by_contra hf
    obtain ⟨rs, len, q1, q2, q3, _⟩ := T.fast _ hf
    rw [hd] at q1
    simp only [Option.some.injEq, Prod.mk.injEq] at q1
    obtain ⟨rfl, rfl⟩ := q1
    exact q3 hmod
  obtain ⟨g1, g2, g3⟩ := str_huff T.good T.small hc r2' (by omega)
  obtain ⟨b1, b2, _⟩ := str_get g2 r (toBits_length r x).symm (by rw [g3]; omega)
  rw [val_toBits, Nat.mod_eq_of_lt hx] at b1
  refine ⟨_, ?_, ⟨str_eob b2 (2 ^ r + x - 1), rfl⟩⟩
  unfold Bs.firstStep
  rw [r1]
  simp only [peek_nine, hf, ne_eq, not_true, if_false, g1, hmod, hdiv,
    if_pos (show ¬ r = 15 by omega), b1]

theorem firstStep_zrl {cnt values : Nat → Nat} {t : Huff} {f : Nat → Int}
    (T : AcTable cnt values t f) (bd : Band) {k : Nat} {code V : List Bool}
    (hc : IsCode cnt values 0xF0 code) {s : Bs} {e} {n : Nat}
    (h : StrE s (code ++ V) e n) (block : Nat → I16) :
    ∃ s', Bs.firstStep t f bd k s block = .ok (decide (k + 16 ≤ bd.se), k + 16, s', block) ∧
      StrE s' V e n := by
  obtain ⟨s1, r1, r2, r3⟩ := strE_refill h
  have hcl := isCode_length hc
  have hl : code.length ≤ s1.left := by
    rcases r3 with r3 | r3
    · omega
    · rw [List.length_append] at r3; omega
  have hw := str_peek r2.str (by omega) 16 (by omega) (by omega)
  have hd := isCode_decode T.good T.small hc _ hw
  have hf : f (s1.peek 16 / 2 ^ 7) = 0 := by
    by_contra hf
    obtain ⟨rs, len, q1, q2, q3, _⟩ := T.fast _ hf
    rw [hd] at q1
    simp only [Option.some.injEq, Prod.mk.injEq] at q1
    obtain ⟨rfl, rfl⟩ := q1
    exact q3 rfl
  obtain ⟨g1, g2, g3⟩ := str_huff T.good T.small hc r2.str (by omega)
  refine ⟨_, ?_, ⟨g2, r2.run⟩⟩
  unfold Bs.firstStep
  rw [r1]
  simp only [peek_nine, hf, ne_eq, not_true, if_false, g1]

theorem nowAt_mul (al : Nat) (q : Int) : BitVec.ofInt 16 q * mask al = nowAt al q := by
  unfold mask nowAt
  rw [ofInt_mul16]

theorem nowAt_zero (al : Nat) : nowAt al 0 = 0#16 := by
  unfold nowAt
  rw [Int.zero_mul]
  rfl

theorem firstLoop_ok {cnt values : Nat → Nat} {t : Huff} {f : Nat → Int}
    (T : AcTable cnt values t f) (bd : Band) (al : Nat) (hbit : bd.bit = mask al)
    {qs : List Int} {bits V : List Bool} {n : Nat} (hb : FirstBits cnt values qs bits n)
    (fuel k : Nat) (hne : qs ≠ []) (hk : k + qs.length = bd.se + 1) (hse : bd.se ≤ 63)
    (hfu : qs.length ≤ fuel) {s : Bs} {e} (h : StrE s (bits ++ V) e 0) (block : Nat → I16)
    (hz : HasBand block k (qs.map fun _ => 0#16)) :
    ∃ s', Bs.firstLoop t f bd fuel k s block = .ok (s', setBand block k (qs.map (nowAt al))) ∧
      StrE s' V e n := by
  induction hb generalizing fuel k s block with
  | full => exact absurd rfl hne
  | coef r q t code bits n hq h15 hr hc hb ih =>
    rw [List.length_append, List.length_replicate, List.length_cons] at hk hfu
    obtain ⟨fuel, rfl⟩ : ∃ j, fuel = j + 1 := ⟨fuel - 1, by omega⟩
    rw [List.append_assoc] at h
    obtain ⟨s1, a, b⟩ := firstStep_coef T bd hc hq h15 (show k + r ≤ 63 by omega) h block
    rw [List.map_append, List.map_cons, hasBand_append, hasBand_cons] at hz
    obtain ⟨z1, z2, z3⟩ := hz
    rw [List.length_map, List.length_replicate] at z2 z3
    have hsb : setBand block k ((List.replicate r 0 ++ q :: t).map (nowAt al)) =
        setBand (setAt block (zz (k + r)) (BitVec.ofInt 16 q * bd.bit)) (k + r + 1)
          (t.map (nowAt al)) := by
      rw [List.map_append, setBand_append, List.map_cons, setBand, hbit, nowAt_mul, List.length_map,
        List.length_replicate, setBand_same (ws := (List.replicate r 0).map (nowAt al))]
      rw [List.map_replicate] at z1 ⊢
      rw [nowAt_zero]
      exact z1
    by_cases ht : t = []
    · subst ht
      obtain ⟨rfl, rfl⟩ := firstBits_nil hb
      refine ⟨s1, ?_, by simpa using b⟩
      rw [List.length_nil] at hk
      rw [Bs.firstLoop, a]
      simp only [decide_eq_false (show ¬ k + r + 1 ≤ bd.se by omega), Bool.false_eq_true, if_false, hsb]
      rfl
    · have hlt : 0 < t.length := List.length_pos_iff.2 ht
      obtain ⟨s2, c, d⟩ := ih fuel (k + r + 1) ht (by omega) (by omega) b
        (setAt block (zz (k + r)) (BitVec.ofInt 16 q * bd.bit))
        (hasBand_setAt (by omega) (by rw [List.length_map]; omega) z3)
      refine ⟨s2, ?_, d⟩
      rw [Bs.firstLoop, a]
      simp only [decide_eq_true (show k + r + 1 ≤ bd.se by omega), if_true, hsb]
      exact c
  | zrl t code bits n hc hb ih =>
    rw [List.length_append, List.length_replicate] at hk hfu
    obtain ⟨fuel, rfl⟩ : ∃ j, fuel = j + 1 := ⟨fuel - 1, by omega⟩
    rw [List.append_assoc] at h
    obtain ⟨s1, a, b⟩ := firstStep_zrl T bd (k := k) hc h block
    rw [List.map_append, hasBand_append] at hz
    obtain ⟨z1, z3⟩ := hz
    rw [List.length_map, List.length_replicate] at z3
    have hsb : setBand block k ((List.replicate 16 0 ++ t).map (nowAt al)) =
        setBand block (k + 16) (t.map (nowAt al)) := by
      rw [List.map_append, setBand_append, List.length_map,
        List.length_replicate, setBand_same (ws := (List.replicate 16 0).map (nowAt al))]
      rw [List.map_replicate] at z1 ⊢
      rw [nowAt_zero]
      exact z1
    by_cases ht : t = []
    · subst ht
      obtain ⟨rfl, rfl⟩ := firstBits_nil hb
      refine ⟨s1, ?_, by simpa using b⟩
      rw [List.length_nil] at hk
      rw [Bs.firstLoop, a]
      simp only [decide_eq_false (show ¬ k + 16 ≤ bd.se by omega), Bool.false_eq_true, if_false, hsb]
      rfl
    · have hlt : 0 < t.length := List.length_pos_iff.2 ht
      obtain ⟨s2, c, d⟩ := ih fuel (k + 16) ht (by omega) (by omega) b block z3
      refine ⟨s2, ?_, d⟩
      rw [Bs.firstLoop, a]
      simp only [decide_eq_true (show k + 16 ≤ bd.se by omega), if_true, hsb]
      exact c
  | eob m r x code hm hr hx hc =>
    rw [List.length_replicate] at hk hfu
    obtain ⟨fuel, rfl⟩ : ∃ j, fuel = j + 1 := ⟨fuel - 1, by omega⟩
    obtain ⟨s1, a, b⟩ := firstStep_end T bd (k := k) hx hr hc h block
    refine ⟨s1, ?_, b⟩
    rw [Bs.firstLoop, a, setBand_same]
    · rfl
    · rw [List.map_replicate] at hz ⊢
      rw [nowAt_zero]
      exact hz

/-! ## Refinement scans -/

/-- The correction bits (T.81, G.1.2.3): the last bit of each coefficient that was not zero. -/
def corrs (qs : List Int) : List Bool :=
  (qs.filter fun q => decide (2 ≤ q.natAbs)).map fun q => decide (q.natAbs % 2 = 1)

/-- No coefficient becomes nonzero. -/
def Quiet (qs : List Int) : Prop := ∀ q ∈ qs, q.natAbs ≠ 1

/-- The encodings of the coefficients `qs` of a band in a refinement scan (T.81, G.1.2.3), with the
number of blocks after this one that the end-of-band run covers. -/
inductive RefBits (cnt values : Nat → Nat) : List Int → List Bool → Nat → Prop
  | full : RefBits cnt values [] [] 0
  | coef (seg : List Int) (q : Int) (t : List Int) (code bits : List Bool) (n : Nat) : Quiet seg →
      q.natAbs = 1 → seg.count 0 ≤ 15 → IsCode cnt values (16 * seg.count 0 + 1) code →
      RefBits cnt values t bits n →
      RefBits cnt values (seg ++ q :: t) (code ++ decide (0 < q) :: (corrs seg ++ bits)) n
  | zrl (seg t : List Int) (code bits : List Bool) (n : Nat) : Quiet seg → seg.count 0 = 15 →
      IsCode cnt values 0xF0 code → RefBits cnt values t bits n →
      RefBits cnt values (seg ++ 0 :: t) (code ++ (corrs seg ++ bits)) n
  | eob (qs : List Int) (r x : Nat) (code : List Bool) : qs ≠ [] → Quiet qs → r ≤ 14 → x < 2 ^ r →
      IsCode cnt values (16 * r) code →
      RefBits cnt values qs (code ++ toBits r x ++ corrs qs) (2 ^ r + x - 1)

theorem corrs_cons_old (q : Int) (qs : List Int) (h : 2 ≤ q.natAbs) :
    corrs (q :: qs) = decide (q.natAbs % 2 = 1) :: corrs qs := by
  simp [corrs, h]

theorem corrs_cons_zero (q : Int) (qs : List Int) (h : ¬ 2 ≤ q.natAbs) :
    corrs (q :: qs) = corrs qs := by
  simp [corrs, h]

/-- The coefficients can be held in 16 bits. -/
def Fit16 (al : Nat) (qs : List Int) : Prop := ∀ q ∈ qs, q.natAbs * 2 ^ al < 2 ^ 15

/-- A coefficient that was not zero, after its correction bit. -/
theorem correct_step (al : Nat) (hal : al ≤ 13) (q : Int) (hf : q.natAbs * 2 ^ al < 2 ^ 15)
    (h2 : 2 ≤ q.natAbs) (block : Nat → I16) (j : Nat) (hb : block j = wasAt al q) :
    (if (if decide (q.natAbs % 2 = 1) = true then (1 : Nat) else 0) = 1 then
      setAt block j (corrected (mask al) (block j)) else block) = setAt block j (nowAt al q) := by
  by_cases ho : q.natAbs % 2 = 1
  · rw [decide_eq_true ho, if_pos rfl, if_pos rfl, hb, corrected_was al hal q hf h2 ho]
  · rw [decide_eq_false ho]
    rw [now_was al q (by omega), ← hb, setAt_same]
    rfl

theorem advance_ok (bd : Band) (al : Nat) (hal : al ≤ 13) (hbit : bd.bit = mask al)
    (hse : bd.se ≤ 63) (seg : List Int) (hq : Quiet seg) (hf : Fit16 al seg) (fuel k r : Nat)
    (hr : seg.count 0 = r) (hk : k + seg.length ≤ bd.se) (hfu : seg.length < fuel)
    {s : Bs} {V : List Bool} {e} {n : Nat} (h : StrE s (corrs seg ++ V) e n) (block : Nat → I16)
    (hb : HasBand block k (seg.map (wasAt al) ++ [0#16])) :
    ∃ s', Bs.advance bd fuel k r s block =
        .ok (k + seg.length, s', setBand block k (seg.map (nowAt al))) ∧ StrE s' V e n := by
  induction seg generalizing fuel k r s block with
  | nil =>
    obtain ⟨fuel, rfl⟩ : ∃ j, fuel = j + 1 := ⟨fuel - 1, by simp at hfu; omega⟩
    rw [List.map_nil, List.nil_append, hasBand_cons] at hb
    rw [List.length_nil] at hk
    refine ⟨s, ?_, by simpa [corrs] using h⟩
    rw [Bs.advance, Nat.mod_eq_of_lt (show k < 64 by omega), hb.1]
    simp only [ne_eq, not_true, if_false]
    rw [if_pos (by simpa using hr.symm)]
    rfl
  | cons q seg ih =>
    rw [List.length_cons] at hk hfu
    obtain ⟨fuel, rfl⟩ : ∃ j, fuel = j + 1 := ⟨fuel - 1, by omega⟩
    rw [List.map_cons, List.cons_append, hasBand_cons] at hb
    have hfq := hf q (by simp)
    have hwz := was_zero al q hfq
    have hlen : ((seg.map (wasAt al) ++ [0#16])).length = seg.length + 1 := by simp
    have hpos : k + (q :: seg).length = k + 1 + seg.length := by rw [List.length_cons]; omega
    rw [hpos, List.map_cons, setBand, Bs.advance, Nat.mod_eq_of_lt (show k < 64 by omega)]
    by_cases h2 : 2 ≤ q.natAbs
    · have hne : ¬ block (zz k) = 0#16 := by
        rw [hb.1, hwz]; omega
      rw [corrs_cons_old q seg h2, List.cons_append] at h
      obtain ⟨s1, a1, a2, a3⟩ : ∃ s1, (if s.left < 1 then s.refill else .ok s) = .ok s1 ∧
          StrE s1 (decide (q.natAbs % 2 = 1) :: (corrs seg ++ V)) e n ∧ 1 ≤ s1.left := by
        by_cases hl : s.left < 1
        · rw [if_pos hl]
          obtain ⟨s1, a, b, c⟩ := strE_refill h
          refine ⟨s1, a, b, ?_⟩
          rcases c with c | c
          · omega
          · rw [List.length_cons] at c; omega
        · rw [if_neg hl]
          exact ⟨s, rfl, h, by omega⟩
      obtain ⟨b1, b2⟩ := strE_bit a2 a3
      obtain ⟨s2, c1, c2⟩ := ih (fun w hw => hq w (by simp [hw])) (fun w hw => hf w (by simp [hw]))
        fuel (k + 1) r (by rw [← hr, List.count_cons_of_ne]; rintro rfl; simp at h2)
        (by omega) (by omega) b2 (setAt block (zz k) (nowAt al q))
        (hasBand_setAt (by omega) (by rw [hlen]; omega) hb.2)
      refine ⟨s2, ?_, c2⟩
      simp only [ne_eq, hne, not_false_eq_true, if_true, a1]
      rw [if_neg (show ¬ (s1.left < 1 ∧ s1.marker.isSome = true) by omega), b1, hbit,
        correct_step al hal q hfq h2 block (zz k) hb.1, if_neg (by omega)]
      rw [← c1]
    · have hz : block (zz k) = 0#16 := by
        rw [hb.1, hwz]; omega
      have hq0 : q = 0 := by
        have := hq q (by simp)
        omega
      subst hq0
      rw [corrs_cons_zero _ _ h2] at h
      rw [List.count_cons_self] at hr
      obtain ⟨s2, c1, c2⟩ := ih (fun w hw => hq w (by simp [hw])) (fun w hw => hf w (by simp [hw]))
        fuel (k + 1) (r - 1) (by omega) (by omega) (by omega) h block hb.2
      refine ⟨s2, ?_, c2⟩
      simp only [hz, ne_eq, not_true, if_false]
      rw [if_neg (show ¬ r = 0 by omega), if_neg (show ¬ k = bd.se by omega), c1, nowAt_zero, ← hz,
        setAt_same]

theorem eobLoop_ok (bd : Band) (al : Nat) (hal : al ≤ 13) (hbit : bd.bit = mask al)
    (hse : bd.se ≤ 63) (qs : List Int) (hq : Quiet qs) (hf : Fit16 al qs) (fuel k : Nat)
    (hk : k + qs.length = bd.se + 1) (hfu : qs.length ≤ fuel) {s : Bs} {V : List Bool} {e} {n : Nat}
    (h : StrE s (corrs qs ++ V) e n) (hl : 1 ≤ s.left ∨ corrs qs ++ V = []) (block : Nat → I16)
    (hb : HasBand block k (qs.map (wasAt al))) :
    ∃ s', Bs.eobLoop bd fuel k s block = .ok (s', setBand block k (qs.map (nowAt al))) ∧
      StrE s' V e n := by
  induction qs generalizing fuel k s block with
  | nil =>
    rw [List.length_nil] at hk
    refine ⟨s, ?_, by simpa [corrs] using h⟩
    cases fuel with
    | zero => rfl
    | succ fuel => rw [Bs.eobLoop, if_neg (by omega)]; rfl
  | cons q qs ih =>
    rw [List.length_cons] at hk hfu
    obtain ⟨fuel, rfl⟩ : ∃ j, fuel = j + 1 := ⟨fuel - 1, by omega⟩
    rw [List.map_cons, hasBand_cons] at hb
    have hfq := hf q (by simp)
    have hwz := was_zero al q hfq
    have hlen : (qs.map (wasAt al)).length = qs.length := by simp
    rw [List.map_cons, setBand, Bs.eobLoop, if_pos (by omega),
      Nat.mod_eq_of_lt (show k < 64 by omega)]
    -- the state behind this coefficient
    have step : ∀ s1 : Bs, StrE s1 (corrs qs ++ V) e n →
        ∃ s2, (if s1.left < 1 then s1.refill else .ok s1) = .ok s2 ∧ StrE s2 (corrs qs ++ V) e n ∧
          (1 ≤ s2.left ∨ corrs qs ++ V = []) := by
      intro s1 h1
      by_cases hl : s1.left < 1
      · rw [if_pos hl]
        obtain ⟨s2, a, b, c⟩ := strE_refill h1
        refine ⟨s2, a, b, ?_⟩
        by_cases hv : corrs qs ++ V = []
        · exact Or.inr hv
        · have := List.length_pos_iff.2 hv
          left
          omega
      · rw [if_neg hl]
        exact ⟨s1, rfl, h1, by omega⟩
    by_cases h2 : 2 ≤ q.natAbs
    · have hne : ¬ block (zz k) = 0#16 := by
        rw [hb.1, hwz]; omega
      rw [corrs_cons_old q qs h2, List.cons_append] at h hl
      have hl' : 1 ≤ s.left := by
        rcases hl with hl | hl
        · exact hl
        · cases hl
      obtain ⟨b1, b2⟩ := strE_bit h hl'
      obtain ⟨s2, d1, d2, d3⟩ := step _ b2
      obtain ⟨s3, c1, c2⟩ := ih (fun w hw => hq w (by simp [hw])) (fun w hw => hf w (by simp [hw]))
        fuel (k + 1) (by omega) (by omega) d2 d3 (setAt block (zz k) (nowAt al q))
        (hasBand_setAt (by omega) (by rw [hlen]; omega) hb.2)
      refine ⟨s3, ?_, c2⟩
      simp only [ne_eq, hne, not_false_eq_true, if_true, d1, true_and]
      rw [b1, hbit, correct_step al hal q hfq h2 block (zz k) hb.1]
      exact c1
    · have hz : block (zz k) = 0#16 := by
        rw [hb.1, hwz]; omega
      have hq0 : q = 0 := by
        have := hq q (by simp)
        omega
      subst hq0
      rw [corrs_cons_zero _ _ h2] at h hl
      obtain ⟨s2, d1, d2, d3⟩ := step _ h
      obtain ⟨s3, c1, c2⟩ := ih (fun w hw => hq w (by simp [hw])) (fun w hw => hf w (by simp [hw]))
        fuel (k + 1) (by omega) (by omega) d2 d3 block hb.2
      refine ⟨s3, ?_, c2⟩
      simp only [hz, ne_eq, not_true, if_false, false_and, d1]
      rw [c1, nowAt_zero, ← hz, setAt_same]

theorem zz_pos (k : Nat) (h1 : 1 ≤ k) (h2 : k ≤ 63) : zz k ≠ 0 := fun h => by
  have := zz_inj k 0 (by omega) (by omega) (by rw [h]; decide)
  omega

theorem refineEob_ok (bd : Band) (al : Nat) (hal : al ≤ 13) (hbit : bd.bit = mask al)
    (hse : bd.se ≤ 63) (qs : List Int) (hq : Quiet qs) (hf : Fit16 al qs) (k : Nat) (hk1 : 1 ≤ k)
    (hk : k + qs.length = bd.se + 1) {s : Bs} {V : List Bool} {e} {n : Nat}
    (h : StrE s (corrs qs ++ V) e (n + 1)) (block : Nat → I16)
    (hb : HasBand block k (qs.map (wasAt al))) :
    ∃ s', Bs.refineEob bd k s block = .ok (s', setBand block k (qs.map (nowAt al))) ∧
      StrE s' V e n := by
  unfold Bs.refineEob
  rw [if_pos (by rw [h.run]; omega)]
  by_cases hnz : ∃ j ∈ List.range 64, j ≠ 0 ∧ block j ≠ 0#16
  · rw [if_pos hnz]
    obtain ⟨s1, a, b, c⟩ := strE_refill h
    obtain ⟨s2, d1, d2⟩ := eobLoop_ok bd al hal hbit hse qs hq hf 64 k hk (by omega) b (by
      by_cases hv : corrs qs ++ V = []
      · exact Or.inr hv
      · have := List.length_pos_iff.2 hv
        left
        omega) block hb
    refine ⟨_, ?_, ⟨str_eob d2.str n, rfl⟩⟩
    rw [a]
    simp only [d1, d2.run, Nat.add_sub_cancel]
  · rw [if_neg hnz]
    have hall : ∀ q ∈ qs, q = 0 := by
      intro q hm
      obtain ⟨i, hi⟩ := List.getElem?_of_mem hm
      have hlt : i < qs.length := (List.getElem?_eq_some_iff.1 hi).1
      have h1 := hb i (wasAt al q) (by rw [List.getElem?_map, hi]; rfl)
      have h2 : wasAt al q = 0#16 := by
        by_contra hne
        refine hnz ⟨zz (k + i), ?_, zz_pos _ (by omega) (by omega), by rw [h1]; exact hne⟩
        rw [List.mem_range]; exact zz_lt _
      have h3 := (was_zero al q (hf q hm)).1 h2
      have h4 := hq q hm
      omega
    have hc : corrs qs = [] := by
      unfold corrs
      rw [List.map_eq_nil_iff, List.filter_eq_nil_iff]
      intro q hm
      rw [hall q hm]
      decide
    rw [hc, List.nil_append] at h
    refine ⟨_, ?_, ⟨str_eob h.str n, rfl⟩⟩
    rw [h.run, Nat.add_sub_cancel]
    have hs : setBand block k (qs.map (nowAt al)) = block := by
      refine setBand_same ?_
      have : qs.map (nowAt al) = qs.map (wasAt al) := by
        apply List.map_congr_left
        intro q hm
        rw [hall q hm]
        exact now_was al 0 rfl
      rw [this]
      exact hb
    rw [hs]

/-- What follows the code of a refinement step: reading the symbol. -/
theorem refine_symbol {cnt values : Nat → Nat} {t : Huff} (g : Good cnt values t)
    (hv : ∀ p, values p < 256) {sym : Nat} {code V : List Bool} (hc : IsCode cnt values sym code)
    {s : Bs} {e} {n : Nat} (h : StrE s (code ++ V) e n) :
    ∃ s1 s2, s.refill = .ok s1 ∧ s1.huff t = .ok (sym, s2) ∧ StrE s2 V e n ∧
      (16 ≤ s2.left ∨ V.length ≤ s2.left) := by
  obtain ⟨s1, r1, r2, r3⟩ := strE_refill h
  have hcl := isCode_length hc
  have hl : code.length ≤ s1.left := by
    rcases r3 with r3 | r3
    · omega
    · rw [List.length_append] at r3; omega
  obtain ⟨g1, g2, g3⟩ := str_huff g hv hc r2.str hl
  refine ⟨s1, _, r1, g1, ⟨g2, r2.run⟩, ?_⟩
  rw [g3]
  rcases r3 with r3 | r3
  · left; omega
  · right; rw [List.length_append] at r3; omega

theorem mask_ne (al : Nat) (hal : al ≤ 13) : mask al ≠ 0#16 ∧ -mask al ≠ 0#16 := by
  unfold mask
  interval_cases al <;> decide

theorem new_value (al : Nat) (q : Int) (h : q.natAbs = 1) :
    nowAt al q = if 0 < q then mask al else -mask al := by
  unfold nowAt mask
  by_cases hp : 0 < q
  · obtain rfl : q = 1 := by omega
    rw [if_pos hp, Int.one_mul]
  · obtain rfl : q = -1 := by omega
    rw [if_neg hp, ← BitVec.ofInt_neg, Int.neg_one_mul]

theorem refBits_nil {cnt values : Nat → Nat} {bits : List Bool} {n : Nat}
    (h : RefBits cnt values [] bits n) : bits = [] ∧ n = 0 := by
  generalize hq : ([] : List Int) = qs at h
  cases h with
  | full => exact ⟨rfl, rfl⟩
  | coef seg q t => simp at hq
  | zrl seg t => simp at hq
  | eob qs r x code hm => exact absurd hq.symm hm

/-- The two parts of the refinement of one block. -/
def refineBoth (t : Huff) (bd : Band) (fuel k : Nat) (s : Bs) (block : Nat → I16) :
    Except JErr (Bs × (Nat → I16)) :=
  match Bs.refineLoop t bd fuel k s block with
  | .error e => .error e
  | .ok (k, s, block) => Bs.refineEob bd k s block

theorem refineBoth_go {t : Huff} {bd : Band} {fuel k k' : Nat} {s s' : Bs} {b b' : Nat → I16}
    {go : Bool} (h : Bs.refineStep t bd k s b = .ok (go, k', s', b')) :
    refineBoth t bd (fuel + 1) k s b =
      if go then refineBoth t bd fuel k' s' b' else Bs.refineEob bd k' s' b' := by
  unfold refineBoth
  rw [Bs.refineLoop, h]
  cases go <;> rfl

theorem fit_append {al : Nat} {us ws : List Int} (h : Fit16 al (us ++ ws)) :
    Fit16 al us ∧ Fit16 al ws :=
  ⟨fun q hq => h q (by simp [hq]), fun q hq => h q (by simp [hq])⟩

theorem refineBoth_ok {cnt values : Nat → Nat} {t : Huff} (g : Good cnt values t)
    (hv : ∀ p, values p < 256) (bd : Band) (al : Nat) (hal : al ≤ 13) (hbit : bd.bit = mask al)
    (hse : bd.se ≤ 63) {qs : List Int} {bits V : List Bool} {n : Nat}
    (hb : RefBits cnt values qs bits n) (hf : Fit16 al qs) (fuel k : Nat) (hne : qs ≠ [])
    (hk1 : 1 ≤ k) (hk : k + qs.length = bd.se + 1) (hfu : qs.length ≤ fuel) {s : Bs} {e}
    (h : StrE s (bits ++ V) e 0) (block : Nat → I16)
    (hz : HasBand block k (qs.map (wasAt al))) :
    ∃ s', refineBoth t bd fuel k s block = .ok (s', setBand block k (qs.map (nowAt al))) ∧
      StrE s' V e n := by
  induction hb generalizing fuel k s block with
  | full => exact absurd rfl hne
  | coef seg q u code bits n hq h1 h15 hc hb ih =>
    obtain ⟨hf1, hf2⟩ := fit_append hf
    rw [List.length_append, List.length_cons] at hk hfu
    obtain ⟨fuel, rfl⟩ : ∃ j, fuel = j + 1 := ⟨fuel - 1, by omega⟩
    rw [List.append_assoc] at h
    obtain ⟨s1, s2, r1, r2, r3, r4⟩ := refine_symbol g hv hc h
    rw [List.cons_append] at r3 r4
    obtain ⟨b1, b2⟩ := strE_bit r3 (by rw [List.length_cons] at r4; omega)
    rw [List.append_assoc] at b2
    rw [List.map_append, List.map_cons, hasBand_append, hasBand_cons] at hz
    obtain ⟨z1, z2, z3⟩ := hz
    have hw0 : wasAt al q = 0#16 := (was_zero al q (hf2 q (by simp))).2 (by omega)
    rw [List.length_map] at z2 z3
    have hadv : HasBand block k (seg.map (wasAt al) ++ [0#16]) := by
      rw [hasBand_append, hasBand_cons, List.length_map]
      exact ⟨z1, by rw [z2, hw0], fun i w hw => by simp at hw⟩
    obtain ⟨s3, c1, c2⟩ := advance_ok bd al hal hbit hse seg hq hf1 64 k _ rfl (by omega) (by omega)
      b2 block hadv
    have hstep : Bs.refineStep t bd k s block = .ok (decide (k + seg.length + 1 ≤ bd.se),
        k + seg.length + 1, s3, setAt (setBand block k (seg.map (nowAt al))) (zz (k + seg.length))
          (nowAt al q)) := by
      unfold Bs.refineStep
      rw [r1]
      simp only [r2]
      have hm : (16 * List.count 0 seg + 1) % 16 = 1 := by omega
      have hd : (16 * List.count 0 seg + 1) / 16 = List.count 0 seg := by omega
      simp only [hm, hd, show ¬ (1 : Nat) = 0 by omega, false_and, if_false,
        show ¬ (2 : Nat) ≤ 1 by omega, if_pos (show k ≤ bd.se by omega), c1]
      have hnew : (if s2.bit.1 = 1 then bd.bit else -bd.bit) = nowAt al q := by
        rw [b1, new_value al q h1, hbit]
        by_cases hp : 0 < q
        · simp [hp]
        · simp [hp]
      have hnz : nowAt al q ≠ 0#16 := by
        rw [new_value al q h1]
        split
        · exact (mask_ne al hal).1
        · exact (mask_ne al hal).2
      rw [hnew, if_pos hnz, Nat.mod_eq_of_lt (show k + seg.length < 64 by omega)]
    have hsb : setBand block k ((seg ++ q :: u).map (nowAt al)) =
        setBand (setAt (setBand block k (seg.map (nowAt al))) (zz (k + seg.length)) (nowAt al q))
          (k + seg.length + 1) (u.map (nowAt al)) := by
      rw [List.map_append, setBand_append, List.map_cons, setBand, List.length_map]
    rw [hsb, refineBoth_go hstep]
    by_cases ht : u = []
    · subst ht
      obtain ⟨rfl, rfl⟩ := refBits_nil hb
      rw [List.length_nil] at hk
      rw [decide_eq_false (show ¬ k + seg.length + 1 ≤ bd.se by omega)]
      refine ⟨s3, ?_, by simpa using c2⟩
      rw [if_neg (by simp), Bs.refineEob, if_neg (by rw [c2.run]; omega)]
      rfl
    · have hlt : 0 < u.length := List.length_pos_iff.2 ht
      rw [decide_eq_true (show k + seg.length + 1 ≤ bd.se by omega), if_pos rfl]
      refine ih (fun w hw => hf2 w (by simp [hw])) fuel (k + seg.length + 1) ht (by omega) (by omega)
        (by omega) c2 _ ?_
      refine hasBand_setAt (by omega) (by rw [List.length_map]; omega) ?_
      exact hasBand_setBand (by rw [List.length_map]; omega) (by rw [List.length_map]; omega) z3
  | zrl seg u code bits n hq h15 hc hb ih =>
    obtain ⟨hf1, hf2⟩ := fit_append hf
    rw [List.length_append, List.length_cons] at hk hfu
    obtain ⟨fuel, rfl⟩ : ∃ j, fuel = j + 1 := ⟨fuel - 1, by omega⟩
    rw [List.append_assoc, List.append_assoc] at h
    obtain ⟨s1, s2, r1, r2, r3, r4⟩ := refine_symbol g hv hc h
    rw [List.map_append, List.map_cons, hasBand_append, hasBand_cons] at hz
    obtain ⟨z1, z2, z3⟩ := hz
    have hw0 : wasAt al 0 = 0#16 := (was_zero al 0 (by simp)).2 (by simp)
    rw [List.length_map] at z2 z3
    have hadv : HasBand block k (seg.map (wasAt al) ++ [0#16]) := by
      rw [hasBand_append, hasBand_cons, List.length_map]
      exact ⟨z1, by rw [z2, hw0], fun i w hw => by simp at hw⟩
    obtain ⟨s3, c1, c2⟩ := advance_ok bd al hal hbit hse seg hq hf1 64 k 15 h15 (by omega) (by omega)
      r3 block hadv
    have hstep : Bs.refineStep t bd k s block = .ok (decide (k + seg.length + 1 ≤ bd.se),
        k + seg.length + 1, s3, setBand block k (seg.map (nowAt al))) := by
      unfold Bs.refineStep
      rw [r1]
      simp only [r2]
      have hm : 0xF0 % 16 = 0 := by omega
      have hd : 0xF0 / 16 = 15 := by omega
      simp only [hm, hd, ne_eq, not_true, and_false, if_false,
        show ¬ (2 : Nat) ≤ 0 by omega, if_pos (show k ≤ bd.se by omega), c1, if_true]
    have hsame : setAt (setBand block k (seg.map (nowAt al))) (zz (k + seg.length)) (nowAt al 0) =
        setBand block k (seg.map (nowAt al)) := by
      have : nowAt al 0 = setBand block k (seg.map (nowAt al)) (zz (k + seg.length)) := by
        have hz2 : HasBand block (k + seg.length) [0#16] :=
          hasBand_cons.2 ⟨by rw [z2, hw0], fun i w hw => by simp at hw⟩
        have := hasBand_setBand (j := k) (us := seg.map (nowAt al)) (by rw [List.length_map])
          (by simp; omega) hz2
        rw [(hasBand_cons.1 this).1, nowAt_zero]
      rw [this, setAt_same]
    have hsb : setBand block k ((seg ++ 0 :: u).map (nowAt al)) =
        setBand (setBand block k (seg.map (nowAt al))) (k + seg.length + 1) (u.map (nowAt al)) := by
      rw [List.map_append, setBand_append, List.map_cons, setBand, List.length_map, hsame]
    rw [hsb, refineBoth_go hstep]
    by_cases ht : u = []
    · subst ht
      obtain ⟨rfl, rfl⟩ := refBits_nil hb
      rw [List.length_nil] at hk
      rw [decide_eq_false (show ¬ k + seg.length + 1 ≤ bd.se by omega)]
      refine ⟨s3, ?_, by simpa using c2⟩
      rw [if_neg (by simp), Bs.refineEob, if_neg (by rw [c2.run]; omega)]
      rfl
    · have hlt : 0 < u.length := List.length_pos_iff.2 ht
      rw [decide_eq_true (show k + seg.length + 1 ≤ bd.se by omega), if_pos rfl]
      refine ih (fun w hw => hf2 w (by simp [hw])) fuel (k + seg.length + 1) ht (by omega) (by omega)
        (by omega) c2 _ ?_
      exact hasBand_setBand (by rw [List.length_map]; omega) (by rw [List.length_map]; omega) z3
  | eob qs r x code _ hq hr hx hc =>
    have hpos : 0 < qs.length := List.length_pos_iff.2 hne
    obtain ⟨fuel, rfl⟩ : ∃ j, fuel = j + 1 := ⟨fuel - 1, by omega⟩
    rw [List.append_assoc, List.append_assoc] at h
    obtain ⟨s1, s2, r1, r2, r3, r4⟩ := refine_symbol g hv hc h
    obtain ⟨b1, b2, _⟩ := str_get r3.str r (toBits_length r x).symm (by
      rw [List.length_append, toBits_length] at r4; omega)
    rw [val_toBits, Nat.mod_eq_of_lt hx] at b1
    have hstep : Bs.refineStep t bd k s block = .ok (false, k,
        { (s2.get r).2 with eobRun := 2 ^ r + x }, block) := by
      unfold Bs.refineStep
      rw [r1]
      simp only [r2]
      have hm : 16 * r % 16 = 0 := by omega
      have hd : 16 * r / 16 = r := by omega
      simp only [hm, hd, true_and, if_pos (show r ≠ 15 by omega), b1]
    rw [refineBoth_go hstep, if_neg (by simp)]
    have h2 : 0 < 2 ^ r := Nat.two_pow_pos r
    exact refineEob_ok bd al hal hbit hse qs hq hf k hk1 hk
      (n := 2 ^ r + x - 1) ⟨str_eob b2 _, by simp only; omega⟩ block hz

end Zune.Jpeg
