import Verif.Jpeg.BitReader
import Verif.Jpeg.HuffProps

/-!
# zune-jpeg: decoding one block (lemmas)
-/

namespace Zune.Jpeg

open Zune.Canon

/-! ## Tables -/

/-- What a table built for AC coefficients offers. -/
structure AcTable (cnt values : Nat → Nat) (t : Huff) (f : Nat → Int) : Prop where
  good : Good cnt values t
  small : ∀ p, values p < 256
  look : t.acLookup = some f
  fast : ∀ w, f (w / 2 ^ 7) ≠ 0 → ∃ rs len,
      t.decode w = some (rs, len) ∧ rs < 256 ∧ rs % 16 ≠ 0 ∧ len + rs % 16 ≤ 9 ∧
      f (w / 2 ^ 7) / 256 = extend (w / 2 ^ (16 - len - rs % 16) % 2 ^ (rs % 16)) (rs % 16) ∧
      f (w / 2 ^ 7) / 16 % 16 = (rs / 16 : Nat) ∧
      f (w / 2 ^ 7) % 16 = (len + rs % 16 : Nat)

theorem good_of_new {cnt values : Nat → Nat} {isDc : Bool} {t : Huff}
    (hn : Huff.new cnt values isDc = .ok t) (h0 : cnt 0 = 0) :
    Good cnt values t ∧ (isDc = true → ∀ i < before cnt 17, values i ≤ 15) := by
  by_cases h : Legal cnt ∧ before cnt 17 ≤ 256 ∧
      (isDc = true → ∀ i < before cnt 17, values i ≤ 15)
  · obtain ⟨t', a, b, _⟩ := new_good cnt values isDc h0 h.1 h.2.1 h.2.2
    rw [hn] at a
    cases a
    exact ⟨b, h.2.2⟩
  · obtain ⟨e, he⟩ := new_bad cnt values isDc h0 h
    rw [hn] at he
    cases he

theorem acTable_new {cnt values : Nat → Nat} {t : Huff}
    (hn : Huff.new cnt values false = .ok t) (h0 : cnt 0 = 0) (hv : ∀ p, values p < 256) :
    ∃ f, AcTable cnt values t f := by
  obtain ⟨f, h1, h2⟩ := c43_fast cnt values t hn h0 hv
  exact ⟨f, (good_of_new hn h0).1, hv, h1, h2⟩

theorem peek_nine (s : Bs) : s.peek 9 = s.peek 16 / 2 ^ 7 := by
  simp only [Bs.peek]
  rw [Nat.div_div_eq_div_mul, ← pow_add]

theorem extra_eq (m x : Nat) (h1 : 1 ≤ m) (h2 : m ≤ 16) (hx : x < 2 ^ m) :
    huffExtend (BitVec.ofNat 32 x) (BitVec.ofNat 32 m) = BitVec.ofInt 32 (extend x m) := by
  have h := c44_extend m x h1 h2 hx
  have e : (huffExtend (BitVec.ofNat 32 x) (BitVec.ofNat 32 m)).toInt = extend x m := h
  rw [← e, BitVec.ofInt_toInt]

/-! ## One turn -/

theorem acStep_coef {cnt values : Nat → Nat} {t : Huff} {f : Nat → Int}
    (T : AcTable cnt values t f) (qt : Nat → I32) {r m x pos : Nat} {code V : List Bool}
    (hc : IsCode cnt values (16 * r + m) code) (h1 : 1 ≤ m) (h2 : m ≤ 15)
    (hx : x < 2 ^ m) (hp : pos + r ≤ 63) {s : Bs} {e} (h : Str s (code ++ toBits m x ++ V) e)
    (block : Nat → I32) :
    ∃ s', Bs.acStep t f qt pos s block = .ok (.inr (pos + r + 1, s',
        setAt block (zz (pos + r)) (BitVec.ofInt 32 (extend x m) * qt (zz (pos + r))))) ∧
      Str s' V e := by
  obtain ⟨s1, r1, r2, r3⟩ := str_refill h
  have hcl := isCode_length hc
  have hlen : (code ++ toBits m x).length = code.length + m := by
    rw [List.length_append, toBits_length]
  have hl : code.length + m ≤ s1.left := by
    rcases r3 with r3 | r3
    · omega
    · rw [List.length_append, hlen] at r3; omega
  have r2' : Str s1 (code ++ (toBits m x ++ V)) e := by rw [← List.append_assoc]; exact r2
  have hw := str_peek r2' (by omega) 16 (by omega) (by omega)
  have hd := isCode_decode T.good T.small hc _ hw
  have hmod : (16 * r + m) % 16 = m := by omega
  have hdiv : (16 * r + m) / 16 = r := by omega
  by_cases hf : f (s1.peek 16 / 2 ^ 7) = 0
  · obtain ⟨g1, g2, g3⟩ := str_huff T.good T.small hc r2' (by omega)
    obtain ⟨b1, b2, _⟩ := str_get g2 m (toBits_length m x).symm (by rw [g3]; omega)
    rw [val_toBits, Nat.mod_eq_of_lt hx] at b1
    refine ⟨_, ?_, b2⟩
    unfold Bs.acStep
    rw [r1]
    simp only [peek_nine, hf, ne_eq, not_true, if_false, g1, hmod, hdiv, if_pos (show ¬ m = 0 by omega)]
    rw [Nat.mod_eq_of_lt (show pos + r < 64 by omega), Bs.extra, b1, extra_eq m x h1 (by omega) hx]
  · obtain ⟨rs, len, q1, q2, q3, q4, q5, q6, q7⟩ := T.fast _ hf
    rw [hd] at q1
    simp only [Option.some.injEq, Prod.mk.injEq] at q1
    obtain ⟨rfl, rfl⟩ := q1
    rw [hmod] at q4 q5 q7
    rw [hdiv] at q6
    have hp2 := str_peek r2 (by rw [hlen]; exact hl) 16 (by rw [hlen]; omega) (by omega)
    rw [hlen, val_append, toBits_length, val_toBits, Nat.mod_eq_of_lt hx, ← Nat.sub_sub] at hp2
    rw [hp2, Nat.mul_add_mod', Nat.mod_eq_of_lt hx] at q5
    obtain ⟨d1, _⟩ := str_drop r2 (code.length + m) hlen.symm hl
    refine ⟨_, ?_, d1⟩
    unfold Bs.acStep
    rw [r1]
    simp only [peek_nine, ne_eq, hf, not_false_eq_true, if_true, q5, q6, q7, Int.toNat_natCast]
    rw [min_eq_left hp]

theorem acStep_end {cnt values : Nat → Nat} {t : Huff} {f : Nat → Int}
    (T : AcTable cnt values t f) (qt : Nat → I32) {r pos : Nat} {code V : List Bool}
    (hc : IsCode cnt values (16 * r) code) {s : Bs} {e} (h : Str s (code ++ V) e)
    (block : Nat → I32) :
    ∃ s', Bs.acStep t f qt pos s block = .ok (if r ≠ 15 then .inl (pos, s', block)
        else .inr (pos + 16, s', block)) ∧ Str s' V e := by
  obtain ⟨s1, r1, r2, r3⟩ := str_refill h
  have hcl := isCode_length hc
  have hl : code.length ≤ s1.left := by
    rcases r3 with r3 | r3
    · omega
    · rw [List.length_append] at r3; omega
  have hw := str_peek r2 (by omega) 16 (by omega) (by omega)
  have hd := isCode_decode T.good T.small hc _ hw
  have hmod : (16 * r) % 16 = 0 := by omega
  have hdiv : (16 * r) / 16 = r := by omega
  have hf : f (s1.peek 16 / 2 ^ 7) = 0 := by
    by_contra hf
    obtain ⟨rs, len, q1, q2, q3, _⟩ := T.fast _ hf
    rw [hd] at q1
    simp only [Option.some.injEq, Prod.mk.injEq] at q1
    obtain ⟨rfl, rfl⟩ := q1
    exact q3 hmod
  obtain ⟨g1, g2, g3⟩ := str_huff T.good T.small hc r2 (by omega)
  refine ⟨_, ?_, g2⟩
  unfold Bs.acStep
  rw [r1]
  simp only [peek_nine, hf, ne_eq, not_true, if_false, g1, hmod, hdiv]
  split <;> rfl

/-! ## The loop -/

/-- The encodings of the AC coefficients from zig-zag index `pos` on (T.81, F.1.2.2), as the list of
coefficients with their indices, beside the bits.  A code stands for a run of zero coefficients and
a number of extra bits; `F0` for sixteen zeros; a code with no extra bits and another run (`00`, and
those the baseline process leaves unused) ends the block. -/
inductive AcBits (cnt values : Nat → Nat) : Nat → List (Nat × Int) → List Bool → Prop
  | full : AcBits cnt values 64 [] []
  | eob (pos : Nat) (code : List Bool) : pos < 64 → IsCode cnt values 0x00 code →
      AcBits cnt values pos [] code
  | zrl (pos : Nat) (code bits : List Bool) (cs : List (Nat × Int)) : pos + 16 ≤ 64 →
      IsCode cnt values 0xF0 code → AcBits cnt values (pos + 16) cs bits →
      AcBits cnt values pos cs (code ++ bits)
  | coef (pos r m x : Nat) (code bits : List Bool) (cs : List (Nat × Int)) : pos + r ≤ 63 → r ≤ 15 →
      1 ≤ m → m ≤ 15 → x < 2 ^ m → IsCode cnt values (16 * r + m) code →
      AcBits cnt values (pos + r + 1) cs bits →
      AcBits cnt values pos ((pos + r, extend x m) :: cs) (code ++ toBits m x ++ bits)

/-- The coefficients stored one after the other. -/
def storeAll (qt : Nat → I32) (block : Nat → I32) (cs : List (Nat × Int)) : Nat → I32 :=
  cs.foldl (fun b c => setAt b (zz c.1) (BitVec.ofInt 32 c.2 * qt (zz c.1))) block

theorem acLoop_ok {cnt values : Nat → Nat} {t : Huff} {f : Nat → Int}
    (T : AcTable cnt values t f) (qt : Nat → I32) {pos : Nat} {cs : List (Nat × Int)}
    {bits V : List Bool} (hb : AcBits cnt values pos cs bits) (fuel : Nat) (hfu : 64 ≤ pos + fuel)
    {s : Bs} {e} (h : Str s (bits ++ V) e) (block : Nat → I32) :
    ∃ len s', Bs.acLoop t f qt fuel pos s block = .ok (len, s', storeAll qt block cs) ∧
      Str s' V e ∧ (∀ c ∈ cs, c.1 < len) ∧ pos ≤ len ∧ len ≤ 64 := by
  induction hb generalizing fuel s block with
  | full =>
    refine ⟨64, s, ?_, by simpa using h, by simp, le_refl _, le_refl _⟩
    cases fuel with
    | zero => rfl
    | succ fuel => rw [Bs.acLoop, if_neg (by omega)]; rfl
  | eob pos code hp hc =>
    obtain ⟨fuel, rfl⟩ : ∃ k, fuel = k + 1 := ⟨fuel - 1, by omega⟩
    obtain ⟨s', a, b⟩ := acStep_end T qt (r := 0) (pos := pos) hc h block
    refine ⟨pos, s', ?_, b, by simp, le_refl _, by omega⟩
    rw [Bs.acLoop, if_pos hp, a]
    rfl
  | zrl pos code bits cs hp hc _ ih =>
    obtain ⟨fuel, rfl⟩ : ∃ k, fuel = k + 1 := ⟨fuel - 1, by omega⟩
    rw [List.append_assoc] at h
    obtain ⟨s', a, b⟩ := acStep_end T qt (r := 15) (pos := pos) hc h block
    obtain ⟨len, s2, c, d1, d2, d3, d4⟩ := ih fuel (by omega) b block
    refine ⟨len, s2, ?_, d1, d2, by omega, d4⟩
    rw [Bs.acLoop, if_pos (by omega), a]
    exact c
  | coef pos r m x code bits cs hp hr h1 h2 hx hc _ ih =>
    obtain ⟨fuel, rfl⟩ : ∃ k, fuel = k + 1 := ⟨fuel - 1, by omega⟩
    rw [List.append_assoc] at h
    obtain ⟨s', a, b⟩ := acStep_coef T qt (pos := pos) hc h1 h2 hx hp h block
    obtain ⟨len, s2, c, d1, d2, d3, d4⟩ := ih fuel (by omega) b
      (setAt block (zz (pos + r)) (BitVec.ofInt 32 (extend x m) * qt (zz (pos + r))))
    refine ⟨len, s2, ?_, d1, ?_, by omega, d4⟩
    · rw [Bs.acLoop, if_pos (by omega), a]
      exact c
    · intro c hc
      rcases List.mem_cons.1 hc with rfl | hc
      · exact d3
      · exact d2 c hc

theorem acBits_mem {cnt values : Nat → Nat} {pos : Nat} {cs : List (Nat × Int)} {bits : List Bool}
    (hb : AcBits cnt values pos cs bits) :
    (∀ c ∈ cs, pos ≤ c.1 ∧ c.1 < 64) ∧ (cs.map Prod.fst).Nodup := by
  induction hb with
  | full => simp
  | eob => simp
  | zrl pos code bits cs hp hc _ ih =>
    exact ⟨fun c hc => ⟨by have := (ih.1 c hc).1; omega, (ih.1 c hc).2⟩, ih.2⟩
  | coef pos r m x code bits cs hp hr h1 h2 hx hc _ ih =>
    constructor
    · intro c hc
      rcases List.mem_cons.1 hc with rfl | hc
      · exact ⟨by simp, by simp only; omega⟩
      · exact ⟨by have := (ih.1 c hc).1; omega, (ih.1 c hc).2⟩
    · rw [List.map_cons, List.nodup_cons]
      refine ⟨fun hm => ?_, ih.2⟩
      obtain ⟨c, hc, he⟩ := List.mem_map.1 hm
      have := (ih.1 c hc).1
      simp only at he
      omega

/-! ## The whole block -/

theorem zz_inj (i j : Nat) (hi : i < 64) (hj : j < 64) (h : zz i = zz j) : i = j := by
  have key : ∀ i j : Fin 64, zz i.val = zz j.val → i = j := by decide +kernel
  exact congrArg Fin.val (key ⟨i, hi⟩ ⟨j, hj⟩ h)

theorem zz_lt (i : Nat) : zz i < 64 := Nat.mod_lt _ (by omega)

/-- The coefficient a list gives for an index. -/
def coefAt (cs : List (Nat × Int)) (k : Nat) : Option Int := (cs.find? fun c => c.1 == k).map Prod.snd

theorem storeAll_spec (qt : Nat → I32) (cs : List (Nat × Int)) (block : Nat → I32)
    (hm : ∀ c ∈ cs, c.1 < 64) (hn : (cs.map Prod.fst).Nodup) (k : Nat) (hk : k < 64) :
    storeAll qt block cs (zz k) = match coefAt cs k with
      | some v => BitVec.ofInt 32 v * qt (zz k)
      | none => block (zz k) := by
  induction cs generalizing block with
  | nil => rfl
  | cons c cs ih =>
    rw [List.map_cons, List.nodup_cons] at hn
    have hs : storeAll qt block (c :: cs) = storeAll qt (setAt block (zz c.1)
      (BitVec.ofInt 32 c.2 * qt (zz c.1))) cs := rfl
    rw [hs, ih _ (fun c hc => hm c (by simp [hc])) hn.2]
    unfold coefAt
    rw [List.find?_cons]
    by_cases hc : c.1 = k
    · subst hc
      have : cs.find? (fun d => d.1 == c.1) = none := by
        rw [List.find?_eq_none]
        intro d hd h
        exact hn.1 (List.mem_map.2 ⟨d, hd, by simpa using h⟩)
      simp [this, setAt]
    · have hz : zz k ≠ zz c.1 := fun h => hc (zz_inj _ _ hk (hm c (by simp)) h).symm
      simp only [beq_eq_false_iff_ne.2 hc, setAt, if_neg hz]

theorem decodeDc_ok {cnt values : Nat → Nat} {t : Huff} (g : Good cnt values t)
    (hv : ∀ p, values p < 256) {m x : Nat} {code V : List Bool} (hc : IsCode cnt values m code)
    (hm : m ≤ 15) (hx : x < 2 ^ m) {s : Bs} {e} (h : Str s (code ++ toBits m x ++ V) e)
    (pred : I32) :
    ∃ s', s.decodeDc t pred = .ok (pred + BitVec.ofInt 32 (extend x m), s') ∧ Str s' V e := by
  obtain ⟨s1, r1, r2, r3⟩ := str_refill h
  have hcl := isCode_length hc
  have hlen : (code ++ toBits m x).length = code.length + m := by
    rw [List.length_append, toBits_length]
  have hl : code.length + m ≤ s1.left := by
    rcases r3 with r3 | r3
    · omega
    · rw [List.length_append, hlen] at r3; omega
  rw [List.append_assoc] at r2
  have hif : (if s.left < 32 then s.refill else .ok s) = .ok s1 := by
    by_cases hlt : s.left < 32
    · rw [if_pos hlt, r1]
    · rw [if_neg hlt, ← r1, Bs.refill, if_neg hlt]
  obtain ⟨g1, g2, g3⟩ := str_huff g hv hc r2 (by omega)
  unfold Bs.decodeDc
  simp only [hif, g1]
  by_cases hm0 : m = 0
  · subst hm0
    obtain rfl : x = 0 := by simpa using hx
    refine ⟨_, ?_, g2⟩
    simp [extend]
  · obtain ⟨b1, b2, _⟩ := str_get g2 m (toBits_length m x).symm (by rw [g3]; omega)
    rw [val_toBits, Nat.mod_eq_of_lt hx] at b1
    refine ⟨_, ?_, b2⟩
    rw [if_pos hm0, Bs.extra, b1, extra_eq m x (by omega) (by omega) hx]

theorem str_live {s : Bs} {V : List Bool} {e} (h : Str s V e) (hV : V ≠ []) :
    ¬ (s.left < 1 ∧ s.marker.isSome) := by
  rintro ⟨hl, hm⟩
  obtain ⟨⟨bs, hi, hf⟩, _, _⟩ := h
  have hb : bs = [] := List.length_eq_zero_iff.1 (by rw [← hi.buf.left]; omega)
  subst hb
  obtain ⟨k, hk, _⟩ := hf.all
  obtain ⟨m, hm⟩ := Option.isSome_iff_exists.1 hm
  simp only [Bs.tail, hm, List.nil_append] at hk
  exact hV (List.append_eq_nil_iff.1 hk.symm).1

theorem decodeBlock_ok {dcnt dvalues cnt values : Nat → Nat} {dt t : Huff} {f : Nat → Int}
    (g : Good dcnt dvalues dt) (hv : ∀ p, dvalues p < 256) (T : AcTable cnt values t f)
    (qt : Nat → I32) {m x : Nat} {code bits V : List Bool} (hc : IsCode dcnt dvalues m code)
    (hm : m ≤ 15) (hx : x < 2 ^ m) {cs : List (Nat × Int)} (hb : AcBits cnt values 1 cs bits)
    {s : Bs} {e} (h : Str s (code ++ toBits m x ++ bits ++ V) e) (block : Nat → I32) (pred : I32) :
    ∃ out, s.decodeBlock dt t qt block pred = .ok out ∧ Str out.s V e ∧
      out.pred = pred + BitVec.ofInt 32 (extend x m) ∧
      out.block = storeAll qt (setAt block 0 (out.pred * qt 0)) cs ∧
      (∀ c ∈ cs, c.1 < out.len) ∧ out.len ≤ 64 := by
  have hcl := isCode_length hc
  have hlive := str_live h (by
    intro hnil
    have := congrArg List.length hnil
    simp only [List.length_append, List.length_nil] at this
    omega)
  rw [List.append_assoc] at h
  obtain ⟨s1, a1, a2⟩ := decodeDc_ok g hv hc hm hx h pred
  obtain ⟨len, s2, b1, b2, b3, _, b4⟩ := acLoop_ok T qt hb 63 (by omega) a2
    (setAt block 0 ((pred + BitVec.ofInt 32 (extend x m)) * qt 0))
  refine ⟨⟨len, s2, storeAll qt (setAt block 0 ((pred + BitVec.ofInt 32 (extend x m)) * qt 0)) cs,
    pred + BitVec.ofInt 32 (extend x m)⟩, ?_, b2, rfl, rfl, b3, b4⟩
  unfold Bs.decodeBlock
  simp only [T.look, if_neg hlive, a1, b1]

/-! ## Any stream -/

theorem acStep_frame (t : Huff) (f : Nat → Int) (qt : Nat → I32) (pos : Nat) (s : Bs)
    (block : Nat → I32) :
    (∀ p s' b, Bs.acStep t f qt pos s block = .ok (.inl (p, s', b)) → p = pos ∧ b = block) ∧
    (∀ p s' b, Bs.acStep t f qt pos s block = .ok (.inr (p, s', b)) → pos < p ∧
      ((b = block) ∨ ∃ k v, b = setAt block (zz k) v ∧ (p < 64 → k < p))) := by
  unfold Bs.acStep
  split
  · exact ⟨fun _ _ _ h => (by cases h), fun _ _ _ h => (by cases h)⟩
  · rename_i s1 _
    by_cases hf : f (s1.peek 9) = 0
    · simp only [hf, ne_eq, not_true, if_false]
      split
      · exact ⟨fun _ _ _ h => (by cases h), fun _ _ _ h => (by cases h)⟩
      · rename_i sym s2 _
        by_cases hm : sym % 16 = 0
        · simp only [hm, not_true, if_false]
          by_cases hr : sym / 16 = 15
          · simp only [hr, not_true, if_false]
            exact ⟨fun _ _ _ h => (by cases h), fun _ _ _ h => by cases h; exact ⟨by omega, Or.inl rfl⟩⟩
          · simp only [hr, not_false_eq_true, if_true]
            exact ⟨fun _ _ _ h => (by cases h; exact ⟨rfl, rfl⟩), fun _ _ _ h => (by cases h)⟩
        · simp only [hm, not_false_eq_true, if_true]
          refine ⟨fun _ _ _ h => (by cases h), fun _ _ _ h => ?_⟩
          simp only [Except.ok.injEq, Sum.inr.injEq, Prod.mk.injEq] at h
          obtain ⟨rfl, _, rfl⟩ := h
          exact ⟨by omega, Or.inr ⟨(pos + sym / 16) % 64, _, rfl, fun _ => by omega⟩⟩
    · simp only [ne_eq, hf, not_false_eq_true, if_true]
      refine ⟨fun _ _ _ h => (by cases h), fun _ _ _ h => ?_⟩
      simp only [Except.ok.injEq, Sum.inr.injEq, Prod.mk.injEq] at h
      obtain ⟨rfl, _, rfl⟩ := h
      exact ⟨by omega, Or.inr ⟨min (pos + (f (s1.peek 9) / 16 % 16).toNat) 63, _, rfl,
        fun _ => by omega⟩⟩

theorem acLoop_frame (t : Huff) (f : Nat → Int) (qt : Nat → I32) (fuel pos : Nat) (s : Bs)
    (block : Nat → I32) (len : Nat) (s' : Bs) (b : Nat → I32)
    (h : Bs.acLoop t f qt fuel pos s block = .ok (len, s', b)) :
    (len < 64 → pos ≤ len) ∧ len ≤ 64 ∧ (∀ j, b j ≠ block j → ∃ k, j = zz k) ∧
      (len < 64 → ∀ j, b j ≠ block j → ∃ k, k < len ∧ j = zz k) := by
  induction fuel generalizing pos s block with
  | zero =>
    rw [Bs.acLoop] at h
    cases h
    exact ⟨fun h => by omega, by omega, fun j hj => absurd rfl hj, fun h => by omega⟩
  | succ fuel ih =>
    rw [Bs.acLoop] at h
    by_cases hp : pos < 64
    · rw [if_pos hp] at h
      obtain ⟨f1, f2⟩ := acStep_frame t f qt pos s block
      split at h
      · cases h
      · rename_i r hr
        obtain ⟨p, s1, b1⟩ := r
        obtain ⟨rfl, rfl⟩ := f1 _ _ _ hr
        cases h
        exact ⟨fun _ => le_refl _, by omega, fun j hj => absurd rfl hj, fun _ j hj => absurd rfl hj⟩
      · rename_i p s1 b1 hr
        obtain ⟨g1, g2⟩ := f2 _ _ _ hr
        obtain ⟨i1, i2, i3, i4⟩ := ih p s1 b1 h
        refine ⟨fun hl => by have := i1 hl; omega, i2, fun j hj => ?_, fun hl j hj => ?_⟩
        · rcases g2 with rfl | ⟨k, v, rfl, hk⟩
          · exact i3 j hj
          · by_cases hjk : j = zz k
            · exact ⟨k, hjk⟩
            · refine i3 j ?_
              rw [setAt, if_neg hjk]
              exact hj
        · have hpl := i1 hl
          rcases g2 with rfl | ⟨k, v, rfl, hk⟩
          · exact i4 hl j hj
          · by_cases hjk : j = zz k
            · exact ⟨k, by have := hk (by omega); omega, hjk⟩
            · refine i4 hl j ?_
              rw [setAt, if_neg hjk]
              exact hj
    · rw [if_neg hp] at h
      cases h
      exact ⟨fun h => by omega, by omega, fun j hj => absurd rfl hj, fun h => by omega⟩

/-- Forget the block. -/
def noBlock {β : Type} (r : Nat × Bs × β) : Nat × Bs := (r.1, r.2.1)

theorem skipStep_eq (t : Huff) (f : Nat → Int) (qt : Nat → I32) (pos : Nat) (s : Bs)
    (block : Nat → I32) :
    Bs.skipStep t f pos s = (Bs.acStep t f qt pos s block).map (Sum.map noBlock noBlock) := by
  unfold Bs.acStep Bs.skipStep
  cases s.refill with
  | error e => rfl
  | ok s1 =>
    simp only
    split
    · rfl
    · cases s1.huff t with
      | error e => rfl
      | ok r =>
        obtain ⟨sym, s2⟩ := r
        simp only
        split
        · rfl
        · split <;> rfl

theorem skipLoop_eq (t : Huff) (f : Nat → Int) (qt : Nat → I32) (fuel pos : Nat) (s : Bs)
    (block : Nat → I32) :
    Bs.skipLoop t f fuel pos s = (Bs.acLoop t f qt fuel pos s block).map noBlock := by
  induction fuel generalizing pos s block with
  | zero => rfl
  | succ fuel ih =>
    rw [Bs.skipLoop, Bs.acLoop, skipStep_eq t f qt pos s block]
    split
    · cases Bs.acStep t f qt pos s block with
      | error e => rfl
      | ok r =>
        cases r with
        | inl r => rfl
        | inr r =>
          obtain ⟨p, s1, b1⟩ := r
          exact ih p s1 b1
    · rfl

theorem discardDc_eq (s : Bs) (t : Huff) (pred : I32) :
    s.discardDc t = (s.decodeDc t pred).map Prod.snd := by
  unfold Bs.discardDc Bs.decodeDc
  split
  · rfl
  · rename_i s1 _
    cases s1.huff t with
    | error e => rfl
    | ok r =>
      obtain ⟨sym, s2⟩ := r
      simp only
      split <;> rfl

end Zune.Jpeg
