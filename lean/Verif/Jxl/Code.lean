/-
Lemmas about the prefix codes of the JPEG XL encoder.
-/
import Verif.Jxl.Lengths
import Verif.Jxl.Writer
import Verif.Common.Prefix

namespace Zune.Jxl

open Prefix (weight word)

/-! ### Code lengths -/

/-- Lengths allowed for the symbols: none for unused symbols, within the limits for the others. -/
def Allowed : List Sym → List Nat → Prop
  | [], [] => True
  | s :: t, b :: bs => (if s.freq = 0 then b = 0 else 1 ≤ b ∧ s.lo ≤ b ∧ b ≤ s.hi) ∧ Allowed t bs
  | _, _ => False

/-- The symbols that `compute_code_lengths_non_zero` works on. -/
def compact (syms : List Sym) : List Sym :=
  (syms.filter fun s => s.freq != 0).map fun s => if s.lo < 1 then { s with lo := 1 } else s

theorem compact_cons_zero {s : Sym} (h : s.freq = 0) (t : List Sym) : compact (s :: t) = compact t := by simp [compact, h]

theorem compact_cons {s : Sym} (h : s.freq ≠ 0) (t : List Sym) :
    compact (s :: t) = (if s.lo < 1 then { s with lo := 1 } else s) :: compact t := by simp [compact, h]

theorem raise_lo (s : Sym) : (if s.lo < 1 then { s with lo := 1 } else s).lo = max 1 s.lo := by split <;> simp <;> omega
theorem raise_hi (s : Sym) : (if s.lo < 1 then { s with lo := 1 } else s).hi = s.hi := by split <;> rfl
theorem raise_freq (s : Sym) : (if s.lo < 1 then { s with lo := 1 } else s).freq = s.freq := by split <;> rfl

theorem spread_allowed (N : Nat) {syms : List Sym} {fs : List Nat} (h : Fits (compact syms) fs) :
    Allowed syms (spread syms fs) ∧ weight N (spread syms fs) = share N fs ∧ cost syms (spread syms fs) = cost (compact syms) fs := by
  induction syms generalizing fs with
  | nil =>
    cases fs with
    | nil => exact ⟨trivial, rfl, rfl⟩
    | cons b bs => exact h.elim
  | cons s t ih =>
    by_cases hz : s.freq = 0
    · rw [compact_cons_zero hz] at h ⊢
      obtain ⟨h1, h2, h3⟩ := ih h
      rw [spread, if_neg (by simpa using hz)]
      refine ⟨⟨by rw [if_pos hz], h1⟩, ?_, ?_⟩
      · rw [Prefix.weight_cons, if_pos rfl, h2, Nat.zero_add]
      · rw [cost, hz, h3]; omega
    · rw [compact_cons hz] at h ⊢
      cases fs with
      | nil => exact h.elim
      | cons b bs =>
        obtain ⟨a1, a2, a3⟩ := h
        rw [raise_lo] at a1
        rw [raise_hi] at a2
        obtain ⟨h1, h2, h3⟩ := ih a3
        rw [spread, if_pos (by simpa using hz)]
        simp only [List.headD_cons, List.tail_cons]
        refine ⟨⟨by rw [if_neg hz]; omega, h1⟩, ?_, ?_⟩
        · rw [Prefix.weight_cons, if_neg (by omega), h2]; simp [share]
        · rw [cost, cost, h3, raise_freq]

theorem compact_fits (N : Nat) {syms : List Sym} {ms : List Nat} (h : Allowed syms ms) :
    ∃ fs, Fits (compact syms) fs ∧ share N fs = weight N ms ∧ cost (compact syms) fs = cost syms ms := by
  induction syms generalizing ms with
  | nil =>
    cases ms with
    | nil => exact ⟨[], trivial, rfl, rfl⟩
    | cons b bs => exact h.elim
  | cons s t ih =>
    cases ms with
    | nil => exact h.elim
    | cons b bs =>
      obtain ⟨a1, a2⟩ := h
      obtain ⟨fs, h1, h2, h3⟩ := ih a2
      by_cases hz : s.freq = 0
      · rw [if_pos hz] at a1
        rw [compact_cons_zero hz]
        exact ⟨fs, h1, by rw [Prefix.weight_cons, if_pos a1, h2, Nat.zero_add], by rw [cost, hz, h3]; omega⟩
      · rw [if_neg hz] at a1
        rw [compact_cons hz]
        refine ⟨b :: fs, ⟨by rw [raise_lo]; omega, by rw [raise_hi]; omega, h1⟩, ?_, ?_⟩
        · rw [Prefix.weight_cons, if_neg (by omega), ← h2]; simp [share]
        · rw [cost, cost, h3, raise_freq]

theorem mem_allowed {syms : List Sym} {ms : List Nat} (h : Allowed syms ms) {N : Nat} (hN : ∀ s ∈ compact syms, s.hi ≤ N) : ∀ l ∈ ms, l ≤ N := by
  induction syms generalizing ms with
  | nil =>
    cases ms with
    | nil => simp
    | cons b bs => exact h.elim
  | cons s t ih =>
    cases ms with
    | nil => exact h.elim
    | cons b bs =>
      obtain ⟨a1, a2⟩ := h
      intro l hl
      by_cases hz : s.freq = 0
      · rw [if_pos hz] at a1
        rw [compact_cons_zero hz] at hN
        rw [List.mem_cons] at hl
        rcases hl with rfl | hl
        · omega
        · exact ih a2 hN l hl
      · rw [if_neg hz] at a1
        rw [compact_cons hz] at hN
        rw [List.mem_cons] at hl
        rcases hl with rfl | hl
        · have := hN _ (List.mem_cons_self ..)
          rw [raise_hi] at this
          omega
        · exact ih a2 (fun s hs => hN s (List.mem_cons_of_mem _ hs)) l hl

/-- What is returned is allowed, fills the code space, and no other choice with these properties needs fewer bits. -/
theorem codeLengths_spec {syms : List Sym} {ls : List Nat} (h : codeLengths syms = some ls) :
    Allowed syms ls ∧ (∃ N, (∀ l ∈ ls, l ≤ N) ∧ weight N ls = 2 ^ N) ∧
      ∀ ms, Allowed syms ms → (∃ N, (∀ l ∈ ms, l ≤ N) ∧ weight N ms = 2 ^ N) → cost syms ls ≤ cost syms ms := by
  rw [codeLengths] at h
  split at h
  · cases h
  · simp only [Option.pure_def, Option.bind_eq_bind, Option.bind_eq_some_iff, Option.some.injEq] at h
    obtain ⟨fs, h, rfl⟩ := h
    rw [lengthsNonZero] at h
    split at h
    · cases h
    · simp only at h
      rw [show List.map (fun s : Sym => if s.lo < 1 then { s with lo := 1 } else s) (List.filter (fun s => s.freq != 0) syms) = compact syms from rfl] at h
      split at h
      · cases h
      · split at h
        · cases h
        · obtain ⟨h1, h2, h3, h4⟩ := lengthsImpl_spec h
          obtain ⟨s1, s2, s3⟩ := spread_allowed (((compact syms).foldl (fun p s => max s.hi p) 0) - (((compact syms).foldl (fun p s => min s.lo p) 255) - 1)) h1
          have hm := mem_allowed s1 h3
          refine ⟨s1, ⟨_, hm, by rw [s2, h2]⟩, ?_⟩
          rintro ms m1 ⟨M, m2, m3⟩
          have hm' := mem_allowed m1 h3
          obtain ⟨gs, g1, g2, g3⟩ := compact_fits (((compact syms).foldl (fun p s => max s.hi p) 0) - (((compact syms).foldl (fun p s => min s.lo p) 255) - 1)) m1
          rw [s3, ← g3]
          exact h4 gs g1 (by rw [g2]; exact Prefix.complete_of m2 m3 hm')

theorem Allowed.length {syms : List Sym} {ls : List Nat} (h : Allowed syms ls) : ls.length = syms.length := by
  induction syms generalizing ls with
  | nil => cases ls <;> simp_all [Allowed]
  | cons s t ih =>
    cases ls with
    | nil => exact h.elim
    | cons b bs => simp [ih h.2]

theorem Allowed.get {syms : List Sym} {ls : List Nat} (h : Allowed syms ls) {i : Nat} {s : Sym} (hi : syms[i]? = some s) :
    if s.freq = 0 then ls.getD i 0 = 0 else 1 ≤ ls.getD i 0 ∧ s.lo ≤ ls.getD i 0 ∧ ls.getD i 0 ≤ s.hi := by
  induction syms generalizing ls i with
  | nil => simp at hi
  | cons x t ih =>
    cases ls with
    | nil => exact h.elim
    | cons b bs =>
      cases i with
      | zero =>
        have : x = s := by simpa using hi
        subst this
        simpa using h.1
      | succ i => simpa using ih h.2 (i := i) (by simpa using hi)

/-! ### Lengths exist -/

theorem foldl_max_le {l : List Sym} {m P : Nat} (h : ∀ s ∈ l, s.hi ≤ P) (hm : m ≤ P) : l.foldl (fun p s => max s.hi p) m ≤ P := by
  induction l generalizing m with
  | nil => exact hm
  | cons s t ih =>
    have h0 := h s (by simp)
    exact ih (fun x hx => h x (by simp [hx])) (by show max s.hi m ≤ P; omega)

theorem le_foldl_max {l : List Sym} {m : Nat} : m ≤ l.foldl (fun p s => max s.hi p) m ∧ ∀ s ∈ l, s.hi ≤ l.foldl (fun p s => max s.hi p) m := by
  induction l generalizing m with
  | nil => simp
  | cons s t ih =>
    obtain ⟨h1, h2⟩ := ih (m := max s.hi m)
    rw [List.foldl_cons]
    refine ⟨by omega, ?_⟩
    intro x hx
    rw [List.mem_cons] at hx
    rcases hx with rfl | hx
    · omega
    · exact h2 x hx

theorem foldl_min_le {l : List Sym} {m : Nat} : l.foldl (fun p s => min s.lo p) m ≤ m ∧ ∀ s ∈ l, l.foldl (fun p s => min s.lo p) m ≤ s.lo := by
  induction l generalizing m with
  | nil => simp
  | cons s t ih =>
    obtain ⟨h1, h2⟩ := ih (m := min s.lo m)
    rw [List.foldl_cons]
    refine ⟨by omega, ?_⟩
    intro x hx
    rw [List.mem_cons] at hx
    rcases hx with rfl | hx
    · omega
    · exact h2 x hx

theorem cost_le {syms : List Sym} {fs : List Nat} {P : Nat} (h : Fits syms fs) (hb : ∀ b ∈ fs, b ≤ P) : cost syms fs ≤ (syms.map Sym.freq).sum * P := by
  induction syms generalizing fs with
  | nil => cases fs <;> simp_all [Fits, cost]
  | cons s t ih =>
    cases fs with
    | nil => exact h.elim
    | cons b bs =>
      simp only [cost, List.map_cons, List.sum_cons, Nat.add_mul]
      have := ih h.2.2 (fun x hx => hb x (by simp [hx]))
      have := Nat.mul_le_mul_left s.freq (hb b (by simp))
      omega

theorem spread_all {syms : List Sym} {ls : List Nat} (h : ∀ s ∈ syms, s.freq ≠ 0) (hl : ls.length = syms.length) : spread syms ls = ls := by
  induction syms generalizing ls with
  | nil => cases ls <;> simp_all [spread]
  | cons s t ih =>
    cases ls with
    | nil => simp at hl
    | cons b bs => rw [spread, if_pos (h s (by simp))]; simp [ih (fun x hx => h x (by simp [hx])) (by simpa using hl)]

/-- Lengths are found when all symbols are used and there are allowed lengths that fill the code space, the first of them below the largest
    limit. -/
theorem codeLengths_some {s : Sym} {t : List Sym} {b : Nat} {bs : List Nat} {P : Nat} (hn : t.length < numLz77) (hf : ∀ x ∈ s :: t, x.freq ≠ 0)
    (ha : Allowed (s :: t) (b :: bs)) (hw : weight P (b :: bs) = 2 ^ P) (hP : ∀ x ∈ s :: t, x.hi ≤ P) (hm : ∃ x ∈ s :: t, x.hi = P)
    (hlo : s.lo ≤ 1) (hb : b < P) : ∃ ls, codeLengths (s :: t) = some ls := by
  have hfil : (s :: t).filter (fun s => s.freq != 0) = s :: t := by
    rw [List.filter_eq_self]
    intro x hx; simpa using hf x hx
  obtain ⟨fs, f1, f2, f3⟩ := compact_fits P ha
  have hmem : ∀ y ∈ compact (s :: t), ∃ x ∈ s :: t, y.freq = x.freq ∧ y.hi = x.hi ∧ y.lo = max 1 x.lo := by
    intro y hy
    rw [compact, hfil, List.mem_map] at hy
    obtain ⟨x, hx, rfl⟩ := hy
    exact ⟨x, hx, raise_freq x, raise_hi x, raise_lo x⟩
  have hmem' : ∀ x ∈ s :: t, ∃ y ∈ compact (s :: t), y.hi = x.hi ∧ y.lo = max 1 x.lo := by
    intro x hx
    exact ⟨_, by rw [compact, hfil]; exact List.mem_map_of_mem hx, raise_hi x, raise_lo x⟩
  have hprec : (compact (s :: t)).foldl (fun p s => max s.hi p) 0 = P := by
    apply Nat.le_antisymm
    · apply foldl_max_le _ (by omega)
      intro y hy
      obtain ⟨x, hx, -, e, -⟩ := hmem y hy
      rw [e]; exact hP x hx
    · obtain ⟨x, hx, rfl⟩ := hm
      obtain ⟨y, hy, e, -⟩ := hmem' x hx
      rw [← e]
      exact le_foldl_max.2 y hy
  have hshort : (compact (s :: t)).foldl (fun p s => min s.lo p) 255 ≤ 1 := by
    obtain ⟨y, hy, -, e⟩ := hmem' s (by simp)
    have := (foldl_min_le (l := compact (s :: t)) (m := 255)).2 y hy
    omega
  have hcost : cost (compact (s :: t)) fs < ((compact (s :: t)).map Sym.freq).sum * P := by
    have hs0 := hf s (by simp)
    have e1 : ((compact (s :: t)).map Sym.freq).sum = s.freq + (t.map Sym.freq).sum := by
      rw [compact, hfil, List.map_map]
      have : (Sym.freq ∘ fun s : Sym => if s.lo < 1 then { s with lo := 1 } else s) = Sym.freq := by
        funext x; exact raise_freq x
      rw [this]; simp
    rw [f3, e1, Nat.add_mul, cost]
    have hall := mem_allowed ha (N := P) (by intro y hy; obtain ⟨x, hx, -, e, -⟩ := hmem y hy; rw [e]; exact hP x hx)
    have h1 : cost t bs ≤ (t.map Sym.freq).sum * P := by
      clear f3 e1
      have ha2 := ha.2
      have hall2 : ∀ x ∈ bs, x ≤ P := fun x hx => hall x (by simp [hx])
      clear hall f1 f2 hw ha hprec hshort hmem hmem' hm hfil hf hP hn
      induction t generalizing bs with
      | nil => cases bs <;> simp [cost]
      | cons y t ih =>
        cases bs with
        | nil => exact ha2.elim
        | cons c bs =>
          simp only [cost, List.map_cons, List.sum_cons, Nat.add_mul]
          have := ih ha2.2 (fun x hx => hall2 x (by simp [hx]))
          have := Nat.mul_le_mul_left y.freq (hall2 c (by simp))
          omega
    have h2 : s.freq * b < s.freq * P := Nat.mul_lt_mul_of_pos_left hb (by omega)
    omega
  obtain ⟨ls, hls⟩ := lengthsImpl_some f1 (by rw [f2, hw]) hcost
    (by intro y hy; obtain ⟨x, hx, -, e, -⟩ := hmem y hy; rw [e]; exact hP x hx)
  refine ⟨spread (s :: t) ls, ?_⟩
  rw [codeLengths, if_neg (by simp only [List.length_cons]; omega), hfil]
  have : lengthsNonZero (s :: t) = some ls := by
    rw [lengthsNonZero, if_neg]
    · simp only
      have e : List.map (fun s : Sym => if s.lo < 1 then { s with lo := 1 } else s) (s :: t) = compact (s :: t) := by rw [compact, hfil]
      rw [e, if_neg, hprec, if_neg (by omega), show P - ((compact (s :: t)).foldl (fun p s => min s.lo p) 255 - 1) = P by omega]
      · exact hls
      · simp only [List.any_eq_true, decide_eq_true_eq, not_exists, not_and, Nat.not_lt]
        have hgo : ∀ (l : List Sym) (fs : List Nat), Fits l fs → ∀ y ∈ l, y.lo ≤ y.hi := by
          intro l
          induction l with
          | nil => simp
          | cons y l ih =>
            intro fs h
            cases fs with
            | nil => exact h.elim
            | cons c fs =>
              intro z hz
              rw [List.mem_cons] at hz
              rcases hz with rfl | hz
              · have := h.1; have := h.2.1; omega
              · exact ih fs h.2.2 z hz
        exact hgo _ _ f1
    · simp only [List.any_eq_true, beq_iff_eq, not_exists, not_and]
      exact hf
  rw [this]; rfl

/-! ### Canonical codes -/

theorem nibble_reverse : ∀ k < 16, lsb 4 (nibbleLookup.getD k 0) = (lsb 4 k).reverse ∧ nibbleLookup.getD k 0 < 16 := by decide

theorem lsb_merge' {m u : Nat} (hu : u < 2 ^ m) (n v : Nat) : lsb (m + n) (v <<< m ||| u) = lsb m u ++ lsb n v := by
  rw [Nat.shiftLeft_eq, Nat.mul_comm, ← Nat.two_pow_add_eq_or_of_lt hu, Nat.add_comm (2 ^ m * v)]
  exact lsb_merge hu n v

/-- The value is mirrored within its width. -/
theorem bitReverse_spec {n v : Nat} (hn : n < 16) : lsb n (bitReverse n v) = (lsb n v).reverse ∧ bitReverse n v < 2 ^ n := by
  have hand : ∀ k, v >>> k &&& 0xF = v / 2 ^ k % 16 := by
    intro k
    rw [Nat.shiftRight_eq_div_pow, show (0xF : Nat) = 2 ^ 4 - 1 from rfl, Nat.and_two_pow_sub_one_eq_mod]
  have hd : ∀ k, v / 2 ^ k % 16 < 16 := fun k => Nat.mod_lt _ (by omega)
  obtain ⟨a1, a2⟩ := nibble_reverse _ (hd 0)
  obtain ⟨b1, b2⟩ := nibble_reverse _ (hd 4)
  obtain ⟨c1, c2⟩ := nibble_reverse _ (hd 8)
  obtain ⟨d1, d2⟩ := nibble_reverse _ (hd 12)
  have hrev : ∃ r, r < 2 ^ 16 ∧ lsb 16 r = (lsb 16 v).reverse ∧ bitReverse n v = r / 2 ^ (16 - n) := by
    refine ⟨nibbleLookup.getD (v / 2 ^ 0 % 16) 0 <<< 12 ||| nibbleLookup.getD (v / 2 ^ 4 % 16) 0 <<< 8 |||
      nibbleLookup.getD (v / 2 ^ 8 % 16) 0 <<< 4 ||| nibbleLookup.getD (v / 2 ^ 12 % 16) 0 <<< 0, ?_, ?_, ?_⟩
    rotate_left 2
    · rw [bitReverse]
      simp only [hand]
      rw [← Nat.shiftRight_add, Nat.shiftRight_eq_div_pow, show 1 + (16 - n - 1) = 16 - n by omega]
    · rw [Nat.shiftLeft_zero]
      refine Nat.or_lt_two_pow (Nat.or_lt_two_pow (Nat.or_lt_two_pow ?_ ?_) ?_) ?_
      · rw [Nat.shiftLeft_eq]; omega
      · rw [Nat.shiftLeft_eq]; omega
      · rw [Nat.shiftLeft_eq]; omega
      · omega
    · generalize nibbleLookup.getD (v / 2 ^ 0 % 16) 0 = A at *
      generalize nibbleLookup.getD (v / 2 ^ 4 % 16) 0 = B at *
      generalize nibbleLookup.getD (v / 2 ^ 8 % 16) 0 = C at *
      generalize nibbleLookup.getD (v / 2 ^ 12 % 16) 0 = D at *
      have e : A <<< 12 ||| B <<< 8 ||| C <<< 4 ||| D <<< 0 = ((A <<< 4 ||| B) <<< 4 ||| C) <<< 4 ||| D := by
        simp only [Nat.shiftLeft_or_distrib, ← Nat.shiftLeft_add, Nat.shiftLeft_zero]
      rw [e, show (16 : Nat) = 4 + (4 + (4 + 4)) from rfl, lsb_merge' (m := 4) (by omega), lsb_merge' (m := 4) (by omega), lsb_merge' (m := 4) (by omega)]
      rw [a1, b1, c1, d1]
      have hm : ∀ k, lsb 4 (v / 2 ^ k % 16) = lsb 4 (v / 2 ^ k) := fun k => lsb_mod 4 _
      rw [hm, hm, hm, hm]
      have : lsb (4 + (4 + (4 + 4))) v = lsb 4 (v / 2 ^ 0) ++ (lsb 4 (v / 2 ^ 4) ++ (lsb 4 (v / 2 ^ 8) ++ lsb 4 (v / 2 ^ 12))) := by
        rw [lsb_append, lsb_append, lsb_append, Nat.div_div_eq_div_mul, Nat.div_div_eq_div_mul]
        simp
      rw [this]; simp
  obtain ⟨r, h1, h2, h3⟩ := hrev
  constructor
  · have h4 := lsb_append (16 - n) n r
    rw [show 16 - n + n = 16 by omega, h2] at h4
    have h5 := lsb_append n (16 - n) v
    rw [show n + (16 - n) = 16 by omega] at h5
    rw [h5, List.reverse_append] at h4
    rw [h3]
    exact ((List.append_inj h4 (by simp)).2).symm
  · rw [h3, Nat.div_lt_iff_lt_mul (Nat.two_pow_pos _), ← pow_add, show n + (16 - n) = 16 by omega]
    exact h1

theorem nextCode_eq (lens : List Nat) (l : Nat) : ∃ k, nextCode (fun l => lens.count l) l = (Canon.first (Prefix.cnt lens) l + k * 2 ^ l) % 65536 := by
  induction l with
  | zero => exact ⟨0, by simp [nextCode, Canon.first]⟩
  | succ l ih =>
    obtain ⟨k, hk⟩ := ih
    rw [nextCode, hk, Canon.first, Prefix.cnt]
    by_cases h : l = 0
    · subst h
      refine ⟨k + lens.count 0, ?_⟩
      simp only [if_pos, Nat.pow_zero, pow_succ]
      omega
    · refine ⟨k, ?_⟩
      rw [if_neg h, pow_succ]
      generalize Canon.first (Prefix.cnt lens) l = F
      generalize lens.count l = c
      rw [← Nat.mul_assoc]
      generalize k * 2 ^ l = K
      omega

theorem assign_spec (l : List Nat) (next : Nat → Nat) (hn : ∀ k, next k < 65536) :
    (assign next l).1.length = l.length ∧ (∀ k, (assign next l).2 k = (next k + l.count k) % 65536) ∧
      ∀ i < l.length, (assign next l).1.getD i 0 = bitReverse (l.getD i 0) ((next (l.getD i 0) + (l.take i).count (l.getD i 0)) % 65536) := by
  induction l generalizing next with
  | nil => exact ⟨rfl, fun k => by simp [assign, Nat.mod_eq_of_lt (hn k)], by simp⟩
  | cons n t ih =>
    have hn' : ∀ k, (if k = n then (next k + 1) % 65536 else next k) < 65536 := by
      intro k
      split
      · exact Nat.mod_lt _ (by omega)
      · exact hn k
    obtain ⟨h1, h2, h3⟩ := ih _ hn'
    refine ⟨by simp [assign, h1], ?_, ?_⟩
    · intro k
      rw [assign]
      simp only
      rw [h2, List.count_cons]
      by_cases hk : k = n
      · subst hk; simp; omega
      · rw [if_neg hk, if_neg (by simpa using fun e => hk e.symm)]; rfl
    · intro i hi
      cases i with
      | zero => simp [assign, Nat.mod_eq_of_lt (hn n)]
      | succ i =>
        have := h3 i (by simpa using hi)
        simp only [assign, List.getD_cons_succ, List.take_succ_cons] at this ⊢
        rw [this, List.count_cons]
        congr 1
        by_cases hk : t.getD i 0 = n
        · rw [hk]; simp; omega
        · rw [if_neg hk, if_neg (by simpa using fun e => hk e.symm)]; rfl

theorem reverse_word {lens : List Nat} {s : Nat} (h15 : lens.getD s 0 < 16) {v : Nat}
    (hv : v = (nextCode (fun l => lens.count l) (lens.getD s 0) + Prefix.rank lens s) % 65536) :
    lsb (lens.getD s 0) (bitReverse (lens.getD s 0) v) = word lens s := by
  obtain ⟨k, hk⟩ := nextCode_eq lens (lens.getD s 0)
  rw [(bitReverse_spec h15).1, word, Prefix.msb]
  congr 1
  rw [← lsb_mod _ v, ← lsb_mod _ (Prefix.code lens s), hv, hk, Prefix.code]
  congr 1
  have hdvd : 2 ^ lens.getD s 0 ∣ 65536 := by
    rw [show (65536 : Nat) = 2 ^ 16 from rfl]; exact pow_dvd_pow 2 (by omega)
  rw [Nat.mod_mod_of_dvd _ hdvd, Nat.add_mod, Nat.mod_mod_of_dvd _ hdvd, Nat.add_mul_mod_self_right, ← Nat.add_mod]

theorem getD_mod (l : List Nat) (i : Nat) : (l.map (· % 256)).getD i 0 = l.getD i 0 % 256 := by
  rw [List.getD_eq_getElem?_getD, List.getD_eq_getElem?_getD, List.getElem?_map]
  cases l[i]? <;> rfl

/-- The bits handed out, lowest first, are the codewords of the canonical code of both lists of lengths taken together. -/
theorem canonicalCode_spec {f s a b : List Nat} (h : canonicalCode f s = some (a, b)) :
    (∀ l ∈ f, 1 ≤ l ∧ l ≤ 8) ∧ (∀ l ∈ s, l ≤ 15) ∧ a.length = f.length ∧ b.length = s.length ∧
      (∀ i < f.length, lsb (f.getD i 0) (a.getD i 0) = word (f ++ s) i ∧ a.getD i 0 < 2 ^ f.getD i 0) ∧
      (∀ j < s.length, lsb (s.getD j 0) (b.getD j 0) = word (f ++ s) (f.length + j) ∧ b.getD j 0 < 2 ^ s.getD j 0) := by
  rw [canonicalCode] at h
  split at h
  · rename_i hc
    simp only [Bool.and_eq_true, List.all_eq_true, decide_eq_true_eq] at hc
    obtain ⟨hf, hs⟩ := hc
    simp only [Option.some.injEq, Prod.mk.injEq] at h
    obtain ⟨ha, hb⟩ := h
    have hn : ∀ k, nextCode (fun l => (f ++ s).count l) k < 65536 := by
      intro k
      cases k with
      | zero => simp [nextCode]
      | succ k => exact Nat.mod_lt _ (by omega)
    obtain ⟨p1, p2, p3⟩ := assign_spec f _ hn
    have hn2 : ∀ k, (assign (nextCode fun l => (f ++ s).count l) f).2 k < 65536 := by
      intro k; rw [p2]; exact Nat.mod_lt _ (by omega)
    obtain ⟨q1, q2, q3⟩ := assign_spec s _ hn2
    refine ⟨fun l hl => ⟨(hf l hl).2, (hf l hl).1.2⟩, hs, by rw [← ha, List.length_map, p1], by rw [← hb, q1], ?_, ?_⟩
    · intro i hi
      have hg : (f ++ s).getD i 0 = f.getD i 0 := by simp [List.getD_eq_getElem?_getD, List.getElem?_append_left hi]
      have h8 : f.getD i 0 ≤ 8 := by
        have := hf (f.getD i 0) (by simp [List.getD_eq_getElem?_getD, hi])
        omega
      have e : a.getD i 0 = (assign (nextCode fun l => (f ++ s).count l) f).1.getD i 0 % 256 := by
        rw [← ha, getD_mod]
      have hlt := (bitReverse_spec (n := f.getD i 0)
        (v := (nextCode (fun l => (f ++ s).count l) (f.getD i 0) + (f.take i).count (f.getD i 0)) % 65536) (by omega)).2
      have h256 : 2 ^ f.getD i 0 ≤ 256 := by rw [show (256 : Nat) = 2 ^ 8 from rfl]; exact Nat.pow_le_pow_right (by omega) h8
      rw [e, p3 i hi, Nat.mod_eq_of_lt (by omega)]
      refine ⟨?_, hlt⟩
      rw [← hg]
      apply reverse_word (by rw [hg]; omega)
      rw [Prefix.rank, List.take_append_of_le_length (by omega)]
    · intro j hj
      have hg : (f ++ s).getD (f.length + j) 0 = s.getD j 0 := by
        rw [List.getD_eq_getElem?_getD, List.getD_eq_getElem?_getD, List.getElem?_append_right (by omega)]; simp
      have h15 : s.getD j 0 ≤ 15 := hs (s.getD j 0) (by simp [List.getD_eq_getElem?_getD, hj])
      rw [← hb, q3 j hj]
      refine ⟨?_, (bitReverse_spec (by omega)).2⟩
      rw [← hg]
      apply reverse_word (by rw [hg]; omega)
      have ht : (f ++ s).take (f.length + j) = f ++ s.take j := by
        rw [List.take_append, List.take_of_length_le (by omega), Nat.add_sub_cancel_left]
      rw [hg, p2, Prefix.rank, hg, ht, List.count_append]
      omega
  · cases h

end Zune.Jxl
