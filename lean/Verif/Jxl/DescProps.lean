/-
Property C74: the description of a prefix code in the stream is read back as its code lengths.
-/
import Verif.Jxl.Desc
import Verif.Jxl.CodeProps

namespace Zune.Jxl

open Prefix (weight word Used)
open Rfc7932 (CodeLens SymLens Describes fixedWord)

/-! ### A reader has no choice -/

theorem fixedWord_unique {a b : Nat} (ha : a ≤ 5) (hb : b ≤ 5) {r s : List Bool} (h : fixedWord a ++ r = fixedWord b ++ s) : a = b ∧ r = s := by
  have h1 : a = 0 ∨ a = 1 ∨ a = 2 ∨ a = 3 ∨ a = 4 ∨ a = 5 := by omega
  have h2 : b = 0 ∨ b = 1 ∨ b = 2 ∨ b = 3 ∨ b = 4 ∨ b = 5 := by omega
  rcases h1 with rfl | rfl | rfl | rfl | rfl | rfl <;> rcases h2 with rfl | rfl | rfl | rfl | rfl | rfl <;> simp_all [fixedWord]

theorem codeLens_unique {space : Nat} {order : List Nat} {bits : List Bool} {cl : List (Nat × Nat)} {rest : List Bool}
    (h : CodeLens space order bits cl rest) : ∀ {cl' : List (Nat × Nat)} {rest' : List Bool}, CodeLens space order bits cl' rest' → cl = cl' ∧ rest = rest' := by
  induction h with
  | full order rest =>
    intro cl' rest' h'
    generalize hz : 0 = space at h'
    cases h' with
    | full => exact ⟨rfl, rfl⟩
    | next => omega
  | next space s l order bits cl rest hl hp hc ih =>
    intro cl' rest' h'
    generalize hz : (if l = 0 then 0 else 2 ^ (5 - l)) + space = sp at h'
    generalize hb : fixedWord l ++ bits = bb at h'
    cases h' with
    | full => omega
    | next space' _ l' _ bits' cl' _ hl' hp' hc' =>
      obtain ⟨rfl, rfl⟩ := fixedWord_unique hl hl' hb
      obtain rfl : space = space' := by omega
      obtain ⟨rfl, rfl⟩ := ih hc'
      exact ⟨rfl, rfl⟩

theorem symLens_unique {cl : List Nat} (hN : ∀ l ∈ cl, l ≤ 5) (hk : weight 5 cl ≤ 2 ^ 5) {prev : Nat} {last : Rfc7932.Last} {space n : Nat} {bits : List Bool}
    {lens : List Nat} {rest : List Bool} (h : SymLens cl prev last space n bits lens rest) :
    ∀ {lens' : List Nat} {rest' : List Bool}, SymLens cl prev last space n bits lens' rest' → lens = lens' ∧ rest = rest' := by
  induction h with
  | full prev last n rest =>
    intro lens' rest' h'
    generalize hz : 0 = space at h'
    cases h' with
    | full => exact ⟨rfl, rfl⟩
    | length => omega
    | same => omega
    | zeros => omega
  | length prev last space n l bits lens rest hl hu hp hc ih =>
    intro lens' rest' h'
    generalize hz : (if l = 0 then 0 else 2 ^ (15 - l)) + space = sp at h'
    generalize hb : word cl l ++ bits = bb at h'
    generalize hn : n + 1 = m at h'
    cases h' with
    | full => omega
    | length _ _ space' n' l' bits' lens' _ hl' hu' hp' hc' =>
      obtain ⟨rfl, rfl⟩ := Prefix.word_unique hN hk hu hu' hb
      obtain rfl : space = space' := by omega
      obtain rfl : n = n' := by omega
      obtain ⟨rfl, rfl⟩ := ih hc'
      exact ⟨rfl, rfl⟩
    | same _ _ space' n' x k bits' lens' _ hu' =>
      have := (Prefix.word_unique hN hk hu hu' hb).1
      omega
    | zeros _ _ space' n' x k bits' lens' _ hu' =>
      have := (Prefix.word_unique hN hk hu hu' hb).1
      omega
  | same prev last space n x k bits lens rest hu hx hp hkk hc ih =>
    intro lens' rest' h'
    generalize hz : k * 2 ^ (15 - prev) + space = sp at h'
    generalize hb : word cl 16 ++ (lsb 2 x ++ bits) = bb at h'
    generalize hn : n + k = m at h'
    cases h' with
    | full => omega
    | length _ _ space' n' l' bits' lens' _ hl' hu' hp' hc' =>
      have := (Prefix.word_unique hN hk hu hu' hb).1
      omega
    | same _ _ space' n' x' k' bits' lens' _ hu' hx' hp' hk' hc' =>
      obtain ⟨-, hb⟩ := Prefix.word_unique hN hk hu hu' hb
      obtain ⟨h2, rfl⟩ := List.append_inj hb (by simp)
      obtain rfl := lsb_inj (n := 2) hx hx' h2
      rw [← hkk] at hk'
      subst hk'
      obtain rfl : space = space' := by omega
      obtain rfl : n = n' := by omega
      obtain ⟨rfl, rfl⟩ := ih hc'
      exact ⟨rfl, rfl⟩
    | zeros _ _ space' n' x k bits' lens' _ hu' =>
      have := (Prefix.word_unique hN hk hu hu' hb).1
      omega
  | zeros prev last space n x k bits lens rest hu hx hp hkk hc ih =>
    intro lens' rest' h'
    generalize hb : word cl 17 ++ (lsb 3 x ++ bits) = bb at h'
    generalize hn : n + k = m at h'
    cases h' with
    | full => omega
    | length _ _ space' n' l' bits' lens' _ hl' hu' hp' hc' =>
      have := (Prefix.word_unique hN hk hu hu' hb).1
      omega
    | same _ _ space' n' x' k' bits' lens' _ hu' hx' hp' hk' hc' =>
      have := (Prefix.word_unique hN hk hu hu' hb).1
      omega
    | zeros _ _ space' n' x' k' bits' lens' _ hu' hx' hp' hk' hc' =>
      obtain ⟨-, hb⟩ := Prefix.word_unique hN hk hu hu' hb
      obtain ⟨h2, rfl⟩ := List.append_inj hb (by simp)
      obtain rfl := lsb_inj (n := 3) hx hx' h2
      rw [← hkk] at hk'
      subst hk'
      obtain rfl : n = n' := by omega
      obtain ⟨rfl, rfl⟩ := ih hc'
      exact ⟨rfl, rfl⟩

theorem codeLens_le {space : Nat} {order : List Nat} {bits : List Bool} {cl : List (Nat × Nat)} {rest : List Bool}
    (h : CodeLens space order bits cl rest) : ∀ p ∈ cl, p.2 ≤ 5 := by
  induction h with
  | full => intro p hp; cases hp
  | next space s l order bits cl rest hl _ _ ih =>
    intro p hp
    rcases List.mem_cons.1 hp with rfl | hp
    · exact hl
    · exact ih p hp

theorem table_le {cl : List (Nat × Nat)} (h : ∀ p ∈ cl, p.2 ≤ 5) : ∀ l ∈ Rfc7932.table cl, l ≤ 5 := by
  intro l hl
  simp only [Rfc7932.table, List.mem_map] at hl
  obtain ⟨s, -, rfl⟩ := hl
  induction cl with
  | nil => simp
  | cons p cl ih =>
    rw [List.lookup_cons]
    by_cases e : s == p.1
    · simpa [e] using h p (by simp)
    · simpa [e] using ih fun q hq => h q (by simp [hq])

/-- A description determines the code and where it ends. -/
theorem describes_unique {n : Nat} {bits : List Bool} {lens lens' : List Nat} {rest rest' : List Bool} (h : Describes n bits lens rest)
    (h' : Describes n bits lens' rest') : lens = lens' ∧ rest = rest' := by
  obtain ⟨skip, cl, b1, b2, h1, -, h3, h4, h5, h6⟩ := h
  obtain ⟨skip', cl', b1', b2', h1', -, h3', h4', -, h6'⟩ := h'
  rw [h3] at h3'
  obtain ⟨e, rfl⟩ := List.append_inj h3' (by simp)
  obtain rfl := lsb_inj (n := 2) h1 h1' e
  obtain ⟨rfl, rfl⟩ := codeLens_unique h4 h4'
  exact symLens_unique (table_le (codeLens_le h4)) (by omega) h6 h6'

/-! ### C74 -/

theorem clCounts_get (c : PrefixCode) {l : Nat} (hl : l < 18) : (clCounts c)[l]? = some ((if l = 17 then 67 else 0) + c.rawNbits.count l + c.lz77Nbits.count l) := by
  rw [clCounts, List.getElem?_map, List.getElem?_range hl]
  rfl

/-- **C74** For all counts the encoder can produce, the code built for a channel can be written, and what is written describes, by the rules of
    RFC 7932, a code for 257 symbols with exactly the lengths of that code (and nothing else), wherever in the stream it stands. -/
theorem c74_description (bytes k : Nat) (raw lz : List Nat) (hk : bytes = 1 ∧ (k = 10 ∨ k = 11) ∨ bytes = 2 ∧ k = 19) (hr : raw.length = 19)
    (hl : lz.length = 33) (hraw : ∀ t < 19, raw.getD t 0 ≠ 0 ↔ t < k) (hlz : ∀ t < 33, lz.getD t 0 ≠ 0 ↔ t < 28) :
    ∃ c l, PrefixCode.new bytes raw lz = some c ∧ c.describe = some l ∧ (∀ p ∈ l, p.1 ≤ 5) ∧ l.length ≤ 77 ∧
      ∀ rest lens rest', Describes 257 (fields l ++ rest) lens rest' ↔ lens = c.lens ∧ rest' = rest := by
  obtain ⟨c, hc, -, hle, hfull, hused, -, -, h7, -⟩ := c72_code bytes k raw lz hk hr hl hraw hlz
  have g := new_good hr hl hc
  have hle1 : ∀ x ∈ c.rawNbits, x ≤ 15 := fun x hx => hle x (List.mem_append_left _ (List.mem_append_left _ hx))
  have hle2 : ∀ x ∈ c.lz77Nbits, x ≤ 15 := fun x hx => hle x (List.mem_append_right _ hx)
  have hlen : (clCounts c).length = 18 := by simp [clCounts]
  have hne : c.rawNbits ≠ [] := by
    intro h; have := g.rawLen; rw [h] at this; simp at this
  have hul : usedLength c.lz77Nbits ≠ 0 := by
    intro h
    have h1 := (hused 224).2 (Or.inr (by omega))
    have h2 := usedLength_drop c.lz77Nbits
    rw [h] at h2
    apply h1
    rw [PrefixCode.lens, List.getD_eq_getElem?_getD, List.getElem?_append_right (by rw [List.length_append, List.length_replicate, g.rawLen]),
      List.length_append, List.length_replicate, g.rawLen]
    rw [List.getElem?_eq_getElem (by rw [g.lzLen]; omega)]
    exact h2 _ (List.getElem_mem _)
  have h2 : 2 ≤ ((clCounts c).filter (· != 0)).length := by
    rw [clCounts, List.range_succ, List.map_append, List.filter_append, List.length_append]
    have e1 : 1 ≤ (List.filter (fun x : Nat => x != 0) (List.map (fun l => (if l = 17 then 3 + 2 * (numLz77 - 1) else 0) + List.count l c.rawNbits + List.count l c.lz77Nbits) [17])).length := by
      simp [numLz77]
    have e2 : 1 ≤ (List.filter (fun x : Nat => x != 0) (List.map (fun l => (if l = 17 then 3 + 2 * (numLz77 - 1) else 0) + List.count l c.rawNbits + List.count l c.lz77Nbits) (List.range 17))).length := by
      cases hcn : c.rawNbits with
      | nil => exact absurd hcn hne
      | cons x t =>
        have hx := hle1 x (by simp [hcn])
        apply List.length_pos_of_mem (a := (if x = 17 then 3 + 2 * (numLz77 - 1) else 0) + List.count x (x :: t) + List.count x c.lz77Nbits)
        rw [List.mem_filter]
        refine ⟨List.mem_map.2 ⟨x, by simp; omega, rfl⟩, ?_⟩
        simp
    omega
  obtain ⟨cl, hcl⟩ := clLengths_some hlen h2
  obtain ⟨k1, k2, -⟩ := codeLengths_spec hcl
  have hcllen : cl.length = 18 := by
    rw [k1.length, withLimits_length, hlen]; simp
  have hget : ∀ l < 18, if (if l = 17 then 67 else 0) + c.rawNbits.count l + c.lz77Nbits.count l = 0 then cl.getD l 0 = 0 else 1 ≤ cl.getD l 0 ∧ cl.getD l 0 ≤ 5 := by
    intro l hl
    have := k1.get (withLimits_get _ _ (clCounts_get c hl) (y := (0, 5)) (by rw [List.getElem?_replicate, if_pos hl]))
    simp only at this
    generalize (if l = 17 then 67 else 0) + c.rawNbits.count l + c.lz77Nbits.count l = f at this ⊢
    split <;> rename_i h
    · rwa [if_pos h] at this
    · rw [if_neg h] at this; omega
  have hg : ∀ l < 18, cl.getD l 0 ≤ 5 := by
    intro l hl
    have := hget l hl
    generalize (if l = 17 then 67 else 0) + c.rawNbits.count l + c.lz77Nbits.count l = f at this
    split at this <;> omega
  have hnz : ∀ l < 18, (l = 17 ∨ l ∈ c.rawNbits ∨ l ∈ c.lz77Nbits) → Used cl l := by
    intro l hl h
    have := hget l hl
    have hp : (if l = 17 then 67 else 0) + c.rawNbits.count l + c.lz77Nbits.count l ≠ 0 := by
      rcases h with rfl | h | h
      · simp
      · have := List.count_pos_iff.2 h; omega
      · have := List.count_pos_iff.2 h; omega
    rw [if_neg hp] at this
    unfold Used; omega
  have h5 : ∀ l ∈ cl, l ≤ 5 := by
    intro l hl
    obtain ⟨i, hi, rfl⟩ := List.mem_iff_getElem.1 hl
    have := hg i (by omega)
    rwa [List.getD_eq_getElem?_getD, List.getElem?_eq_getElem hi] at this
  have hw : weight 5 cl = 2 ^ 5 := by
    obtain ⟨N, n1, n2⟩ := k2
    exact Prefix.complete_of n1 n2 h5
  have hu : ∀ l, l ∈ c.rawNbits ∨ l ∈ c.lz77Nbits → Used cl l := by
    intro l hl
    have h15 : l ≤ 15 := by rcases hl with h | h; exacts [hle1 l h, hle2 l h]
    exact hnz l (by omega) (Or.inr hl)
  have hu17 : Used cl 17 := hnz 17 (by omega) (Or.inl rfl)
  have hcan : ∃ a bits, canonicalCode [] cl = some (a, bits) := by
    rw [canonicalCode, if_pos]
    · exact ⟨_, _, rfl⟩
    · simp only [List.all_nil, Bool.true_and, List.all_eq_true, decide_eq_true_eq]
      intro l hl; have := h5 l hl; omega
  obtain ⟨a, bits, hcan⟩ := hcan
  obtain ⟨-, -, -, -, -, hb⟩ := canonicalCode_spec hcan
  simp only [List.nil_append, List.length_nil, Nat.zero_add] at hb
  have hb' : ∀ l ≤ 15, lsb (cl.getD l 0) (bits.getD l 0) = word cl l := fun l hl => (hb l (by omega)).1
  have hb17 : lsb (cl.getD 17 0) (bits.getD 17 0) = word cl 17 := (hb 17 (by omega)).1
  have hany : ((c.rawNbits ++ c.lz77Nbits).any fun l => decide (18 ≤ l)) = false := by
    rw [List.any_eq_false]
    intro l hl
    rcases List.mem_append.1 hl with h | h
    · have := hle1 l h; simp; omega
    · have := hle2 l h; simp; omega
  refine ⟨c, (2, 0) :: ((clOrder.take (usedLength (clOrder.map fun s => cl.getD s 0))).map (fun s => clCode.getD (cl.getD s 0) (0, 0)) ++
    (c.rawNbits.map (fun l => (cl.getD l 0, bits.getD l 0)) ++
    ([(cl.getD 17 0, bits.getD 17 0), (3, 0b010), (cl.getD 17 0, bits.getD 17 0), (3, 0b000), (cl.getD 17 0, bits.getD 17 0), (3, 0b010)] ++
      (c.lz77Nbits.take (usedLength c.lz77Nbits)).map fun l => (cl.getD l 0, bits.getD l 0)))), hc, ?_, ?_, ?_, ?_⟩
  · rw [PrefixCode.describe, hany, hcl]
    simp only [Bool.false_eq_true, if_false]
    show (do
      let __discr ← canonicalCode [] cl
      _) = _
    rw [hcan]
    show (if usedLength c.lz77Nbits = 0 then none else _) = _
    rw [if_neg hul]
    rfl
  · have hg : ∀ l, cl.getD l 0 ≤ 5 := by
      intro l
      rw [List.getD_eq_getElem?_getD]
      by_cases h : l < cl.length
      · rw [List.getElem?_eq_getElem h]; exact h5 _ (List.getElem_mem _)
      · rw [List.getElem?_eq_none (by omega)]; simp
    have hg2 : ∀ l ≤ 5, (clCode.getD l (0, 0)).1 ≤ 5 := by decide
    intro p hp
    simp only [List.mem_cons, List.mem_append, List.mem_map] at hp
    rcases hp with rfl | ⟨s, -, rfl⟩ | ⟨s, -, rfl⟩ | (rfl | rfl | rfl | rfl | rfl | rfl | h) | ⟨s, -, rfl⟩
    · decide
    · exact hg2 _ (hg s)
    · exact hg s
    · exact hg 17
    · decide
    · exact hg 17
    · decide
    · exact hg 17
    · decide
    · cases h
    · exact hg s
  · have := usedLength_le (clOrder.map fun s => cl.getD s 0)
    have := usedLength_le c.lz77Nbits
    simp only [List.length_cons, List.length_append, List.length_map, List.length_take, List.length_nil, g.rawLen, g.lzLen] at this ⊢
    have : clOrder.length = 18 := rfl
    omega
  · have hread : ∀ rest, Describes 257 (fields ((2, 0) :: ((clOrder.take (usedLength (clOrder.map fun s => cl.getD s 0))).map (fun s => clCode.getD (cl.getD s 0) (0, 0)) ++
        (c.rawNbits.map (fun l => (cl.getD l 0, bits.getD l 0)) ++
        ([(cl.getD 17 0, bits.getD 17 0), (3, 0b010), (cl.getD 17 0, bits.getD 17 0), (3, 0b000), (cl.getD 17 0, bits.getD 17 0), (3, 0b010)] ++
          (c.lz77Nbits.take (usedLength c.lz77Nbits)).map fun l => (cl.getD l 0, bits.getD l 0))))) ++ rest) c.lens rest := by
      intro rest
      have hcode := codeLens_read (fun s => cl.getD s 0)
          (fields (c.rawNbits.map (fun l => (cl.getD l 0, bits.getD l 0)) ++
        ([(cl.getD 17 0, bits.getD 17 0), (3, 0b010), (cl.getD 17 0, bits.getD 17 0), (3, 0b000), (cl.getD 17 0, bits.getD 17 0), (3, 0b010)] ++
          (c.lz77Nbits.take (usedLength c.lz77Nbits)).map fun l => (cl.getD l 0, bits.getD l 0))) ++ rest) clOrder (by
            intro s hs
            have : ∀ s ∈ clOrder, s < 18 := by decide
            exact hg s (this s hs))
      rw [weight_order hcllen, hw] at hcode
      have hz : ∀ prev, SymLens cl prev .length (weight 15 c.lz77Nbits) (33 + 205)
          (fields ([(cl.getD 17 0, bits.getD 17 0), (3, 0b010), (cl.getD 17 0, bits.getD 17 0), (3, 0b000), (cl.getD 17 0, bits.getD 17 0), (3, 0b010)] ++
            (c.lz77Nbits.take (usedLength c.lz77Nbits)).map fun l => (cl.getD l 0, bits.getD l 0)) ++ rest)
          (List.replicate 205 0 ++ c.lz77Nbits) rest := by
        intro prev
        have hlast := last_read hb' rest c.lz77Nbits (fun l hl => ⟨hle2 l hl, hu l (Or.inr hl)⟩) prev (.zeros 205)
        have hp := weight_pos_of_usedLength (N := 15) hul
        rw [g.lzLen] at hlast
        have s3 := SymLens.zeros prev (.zeros 27) (weight 15 c.lz77Nbits) 33 2 178 _ _ _ hu17 (by omega) hp rfl hlast
        have s2 := SymLens.zeros prev (.zeros 5) (weight 15 c.lz77Nbits) (33 + 178) 0 22 _ _ _ hu17 (by omega) hp rfl s3
        have s1 := SymLens.zeros prev .length (weight 15 c.lz77Nbits) (33 + 178 + 22) 2 5 _ _ _ hu17 (by omega) hp rfl s2
        have e : List.replicate 5 0 ++ (List.replicate 22 0 ++ (List.replicate 178 0 ++ c.lz77Nbits)) = List.replicate 205 0 ++ c.lz77Nbits := by
          rw [← List.append_assoc, ← List.append_assoc, List.replicate_append_replicate, List.replicate_append_replicate]
        rw [e] at s1
        simpa only [fields, List.cons_append, List.nil_append, List.append_assoc, hb17] using s1
      have hmain := lengths_read hb' (weight_pos_of_usedLength (N := 15) hul) c.rawNbits (fun l hl => ⟨hle1 l hl, hu l (Or.inl hl)⟩) hz hne 8 .length
      have hsum : weight 15 c.rawNbits + weight 15 c.lz77Nbits = 2 ^ 15 := by
        rw [PrefixCode.lens, Prefix.weight_append, Prefix.weight_append, Prefix.weight_replicate] at hfull
        omega
      rw [hsum, g.rawLen] at hmain
      refine ⟨0, _, _, _, by decide, by decide, ?_, hcode, by rw [table_eq hcllen, hw]; rfl, ?_⟩
      · simp only [fields, fields_append, List.append_assoc]
      · rw [table_eq hcllen, PrefixCode.lens, fields_append, List.append_assoc, List.append_assoc]
        exact hmain
    intro rest lens rest'
    constructor
    · intro h
      obtain ⟨e1, e2⟩ := describes_unique h (hread rest)
      exact ⟨e1, e2⟩
    · rintro ⟨rfl, rfl⟩
      exact hread rest'

/-- The code for the counts before any sample has been seen, for grey pictures of eight bits: 77 lengths at most, two bits to begin with. -/
example : ∃ c l, PrefixCode.new 1 ([3843, 852, 1270, 1214, 1014, 727, 481, 300, 159, 51] ++ List.replicate 9 0)
      ([29, 27, 25, 23, 21, 21, 19, 18, 21, 17, 16, 15, 15, 14, 13, 13, 137, 98, 61, 34, 1, 1, 1, 1, 1, 1, 1, 1] ++ List.replicate 5 0) = some c ∧
    c.describe = some l ∧ Describes 257 (fields l) c.lens [] := by
  have h1 : ∀ t < 19, ([3843, 852, 1270, 1214, 1014, 727, 481, 300, 159, 51] ++ List.replicate 9 0).getD t 0 ≠ 0 ↔ t < 10 := by decide
  have h2 : ∀ t < 33, ([29, 27, 25, 23, 21, 21, 19, 18, 21, 17, 16, 15, 15, 14, 13, 13, 137, 98, 61, 34, 1, 1, 1, 1, 1, 1, 1, 1] ++
      List.replicate 5 0).getD t 0 ≠ 0 ↔ t < 28 := by decide
  obtain ⟨c, l, hc, hl, -, -, h⟩ := c74_description 1 10 _ _ (by omega) rfl rfl h1 h2
  exact ⟨c, l, hc, hl, by have := (h [] c.lens []).2 ⟨rfl, rfl⟩; rwa [List.append_nil] at this⟩

/-- The first fields of the description of `longRunCode` (C73): no lengths skipped, then the code length code. -/
example : (longRunCode.describe.getD []).take 18 =
    [(2, 0), (2, 0), (4, 15), (4, 15), (4, 15), (2, 1), (4, 15), (4, 7), (2, 0), (2, 0), (4, 15), (2, 0), (4, 15), (4, 15), (4, 15), (2, 1), (2, 1), (2, 0)] := by
  decide +kernel

end Zune.Jxl
