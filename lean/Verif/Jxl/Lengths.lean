/-
Lemmas about the choice of code lengths in the JPEG XL encoder (dynamic programming over the share of the code space).
-/
import Verif.Jxl.CodeModel

namespace Zune.Jxl

/-! ### Vocabulary: which lengths are allowed, the share of the code space they take, their cost -/

/-- Each length within the limits of its symbol. -/
def Fits : List Sym → List Nat → Prop
  | [], [] => True
  | s :: t, b :: bs => s.lo ≤ b ∧ b ≤ s.hi ∧ Fits t bs
  | _, _ => False

/-- Share of the code space in units of `2 ^ -p`. -/
def share (p : Nat) (bs : List Nat) : Nat := (bs.map fun b => 2 ^ (p - b)).sum

/-- Number of bits used for all occurrences of all symbols. -/
def cost : List Sym → List Nat → Nat
  | s :: t, b :: bs => s.freq * b + cost t bs
  | _, _ => 0

theorem Fits.length {syms : List Sym} {bs : List Nat} (h : Fits syms bs) : bs.length = syms.length := by
  induction syms generalizing bs with
  | nil => cases bs <;> simp_all [Fits]
  | cons s t ih =>
    cases bs with
    | nil => simp [Fits] at h
    | cons b bs => simp [ih h.2.2]

theorem Fits.append {a b : List Sym} {c d : List Nat} (h1 : Fits a c) (h2 : Fits b d) : Fits (a ++ b) (c ++ d) := by
  induction a generalizing c with
  | nil => cases c <;> simp_all [Fits]
  | cons s t ih =>
    cases c with
    | nil => simp [Fits] at h1
    | cons x c => exact ⟨h1.1, h1.2.1, ih h1.2.2⟩

theorem Fits.reverse {a : List Sym} {c : List Nat} (h : Fits a c) : Fits a.reverse c.reverse := by
  induction a generalizing c with
  | nil => cases c <;> simp_all [Fits]
  | cons s t ih =>
    cases c with
    | nil => simp [Fits] at h
    | cons x c =>
      rw [List.reverse_cons, List.reverse_cons]
      exact (ih h.2.2).append ⟨h.1, h.2.1, trivial⟩

theorem cost_append {a b : List Sym} {c d : List Nat} (h : c.length = a.length) : cost (a ++ b) (c ++ d) = cost a c + cost b d := by
  induction a generalizing c with
  | nil =>
    cases c with
    | nil => simp [cost]
    | cons x c => simp at h
  | cons s t ih =>
    cases c with
    | nil => simp at h
    | cons x c => simp only [List.cons_append, cost, ih (by simpa using h)]; ring

theorem cost_reverse {a : List Sym} {c : List Nat} (h : c.length = a.length) : cost a.reverse c.reverse = cost a c := by
  induction a generalizing c with
  | nil =>
    cases c with
    | nil => rfl
    | cons x c => simp at h
  | cons s t ih =>
    cases c with
    | nil => simp at h
    | cons x c =>
      have h' : c.length = t.length := by simpa using h
      rw [List.reverse_cons, List.reverse_cons, cost_append (by simp [h']), ih h']
      simp [cost]; ring

theorem share_reverse (p : Nat) (c : List Nat) : share p c.reverse = share p c := by simp [share]

/-! ### Updating a row by minima -/

/-- A sequence of updates `next[i] = min(v, next[i])`. -/
def minAll (next : List Nat) (ps : List (Nat × Nat)) : List Nat := ps.foldl (fun n p => n.set p.1 (min p.2 (n.getD p.1 0))) next

theorem minAll_length (next : List Nat) (ps : List (Nat × Nat)) : (minAll next ps).length = next.length := by
  induction ps generalizing next with
  | nil => rfl
  | cons p ps ih => rw [minAll, List.foldl_cons]; exact (ih _).trans (by simp)

theorem getD_set (l : List Nat) (i j v : Nat) : (l.set i v).getD j 0 = if i = j ∧ j < l.length then v else l.getD j 0 := by
  simp only [List.getD_eq_getElem?_getD, List.getElem?_set]
  by_cases h : i = j
  · subst h
    by_cases h2 : i < l.length <;> simp [h2]
  · simp [h]

theorem minAll_spec (ps : List (Nat × Nat)) (next : List Nat) (o : Nat) (ho : o < next.length) :
    (minAll next ps).getD o 0 ≤ next.getD o 0 ∧ (∀ v, (o, v) ∈ ps → (minAll next ps).getD o 0 ≤ v) ∧
      ((minAll next ps).getD o 0 = next.getD o 0 ∨ ∃ v, (o, v) ∈ ps ∧ (minAll next ps).getD o 0 = v) := by
  induction ps generalizing next with
  | nil => exact ⟨Nat.le_refl _, by simp, Or.inl rfl⟩
  | cons p ps ih =>
    obtain ⟨h1, h2, h3⟩ := ih (next.set p.1 (min p.2 (next.getD p.1 0))) (by simpa using ho)
    have e : minAll next (p :: ps) = minAll (next.set p.1 (min p.2 (next.getD p.1 0))) ps := rfl
    rw [e]
    rw [getD_set] at h1 h3
    by_cases hp : p.1 = o
    · rw [if_pos ⟨hp, ho⟩, hp] at h1 h3
      rw [hp] at h2
      rw [hp]
      refine ⟨by omega, ?_, ?_⟩
      · intro v hv
        rw [List.mem_cons] at hv
        rcases hv with hv | hv
        · have : p.2 = v := by rw [← hv]
          omega
        · exact h2 v hv
      · rcases h3 with h3 | ⟨v, hv, h3⟩
        · rcases Nat.le_total p.2 (next.getD o 0) with hm | hm
          · exact Or.inr ⟨p.2, by rw [← hp]; simp, by rw [h3]; omega⟩
          · exact Or.inl (by rw [h3]; omega)
        · exact Or.inr ⟨v, List.mem_cons_of_mem _ hv, h3⟩
    · rw [if_neg (by omega)] at h1 h3
      refine ⟨h1, ?_, ?_⟩
      · intro v hv
        rw [List.mem_cons] at hv
        rcases hv with hv | hv
        · exact absurd (by rw [← hv]) hp
        · exact h2 v hv
      · rcases h3 with h3 | ⟨v, hv, h3⟩
        · exact Or.inl h3
        · exact Or.inr ⟨v, List.mem_cons_of_mem _ hv, h3⟩

/-- The updates for one symbol. -/
def dynPairs (p : Nat) (prev : List Nat) (s : Sym) : List (Nat × Nat) :=
  (List.range' s.lo (s.hi + 1 - s.lo)).flatMap fun bits => (List.range (2 ^ p - 2 ^ (p - bits) + 1)).map fun off =>
    (off + 2 ^ (p - bits), prev.getD off 0 + s.freq * bits)

theorem dynRow_eq (p inf : Nat) (prev : List Nat) (s : Sym) : dynRow p inf prev s = minAll (List.replicate (2 ^ p + 1) inf) (dynPairs p prev s) := by
  rw [dynRow, minAll, dynPairs, List.foldl_flatMap]
  congr 1
  funext next bits
  rw [List.foldl_map]
  rfl

theorem mem_dynPairs {p : Nat} {prev : List Nat} {s : Sym} {o v : Nat} : (o, v) ∈ dynPairs p prev s ↔
    ∃ bits, s.lo ≤ bits ∧ bits ≤ s.hi ∧ 2 ^ (p - bits) ≤ o ∧ o ≤ 2 ^ p ∧ v = prev.getD (o - 2 ^ (p - bits)) 0 + s.freq * bits := by
  simp only [dynPairs, List.mem_flatMap, List.mem_map, List.mem_range, List.mem_range'_1, Prod.mk.injEq]
  have hpow : ∀ bits, 2 ^ (p - bits) ≤ 2 ^ p := fun bits => Nat.pow_le_pow_right (by omega) (by omega)
  constructor
  · rintro ⟨bits, ⟨h1, h2⟩, off, h3, rfl, rfl⟩
    have := hpow bits
    exact ⟨bits, h1, by omega, by omega, by omega, by rw [Nat.add_sub_cancel]⟩
  · rintro ⟨bits, h1, h2, h3, h4, rfl⟩
    have := hpow bits
    exact ⟨bits, ⟨h1, by omega⟩, o - 2 ^ (p - bits), by omega, by omega, rfl⟩

theorem dynRow_length (p inf : Nat) (prev : List Nat) (s : Sym) : (dynRow p inf prev s).length = 2 ^ p + 1 := by
  rw [dynRow_eq, minAll_length, List.length_replicate]

theorem dynRow_spec (p inf : Nat) (prev : List Nat) (s : Sym) (o : Nat) (ho : o ≤ 2 ^ p) :
    (dynRow p inf prev s).getD o 0 ≤ inf ∧
    (∀ bits, s.lo ≤ bits → bits ≤ s.hi → 2 ^ (p - bits) ≤ o → (dynRow p inf prev s).getD o 0 ≤ prev.getD (o - 2 ^ (p - bits)) 0 + s.freq * bits) ∧
    ((dynRow p inf prev s).getD o 0 = inf ∨ ∃ bits, s.lo ≤ bits ∧ bits ≤ s.hi ∧ 2 ^ (p - bits) ≤ o ∧
      (dynRow p inf prev s).getD o 0 = prev.getD (o - 2 ^ (p - bits)) 0 + s.freq * bits) := by
  have hr : (List.replicate (2 ^ p + 1) inf).getD o 0 = inf := by
    simp [List.getD_eq_getElem?_getD, show o < 2 ^ p + 1 by omega]
  obtain ⟨h1, h2, h3⟩ := minAll_spec (dynPairs p prev s) (List.replicate (2 ^ p + 1) inf) o (by simp; omega)
  rw [← dynRow_eq, hr] at h1 h3
  rw [← dynRow_eq] at h2
  refine ⟨h1, ?_, ?_⟩
  · intro bits a b c
    exact h2 _ (mem_dynPairs.2 ⟨bits, a, b, c, ho, rfl⟩)
  · rcases h3 with h3 | ⟨v, hv, h3⟩
    · exact Or.inl h3
    · obtain ⟨bits, a, b, c, -, e⟩ := mem_dynPairs.1 hv
      exact Or.inr ⟨bits, a, b, c, by rw [h3, e]⟩

/-! ### All rows -/

/-- The first row. -/
def row0 (p inf : Nat) : List Nat := (List.replicate (2 ^ p + 1) inf).set 0 0

/-- The rows for symbols given last first. -/
def rowsRev (p inf : Nat) : List Sym → List (List Nat)
  | [] => [row0 p inf]
  | s :: t => dynRow p inf ((rowsRev p inf t).headD []) s :: rowsRev p inf t

theorem dynRows_eq (p inf : Nat) (syms t : List Sym) : dynRows p inf syms (rowsRev p inf t) = rowsRev p inf (syms.reverse ++ t) := by
  induction syms generalizing t with
  | nil => rfl
  | cons s l ih =>
    rw [dynRows, show dynRow p inf ((rowsRev p inf t).headD []) s :: rowsRev p inf t = rowsRev p inf (s :: t) from rfl, ih]
    simp

theorem row0_getD (p inf o : Nat) (ho : o ≤ 2 ^ p) : (row0 p inf).getD o 0 = if o = 0 then 0 else inf := by
  rw [row0, getD_set]
  by_cases h : o = 0
  · subst h; simp
  · rw [if_neg (by omega), if_neg h]
    simp [List.getD_eq_getElem?_getD, show o < 2 ^ p + 1 by omega]

/-- No assignment is cheaper than the table says. -/
theorem rows_lower (p inf : Nat) (R : List Sym) (bs : List Nat) (h : Fits R bs) (hs : share p bs ≤ 2 ^ p) :
    ((rowsRev p inf R).headD []).getD (share p bs) 0 ≤ cost R bs := by
  induction R generalizing bs with
  | nil =>
    cases bs with
    | nil => show (row0 p inf).getD 0 0 ≤ 0; rw [row0_getD _ _ _ (by omega)]; simp
    | cons b bs => exact h.elim
  | cons s t ih =>
    cases bs with
    | nil => exact h.elim
    | cons b bs =>
      obtain ⟨h1, h2, h3⟩ := h
      have hs' : share p (b :: bs) = 2 ^ (p - b) + share p bs := by simp [share]
      rw [hs'] at hs ⊢
      have := (dynRow_spec p inf ((rowsRev p inf t).headD []) s _ hs).2.1 b h1 h2 (by omega)
      rw [Nat.add_sub_cancel_left] at this
      have hpos : 0 < 2 ^ (p - b) := Nat.two_pow_pos _
      have h4 := ih bs h3 (by omega)
      show (dynRow p inf ((rowsRev p inf t).headD []) s).getD _ 0 ≤ _
      simp only [cost]
      omega

theorem walkBack_spec (p inf : Nat) (_ : 0 < inf) (R : List Sym) (off : Nat) (hoff : off ≤ 2 ^ p) (acc : List Nat)
    (h : ((rowsRev p inf R).headD []).getD off 0 < inf) :
    ∃ bs, walkBack p R (rowsRev p inf R) off acc = some (bs.reverse ++ acc) ∧ Fits R bs ∧ share p bs = off ∧
      cost R bs = ((rowsRev p inf R).headD []).getD off 0 := by
  induction R generalizing off acc with
  | nil =>
    have h' : (row0 p inf).getD off 0 < inf := h
    rw [row0_getD _ _ _ hoff] at h'
    have h0 : off = 0 := by by_contra hc; rw [if_neg hc] at h'; omega
    subst h0
    refine ⟨[], rfl, trivial, rfl, ?_⟩
    show 0 = (row0 p inf).getD 0 0
    rw [row0_getD _ _ _ hoff]; rfl
  | cons s t ih =>
    obtain ⟨prev, rest, hr⟩ : ∃ prev rest, rowsRev p inf t = prev :: rest := by
      cases t with
      | nil => exact ⟨_, _, rfl⟩
      | cons s t => exact ⟨_, _, rfl⟩
    have hR : rowsRev p inf (s :: t) = dynRow p inf prev s :: prev :: rest := by rw [rowsRev, hr]; rfl
    rw [hR] at h ⊢
    simp only [List.headD_cons] at h ⊢
    rw [hr] at ih
    simp only [List.headD_cons] at ih
    obtain ⟨-, -, hd⟩ := dynRow_spec p inf prev s off hoff
    rcases hd with hd | ⟨bits, b1, b2, b3, b4⟩
    · omega
    · have h0 : off ≠ 0 := by have : 0 < 2 ^ (p - bits) := Nat.two_pow_pos _; omega
      have hfind : ∃ c, pickBits p (dynRow p inf prev s) prev s off = some c := by
        cases hq : pickBits p (dynRow p inf prev s) prev s off with
        | some c => exact ⟨c, rfl⟩
        | none =>
          exfalso
          rw [pickBits, List.find?_eq_none] at hq
          exact hq bits (by rw [List.mem_range'_1]; omega) (by simp only [b3, b4, decide_true, Bool.true_and, beq_self_eq_true])
      obtain ⟨c, hc⟩ := hfind
      have hc' := hc
      rw [pickBits] at hc'
      have hm := List.mem_of_find?_eq_some hc'
      have hv := List.find?_some hc'
      rw [List.mem_range'_1] at hm
      simp only [Bool.and_eq_true, decide_eq_true_eq, beq_iff_eq] at hv
      obtain ⟨v1, v2⟩ := hv
      have hpos : 0 < 2 ^ (p - c) := Nat.two_pow_pos _
      obtain ⟨bs, w1, w2, w3, w4⟩ := ih (off - 2 ^ (p - c)) (by omega) (c :: acc) (by omega)
      refine ⟨c :: bs, ?_, ⟨hm.1, by omega, w2⟩, ?_, ?_⟩
      · rw [walkBack, if_neg h0, hc]
        show walkBack p t (prev :: rest) (off - 2 ^ (p - c)) (c :: acc) = _
        rw [w1]; simp
      · have : share p (c :: bs) = 2 ^ (p - c) + share p bs := by simp [share]
        rw [this, w3]; omega
      · simp only [cost, w4, v2]; omega

theorem rows_le_inf (p inf : Nat) (R : List Sym) (o : Nat) (ho : o ≤ 2 ^ p) : ((rowsRev p inf R).headD []).getD o 0 ≤ inf := by
  cases R with
  | nil => show (row0 p inf).getD o 0 ≤ inf; rw [row0_getD _ _ _ ho]; split <;> omega
  | cons s t => exact (dynRow_spec p inf _ s o ho).1

/-- Lengths that are returned fill the code space, stay within the limits, and no others that do so are cheaper. -/
theorem lengthsImpl_spec {syms : List Sym} {p inf : Nat} {ls : List Nat} (h : lengthsImpl syms p inf = some ls) :
    Fits syms ls ∧ share p ls = 2 ^ p ∧ (∀ s ∈ syms, s.hi ≤ p) ∧ ∀ bs, Fits syms bs → share p bs = 2 ^ p → cost syms ls ≤ cost syms bs := by
  rw [lengthsImpl] at h
  split at h
  · cases h
  · rename_i hhi
    have e : dynRows p inf syms [(List.replicate (2 ^ p + 1) inf).set 0 0] = rowsRev p inf syms.reverse := by
      have := dynRows_eq p inf syms []
      rwa [List.append_nil] at this
    rw [e] at h
    simp only at h
    split at h
    · cases h
    · rename_i hne
      have hle := rows_le_inf p inf syms.reverse (2 ^ p) (Nat.le_refl _)
      have hlt : ((rowsRev p inf syms.reverse).headD []).getD (2 ^ p) 0 < inf := by omega
      obtain ⟨bs, w1, w2, w3, w4⟩ := walkBack_spec p inf (by omega) syms.reverse (2 ^ p) (Nat.le_refl _) [] hlt
      rw [w1, List.append_nil] at h
      cases h
      have hf : Fits syms bs.reverse := by simpa using w2.reverse
      refine ⟨hf, by rw [share_reverse, w3], ?_, ?_⟩
      · intro s hs
        simp only [List.any_eq_true, decide_eq_true_eq, not_exists, not_and, Nat.not_lt] at hhi
        exact hhi s hs
      · intro cs hc hsh
        have h1 := rows_lower p inf syms.reverse cs.reverse hc.reverse (by rw [share_reverse]; omega)
        rw [share_reverse, hsh, cost_reverse hc.length] at h1
        have h2 := cost_reverse (a := syms) (c := bs.reverse) hf.length
        rw [List.reverse_reverse] at h2
        omega

/-- Lengths are returned when there are allowed ones that are cheap enough. -/
theorem lengthsImpl_some {syms : List Sym} {p inf : Nat} {bs : List Nat} (hf : Fits syms bs) (hs : share p bs = 2 ^ p)
    (hc : cost syms bs < inf) (hhi : ∀ s ∈ syms, s.hi ≤ p) : ∃ ls, lengthsImpl syms p inf = some ls := by
  have h1 := rows_lower p inf syms.reverse bs.reverse hf.reverse (by rw [share_reverse]; omega)
  rw [share_reverse, hs, cost_reverse hf.length] at h1
  have e : dynRows p inf syms [(List.replicate (2 ^ p + 1) inf).set 0 0] = rowsRev p inf syms.reverse := by
    have := dynRows_eq p inf syms []
    rwa [List.append_nil] at this
  rw [lengthsImpl, if_neg, e]
  · simp only
    rw [if_neg (by omega)]
    obtain ⟨bs, w1, -⟩ := walkBack_spec p inf (by omega) syms.reverse (2 ^ p) (Nat.le_refl _) [] (by omega)
    exact ⟨_, w1⟩
  · simp only [List.any_eq_true, decide_eq_true_eq, not_exists, not_and, Nat.not_lt]
    exact hhi

end Zune.Jxl
