/-
The prefix code that DEFLATE (RFC 1951, 3.2.2), Brotli (RFC 7932, 3.2) and JPEG XL assign to a list of code lengths, one for each symbol of
the alphabet, zero for unused symbols.  Codewords are given in the order in which they appear in the stream.
-/
import Verif.Common.Canon
import Verif.Common.Lsb

namespace Zune.Prefix

/-- Number of symbols with codes of length `l`. -/
def cnt (lens : List Nat) (l : Nat) : Nat := if l = 0 then 0 else lens.count l

/-- Number of symbols before `s` that have codes of the same length. -/
def rank (lens : List Nat) (s : Nat) : Nat := (lens.take s).count (lens.getD s 0)

/-- The code of symbol `s` as a number. -/
def code (lens : List Nat) (s : Nat) : Nat := Canon.first (cnt lens) (lens.getD s 0) + rank lens s

/-- `n` bits of `v`, highest first. -/
def msb (n v : Nat) : List Bool := (lsb n v).reverse

/-- The codeword of symbol `s`: the bits of its code, highest first. -/
def word (lens : List Nat) (s : Nat) : List Bool := msb (lens.getD s 0) (code lens s)

/-- Symbol `s` has a code. -/
def Used (lens : List Nat) (s : Nat) : Prop := lens.getD s 0 ≠ 0

/-- The share of the code space that is taken, in units of `2 ^ -N` (Kraft). -/
def weight (N : Nat) (lens : List Nat) : Nat := (lens.map fun l => if l = 0 then 0 else 2 ^ (N - l)).sum

@[simp] theorem msb_length (n v : Nat) : (msb n v).length = n := by simp [msb]

theorem msb_succ (n v : Nat) : msb (n + 1) v = msb n (v / 2) ++ [v % 2 == 1] := by simp [msb, lsb]

theorem msb_append (m n v : Nat) : msb (m + n) v = msb m (v / 2 ^ n) ++ msb n v := by
  rw [msb, Nat.add_comm, lsb_append, List.reverse_append]; rfl

theorem msb_inj {n a b : Nat} (ha : a < 2 ^ n) (hb : b < 2 ^ n) (h : msb n a = msb n b) : a = b := by
  have h1 := congrArg (fun l => lval l.reverse) h
  simp only [msb, List.reverse_reverse, lval_lsb] at h1
  rwa [Nat.mod_eq_of_lt ha, Nat.mod_eq_of_lt hb] at h1

/-! ### Kraft's inequality bounds the codes -/

theorem weight_cons (N l : Nat) (lens : List Nat) : weight N (l :: lens) = (if l = 0 then 0 else 2 ^ (N - l)) + weight N lens := by
  simp [weight]

/-- Weight of the codes of length at most `L`. -/
def below (N : Nat) (lens : List Nat) (L : Nat) : Nat := (lens.map fun l => if l = 0 ∨ L < l then 0 else 2 ^ (N - l)).sum

theorem below_le (N : Nat) (lens : List Nat) (L : Nat) : below N lens L ≤ weight N lens := by
  induction lens with
  | nil => simp [below, weight]
  | cons l lens ih =>
    simp only [below, weight, List.map_cons, List.sum_cons] at ih ⊢
    have : (0 : Nat) < 2 ^ (N - l) := Nat.two_pow_pos _
    split <;> split <;> omega

theorem below_succ (N : Nat) (lens : List Nat) (L : Nat) : below N lens (L + 1) = below N lens L + lens.count (L + 1) * 2 ^ (N - (L + 1)) := by
  induction lens with
  | nil => simp [below]
  | cons l lens ih =>
    simp only [below, List.map_cons, List.sum_cons] at ih ⊢
    rw [ih, List.count_cons]
    by_cases h : l = L + 1
    · subst h; simp [Nat.add_mul]; ring
    · have : (l = 0 ∨ L + 1 < l) ↔ (l = 0 ∨ L < l) := by omega
      simp only [this]
      simp [h, Nat.add_assoc]

theorem below_full (N : Nat) (lens : List Nat) (h : ∀ l ∈ lens, l ≤ N) : below N lens N = weight N lens := by
  rw [below, weight]
  congr 1
  apply List.map_congr_left
  intro l hl
  have := h l hl
  have : (l = 0 ∨ N < l) ↔ l = 0 := by omega
  simp only [this]

theorem first_weight {N : Nat} (lens : List Nat) {L : Nat} (h : L ≤ N) :
    (Canon.first (cnt lens) L + cnt lens L) * 2 ^ (N - L) = below N lens L := by
  induction L with
  | zero =>
    have : ∀ l : Nat, (l = 0 ∨ 0 < l) := by omega
    simp [Canon.first, cnt, below, this]
  | succ L ih =>
    rw [below_succ, ← ih (by omega), Nat.add_mul, ← Canon.limit_eq (by omega)]
    congr 1

theorem rank_lt {lens : List Nat} {s : Nat} (h : s < lens.length) : rank lens s < lens.count (lens.getD s 0) := by
  rw [rank]
  conv_rhs => rw [← List.take_append_drop s lens]
  rw [List.count_append, List.drop_eq_getElem_cons h, List.count_cons]
  simp [List.getD_eq_getElem?_getD, h]

theorem used_lt {lens : List Nat} {s : Nat} (h : Used lens s) : s < lens.length := by
  by_contra hs
  exact h (by simp [List.getD_eq_getElem?_getD, List.getElem?_eq_none (Nat.le_of_not_lt hs)])

theorem code_lt {N : Nat} {lens : List Nat} {s : Nat} (hN : ∀ l ∈ lens, l ≤ N) (hk : weight N lens ≤ 2 ^ N) (h : Used lens s) :
    code lens s < Canon.first (cnt lens) (lens.getD s 0) + cnt lens (lens.getD s 0) ∧ code lens s < 2 ^ lens.getD s 0 := by
  have hs := used_lt h
  have h1 := rank_lt hs
  have h2 : cnt lens (lens.getD s 0) = lens.count (lens.getD s 0) := by rw [cnt, if_neg h]
  have h3 : lens.getD s 0 ≤ N := hN _ (by simp [List.getD_eq_getElem?_getD, hs])
  have h4 : code lens s < Canon.first (cnt lens) (lens.getD s 0) + cnt lens (lens.getD s 0) := by rw [code, h2]; omega
  refine ⟨h4, ?_⟩
  have h5 := first_weight lens h3
  have h6 := below_le N lens (lens.getD s 0)
  have h7 : (2 : Nat) ^ N = 2 ^ lens.getD s 0 * 2 ^ (N - lens.getD s 0) := by rw [← pow_add]; congr 1; omega
  have h8 : 0 < 2 ^ (N - lens.getD s 0) := Nat.two_pow_pos _
  by_contra hc
  have h9 : (2 ^ lens.getD s 0 + 1) * 2 ^ (N - lens.getD s 0) ≤ (Canon.first (cnt lens) (lens.getD s 0) + cnt lens (lens.getD s 0)) * 2 ^ (N - lens.getD s 0) :=
    Nat.mul_le_mul_right _ (by omega)
  rw [Nat.add_mul] at h9
  omega

theorem count_take_lt {lens : List Nat} {s t l : Nat} (hst : s < t) (ht : t ≤ lens.length) (h : lens.getD s 0 = l) :
    (lens.take s).count l < (lens.take t).count l := by
  have e : lens.take t = lens.take s ++ (lens.take t).drop s := by
    conv_lhs => rw [← List.take_append_drop s (lens.take t)]
    rw [List.take_take, Nat.min_eq_left (by omega)]
  rw [e, List.count_append, List.drop_take, List.drop_eq_getElem_cons (by omega)]
  obtain ⟨k, hk⟩ : ∃ k, t - s = k + 1 := ⟨t - s - 1, by omega⟩
  rw [hk, List.take_succ_cons, List.count_cons]
  have : lens[s]'(by omega) = l := by rw [← h]; simp [List.getD_eq_getElem?_getD, show s < lens.length by omega]
  simp [this]

theorem code_inj {lens : List Nat} {s t : Nat} (hs : Used lens s) (ht : Used lens t) (hl : lens.getD s 0 = lens.getD t 0)
    (h : code lens s = code lens t) : s = t := by
  have hs' := used_lt hs
  have ht' := used_lt ht
  simp only [code, rank, ← hl] at h
  rcases Nat.lt_trichotomy s t with h1 | h1 | h1
  · have := count_take_lt (lens := lens) h1 (by omega) rfl; omega
  · exact h1
  · have := count_take_lt (lens := lens) h1 (by omega) hl.symm; omega

/-- **No codeword is a prefix of another**: a decoder that finds a codeword at the front of the stream has no choice. -/
theorem word_unique {N : Nat} {lens : List Nat} {s t : Nat} (hN : ∀ l ∈ lens, l ≤ N) (hk : weight N lens ≤ 2 ^ N) (hs : Used lens s)
    (ht : Used lens t) {a b : List Bool} (h : word lens s ++ a = word lens t ++ b) : s = t ∧ a = b := by
  have aux : ∀ {s t : Nat} {a b : List Bool}, Used lens s → Used lens t → lens.getD s 0 ≤ lens.getD t 0 → word lens s ++ a = word lens t ++ b →
      s = t := by
    intro s t a b hs ht hle h
    have hsN : lens.getD s 0 ≤ N := hN _ (by simp [List.getD_eq_getElem?_getD, used_lt hs])
    have htN : lens.getD t 0 ≤ N := hN _ (by simp [List.getD_eq_getElem?_getD, used_lt ht])
    obtain ⟨s1, s2⟩ := code_lt hN hk hs
    obtain ⟨t1, t2⟩ := code_lt hN hk ht
    have e : word lens t = msb (lens.getD s 0) (code lens t / 2 ^ (lens.getD t 0 - lens.getD s 0))
        ++ msb (lens.getD t 0 - lens.getD s 0) (code lens t) := by
      rw [word, ← msb_append]; congr 1; omega
    rw [e, List.append_assoc] at h
    obtain ⟨h1, -⟩ := List.append_inj h (by simp [word])
    have hd : code lens t / 2 ^ (lens.getD t 0 - lens.getD s 0) < 2 ^ lens.getD s 0 := by
      rw [Nat.div_lt_iff_lt_mul (Nat.two_pow_pos _), ← pow_add]
      rwa [show lens.getD s 0 + (lens.getD t 0 - lens.getD s 0) = lens.getD t 0 by omega]
    have h2 := msb_inj s2 hd h1
    have hf : Canon.first (cnt lens) (lens.getD t 0) ≤ code lens t := by rw [code]; omega
    have hfs : Canon.first (cnt lens) (lens.getD s 0) ≤ code lens s := by rw [code]; omega
    have m1 : Canon.Match (cnt lens) (lens.getD t 0) (code lens t) (lens.getD s 0) := by
      rw [Canon.Match, ← h2]; exact ⟨hfs, s1⟩
    have m2 : Canon.Match (cnt lens) (lens.getD t 0) (code lens t) (lens.getD t 0) := by
      rw [Canon.Match, Nat.sub_self, pow_zero, Nat.div_one]; exact ⟨hf, t1⟩
    have hl := Canon.match_unique hle (Nat.le_refl _) m1 m2
    rw [hl, Nat.sub_self, pow_zero, Nat.div_one] at h2
    exact code_inj hs ht hl h2
  have hst : s = t := by
    rcases Nat.le_total (lens.getD s 0) (lens.getD t 0) with hle | hle
    · exact aux hs ht hle h
    · exact (aux ht hs hle h.symm).symm
  subst hst
  exact ⟨rfl, List.append_cancel_left h⟩

/-- When the code space is full every string of `N` bits starts with a codeword. -/
theorem word_exists {N : Nat} {lens : List Nat} (hN : ∀ l ∈ lens, l ≤ N) (hk : weight N lens = 2 ^ N) {v : Nat} (hv : v < 2 ^ N) :
    ∃ s, Used lens s ∧ ∃ r, msb N v = word lens s ++ r := by
  have h1 : v < (Canon.first (cnt lens) N + cnt lens N) * 2 ^ (N - N) := by
    rw [first_weight lens (Nat.le_refl N), below_full N lens hN, hk]; exact hv
  obtain ⟨l, hl, hm⟩ := Canon.match_cover N (Nat.le_refl N) h1
  have hc := Canon.match_pos hm
  have hl0 : l ≠ 0 := by rintro rfl; exact hc (by simp [cnt])
  have hcl : cnt lens l = lens.count l := by rw [cnt, if_neg hl0]
  -- the symbol with the right rank
  have key : ∀ (lens : List Nat) (k : Nat), k < lens.count l → ∃ s, s < lens.length ∧ lens.getD s 0 = l ∧ (lens.take s).count l = k := by
    intro lens
    induction lens with
    | nil => intro k hk; simp at hk
    | cons x t ih =>
      intro k hk
      by_cases hx : x = l
      · subst hx
        cases k with
        | zero => exact ⟨0, by simp, by simp, by simp⟩
        | succ k =>
          obtain ⟨s, h1, h2, h3⟩ := ih k (by simpa using hk)
          exact ⟨s + 1, by simp [h1], by simpa using h2, by simp [h3]⟩
      · obtain ⟨s, h1, h2, h3⟩ := ih k (by simpa [List.count_cons, hx] using hk)
        exact ⟨s + 1, by simp [h1], by simpa using h2, by simp [h3, hx]⟩
  obtain ⟨m1, m2⟩ := hm
  obtain ⟨s, hs1, hs2, hs3⟩ := key lens (v / 2 ^ (N - l) - Canon.first (cnt lens) l) (by rw [← hcl]; omega)
  refine ⟨s, by rw [Used, hs2]; exact hl0, msb (N - l) v, ?_⟩
  have hcode : code lens s = v / 2 ^ (N - l) := by rw [code, rank, hs2, hs3]; omega
  rw [word, hs2, hcode, ← msb_append]
  congr 1
  omega

/-! ### Scaling, unused symbols -/

theorem weight_scale {N : Nat} {lens : List Nat} (h : ∀ l ∈ lens, l ≤ N) (k : Nat) : weight (N + k) lens = weight N lens * 2 ^ k := by
  induction lens with
  | nil => simp [weight]
  | cons l lens ih =>
    rw [weight_cons, weight_cons, ih (fun x hx => h x (by simp [hx])), Nat.add_mul]
    congr 1
    split
    · simp
    · rw [← pow_add]; congr 1; have := h l (by simp); omega

theorem weight_append (N : Nat) (a b : List Nat) : weight N (a ++ b) = weight N a + weight N b := by simp [weight]

theorem weight_replicate (N k : Nat) : weight N (List.replicate k 0) = 0 := by
  induction k with
  | zero => rfl
  | succ k ih => rw [List.replicate_succ, weight_cons, ih]; rfl

/-- Filling the code space does not depend on the unit. -/
theorem complete_of {N M : Nat} {lens : List Nat} (hN : ∀ l ∈ lens, l ≤ N) (hk : weight N lens = 2 ^ N) (hM : ∀ l ∈ lens, l ≤ M) :
    weight M lens = 2 ^ M := by
  rcases Nat.le_total N M with h | h
  · obtain ⟨k, rfl⟩ := Nat.exists_eq_add_of_le h
    rw [weight_scale hN, hk, pow_add]
  · obtain ⟨k, rfl⟩ := Nat.exists_eq_add_of_le h
    rw [weight_scale hM, pow_add] at hk
    exact Nat.eq_of_mul_eq_mul_right (Nat.two_pow_pos k) hk

theorem cnt_pad (a b : List Nat) (k : Nat) : cnt (a ++ List.replicate k 0 ++ b) = cnt (a ++ b) := by
  funext l
  rw [cnt, cnt]
  split
  · rfl
  · rename_i h
    simp only [List.count_append, List.count_replicate]
    rw [if_neg (by simpa using fun e => h e.symm)]
    omega

/-- Unused symbols in between change no codeword before them. -/
theorem word_pad_left (a b : List Nat) (k : Nat) {s : Nat} (h : s < a.length) : word (a ++ List.replicate k 0 ++ b) s = word (a ++ b) s := by
  have e1 : (a ++ List.replicate k 0 ++ b).getD s 0 = (a ++ b).getD s 0 := by
    simp [List.getD_eq_getElem?_getD, List.getElem?_append_left h, List.append_assoc]
  have e2 : rank (a ++ List.replicate k 0 ++ b) s = rank (a ++ b) s := by
    rw [rank, rank, e1]
    congr 1
    rw [List.append_assoc, List.take_append_of_le_length (by omega), List.take_append_of_le_length (by omega)]
  rw [word, word, code, code, e1, e2, cnt_pad]

/-- Unused symbols in between change no codeword after them, only the number of the symbol. -/
theorem word_pad_right (a b : List Nat) (k s : Nat) : word (a ++ List.replicate k 0 ++ b) (a.length + k + s) = word (a ++ b) (a.length + s) := by
  have e1 : (a ++ List.replicate k 0 ++ b).getD (a.length + k + s) 0 = (a ++ b).getD (a.length + s) 0 := by
    rw [List.getD_eq_getElem?_getD, List.getD_eq_getElem?_getD, List.getElem?_append_right (by simp), List.getElem?_append_right (by simp)]
    congr 2
    simp
  by_cases hz : (a ++ b).getD (a.length + s) 0 = 0
  · rw [word, word, e1, hz]; rfl
  · have e2 : rank (a ++ List.replicate k 0 ++ b) (a.length + k + s) = rank (a ++ b) (a.length + s) := by
      rw [rank, rank, e1]
      have t1 : (a ++ List.replicate k 0 ++ b).take (a.length + k + s) = a ++ List.replicate k 0 ++ b.take s := by
        rw [List.take_append, List.take_of_length_le (by simp)]; simp
      have t2 : (a ++ b).take (a.length + s) = a ++ b.take s := by
        rw [List.take_append, List.take_of_length_le (by omega)]; simp
      rw [t1, t2]
      simp only [List.count_append, List.count_replicate]
      rw [if_neg (by simpa using fun e => hz e.symm)]
      omega
    rw [word, word, code, code, e1, e2, cnt_pad]

end Zune.Prefix
