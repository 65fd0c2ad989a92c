/-
Lemmas for C74: the description of a prefix code.
-/
import Verif.Jxl.DescModel
import Verif.Jxl.NewCode
import Verif.Jxl.Rfc7932

namespace Zune.Jxl

open Prefix (weight word Used)
open Rfc7932 (CodeLens SymLens fixedWord)

theorem usedLength_cons (x : Nat) (l : List Nat) : usedLength (x :: l) = if usedLength l = 0 ∧ x = 0 then 0 else usedLength l + 1 := by
  have e : usedLength (x :: l) = ((l.reverse ++ [x]).dropWhile (· == 0)).length := by rw [usedLength, List.reverse_cons]
  rw [e, List.dropWhile_append]
  by_cases h : (l.reverse.dropWhile (· == 0)).isEmpty
  · rw [if_pos h]
    have h0 : usedLength l = 0 := by rw [usedLength, List.isEmpty_iff.1 h]; rfl
    rw [h0]
    by_cases hx : x = 0 <;> simp [hx]
  · rw [if_neg h]
    have h0 : usedLength l ≠ 0 := by
      intro h1; exact h (List.isEmpty_iff.2 (List.length_eq_zero_iff.1 h1))
    rw [if_neg (by omega), List.length_append]
    rfl

theorem zeros_of_usedLength {l : List Nat} (h : usedLength l = 0) : l = List.replicate l.length 0 := by
  rw [List.eq_replicate_iff]
  refine ⟨rfl, ?_⟩
  have := usedLength_drop l
  rw [h] at this
  exact this

theorem weight_pos_of_usedLength {N : Nat} {l : List Nat} (h : usedLength l ≠ 0) : 0 < weight N l := by
  induction l with
  | nil => exact absurd rfl h
  | cons x l ih =>
    rw [Prefix.weight_cons]
    rw [usedLength_cons] at h
    by_cases hx : x = 0
    · have : usedLength l ≠ 0 := by
        intro h0; rw [if_pos ⟨h0, hx⟩] at h; exact h rfl
      have := ih this
      omega
    · rw [if_neg hx]
      have := Nat.two_pow_pos (N - x)
      omega

theorem fixedWord_eq : ∀ l ≤ 5, lsb (clCode.getD l (0, 0)).1 (clCode.getD l (0, 0)).2 = fixedWord l := by decide

/-- The lengths of the code length code are read back. -/
theorem codeLens_read (f : Nat → Nat) (rest : List Bool) (order : List Nat) (h : ∀ s ∈ order, f s ≤ 5) :
    CodeLens (weight 5 (order.map f)) order (fields ((order.take (usedLength (order.map f))).map fun s => clCode.getD (f s) (0, 0)) ++ rest)
      ((order.take (usedLength (order.map f))).map fun s => (s, f s)) rest := by
  induction order with
  | nil => exact CodeLens.full [] rest
  | cons s t ih =>
    by_cases h0 : usedLength ((s :: t).map f) = 0
    · have e := zeros_of_usedLength h0
      rw [h0, e, Prefix.weight_replicate]
      exact CodeLens.full _ rest
    · have hw := weight_pos_of_usedLength (N := 5) h0
      have h1 : usedLength ((s :: t).map f) = usedLength (t.map f) + 1 := by
        rw [List.map_cons, usedLength_cons] at h0 ⊢
        split at h0
        · exact absurd rfl h0
        · rw [if_neg (by assumption)]
      rw [h1, List.take_succ_cons, List.map_cons, List.map_cons, List.map_cons, fields, List.append_assoc, fixedWord_eq _ (h s (by simp)), Prefix.weight_cons]
      rw [List.map_cons, Prefix.weight_cons] at hw
      exact CodeLens.next _ _ _ _ _ _ _ (h s (by simp)) hw (ih fun s hs => h s (by simp [hs]))

/-- The list of lengths from the order of the stream. -/
theorem table_eq {cl : List Nat} (hl : cl.length = 18) :
    Rfc7932.table ((clOrder.take (usedLength (clOrder.map fun s => cl.getD s 0))).map fun s => (s, cl.getD s 0)) = cl := by
  have key : ∀ (o : List Nat) (k s : Nat), (∀ x ∈ (o.drop k).map (fun s => cl.getD s 0), x = 0) → s ∈ o →
      (((o.take k).map fun s => (s, cl.getD s 0)).lookup s).getD 0 = cl.getD s 0 := by
    intro o
    induction o with
    | nil => intro k s _ h; cases h
    | cons a o ih =>
      intro k s hz hs
      cases k with
      | zero =>
        rw [hz (cl.getD s 0) (List.mem_map.2 ⟨s, by simpa using hs, rfl⟩)]
        rfl
      | succ k =>
        rw [List.take_succ_cons, List.map_cons, List.lookup_cons]
        by_cases e : s = a
        · subst e; simp
        · rw [beq_eq_false_iff_ne.2 e]
          exact ih k s (by simpa using hz) (by simpa [e] using hs)
  apply List.ext_getElem
  · simp [Rfc7932.table, hl]
  · intro s h1 h2
    simp only [Rfc7932.table, List.getElem_map, List.getElem_range]
    rw [key clOrder _ s _ _]
    · rw [List.getD_eq_getElem?_getD, List.getElem?_eq_getElem h2]; rfl
    · have := usedLength_drop (clOrder.map fun s => cl.getD s 0)
      rwa [← List.map_drop] at this
    · have : ∀ s < 18, s ∈ clOrder := by decide
      exact this s (by omega)

theorem weight_order {cl : List Nat} (hl : cl.length = 18) (N : Nat) : weight N (clOrder.map fun s => cl.getD s 0) = weight N cl := by
  have hp : clOrder.Perm (List.range 18) := by decide
  have e : (List.range 18).map (fun s => cl.getD s 0) = cl := by
    apply List.ext_getElem
    · simp [hl]
    · intro s h1 h2
      rw [List.getElem_map, List.getElem_range, List.getD_eq_getElem?_getD, List.getElem?_eq_getElem h2]; rfl
  conv_rhs => rw [← e]
  exact ((hp.map _).map _).sum_nat

section
variable {cl bits : List Nat}

/-- A segment of lengths, each written as its own symbol, with more to come. -/
theorem lengths_read (hb : ∀ l ≤ 15, lsb (cl.getD l 0) (bits.getD l 0) = word cl l) {space n : Nat} {b : List Bool} {lens : List Nat} {rest : List Bool} (hs : 0 < space)
    (ls : List Nat) (h : ∀ l ∈ ls, l ≤ 15 ∧ Used cl l) (hr : ∀ prev, SymLens cl prev .length space n b lens rest) (hne : ls ≠ []) :
    ∀ prev last, SymLens cl prev last (weight 15 ls + space) (n + ls.length) (fields (ls.map fun l => (cl.getD l 0, bits.getD l 0)) ++ b) (ls ++ lens) rest := by
  induction ls with
  | nil => exact absurd rfl hne
  | cons l t ih =>
    intro prev last
    have hl := h l (by simp)
    rw [List.map_cons, fields, List.append_assoc, hb l hl.1, Prefix.weight_cons, Nat.add_assoc, List.length_cons, List.cons_append]
    refine SymLens.length _ _ (weight 15 t + space) (n + t.length) _ _ _ _ hl.1 hl.2 (by omega) ?_
    cases t with
    | nil => simpa [fields, weight] using hr _
    | cons l' t => exact ih (fun x hx => h x (by simp [hx])) (by simp) _ _

/-- The last segment, without its trailing zeros. -/
theorem last_read (hb : ∀ l ≤ 15, lsb (cl.getD l 0) (bits.getD l 0) = word cl l) (rest : List Bool) (ls : List Nat) (h : ∀ l ∈ ls, l ≤ 15 ∧ Used cl l) :
    ∀ prev last, SymLens cl prev last (weight 15 ls) ls.length (fields ((ls.take (usedLength ls)).map fun l => (cl.getD l 0, bits.getD l 0)) ++ rest) ls rest := by
  induction ls with
  | nil => intro prev last; exact SymLens.full prev last 0 rest
  | cons l t ih =>
    intro prev last
    by_cases h0 : usedLength (l :: t) = 0
    · have e := zeros_of_usedLength h0
      rw [h0]
      generalize (l :: t).length = k at e
      rw [e, Prefix.weight_replicate]
      exact SymLens.full prev last k rest
    · have hw := weight_pos_of_usedLength (N := 15) h0
      have h1 : usedLength (l :: t) = usedLength t + 1 := by
        rw [usedLength_cons] at h0 ⊢
        split at h0
        · exact absurd rfl h0
        · rw [if_neg (by assumption)]
      have hl := h l (by simp)
      rw [h1, List.take_succ_cons, List.map_cons, fields, List.append_assoc, hb l hl.1, Prefix.weight_cons, List.length_cons]
      rw [Prefix.weight_cons] at hw
      exact SymLens.length _ _ _ _ _ _ _ _ hl.1 hl.2 hw (ih (fun x hx => h x (by simp [hx])) _ _)

end

/-- Lengths are found for any 2 to 18 symbols with the limit 5. -/
theorem clLengths_some {freqs : List Nat} (hl : freqs.length = 18) (h2 : 2 ≤ (freqs.filter (· != 0)).length) :
    ∃ cl, codeLengths (withLimits freqs (List.replicate 18 (0, 5))) = some cl := by
  have hsyms : withLimits freqs (List.replicate 18 (0, 5)) = freqs.map fun f => (⟨f, 0, 5⟩ : Sym) := by
    rw [← hl, withLimits]
    clear h2 hl
    induction freqs with
    | nil => rfl
    | cons f t ih => rw [List.length_cons, List.replicate_succ, List.zipWith_cons_cons, ih, List.map_cons]
  rw [hsyms]
  have hfil : (freqs.map fun f => (⟨f, 0, 5⟩ : Sym)).filter (fun s => s.freq != 0) = (freqs.filter (· != 0)).map fun f => ⟨f, 0, 5⟩ := by
    rw [List.filter_map]; rfl
  have hle : (freqs.filter (· != 0)).length ≤ 18 := by rw [← hl]; exact List.length_filter_le _ _
  have hnz : ∀ f ∈ freqs.filter (· != 0), f ≠ 0 := by
    intro f hf; simpa using (List.mem_filter.1 hf).2
  generalize freqs.filter (· != 0) = g at *
  -- a code of the right size
  have hcode : ∀ n < 19, 2 ≤ n → ∃ b bs, (b :: bs).length = n ∧ b < 5 ∧ (∀ x ∈ b :: bs, 1 ≤ x ∧ x ≤ 5) ∧ weight 5 (b :: bs) = 2 ^ 5 := by
    intro n hn h2
    have : ∀ n < 19, 2 ≤ n → let k := n.log2; let c := List.replicate (2 ^ (k + 1) - n) k ++ List.replicate (2 * (n - 2 ^ k)) (k + 1)
        c.length = n ∧ c.headD 0 < 5 ∧ (∀ x ∈ c, 1 ≤ x ∧ x ≤ 5) ∧ weight 5 c = 2 ^ 5 ∧ c ≠ [] := by decide +kernel
    obtain ⟨a1, a2, a3, a4, a5⟩ := this n hn h2
    cases hc : List.replicate (2 ^ (n.log2 + 1) - n) n.log2 ++ List.replicate (2 * (n - 2 ^ n.log2)) (n.log2 + 1) with
    | nil => exact absurd hc a5
    | cons b bs => rw [hc] at a1 a2 a3 a4; exact ⟨b, bs, a1, a2, a3, a4⟩
  obtain ⟨b, bs, c1, c2, c3, c4⟩ := hcode g.length (by omega) h2
  cases g with
  | nil => simp at h2
  | cons f t =>
    obtain ⟨ls, hls⟩ := codeLengths_some (s := ⟨f, 0, 5⟩) (t := t.map fun f => ⟨f, 0, 5⟩) (b := b) (bs := bs) (P := 5)
      (by simp at hle ⊢; show t.length < 33; omega)
      (by
        intro x hx
        rw [← List.map_cons (f := fun f => (⟨f, 0, 5⟩ : Sym)), List.mem_map] at hx
        obtain ⟨y, hy, rfl⟩ := hx
        exact hnz y hy)
      (by
        have gen : ∀ (g bs : List Nat), bs.length = g.length → (∀ x ∈ g, x ≠ 0) → (∀ x ∈ bs, 1 ≤ x ∧ x ≤ 5) → Allowed (g.map fun f => ⟨f, 0, 5⟩) bs := by
          intro g
          induction g with
          | nil => intro bs h _ _; cases bs <;> simp_all [Allowed]
          | cons f g ih =>
            intro bs h hz hx
            cases bs with
            | nil => simp at h
            | cons b bs =>
              refine ⟨?_, ih bs (by simpa using h) (fun x hx => hz x (by simp [hx])) (fun x hx' => hx x (by simp [hx']))⟩
              have := hx b (by simp)
              rw [if_neg (hz f (by simp))]
              exact ⟨this.1, by simp, this.2⟩
        exact gen (f :: t) (b :: bs) c1 hnz c3)
      c4
      (by
        intro x hx
        rw [← List.map_cons (f := fun f => (⟨f, 0, 5⟩ : Sym)), List.mem_map] at hx
        obtain ⟨y, hy, rfl⟩ := hx
        exact Nat.le_refl 5)
      ⟨_, List.mem_cons_self, rfl⟩ (by simp) c2
    have hself : ((⟨f, 0, 5⟩ : Sym) :: t.map fun f => ⟨f, 0, 5⟩).filter (fun s => s.freq != 0) = ⟨f, 0, 5⟩ :: t.map fun f => ⟨f, 0, 5⟩ := by
      rw [List.filter_eq_self]
      intro x hx
      rw [← List.map_cons (f := fun f => (⟨f, 0, 5⟩ : Sym)), List.mem_map] at hx
      obtain ⟨y, hy, rfl⟩ := hx
      simpa using hnz y hy
    rw [codeLengths, hself] at hls
    rw [codeLengths, hfil, List.map_cons]
    cases hz : lengthsNonZero (⟨f, 0, 5⟩ :: t.map fun f => ⟨f, 0, 5⟩) with
    | none =>
      rw [hz] at hls
      split at hls <;> cases hls
    | some ls =>
      rw [if_neg (by rw [List.length_map, hl]; decide)]
      exact ⟨_, rfl⟩

end Zune.Jxl
