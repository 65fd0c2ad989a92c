/- C29: splitting pixels into planes and back. -/
import Verif.Image.SplitModel
import Verif.Common.Bytes
import Mathlib.Tactic.IntervalCases

namespace Zune.Split

variable {α : Type}

namespace Spec

/-- Plane `k` of a list of pixels: component `k` of each pixel, in order. -/
def plane (k : Nat) (ps : List (List α)) : List α := ps.filterMap fun p => p[k]?

/-- All planes of pixels with `n` components. -/
def planes (n : Nat) (ps : List (List α)) : List (List α) := (List.range n).map fun k => plane k ps

end Spec
open Spec

theorem len2 {p : List α} (h : p.length = 2) : ∃ a b, p = [a, b] := List.length_eq_two.1 h
theorem len3 {p : List α} (h : p.length = 3) : ∃ a b c, p = [a, b, c] := List.length_eq_three.1 h
theorem len4 {p : List α} (h : p.length = 4) : ∃ a b c d, p = [a, b, c, d] := by
  rcases p with _ | ⟨a, p⟩
  · simp at h
  · obtain ⟨b, c, d, rfl⟩ := len3 (show p.length = 3 by simpa using h)
    exact ⟨a, b, c, d, rfl⟩

theorem plane_cons {k : Nat} {p : List α} {a : α} {ps : List (List α)} (h : p[k]? = some a) :
    plane k (p :: ps) = a :: plane k ps := by
  simp [plane, h]

theorem plane_length {n k : Nat} {ps : List (List α)} (h : ∀ p ∈ ps, p.length = n) (hk : k < n) :
    (plane k ps).length = ps.length := by
  induction ps with
  | nil => rfl
  | cons p ps ih =>
    have := h p (by simp)
    rw [plane_cons (List.getElem?_eq_getElem (by omega)), List.length_cons, ih (fun q hq => h q (by simp [hq])),
      List.length_cons]

theorem plane_get {n k : Nat} {ps : List (List α)} (h : ∀ p ∈ ps, p.length = n) (hk : k < n) (i : Nat) :
    (plane k ps)[i]? = ps[i]?.bind fun p => p[k]? := by
  induction ps generalizing i with
  | nil => simp [plane]
  | cons p ps ih =>
    have := h p (by simp)
    rw [plane_cons (List.getElem?_eq_getElem (by omega))]
    cases i with
    | zero => simp
    | succ i => simp only [List.getElem?_cons_succ]; exact ih (fun q hq => h q (by simp [hq])) i

theorem plane_append (k : Nat) (a b : List (List α)) : plane k (a ++ b) = plane k a ++ plane k b := by
  simp [plane]

theorem flatten_length {n : Nat} {ps : List (List α)} (h : ∀ p ∈ ps, p.length = n) : ps.flatten.length = n * ps.length := by
  induction ps with
  | nil => simp
  | cons p ps ih =>
    simp only [List.flatten_cons, List.length_append, List.length_cons, h p (by simp), ih (fun q hq => h q (by simp [hq]))]
    ring

theorem flatten_take {n m : Nat} {ps : List (List α)} (h : ∀ p ∈ ps, p.length = n) :
    ps.flatten.take (n * m) = (ps.take m).flatten := by
  induction ps generalizing m with
  | nil => simp
  | cons p ps ih =>
    cases m with
    | zero => simp
    | succ m =>
      have hp := h p (by simp)
      rw [List.flatten_cons, List.take_succ_cons, List.flatten_cons, ← ih (fun q hq => h q (by simp [hq])),
        show n * (m + 1) = p.length + n * m by rw [hp]; ring, List.take_length_add_append]

theorem flatten_drop {n m : Nat} {ps : List (List α)} (h : ∀ p ∈ ps, p.length = n) :
    ps.flatten.drop (n * m) = (ps.drop m).flatten := by
  induction ps generalizing m with
  | nil => simp
  | cons p ps ih =>
    cases m with
    | zero => simp
    | succ m =>
      have hp := h p (by simp)
      rw [List.flatten_cons, List.drop_succ_cons, ← ih (fun q hq => h q (by simp [hq])),
        show n * (m + 1) = p.length + n * m by rw [hp]; ring, List.drop_length_add_append]

/-- Any buffer with a whole number of pixels is a list of pixels. -/
theorem exists_pixels {n : Nat} (hn : 0 < n) : ∀ (m : Nat) (l : List α), l.length = n * m →
    ∃ ps : List (List α), (∀ p ∈ ps, p.length = n) ∧ ps.length = m ∧ l = ps.flatten
  | 0, l, h => ⟨[], by simp, rfl, by simpa using h⟩
  | m + 1, l, h => by
    obtain ⟨ps, h1, h2, h3⟩ := exists_pixels hn m (l.drop n) (by simp [h]; ring_nf; omega)
    refine ⟨l.take n :: ps, ?_, by simp [h2], ?_⟩
    · intro p hp
      rcases List.mem_cons.1 hp with rfl | hp
      · simp [h]; nlinarith
      · exact h1 p hp
    · rw [List.flatten_cons, ← h3, List.take_append_drop]

theorem split2_spec : ∀ (ps : List (List α)), (∀ p ∈ ps, p.length = 2) → ∀ c1 c2 : List α, c1.length = ps.length →
    c2.length = ps.length → split2 ps.flatten c1 c2 = (plane 0 ps, plane 1 ps)
  | [], _, c1, c2, h1, h2 => by
    rw [List.length_eq_zero_iff.1 h1, List.length_eq_zero_iff.1 h2]; rfl
  | p :: ps, h, x :: c1, y :: c2, h1, h2 => by
    obtain ⟨a, b, rfl⟩ := len2 (h p (by simp))
    have ih := split2_spec ps (fun q hq => h q (by simp [hq])) c1 c2 (by simpa using h1) (by simpa using h2)
    rw [plane_cons (a := a) rfl, plane_cons (a := b) rfl]
    simp [split2, ih]

theorem split3_spec : ∀ (ps : List (List α)), (∀ p ∈ ps, p.length = 3) → ∀ c1 c2 c3 : List α, c1.length = ps.length →
    c2.length = ps.length → c3.length = ps.length → split3 ps.flatten c1 c2 c3 = (plane 0 ps, plane 1 ps, plane 2 ps)
  | [], _, c1, c2, c3, h1, h2, h3 => by
    rw [List.length_eq_zero_iff.1 h1, List.length_eq_zero_iff.1 h2, List.length_eq_zero_iff.1 h3]; rfl
  | p :: ps, h, x :: c1, y :: c2, z :: c3, h1, h2, h3 => by
    obtain ⟨a, b, c, rfl⟩ := len3 (h p (by simp))
    have ih := split3_spec ps (fun q hq => h q (by simp [hq])) c1 c2 c3 (by simpa using h1) (by simpa using h2)
      (by simpa using h3)
    rw [plane_cons (a := a) rfl, plane_cons (a := b) rfl, plane_cons (a := c) rfl]
    simp [split3, ih]

theorem split4_spec : ∀ (ps : List (List α)), (∀ p ∈ ps, p.length = 4) → ∀ c1 c2 c3 c4 : List α, c1.length = ps.length →
    c2.length = ps.length → c3.length = ps.length → c4.length = ps.length →
    split4 ps.flatten c1 c2 c3 c4 = (plane 0 ps, plane 1 ps, plane 2 ps, plane 3 ps)
  | [], _, c1, c2, c3, c4, h1, h2, h3, h4 => by
    rw [List.length_eq_zero_iff.1 h1, List.length_eq_zero_iff.1 h2, List.length_eq_zero_iff.1 h3,
      List.length_eq_zero_iff.1 h4]; rfl
  | p :: ps, h, x :: c1, y :: c2, z :: c3, w :: c4, h1, h2, h3, h4 => by
    obtain ⟨a, b, c, d, rfl⟩ := len4 (h p (by simp))
    have ih := split4_spec ps (fun q hq => h q (by simp [hq])) c1 c2 c3 c4 (by simpa using h1) (by simpa using h2)
      (by simpa using h3) (by simpa using h4)
    rw [plane_cons (a := a) rfl, plane_cons (a := b) rfl, plane_cons (a := c) rfl, plane_cons (a := d) rfl]
    simp [split4, ih]

/-! The SIMD versions -/

theorem simdLoop_spec (m : Nat) (hm : 0 < m) (f : List α → List α × List α × List α)
    (hf : ∀ ps : List (List α), (∀ p ∈ ps, p.length = 3) → ps.length = m → f ps.flatten = (plane 0 ps, plane 1 ps, plane 2 ps)) :
    ∀ (q r : Nat) (ps : List (List α)) (c1 c2 c3 : List α), ps.length = m * q + r → r < m → (∀ p ∈ ps, p.length = 3) →
      c1.length = ps.length → c2.length = ps.length → c3.length = ps.length →
      simdLoop m f ps.flatten c1 c2 c3 = (plane 0 (ps.take (m * q)) ++ c1.drop (m * q),
        plane 1 (ps.take (m * q)) ++ c2.drop (m * q), plane 2 (ps.take (m * q)) ++ c3.drop (m * q))
  | 0, r, ps, c1, c2, c3, hl, hr, h, h1, h2, h3 => by
    rw [simdLoop, dif_neg (by rw [flatten_length h]; omega)]
    simp [plane]
  | q + 1, r, ps, c1, c2, c3, hl, hr, h, h1, h2, h3 => by
    have hmq : m * (q + 1) = m + m * q := by ring
    rw [simdLoop, dif_pos (by rw [flatten_length h]; omega), flatten_take h, flatten_drop h,
      hf (ps.take m) (fun p hp => h p (List.mem_of_mem_take hp)) (by simp; omega),
      simdLoop_spec m hm f hf q r (ps.drop m) (c1.drop m) (c2.drop m) (c3.drop m) (by simp; omega) hr
        (fun p hp => h p (List.mem_of_mem_drop hp)) (by simp; omega) (by simp; omega) (by simp; omega)]
    simp only [List.drop_drop, ← List.append_assoc, ← plane_append]
    rw [← hmq, hmq, List.take_add]

theorem simd_spec (m : Nat) (hm : 0 < m) (f : List α → List α × List α × List α)
    (hf : ∀ ps : List (List α), (∀ p ∈ ps, p.length = 3) → ps.length = m → f ps.flatten = (plane 0 ps, plane 1 ps, plane 2 ps))
    (ps : List (List α)) (h : ∀ p ∈ ps, p.length = 3) (c1 c2 c3 : List α) (h1 : c1.length = ps.length)
    (h2 : c2.length = ps.length) (h3 : c3.length = ps.length) :
    simdTail m ps.flatten (simdLoop m f ps.flatten c1 c2 c3) = (plane 0 ps, plane 1 ps, plane 2 ps) := by
  have hd := Nat.div_add_mod ps.length m
  have hr := Nat.mod_lt ps.length hm
  generalize ps.length / m = q at hd
  generalize ps.length % m = r at hd hr
  rw [simdLoop_spec m hm f hf q r ps c1 c2 c3 hd.symm hr h h1 h2 h3]
  have hlen : ps.flatten.length = 3 * ps.length := flatten_length h
  have hmod : ps.flatten.length % (3 * m) = 3 * r := by
    rw [hlen, Nat.mul_mod_mul_left, ← hd, Nat.mul_add_mod, Nat.mod_eq_of_lt hr]
  have hpl : ∀ k < 3, (plane k (ps.take (m * q))).length = m * q := by
    intro k hk
    rw [plane_length (fun p hp => h p (List.mem_of_mem_take hp)) hk, List.length_take]; omega
  unfold simdTail
  rw [hmod]
  by_cases hr0 : r = 0
  · subst hr0
    have e : ∀ c : List α, c.length = ps.length → c.drop (m * q) = [] := fun c hc => List.drop_of_length_le (by omega)
    rw [if_neg (by omega), e _ h1, e _ h2, e _ h3, List.take_of_length_le (by omega)]
    simp
  · rw [if_pos (by omega)]
    have hcs : (plane 0 (ps.take (m * q)) ++ c1.drop (m * q)).length - 3 * r / 3 = m * q := by
      rw [List.length_append, hpl 0 (by omega), List.length_drop, Nat.mul_div_cancel_left _ (by omega)]; omega
    have e : ∀ (k : Nat), k < 3 → ∀ c : List α, (plane k (ps.take (m * q)) ++ c.drop (m * q)).take (m * q) =
        plane k (ps.take (m * q)) ∧ (plane k (ps.take (m * q)) ++ c.drop (m * q)).drop (m * q) = c.drop (m * q) := by
      intro k hk c
      exact ⟨List.take_left' (hpl k hk), List.drop_left' (hpl k hk)⟩
    simp only [hcs, (e 0 (by omega) c1).1, (e 0 (by omega) c1).2, (e 1 (by omega) c2).1, (e 1 (by omega) c2).2,
      (e 2 (by omega) c3).1, (e 2 (by omega) c3).2]
    rw [show ps.flatten.length - 3 * r = 3 * (m * q) by omega, flatten_drop h,
      split3_spec (ps.drop (m * q)) (fun p hp => h p (List.mem_of_mem_drop hp)) _ _ _ (by simp; omega) (by simp; omega)
        (by simp; omega)]
    simp only [← plane_append, List.take_append_drop]

/-- The planes by index. -/
theorem plane_range {n k : Nat} {ps : List (List α)} (h : ∀ p ∈ ps, p.length = n) (hk : k < n) (d : α) :
    plane k ps = (List.range ps.length).map fun i => ps.flatten.getD (n * i + k) d := by
  induction ps with
  | nil => rfl
  | cons p ps ih =>
    have hp := h p (by simp)
    rw [plane_cons (List.getElem?_eq_getElem (show k < p.length by omega)), ih (fun q hq => h q (by simp [hq])),
      List.length_cons, List.range_succ_eq_map, List.map_cons, List.map_map]
    congr 1
    · simp [List.getElem?_append_left (show k < p.length by omega), List.getElem?_eq_getElem (show k < p.length by omega)]
    · apply List.map_congr_left
      intro i _
      simp only [Function.comp, List.flatten_cons, List.getD_eq_getElem?_getD]
      rw [show n * i.succ + k = p.length + (n * i + k) by rw [hp, Nat.succ_eq_add_one]; ring,
        List.getElem?_append_right (by omega), Nat.add_sub_cancel_left]

theorem interleave_map {β : Type} (g : α → β) : ∀ a b : List α,
    interleave (a.map g) (b.map g) = (interleave a b).map g
  | [], _ => by simp [interleave]
  | _ :: _, [] => by simp [interleave]
  | a :: as, b :: bs => by simp [interleave, interleave_map g as bs]

theorem layer_map {β : Type} (g : α → β) (l : List (List α)) : layer (l.map (List.map g)) = (layer l).map (List.map g) := by
  unfold layer
  rcases l with _ | ⟨a, _ | ⟨b, _ | ⟨c, _ | ⟨d, _ | ⟨e, _ | ⟨f, _ | ⟨x, l⟩⟩⟩⟩⟩⟩⟩ <;>
    simp [unpackLo, unpackHi, ← List.map_take, ← List.map_drop, interleave_map]

theorem range_chunk {l : List α} (d : α) {n : Nat} (h : l.length = n) : l = (List.range n).map fun i => l.getD i d := by
  apply List.ext_getElem (by simp [h])
  intro i h1 h2
  simp [List.getElem?_eq_getElem h1]

theorem chunkSse2_map {β : Type} (g : α → β) (l : List α) : chunkSse2 (l.map g) =
    ((chunkSse2 l).1.map g, (chunkSse2 l).2.1.map g, (chunkSse2 l).2.2.map g) := by
  have e : ((List.range 6).map fun i => ((l.map g).drop (16 * i)).take 16) =
      ((List.range 6).map fun i => (l.drop (16 * i)).take 16).map (List.map g) := by
    simp [← List.map_take, ← List.map_drop]
  unfold chunkSse2
  rw [e]
  simp only [layer_map]
  generalize layer (layer (layer (layer (layer ((List.range 6).map fun i => (l.drop (16 * i)).take 16))))) = x
  rcases x with _ | ⟨a, _ | ⟨b, _ | ⟨c, _ | ⟨d, _ | ⟨e, _ | ⟨f, _ | ⟨x, l⟩⟩⟩⟩⟩⟩⟩ <;> simp

/-- The five layers of unpack instructions separate the colours. -/
theorem chunkSse2_range : chunkSse2 (List.range 96) =
    ((List.range 32).map (fun i => 3 * i + 0), (List.range 32).map (fun i => 3 * i + 1),
      (List.range 32).map (fun i => 3 * i + 2)) := by decide +kernel

theorem chunkSse2_spec (ps : List (List UInt8)) (h : ∀ p ∈ ps, p.length = 3) (hm : ps.length = 32) :
    chunkSse2 ps.flatten = (plane 0 ps, plane 1 ps, plane 2 ps) := by
  have hl : ps.flatten.length = 96 := by rw [flatten_length h, hm]
  rw [range_chunk 0 hl, chunkSse2_map, chunkSse2_range, plane_range h (by omega : 0 < 3) 0,
    plane_range h (by omega : 1 < 3) 0, plane_range h (by omega : 2 < 3) 0, hm]
  simp only [List.map_map]
  rfl

theorem colourSse3_spec (k : Nat) (hk : k < 3) (l : List UInt8) :
    colourSse3 (masks.getD k []) l = (List.range 16).map fun i => l.getD (3 * i + k) 0 := by
  have t : ∀ (o i : Nat), i < 16 → ((l.drop o).take 16).getD i 0 = l.getD (o + i) 0 := by
    intro o i hi
    simp [List.getElem?_take, hi]
  have t0 : ∀ i, i < 16 → (l.take 16).getD i 0 = l.getD i 0 := by
    intro i hi; simp [List.getElem?_take, hi]
  have e : List.range 16 = [0, 1, 2, 3, 4, 5, 6, 7, 8, 9, 10, 11, 12, 13, 14, 15] := by decide
  interval_cases k
  all_goals
    unfold colourSse3
    simp only [masks, mask, shuffle, vor, e, List.getD_cons_zero, List.getD_cons_succ, List.reverse_cons, List.reverse_nil,
      List.nil_append, List.cons_append, List.map_cons, List.map_nil, List.zipWith_cons_cons, List.zipWith_nil_left]
    norm_num
    try simp only [← List.getD_eq_getElem?_getD]
    repeat' constructor
    all_goals first
      | (rw [t0 _ (by omega)])
      | (rw [t _ _ (by omega)])

theorem chunkSse3_spec (ps : List (List UInt8)) (h : ∀ p ∈ ps, p.length = 3) (hm : ps.length = 16) :
    chunkSse3 ps.flatten = (plane 0 ps, plane 1 ps, plane 2 ps) := by
  rw [chunkSse3, colourSse3_spec 0 (by omega), colourSse3_spec 1 (by omega), colourSse3_spec 2 (by omega),
    plane_range h (by omega : 0 < 3) 0, plane_range h (by omega : 1 < 3) 0, plane_range h (by omega : 2 < 3) 0, hm]

theorem three_spec (isa : Isa) (ps : List (List UInt8)) (h : ∀ p ∈ ps, p.length = 3) (c1 c2 c3 : List UInt8)
    (h1 : c1.length = ps.length) (h2 : c2.length = ps.length) (h3 : c3.length = ps.length) :
    three isa ps.flatten c1 c2 c3 = .ok (plane 0 ps, plane 1 ps, plane 2 ps) := by
  have hok : ps.flatten.length % 3 = 0 ∧ c1.length = c2.length ∧ c2.length = c3.length := by
    rw [flatten_length h]; exact ⟨Nat.mul_mod_right 3 _, by omega, by omega⟩
  cases isa
  · simp only [three]; rw [split3_spec ps h c1 c2 c3 h1 h2 h3]
  · simp only [three]; rw [if_pos hok, simd_spec 16 (by omega) _ chunkSse3_spec ps h c1 c2 c3 h1 h2 h3]
  · simp only [three]; rw [if_pos hok, simd_spec 32 (by omega) _ chunkSse2_spec ps h c1 c2 c3 h1 h2 h3]
  · simp only [three]; rw [split3_spec ps h c1 c2 c3 h1 h2 h3]

/-! The general loop -/

theorem genericLoop_spec {n : Nat} (hn : 0 < n) : ∀ (ps : List (List α)) (pos : Nat) (cs : List (List α)),
    (∀ p ∈ ps, p.length = n) → cs.length = n → (∀ c ∈ cs, c.length = pos + ps.length) →
    genericLoop n pos ps.flatten cs =
      .ok ((List.range n).map fun k => ((cs[k]?).getD []).take pos ++ plane k ps)
  | [], pos, cs, _, hc, hl => by
    rw [genericLoop, dif_neg (by simp; omega)]
    congr 1
    apply List.ext_getElem (by simp [hc])
    intro i h1 h2
    simp only [List.getElem_map, List.getElem_range, List.getElem?_eq_getElem h1, Option.getD_some, plane,
      List.filterMap_nil, List.append_nil]
    rw [List.take_of_length_le (by rw [hl _ (List.getElem_mem h1)]; simp)]
  | p :: ps, pos, cs, h, hc, hl => by
    have hp := h p (by simp)
    have e1 : (p :: ps).flatten.drop n = ps.flatten := by rw [List.flatten_cons, ← hp, List.drop_left]
    have e2 : (p :: ps).flatten.take n = p := by rw [List.flatten_cons, ← hp, List.take_left]
    rw [genericLoop, dif_pos (by simp [hp]; omega), if_pos (by
      rw [List.all_eq_true]; intro c hcm; have := hl c hcm; simp at this ⊢; omega), e1, e2,
      genericLoop_spec hn ps (pos + 1) _ (fun q hq => h q (by simp [hq])) (by simp [hc, hp])]
    · congr 1
      apply List.map_congr_left
      intro k hk
      have hk' : k < n := List.mem_range.1 hk
      have hkc : k < cs.length := by omega
      have hkp : k < p.length := by omega
      have hlk := hl cs[k] (List.getElem_mem hkc)
      simp only [List.length_cons] at hlk
      rw [List.getElem?_zipWith, List.getElem?_eq_getElem hkc, List.getElem?_eq_getElem hkp]
      simp only [Option.getD_some]
      rw [plane_cons (List.getElem?_eq_getElem hkp)]
      rw [List.take_add_one, List.take_set_of_le (le_refl _)]
      simp only [List.append_assoc]
      congr 1
      rw [List.getElem?_set_self (by omega)]
      rfl
    · intro c hcm
      obtain ⟨i, hi, rfl⟩ := List.getElem_of_mem hcm
      simp only [List.length_zipWith] at hi
      simp only [List.getElem_zipWith, List.length_set]
      have := hl cs[i] (List.getElem_mem (by omega))
      simp at this; omega

/-! Back to pixels -/

theorem mapM_some {β γ : Type} (f : β → Option γ) (g : β → γ) : ∀ (l : List β), (∀ x ∈ l, f x = some (g x)) →
    l.mapM f = some (l.map g)
  | [], _ => rfl
  | x :: l, h => by
    rw [List.mapM_cons, h x (by simp), mapM_some f g l (fun y hy => h y (by simp [hy]))]; rfl

theorem gather_spec {n : Nat} (ps : List (List α)) (h : ∀ p ∈ ps, p.length = n) :
    gather (planes n ps) ps.length = some ps.flatten := by
  unfold gather
  have key : ∀ pos ∈ List.range ps.length, ((planes n ps).mapM fun c => c[pos]?) = some ((ps[pos]?).getD []) := by
    intro pos hpos
    have hpos' : pos < ps.length := List.mem_range.1 hpos
    have hl := h ps[pos] (List.getElem_mem hpos')
    rw [List.getElem?_eq_getElem hpos', Option.getD_some, planes, List.mapM_map]
    cases hps : ps[pos] with
    | nil =>
      have : n = 0 := by rw [← hl, hps]; rfl
      subst this; rfl
    | cons d t =>
      rw [← hps]
      rw [mapM_some _ (fun k => ps[pos].getD k d)]
      · congr 1
        exact (range_chunk d hl).symm
      · intro k hk
        have hk' : k < ps[pos].length := by rw [hl]; exact List.mem_range.1 hk
        simp only [Function.comp]
        rw [plane_get h (List.mem_range.1 hk), List.getElem?_eq_getElem hpos', Option.bind_some,
          List.getElem?_eq_getElem hk', List.getD_eq_getElem?_getD, List.getElem?_eq_getElem hk', Option.getD_some]
  rw [mapM_some _ _ _ key, Option.map_some]
  congr 2
  apply List.ext_getElem (by simp)
  intro i h1 h2
  simp [List.getElem?_eq_getElem h2]

theorem zip2_spec : ∀ (ps : List (List α)), (∀ p ∈ ps, p.length = 2) →
    (((plane 0 ps).zip (plane 1 ps)).flatMap fun x => [x.1, x.2]) = ps.flatten
  | [], _ => rfl
  | p :: ps, h => by
    obtain ⟨a, b, rfl⟩ := len2 (h p (by simp))
    rw [plane_cons (a := a) rfl, plane_cons (a := b) rfl, List.zip_cons_cons, List.flatMap_cons,
      zip2_spec ps (fun q hq => h q (by simp [hq]))]
    rfl

theorem zip3_spec : ∀ (ps : List (List α)), (∀ p ∈ ps, p.length = 3) →
    ((((plane 0 ps).zip (plane 1 ps)).zip (plane 2 ps)).flatMap fun x => [x.1.1, x.1.2, x.2]) = ps.flatten
  | [], _ => rfl
  | p :: ps, h => by
    obtain ⟨a, b, c, rfl⟩ := len3 (h p (by simp))
    rw [plane_cons (a := a) rfl, plane_cons (a := b) rfl, plane_cons (a := c) rfl, List.zip_cons_cons, List.zip_cons_cons,
      List.flatMap_cons, zip3_spec ps (fun q hq => h q (by simp [hq]))]
    rfl

theorem zip4_spec : ∀ (ps : List (List α)), (∀ p ∈ ps, p.length = 4) →
    (((((plane 0 ps).zip (plane 1 ps)).zip (plane 2 ps)).zip (plane 3 ps)).flatMap
      fun x => [x.1.1.1, x.1.1.2, x.1.2, x.2]) = ps.flatten
  | [], _ => rfl
  | p :: ps, h => by
    obtain ⟨a, b, c, d, rfl⟩ := len4 (h p (by simp))
    rw [plane_cons (a := a) rfl, plane_cons (a := b) rfl, plane_cons (a := c) rfl, plane_cons (a := d) rfl,
      List.zip_cons_cons, List.zip_cons_cons, List.zip_cons_cons, List.flatMap_cons,
      zip4_spec ps (fun q hq => h q (by simp [hq]))]
    rfl

theorem plane_one : ∀ (ps : List (List α)), (∀ p ∈ ps, p.length = 1) → plane 0 ps = ps.flatten
  | [], _ => rfl
  | p :: ps, h => by
    obtain ⟨a, rfl⟩ := List.length_eq_one_iff.1 (h p (by simp))
    rw [plane_cons (a := a) rfl, plane_one ps (fun q hq => h q (by simp [hq]))]
    rfl

theorem planes_five (n : Nat) (ps : List (List α)) : ∃ a b c d e t, planes (n + 5) ps = a :: b :: c :: d :: e :: t ∧
    a = plane 0 ps := by
  refine ⟨plane 0 ps, plane 1 ps, plane 2 ps, plane 3 ps, plane 4 ps, (List.range n).map fun k => plane (k + 5) ps, ?_, rfl⟩
  simp only [planes, List.range_succ_eq_map, List.map_cons, List.map_map]
  rfl

theorem flatten_planes {n : Nat} (hn : 0 < n) (ps : List (List α)) (h : ∀ p ∈ ps, p.length = n) :
    flatten (planes n ps) = .ok ps.flatten := by
  rcases n with _ | _ | _ | _ | _ | n
  · omega
  · show Except.ok (plane 0 ps) = _
    rw [plane_one ps h]
  · show Except.ok _ = _
    rw [zip2_spec ps h]
  · show Except.ok _ = _
    rw [zip3_spec ps h]
  · show Except.ok _ = _
    rw [zip4_spec ps h]
  · obtain ⟨a, b, c, d, e, t, hpl, ha⟩ := planes_five n ps
    have hg := gather_spec ps h
    rw [hpl] at hg ⊢
    rw [flatten]
    · rw [show a.length = ps.length by rw [ha]; exact plane_length h (by omega), hg]
    all_goals simp

/-- **C29** (planes).  Splitting pixels with any number `n ≥ 1` of components gives `n` planes, plane `k` holding component `k`
    of each pixel in order; for any sample type. -/
theorem c29_planes (z : α) (n : Nat) (hn : 0 < n) (ps : List (List α)) (hne : ps ≠ []) (h : ∀ p ∈ ps, p.length = n) :
    deinterleave z (fun l a b c => .ok (split3 l a b c)) n ps.flatten = .ok (planes n ps) := by
  have hlen := flatten_length h
  have hpos : 0 < ps.length := List.length_pos_iff.2 hne
  have hdiv : ps.flatten.length / n = ps.length := by rw [hlen, Nat.mul_div_cancel_left _ hn]
  unfold deinterleave
  rw [if_neg (by omega), if_neg (by rw [hlen]; simp)]
  simp only [hdiv]
  rw [if_neg (by omega)]
  rcases n with _ | _ | _ | _ | _ | n
  · omega
  · rw [if_pos rfl, ← plane_one ps h]; rfl
  · rw [if_neg (by omega), if_pos rfl, split2_spec ps h _ _ (by simp) (by simp)]; rfl
  · rw [if_neg (by omega), if_neg (by omega), if_pos rfl, split3_spec ps h _ _ _ (by simp) (by simp) (by simp)]; rfl
  · rw [if_neg (by omega), if_neg (by omega), if_neg (by omega), if_pos rfl,
      split4_spec ps h _ _ _ _ (by simp) (by simp) (by simp) (by simp)]; rfl
  · rw [if_neg (by omega), if_neg (by omega), if_neg (by omega), if_neg (by omega),
      genericLoop_spec hn ps 0 _ h (by simp) (by intro c hc; rw [List.eq_of_mem_replicate hc]; simp)]
    simp [planes]

example : deinterleave (0 : Nat) (fun l a b c => .ok (split3 l a b c)) 5 [1, 2, 3, 4, 5, 6, 7, 8, 9, 10] =
    .ok [[1, 6], [2, 7], [3, 8], [4, 9], [5, 10]] := by decide +kernel

/-- **C29** (planes, bytes).  The same for bytes with the SSE2, SSSE3 and AVX2 versions of the three component case. -/
theorem c29_planes_u8 (isa : Isa) (n : Nat) (hn : 0 < n) (ps : List (List UInt8)) (hne : ps ≠ []) (h : ∀ p ∈ ps, p.length = n) :
    deinterleave 0 (three isa) n ps.flatten = .ok (planes n ps) := by
  by_cases h3 : n = 3
  · subst h3
    have hlen := flatten_length h
    have hpos : 0 < ps.length := List.length_pos_iff.2 hne
    have hdiv : ps.flatten.length / 3 = ps.length := by rw [hlen, Nat.mul_div_cancel_left _ hn]
    unfold deinterleave
    rw [if_neg (by omega), if_neg (by rw [hlen]; simp)]
    simp only [hdiv]
    rw [if_neg (by omega), if_neg (by omega), if_neg (by omega), if_pos trivial,
      three_spec isa ps h _ _ _ (by simp) (by simp) (by simp)]
    rfl
  · have := c29_planes (0 : UInt8) n hn ps hne h
    unfold deinterleave at this ⊢
    simp only [if_neg h3] at this ⊢
    exact this

/-- 50 pixels: three chunks of 16 and a remainder of 2 for SSSE3, one chunk of 32 and a remainder of 18 for SSE2. -/
example : ∀ isa ∈ [Isa.sse3, .sse2], deinterleave 0 (three isa) 3 ((List.range 150).map UInt8.ofNat) =
    .ok ((List.range 3).map fun k => (List.range 50).map fun i => UInt8.ofNat (3 * i + k)) := by decide +kernel

theorem roundtrip_aux (z : α) (t : List α → List α → List α → List α → Except Err (List α × List α × List α))
    (ht : ∀ (n : Nat), 0 < n → ∀ ps : List (List α), ps ≠ [] → (∀ p ∈ ps, p.length = n) →
      deinterleave z t n ps.flatten = .ok (planes n ps)) (n : Nat) (l : List α) (cs : List (List α))
    (h : deinterleave z t n l = .ok cs) : flatten cs = .ok l ∧ cs.length = n := by
  have hn : 0 < n := by
    by_contra h0
    rw [deinterleave, if_pos (by omega)] at h; cases h
  have hm : l.length % n = 0 := by
    by_contra h1
    rw [deinterleave, if_neg (by omega), if_pos h1] at h; cases h
  have hne : l.length / n ≠ 0 := by
    intro h2
    rw [deinterleave, if_neg (by omega), if_neg (by simp [hm])] at h
    simp only [h2, if_true] at h; cases h
  obtain ⟨ps, h1, h2, h3⟩ := exists_pixels hn (l.length / n) l (by have := Nat.div_add_mod l.length n; omega)
  have hps : ps ≠ [] := by rintro rfl; exact hne h2.symm
  subst h3
  rw [ht n hn ps hps h1] at h
  cases h
  exact ⟨flatten_planes hn ps h1, by simp [planes]⟩

/-- **C29** (pixels to planes to pixels).  Whenever splitting a buffer succeeds, `flatten` returns the buffer: for any number of
    components and any sample type, and for bytes with any of the SIMD versions. -/
theorem c29_roundtrip (z : α) (n : Nat) (l : List α) (cs : List (List α))
    (h : deinterleave z (fun l a b c => .ok (split3 l a b c)) n l = .ok cs) : flatten cs = .ok l ∧ cs.length = n :=
  roundtrip_aux z _ (fun n hn ps => c29_planes z n hn ps) n l cs h

/-- **C29** (pixels to planes to pixels, bytes). -/
theorem c29_roundtrip_u8 (isa : Isa) (n : Nat) (l : List UInt8) (cs : List (List UInt8))
    (h : deinterleave 0 (three isa) n l = .ok cs) : flatten cs = .ok l ∧ cs.length = n :=
  roundtrip_aux 0 _ (fun n hn ps => c29_planes_u8 isa n hn ps) n l cs h

example : deinterleave 0 (three .sse2) 2 [1, 2, 3, 4] = .ok [[1, 3], [2, 4]] ∧
    flatten [[1, 3], [2, 4]] = .ok [1, 2, 3, 4] := by decide +kernel

/-- Planes of equal length are the planes of a list of pixels. -/
theorem exists_transpose (m : Nat) (cs : List (List α)) (h : ∀ c ∈ cs, c.length = m) :
    ∃ ps : List (List α), (∀ p ∈ ps, p.length = cs.length) ∧ ps.length = m ∧ planes cs.length ps = cs := by
  have hT : ∀ i < m, ((cs.filterMap fun c => c[i]?)).length = cs.length := fun i hi => plane_length h hi
  refine ⟨(List.range m).map fun i => cs.filterMap fun c => c[i]?, ?_, by simp, ?_⟩
  · intro p hp
    obtain ⟨i, hi, rfl⟩ := List.mem_map.1 hp
    exact hT i (List.mem_range.1 hi)
  · apply List.ext_getElem (by simp [planes])
    intro k h1 h2
    simp only [planes, List.getElem_map, List.getElem_range]
    apply List.ext_getElem?
    intro i
    rw [plane_get (n := cs.length) (by
      intro p hp
      obtain ⟨j, hj, rfl⟩ := List.mem_map.1 hp
      exact hT j (List.mem_range.1 hj)) h2]
    by_cases hi : i < m
    · rw [List.getElem?_eq_getElem (by simpa using hi), Option.bind_some]
      simp only [List.getElem_map, List.getElem_range]
      show (plane i cs)[k]? = _
      rw [plane_get h hi, List.getElem?_eq_getElem h2, Option.bind_some]
    · rw [List.getElem?_eq_none (by simpa using hi), List.getElem?_eq_none (by rw [h _ (List.getElem_mem h2)]; omega)]
      rfl

/-- **C29** (planes to pixels to planes).  Flattening any planes of equal, non-zero length and splitting the result gives back
    the planes. -/
theorem c29_roundtrip_planes (z : α) (m : Nat) (hm : 0 < m) (cs : List (List α)) (hne : cs ≠ [])
    (h : ∀ c ∈ cs, c.length = m) :
    ∃ l, flatten cs = .ok l ∧ deinterleave z (fun l a b c => .ok (split3 l a b c)) cs.length l = .ok cs := by
  obtain ⟨ps, h1, h2, h3⟩ := exists_transpose m cs h
  have hn : 0 < cs.length := List.length_pos_iff.2 hne
  refine ⟨ps.flatten, ?_, ?_⟩
  · have := flatten_planes hn ps h1
    rwa [h3] at this
  · rw [c29_planes z cs.length hn ps (by rintro rfl; simp at h2; omega) h1, h3]

/-- **C29** (planes to pixels to planes, bytes). -/
theorem c29_roundtrip_planes_u8 (isa : Isa) (m : Nat) (hm : 0 < m) (cs : List (List UInt8)) (hne : cs ≠ [])
    (h : ∀ c ∈ cs, c.length = m) : ∃ l, flatten cs = .ok l ∧ deinterleave 0 (three isa) cs.length l = .ok cs := by
  obtain ⟨ps, h1, h2, h3⟩ := exists_transpose m cs h
  have hn : 0 < cs.length := List.length_pos_iff.2 hne
  refine ⟨ps.flatten, ?_, ?_⟩
  · have := flatten_planes hn ps h1
    rwa [h3] at this
  · rw [c29_planes_u8 isa cs.length hn ps (by rintro rfl; simp at h2; omega) h1, h3]

example : flatten [[1, 2], [3, 4], [5, 6]] = .ok [1, 3, 5, 2, 4, 6] ∧
    deinterleave 0 (three .sse3) 3 [1, 3, 5, 2, 4, 6] = .ok [[1, 2], [3, 4], [5, 6]] := by decide +kernel

/-! `swizzle_channels` -/

theorem weave2_spec : ∀ (ps : List (List α)), (∀ p ∈ ps, p.length = 2) → ∀ out : List α, out.length = 2 * ps.length →
    weave2 out (plane 0 ps) (plane 1 ps) = ps.flatten
  | [], _, out, ho => by
    have e : out = [] := List.length_eq_zero_iff.1 (by simpa using ho)
    rw [e]; rfl
  | p :: ps, h, x :: y :: out, ho => by
    obtain ⟨a, b, rfl⟩ := len2 (h p (by simp))
    rw [plane_cons (a := a) rfl, plane_cons (a := b) rfl, weave2,
      weave2_spec ps (fun q hq => h q (by simp [hq])) out (by simp at ho; omega)]
    rfl
  | _ :: _, _, [_], ho => by simp at ho; omega
  | _ :: _, _, [], ho => by simp at ho

theorem weave3_spec : ∀ (ps : List (List α)), (∀ p ∈ ps, p.length = 3) → ∀ out : List α, out.length = 3 * ps.length →
    weave3 out (plane 0 ps) (plane 1 ps) (plane 2 ps) = ps.flatten
  | [], _, out, ho => by
    have e : out = [] := List.length_eq_zero_iff.1 (by simpa using ho)
    rw [e]; rfl
  | p :: ps, h, x :: y :: z :: out, ho => by
    obtain ⟨a, b, c, rfl⟩ := len3 (h p (by simp))
    rw [plane_cons (a := a) rfl, plane_cons (a := b) rfl, plane_cons (a := c) rfl, weave3,
      weave3_spec ps (fun q hq => h q (by simp [hq])) out (by simp at ho; omega)]
    rfl
  | _ :: _, _, [_, _], ho => by simp at ho; omega
  | _ :: _, _, [_], ho => by simp at ho; omega
  | _ :: _, _, [], ho => by simp at ho

theorem weave4_spec : ∀ (ps : List (List α)), (∀ p ∈ ps, p.length = 4) → ∀ out : List α, out.length = 4 * ps.length →
    weave4 out (plane 0 ps) (plane 1 ps) (plane 2 ps) (plane 3 ps) = ps.flatten
  | [], _, out, ho => by
    have e : out = [] := List.length_eq_zero_iff.1 (by simpa using ho)
    rw [e]; rfl
  | p :: ps, h, x :: y :: z :: w :: out, ho => by
    obtain ⟨a, b, c, d, rfl⟩ := len4 (h p (by simp))
    rw [plane_cons (a := a) rfl, plane_cons (a := b) rfl, plane_cons (a := c) rfl, plane_cons (a := d) rfl, weave4,
      weave4_spec ps (fun q hq => h q (by simp [hq])) out (by simp at ho; omega)]
    rfl
  | _ :: _, _, [_, _, _], ho => by simp at ho; omega
  | _ :: _, _, [_, _], ho => by simp at ho; omega
  | _ :: _, _, [_], ho => by simp at ho; omega
  | _ :: _, _, [], ho => by simp at ho

/-- **C29** (`flatten_into`).  `swizzle_channels` fills a buffer of the right size, whatever it contained, with exactly the
    pixels `flatten` returns, and reports its length. -/
theorem c29_swizzle (m : Nat) (cs : List (List α)) (hne : cs ≠ []) (h : ∀ c ∈ cs, c.length = m) (out : List α)
    (ho : out.length = cs.length * m) : ∃ l, flatten cs = .ok l ∧ swizzle cs out = .ok (l, out.length) := by
  obtain ⟨ps, h1, h2, h3⟩ := exists_transpose m cs h
  have hn : 0 < cs.length := List.length_pos_iff.2 hne
  generalize cs.length = n at *
  subst h2
  subst h3
  refine ⟨ps.flatten, flatten_planes hn ps h1, ?_⟩
  have hp : ∀ k < n, (plane k ps).length = ps.length := fun k hk => plane_length h1 hk
  rcases n with _ | _ | _ | _ | _ | n
  · omega
  · show (if out.length = (plane 0 ps).length then _ else _) = _
    rw [if_pos (by rw [hp 0 (by omega)]; omega)]
    exact congrArg Except.ok (by rw [← plane_one ps h1])
  · show Except.ok (weave2 out (plane 0 ps) (plane 1 ps), min ((plane 0 ps).length * 2) out.length) = _
    rw [weave2_spec ps h1 out ho, hp 0 (by omega), Nat.min_eq_right (by omega)]
  · show Except.ok (weave3 out (plane 0 ps) (plane 1 ps) (plane 2 ps), min ((plane 0 ps).length * 3) out.length) = _
    rw [weave3_spec ps h1 out ho, hp 0 (by omega), Nat.min_eq_right (by omega)]
  · show Except.ok (weave4 out (plane 0 ps) (plane 1 ps) (plane 2 ps) (plane 3 ps),
      min ((plane 0 ps).length * 4) out.length) = _
    rw [weave4_spec ps h1 out ho, hp 0 (by omega), Nat.min_eq_right (by omega)]
  · obtain ⟨a, b, c, d, e, t, hpl, ha⟩ := planes_five n ps
    have hg := gather_spec ps h1
    have hlen : (planes (n + 5) ps).length = n + 5 := by simp [planes]
    have hfl := flatten_length h1
    rw [hpl] at hg hlen ⊢
    rw [swizzle]
    · rw [hlen, ho, Nat.mul_div_cancel_left _ (by omega), hg]
      simp only
      rw [List.drop_of_length_le (by omega), List.append_nil, hfl]
    all_goals simp

example : swizzle [[1, 2], [3, 4], [5, 6], [7, 8], [9, 10]] (List.replicate 10 0) =
    .ok ([1, 3, 5, 7, 9, 2, 4, 6, 8, 10], 10) := by decide +kernel

/-- **C29** (disagreement in unreachable code).  `de_interleave_four_channels_sse41` loads its four registers at the bytes 0, 8,
    16 and 24 of each 64 byte chunk instead of 0, 16, 32 and 48: it returns wrong planes for any chunk whose third pixel differs
    from its fifth pixel in red, here the chunk 0, 1, 2, …, 63. -/
theorem c29_sse41_wrong : chunkSse41 ((List.range 64).map UInt8.ofNat) ≠
    (List.range 4).map (fun k => (List.range 16).map fun i => UInt8.ofNat (4 * i + k)) := by decide +kernel

end Zune.Split
