/- In-place loops over a buffer: element swaps and element stores, with their effect (helper lemmas).
   These stand for `core::mem::swap` / indexed assignment inside Rust `for` loops; the loop order is the order of the list. -/
import Mathlib.Data.List.Basic
import Mathlib.Data.List.Range
import Mathlib.Tactic.Ring
import Mathlib.Tactic.Linarith

namespace Zune

/-- `core::mem::swap(&mut l[i], &mut l[j])`. -/
def swapAt {α : Type} (l : List α) (i j : Nat) : List α :=
  match l[i]?, l[j]? with
  | some a, some b => (l.set i b).set j a
  | _, _ => l

/-- A loop of swaps. -/
def swapAll {α : Type} (l : List α) (ps : List (Nat × Nat)) : List α := ps.foldl (fun l p => swapAt l p.1 p.2) l

/-- A loop of stores `out[k] = v` (a store outside the buffer is dropped, as with `get_mut`). -/
def setAll {α : Type} (l : List α) (ps : List (Nat × α)) : List α := ps.foldl (fun l p => l.set p.1 p.2) l

/-- Row-major positions `(y, x)` for `y < h`, `x < w`, in loop order. -/
def grid (h w : Nat) : List (Nat × Nat) := (List.range h).flatMap fun y => (List.range w).map fun x => (y, x)

theorem mem_grid (h w y x : Nat) : (y, x) ∈ grid h w ↔ y < h ∧ x < w := by
  simp [grid, List.mem_flatMap]

@[simp] theorem swapAt_length {α : Type} (l : List α) (i j : Nat) : (swapAt l i j).length = l.length := by
  unfold swapAt; split <;> simp

@[simp] theorem swapAll_length {α : Type} (l : List α) (ps : List (Nat × Nat)) : (swapAll l ps).length = l.length := by
  induction ps generalizing l with
  | nil => rfl
  | cons p ps ih => simp only [swapAll, List.foldl_cons]; exact (ih _).trans (swapAt_length l _ _)

@[simp] theorem setAll_length {α : Type} (l : List α) (ps : List (Nat × α)) : (setAll l ps).length = l.length := by
  induction ps generalizing l with
  | nil => rfl
  | cons p ps ih => simp only [setAll, List.foldl_cons]; exact (ih _).trans (by simp)

theorem swapAt_get {α : Type} (l : List α) (i j k : Nat) (hi : i < l.length) (hj : j < l.length) :
    (swapAt l i j)[k]? = if k = j then l[i]? else if k = i then l[j]? else l[k]? := by
  unfold swapAt
  simp only [List.getElem?_eq_getElem hi, List.getElem?_eq_getElem hj, List.getElem?_set, List.length_set]
  by_cases h1 : j = k
  · subst h1; simp [hj]
  · by_cases h2 : i = k
    · subst h2; simp [h1, Ne.symm h1, hi]
    · simp [h1, h2, Ne.symm h1, Ne.symm h2]

/-- Two swaps which touch no common position. -/
def Apart (p q : Nat × Nat) : Prop := p.1 ≠ q.1 ∧ p.1 ≠ q.2 ∧ p.2 ≠ q.1 ∧ p.2 ≠ q.2

theorem swapAll_spec {α : Type} (ps : List (Nat × Nat)) (l : List α)
    (hb : ∀ p ∈ ps, p.1 < l.length ∧ p.2 < l.length) (ha : ps.Pairwise Apart) :
    (∀ p ∈ ps, (swapAll l ps)[p.1]? = l[p.2]? ∧ (swapAll l ps)[p.2]? = l[p.1]?) ∧
    (∀ k, (∀ p ∈ ps, k ≠ p.1 ∧ k ≠ p.2) → (swapAll l ps)[k]? = l[k]?) := by
  induction ps generalizing l with
  | nil => exact ⟨by simp, fun k _ => rfl⟩
  | cons p ps ih =>
    obtain ⟨hp, hps⟩ := List.pairwise_cons.1 ha
    have hbp := hb p (by simp)
    obtain ⟨h1, h2⟩ := ih (swapAt l p.1 p.2) (fun q hq => by simpa using hb q (by simp [hq])) hps
    have e : swapAll l (p :: ps) = swapAll (swapAt l p.1 p.2) ps := rfl
    have hg := fun k => swapAt_get l p.1 p.2 k hbp.1 hbp.2
    rw [e]
    constructor
    · intro q hq
      rcases List.mem_cons.1 hq with rfl | hq
      · have n1 := h2 q.1 (fun r hr => ⟨(hp r hr).1, (hp r hr).2.1⟩)
        have n2 := h2 q.2 (fun r hr => ⟨(hp r hr).2.2.1, (hp r hr).2.2.2⟩)
        rw [n1, n2, hg, hg]
        refine ⟨?_, by simp⟩
        by_cases hqq : q.1 = q.2
        · simp [hqq]
        · simp [hqq]
      · obtain ⟨a, b⟩ := h1 q hq
        obtain ⟨c1, c2, c3, c4⟩ := hp q hq
        rw [a, b, hg, hg]
        simp [Ne.symm c1, Ne.symm c2, Ne.symm c3, Ne.symm c4]
    · intro k hk
      rw [h2 k (fun q hq => hk q (by simp [hq])), hg]
      have := hk p (by simp)
      simp [this.1, this.2]

/-- If every store agrees with a target function, every stored position ends with its target value. -/
theorem setAll_spec {α : Type} (ps : List (Nat × α)) (l : List α) (T : Nat → Option α)
    (hT : ∀ p ∈ ps, p.1 < l.length → T p.1 = some p.2) :
    (∀ p ∈ ps, p.1 < l.length → (setAll l ps)[p.1]? = T p.1) ∧
    (∀ k, (∀ p ∈ ps, k ≠ p.1) → (setAll l ps)[k]? = l[k]?) := by
  induction ps generalizing l with
  | nil => exact ⟨by simp, fun k _ => rfl⟩
  | cons p ps ih =>
    obtain ⟨h1, h2⟩ := ih (l.set p.1 p.2) (fun q hq hl => hT q (by simp [hq]) (by simpa using hl))
    have e : setAll l (p :: ps) = setAll (l.set p.1 p.2) ps := rfl
    rw [e]
    constructor
    · intro q hq hl
      by_cases hm : ∃ r ∈ ps, r.1 = q.1
      · obtain ⟨r, hr, hrq⟩ := hm
        have := h1 r hr (by simp [hrq, hl])
        rw [hrq] at this; exact this
      · have hn : ∀ r ∈ ps, q.1 ≠ r.1 := fun r hr hc => hm ⟨r, hr, hc.symm⟩
        rcases List.mem_cons.1 hq with rfl | hq
        · rw [h2 _ hn, hT q (by simp) hl]
          simp [hl]
        · exact absurd rfl (hn q hq)
    · intro k hk
      rw [h2 k (fun q hq => hk q (by simp [hq]))]
      have := hk p (by simp)
      simp [Ne.symm this]

/-! Row-major positions. -/

theorem rowcol_lt {w h x y : Nat} (hx : x < w) (hy : y < h) : y * w + x < w * h := by
  have : y * w + w ≤ h * w := by
    have := Nat.mul_le_mul_right w (show y + 1 ≤ h from hy)
    rw [Nat.add_mul, Nat.one_mul] at this; exact this
  rw [Nat.mul_comm w h]; omega

theorem rowcol_inj {w x y x' y' : Nat} (hx : x < w) (hx' : x' < w) (h : y * w + x = y' * w + x') : y = y' ∧ x = x' := by
  have hw : 0 < w := by omega
  have h1 : (y * w + x) / w = y := by
    rw [Nat.add_comm, Nat.add_mul_div_right _ _ hw, Nat.div_eq_of_lt hx]; omega
  have h2 : (y' * w + x') / w = y' := by
    rw [Nat.add_comm, Nat.add_mul_div_right _ _ hw, Nat.div_eq_of_lt hx']; omega
  have e : y = y' := by rw [← h1, ← h2, h]
  subst e
  exact ⟨rfl, by omega⟩

theorem rowcol_split {w h k : Nat} (hk : k < w * h) : ∃ x y, x < w ∧ y < h ∧ k = y * w + x := by
  have hw : 0 < w := by
    rcases Nat.eq_zero_or_pos w with rfl | h0
    · simp at hk
    · exact h0
  refine ⟨k % w, k / w, Nat.mod_lt _ hw, Nat.div_lt_of_lt_mul hk, ?_⟩
  rw [Nat.mul_comm]; exact (Nat.div_add_mod k w).symm

/-- Two images of the same size with the same pixels are equal. -/
theorem image_ext {α : Type} {w h : Nat} {l m : List α} (hl : l.length = w * h) (hm : m.length = w * h)
    (he : ∀ x < w, ∀ y < h, l[y * w + x]? = m[y * w + x]?) : l = m := by
  apply List.ext_getElem?
  intro k
  by_cases hk : k < w * h
  · obtain ⟨x, y, hx, hy, rfl⟩ := rowcol_split hk
    exact he x hx y hy
  · rw [List.getElem?_eq_none (by omega), List.getElem?_eq_none (by omega)]

theorem grid_pairwise {h w : Nat} {R : Nat × Nat → Nat × Nat → Prop}
    (hr : ∀ y < h, ∀ x < w, ∀ y' < h, ∀ x' < w, (y, x) ≠ (y', x') → R (y, x) (y', x')) : (grid h w).Pairwise R := by
  unfold grid
  rw [List.pairwise_flatMap]
  constructor
  · intro y hy
    rw [List.pairwise_map]
    refine List.Pairwise.imp_of_mem ?_ List.pairwise_lt_range
    intro a b ha hb hab
    refine hr _ (List.mem_range.1 hy) _ (List.mem_range.1 ha) _ (List.mem_range.1 hy) _ (List.mem_range.1 hb) ?_
    simp; omega
  · refine List.Pairwise.imp_of_mem ?_ List.pairwise_lt_range
    intro a b ha hb hab p hp q hq
    simp only [List.mem_map, List.mem_range] at hp hq
    obtain ⟨x, hx, rfl⟩ := hp
    obtain ⟨x', hx', rfl⟩ := hq
    refine hr _ (List.mem_range.1 ha) _ hx _ (List.mem_range.1 hb) _ hx' ?_
    simp; omega

end Zune
