import Verif.Jpeg.HeaderModel
import Mathlib.Data.List.Perm.Subperm
import Mathlib.Data.List.Nodup

/-!
# Lemmas about the pieces of ICC profiles in JPEG
-/

namespace Zune.Jpeg

/-- The table after all pieces. -/
def filed (cs : List IccChunk) (t : Nat → Option Bytes) : Nat → Option Bytes :=
  cs.foldl (fun t c => upd t c.seq c.data) t

theorem file_iff (num : Nat) (cs : List IccChunk) : ∀ (t u : Nat → Option Bytes), iccFile num cs t = some u ↔
    (∀ c ∈ cs, c.num = num ∧ c.seq ≠ 0 ∧ t c.seq = none) ∧ (cs.map (·.seq)).Nodup ∧ u = filed cs t := by
  induction cs with
  | nil => intro t u; simp [iccFile, filed, eq_comm]
  | cons c cs ih =>
    intro t u
    rw [iccFile, List.map_cons, List.nodup_cons]
    split
    · rename_i h
      simp only [reduceCtorEq, false_iff]
      exact fun q => h (q.1 c List.mem_cons_self).1
    · split
      · rename_i h
        simp only [reduceCtorEq, false_iff]
        exact fun q => (q.1 c List.mem_cons_self).2.1 h
      · split
        · rename_i h
          simp only [reduceCtorEq, false_iff]
          intro q
          rw [(q.1 c List.mem_cons_self).2.2] at h
          simp at h
        · rename_i h1 h2 h3
          rw [ih]
          constructor
          · rintro ⟨a, b, e⟩
            have hne : ∀ x ∈ cs, x.seq ≠ c.seq := fun x hx q => by
              have := (a x hx).2.2
              simp [upd, q] at this
            refine ⟨?_, ⟨?_, b⟩, e⟩
            · intro x hx
              rcases List.mem_cons.1 hx with rfl | hx
              · exact ⟨by simpa using h1, h2, by simpa using h3⟩
              · have := a x hx
                simp only [upd, if_neg (hne x hx)] at this
                exact this
            · intro q
              obtain ⟨x, hx, e⟩ := List.mem_map.1 q
              exact hne x hx e
          · rintro ⟨a, ⟨b, b'⟩, e⟩
            refine ⟨?_, b', e⟩
            intro x hx
            have hne : x.seq ≠ c.seq := fun q => b (List.mem_map.2 ⟨x, hx, q⟩)
            simp only [upd, if_neg hne]
            exact a x (List.mem_cons_of_mem _ hx)

theorem filed_some (cs : List IccChunk) : ∀ (t : Nat → Option Bytes) (j : Nat) (v : Bytes), (cs.map (·.seq)).Nodup →
    (filed cs t j = some v ↔ (∃ c ∈ cs, c.seq = j ∧ c.data = v) ∨ (j ∉ cs.map (·.seq) ∧ t j = some v)) := by
  induction cs with
  | nil => intro t j v _; simp [filed]
  | cons c cs ih =>
    intro t j v h
    rw [List.map_cons, List.nodup_cons] at h
    have e : filed (c :: cs) t = filed cs (upd t c.seq c.data) := rfl
    rw [e, ih _ _ _ h.2]
    by_cases hj : j = c.seq
    · subst hj
      have : ∀ x ∈ cs, x.seq ≠ c.seq := fun x hx q => h.1 (List.mem_map.2 ⟨x, hx, q⟩)
      constructor
      · rintro (⟨x, hx, q, _⟩ | ⟨_, q⟩)
        · exact absurd q (this x hx)
        · exact Or.inl ⟨c, List.mem_cons_self, rfl, by simpa [upd] using q⟩
      · rintro (⟨x, hx, q, r⟩ | ⟨q, _⟩)
        · rcases List.mem_cons.1 hx with rfl | hx
          · exact Or.inr ⟨h.1, by simp [upd, r]⟩
          · exact absurd q (this x hx)
        · simp at q
    · simp only [upd, if_neg hj, List.map_cons, List.mem_cons, not_or]
      constructor
      · rintro (⟨x, hx, q⟩ | ⟨q1, q2⟩)
        · exact Or.inl ⟨x, Or.inr hx, q⟩
        · exact Or.inr ⟨⟨hj, q1⟩, q2⟩
      · rintro (⟨x, hx, q⟩ | ⟨⟨_, q1⟩, q2⟩)
        · rcases hx with rfl | hx
          · exact absurd q.1.symm hj
          · exact Or.inl ⟨x, hx, q⟩
        · exact Or.inr ⟨q1, q2⟩

theorem join_iff (t : Nat → Option Bytes) (n : Nat) : ∀ (k : Nat) (p : Bytes), iccJoin t n k = some p ↔
    ∃ ds : List Bytes, ds.length = n ∧ p = ds.flatten ∧ ∀ i (h : i < ds.length), t (k + i) = some ds[i] := by
  induction n with
  | zero =>
    intro k p
    rw [iccJoin]
    constructor
    · intro h
      cases h
      exact ⟨[], rfl, rfl, fun i h => by simp at h⟩
    · rintro ⟨ds, a, rfl, _⟩
      rw [List.length_eq_zero_iff.1 a]
      rfl
  | succ n ih =>
    intro k p
    rw [iccJoin, Option.bind_eq_some_iff]
    constructor
    · rintro ⟨v, hv, h⟩
      rw [Option.map_eq_some_iff] at h
      obtain ⟨q, hq, rfl⟩ := h
      obtain ⟨ds, a, rfl, b⟩ := (ih _ _).1 hq
      refine ⟨v :: ds, by simp [a], rfl, ?_⟩
      intro i hi
      match i with
      | 0 => exact hv
      | i + 1 =>
        have := b i (by simpa using hi)
        rw [show k + (i + 1) = k + 1 + i by omega]
        exact this
    · rintro ⟨ds, a, rfl, b⟩
      match ds, a with
      | v :: ds, a =>
        refine ⟨v, b 0 (by simp), ?_⟩
        rw [Option.map_eq_some_iff]
        refine ⟨ds.flatten, (ih _ _).2 ⟨ds, by simpa using a, rfl, fun i hi => ?_⟩, rfl⟩
        have := b (i + 1) (by simpa using hi)
        rw [show k + (i + 1) = k + 1 + i by omega] at this
        exact this

/-- The pieces of a profile in order. -/
def pieces (ds : List Bytes) : List IccChunk := ds.mapIdx fun k v => { seq := k + 1, num := ds.length, data := v }

theorem mem_pieces (ds : List Bytes) (c : IccChunk) : c ∈ pieces ds ↔
    ∃ i, ∃ h : i < ds.length, c = { seq := i + 1, num := ds.length, data := ds[i] } := by
  unfold pieces
  rw [List.mem_mapIdx]
  constructor
  · rintro ⟨i, h, e⟩
    exact ⟨i, h, e.symm⟩
  · rintro ⟨i, h, e⟩
    exact ⟨i, h, e.symm⟩

theorem pieces_seq (ds : List Bytes) : (pieces ds).map (·.seq) = List.range' 1 ds.length := by
  refine List.ext_getElem (by simp [pieces]) fun i h1 h2 => ?_
  simp [pieces]
  omega

theorem profile_iff (cs : List IccChunk) (p : Bytes) : iccProfile cs = some p ↔
    ∃ ds : List Bytes, ds ≠ [] ∧ ds.length < 255 ∧ p = ds.flatten ∧ cs.Perm (pieces ds) := by
  unfold iccProfile
  constructor
  · intro h
    split at h
    · cases h
    · rename_i h1
      rw [Option.bind_eq_some_iff] at h
      obtain ⟨u, hu, hp⟩ := h
      obtain ⟨a, b, rfl⟩ := (file_iff _ _ _ _).1 hu
      obtain ⟨ds, c, rfl, d⟩ := (join_iff _ _ _ _).1 hp
      refine ⟨ds, ?_, by omega, rfl, ?_⟩
      · rintro rfl
        simp at c
        omega
      · have hsub : (pieces ds) ⊆ cs := by
          intro x hx
          obtain ⟨i, hi, rfl⟩ := (mem_pieces _ _).1 hx
          rcases (filed_some cs _ _ _ b).1 (d i hi) with ⟨y, hy, e1, e2⟩ | ⟨_, e⟩
          · have := (a y hy).1
            rw [c]
            have : y = { seq := i + 1, num := cs.length, data := ds[i] } := by
              obtain ⟨y1, y2, y3⟩ := y
              simp only at e1 e2 this
              rw [e1, e2, this, Nat.add_comm]
            rw [← this]
            exact hy
          · cases e
        have hnd : (pieces ds).Nodup := by
          refine List.Nodup.of_map (·.seq) ?_
          rw [pieces_seq]
          exact List.nodup_range'
        refine ((List.subperm_of_subset hnd hsub).perm_of_length_le ?_).symm
        simp [pieces, c]
  · rintro ⟨ds, h1, h2, rfl, h3⟩
    have hl : cs.length = ds.length := by rw [h3.length_eq]; simp [pieces]
    have : ds.length ≠ 0 := fun q => h1 (List.length_eq_zero_iff.1 q)
    rw [if_neg (by omega), Option.bind_eq_some_iff]
    have hnd : (cs.map (·.seq)).Nodup := by
      rw [(h3.map (·.seq)).nodup_iff, pieces_seq]
      exact List.nodup_range'
    refine ⟨filed cs fun _ => none, (file_iff _ _ _ _).2 ⟨?_, hnd, rfl⟩, (join_iff _ _ _ _).2 ⟨ds, hl.symm, rfl, ?_⟩⟩
    · intro c hc
      obtain ⟨i, hi, rfl⟩ := (mem_pieces _ _).1 (h3.mem_iff.1 hc)
      exact ⟨hl.symm, by simp, rfl⟩
    · intro i hi
      rw [filed_some cs _ _ _ hnd]
      exact Or.inl ⟨_, h3.mem_iff.2 ((mem_pieces _ _).2 ⟨i, hi, rfl⟩), by simp only; omega, rfl⟩

end Zune.Jpeg
