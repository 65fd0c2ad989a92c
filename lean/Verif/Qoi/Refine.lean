/- Refinement of the QOI decoder loop to the chunk specification (helper lemmas). -/
import Verif.Qoi.Lemmas

namespace Zune.Qoi
open Zune.Bytestream

theorem Cursor.readU8_nil (c : Cursor) (h : c.rest = []) : c.readU8 = (0, c) := by
  simp [Cursor.readU8, Cursor.readBytes, Cursor.peekBytes_eq, h, Cursor.skip]

theorem rest_advance_le (c : Cursor) (n : Nat) :
    ({ c with pos := c.pos + n } : Cursor).rest.length ≤ c.rest.length := by
  simp [Cursor.rest]; omega

theorem decChunk_some (s : DSt) (q : Px) (k : Nat) (t : List UInt8)
    (h : Spec.chunk s.idx s.px s.cur.rest = some (q, k, t)) :
    ∃ c', decChunk s = (q, k - 1, c') ∧ c'.rest = t ∧ c'.data = s.cur.data ∧ 1 ≤ k := by
  rcases hr : s.cur.rest with _ | ⟨b0, t0⟩
  · rw [hr] at h; simp [Spec.chunk] at h
  rw [hr] at h
  obtain ⟨hu, hrest⟩ := Cursor.readU8_cons s.cur b0 t0 hr
  unfold decChunk
  simp only [hu]
  have hlt := b0.toNat_lt
  unfold Spec.chunk at h
  simp only at h
  by_cases h1 : b0.toNat = 254
  · rw [if_pos h1] at h
    rw [if_pos ((fe_iff b0).2 h1)]
    split at h
    · rename_i r g b t' 
      simp at h
      obtain ⟨rfl, rfl, rfl⟩ := h
      have ha : ({ s.cur with pos := s.cur.pos + 1 } : Cursor).rest = [r, g, b] ++ t' := by simpa using hrest
      have hx := Cursor.readOrZero_append _ _ _ ha
      have hy := Cursor.rest_advance _ _ _ ha
      simp only [List.length_cons, List.length_nil, Nat.zero_add, Nat.reduceAdd] at hx hy
      refine ⟨_, ?_, hy, rfl, by simp⟩
      rw [hx]; simp [at0]
    · simp at h
  rw [if_neg h1] at h
  rw [if_neg (fun hc => h1 ((fe_iff b0).1 hc))]
  by_cases h2 : b0.toNat = 255
  · rw [if_pos h2] at h
    rw [if_pos ((ff_iff b0).2 h2)]
    split at h
    · rename_i r g b a t' 
      simp at h
      obtain ⟨rfl, rfl, rfl⟩ := h
      have ha : ({ s.cur with pos := s.cur.pos + 1 } : Cursor).rest = [r, g, b, a] ++ t' := by simpa using hrest
      have hx := Cursor.readOrZero_append _ _ _ ha
      have hy := Cursor.rest_advance _ _ _ ha
      simp only [List.length_cons, List.length_nil, Nat.zero_add, Nat.reduceAdd] at hx hy
      refine ⟨_, ?_, hy, rfl, by simp⟩
      rw [hx]; simp [at0]
    · simp at h
  rw [if_neg h2] at h
  rw [if_neg (fun hc => h2 ((ff_iff b0).1 hc))]
  by_cases h3 : b0.toNat < 64
  · rw [if_pos h3] at h
    rw [if_pos ((op_index_iff b0).2 h3)]
    simp at h
    obtain ⟨rfl, rfl, rfl⟩ := h
    exact ⟨_, by rw [idx_nat b0 h3], hrest, rfl, by simp⟩
  rw [if_neg h3] at h
  rw [if_neg (fun hc => h3 ((op_index_iff b0).1 hc))]
  by_cases h4 : b0.toNat < 128
  · rw [if_pos h4] at h
    rw [if_pos ((op_diff_iff b0).2 ⟨by omega, h4⟩)]
    simp at h
    obtain ⟨rfl, rfl, rfl⟩ := h
    refine ⟨_, ?_, hrest, rfl, by simp⟩
    have e := fun x d => addB_eq x d 2 (by omega)
    have e2 : UInt8.ofNat 2 = 2 := rfl
    rw [e2] at e
    rw [diff_r, diff_g, diff_b, e, e, e]
  rw [if_neg h4] at h
  rw [if_neg (fun hc => h4 ((op_diff_iff b0).1 hc).2)]
  by_cases h5 : b0.toNat < 192
  · rw [if_pos h5] at h
    rw [if_pos ((op_luma_iff b0).2 ⟨by omega, h5⟩)]
    rcases t0 with _ | ⟨b1, t1⟩
    · simp at h
    simp at h
    obtain ⟨rfl, rfl, rfl⟩ := h
    obtain ⟨hu2, hrest2⟩ := Cursor.readU8_cons _ b1 t1 hrest
    refine ⟨_, ?_, hrest2, rfl, by simp⟩
    simp only [hu2]
    have e := fun x d => addB_eq x d 32 (by omega)
    have e2 : UInt8.ofNat 32 = 32 := rfl
    rw [e2] at e
    rw [luma_hi, luma_lo, luma_g b0 (by omega) h5, luma_add, luma_add, e]
  rw [if_neg h5] at h
  rw [if_neg (fun hc => h5 ((op_luma_iff b0).1 hc).2)]
  rw [if_pos ((op_run_iff b0).2 (by omega))]
  simp at h
  obtain ⟨rfl, rfl, rfl⟩ := h
  exact ⟨_, by rw [run_len b0 (by omega)]; simp, hrest, rfl, by simp⟩

/-- If the stream ends inside a chunk fewer than 8 bytes were left. -/
theorem chunk_none_len (idx : Nat → Px) (px : Px) (l : List UInt8) (h : Spec.chunk idx px l = none) :
    l.length < 8 := by
  unfold Spec.chunk at h
  split at h
  · simp
  · rename_i b0 t
    simp only at h
    split at h
    · split at h
      · simp at h
      · rename_i hne
        rcases t with _ | ⟨a, _ | ⟨b, _ | ⟨c, t⟩⟩⟩ <;> simp at *
        exact absurd rfl (hne a b c t rfl rfl rfl)
    · split at h
      · split at h
        · simp at h
        · rename_i hne
          rcases t with _ | ⟨a, _ | ⟨b, _ | ⟨c, _ | ⟨d, t⟩⟩⟩⟩ <;> simp at *
          exact absurd rfl (hne a b c d t rfl rfl rfl rfl)
      · split at h
        · simp at h
        · split at h
          · simp at h
          · split at h
            · split at h
              · simp at h
              · simp
            · simp at h

/-- Reads never move the stream backwards. -/
theorem readU8_mono (c : Cursor) :
    c.readU8.2.rest.length ≤ c.rest.length ∧ c.readU8.2.data = c.data ∧ (c.Valid → c.readU8.2.Valid) := by
  rcases hr : c.rest with _ | ⟨b, t⟩
  · simp [Cursor.readU8_nil c hr, hr]
  · obtain ⟨h1, h2⟩ := Cursor.readU8_cons c b t hr
    rw [h1]
    refine ⟨by simp [h2], rfl, fun hv => ⟨?_, hv.2⟩⟩
    have hl := congrArg List.length hr
    simp [Cursor.rest] at hl
    have := hv.2
    show c.pos + 1 < usizeLim
    omega

theorem readOrZero_mono (c : Cursor) (n : Nat) (hv : c.Valid) :
    (c.readOrZero n).2.rest.length ≤ c.rest.length ∧ (c.readOrZero n).2.data = c.data ∧ (c.readOrZero n).2.Valid := by
  by_cases h : n = 0 ∨ c.pos + n ≤ c.data.length
  · rw [Cursor.readOrZero_ok c n h]
    refine ⟨rest_advance_le c n, rfl, ?_, hv.2⟩
    have := hv.1; have := hv.2
    show c.pos + n < usizeLim
    omega
  · have h1 := Cursor.readExactLoop_err c n hv (by omega) (by omega)
    simp [Cursor.readOrZero, h1, hv]

theorem decChunk_mono (s : DSt) (hv : s.cur.Valid) :
    (decChunk s).2.2.rest.length ≤ s.cur.rest.length ∧ (decChunk s).2.2.data = s.cur.data ∧ (decChunk s).2.2.Valid := by
  obtain ⟨h1, h2, h3⟩ := readU8_mono s.cur
  have h3 := h3 hv
  unfold decChunk
  rcases hu : s.cur.readU8 with ⟨ch, c⟩
  rw [hu] at h1 h2 h3
  simp only at *
  have hz := fun n => readOrZero_mono c n h3
  obtain ⟨g1, g2, g3⟩ := readU8_mono c
  split
  · obtain ⟨a, b, d⟩ := hz 3; exact ⟨by simp only; omega, by simp only; rw [b, h2], d⟩
  split
  · obtain ⟨a, b, d⟩ := hz 4; exact ⟨by simp only; omega, by simp only; rw [b, h2], d⟩
  split
  · exact ⟨h1, h2, h3⟩
  split
  · exact ⟨h1, h2, h3⟩
  split
  · exact ⟨by simp only; omega, by simp only; rw [g2, h2], g3 h3⟩
  split
  · exact ⟨h1, h2, h3⟩
  · exact ⟨h1, h2, h3⟩

theorem decPixels_mono (n : Nat) (s : DSt) (hv : s.cur.Valid) :
    (decPixels n s).2.cur.rest.length ≤ s.cur.rest.length ∧ (decPixels n s).2.cur.data = s.cur.data ∧
      (decPixels n s).2.cur.Valid := by
  induction n generalizing s with
  | zero => exact ⟨le_refl _, rfl, hv⟩
  | succ n ih =>
    have hs : (decStep s).cur.rest.length ≤ s.cur.rest.length ∧ (decStep s).cur.data = s.cur.data ∧ (decStep s).cur.Valid := by
      unfold decStep
      split
      · exact ⟨le_refl _, rfl, hv⟩
      · exact decChunk_mono s hv
    obtain ⟨a, b, c⟩ := ih (decStep s) hs.2.2
    simp only [decPixels]
    exact ⟨by omega, by rw [b, hs.2.1], c⟩

theorem decPixels_length (n : Nat) (s : DSt) : (decPixels n s).1.length = n := by
  induction n generalizing s with
  | zero => rfl
  | succ n ih => simp [decPixels, ih]

theorem decPixels_run (n : Nat) (s : DSt) :
    decPixels n s =
      (List.replicate (min s.run n) s.px ++ (decPixels (n - min s.run n) { s with run := s.run - min s.run n }).1,
       (decPixels (n - min s.run n) { s with run := s.run - min s.run n }).2) := by
  induction n generalizing s with
  | zero => simp [decPixels]
  | succ n ih =>
    by_cases hr : s.run = 0
    · simp [hr]
      have : ({ s with run := 0 } : DSt) = s := by cases s; simp_all
      rw [this]
    · have hpos : s.run > 0 := by omega
      have hst : decStep s = { s with run := s.run - 1 } := by simp [decStep, hpos]
      have hm : min s.run (n + 1) = min (s.run - 1) n + 1 := by omega
      simp only [decPixels, hst]
      rw [ih { s with run := s.run - 1 }]
      have e1 : n + 1 - min s.run (n + 1) = n - min (s.run - 1) n := by omega
      have e2 : s.run - 1 - min (s.run - 1) n = s.run - min s.run (n + 1) := by omega
      simp only [e1, e2, hm]
      simp [List.replicate_succ]

theorem decPixels_spec (fuel n : Nat) (s : DSt) (hrun : s.run = 0) (hv : s.cur.Valid) (hf : n ≤ fuel) :
    match Spec.pixels fuel n s.idx s.px s.cur.rest with
    | some (ps, t) => (decPixels n s).1 = ps ∧ (decPixels n s).2.cur.rest = t
    | none => (decPixels n s).2.cur.rest.length < 8 := by
  induction fuel generalizing n s with
  | zero =>
    have : n = 0 := by omega
    subst this
    unfold Spec.pixels
    simp [decPixels]
  | succ fuel ih =>
    rcases n with _ | n
    · unfold Spec.pixels
      simp [decPixels]
    · unfold Spec.pixels
      simp only [Nat.add_eq_zero_iff, one_ne_zero, and_false, if_false]
      rcases hc : Spec.chunk s.idx s.px s.cur.rest with _ | ⟨q, k, t⟩
      · simp only
        have h1 := chunk_none_len _ _ _ hc
        have h2 := (decPixels_mono (n + 1) s hv).1
        omega
      · simp only
        obtain ⟨c', h1, h2, h3, h4⟩ := decChunk_some s q k t hc
        have hmono := decChunk_mono s hv
        rw [h1] at hmono
        have hst : decStep s = ⟨fun i => if i = Spec.hash q then q else s.idx i, q, k - 1, c'⟩ := by
          unfold decStep
          rw [if_neg (by omega), h1]
          simp [decHash_eq]
        have hdp : decPixels (n + 1) s = (q :: (decPixels n (decStep s)).1, (decPixels n (decStep s)).2) := by
          simp only [decPixels]; rw [hst]
        rw [hdp, hst, decPixels_run]
        simp only
        by_cases hk : k ≤ n + 1
        · have e1 : min (k - 1) n = k - 1 := by omega
          have e2 : min k (n + 1) = k := by omega
          have e3 : n - (k - 1) = n + 1 - k := by omega
          simp only [e1, e2, e3, Nat.sub_self]
          have := ih (n + 1 - k) ⟨fun i => if i = Spec.hash q then q else s.idx i, q, 0, c'⟩ rfl hmono.2.2 (by omega)
          simp only [h2] at this
          rcases hp : Spec.pixels fuel (n + 1 - k) (fun i => if i = Spec.hash q then q else s.idx i) q t with _ | ⟨ps, t'⟩
          · rw [hp] at this
            simp only
            exact this
          · rw [hp] at this
            simp only at this ⊢
            rw [this.1, this.2]
            refine ⟨?_, rfl⟩
            obtain ⟨k', rfl⟩ : ∃ k', k = k' + 1 := ⟨k - 1, by omega⟩
            simp [List.replicate_succ]
        · have e1 : min (k - 1) n = n := by omega
          have e2 : min k (n + 1) = n + 1 := by omega
          simp only [e1, e2, Nat.sub_self]
          unfold Spec.pixels
          simp [decPixels, h2, List.replicate_succ]

end Zune.Qoi
