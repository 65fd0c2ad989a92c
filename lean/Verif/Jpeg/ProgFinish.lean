import Verif.Jpeg.ProgScanLoop
import Verif.Jpeg.McuRows

/-!
# zune-jpeg: `finish_progressive_decoding` (lemmas)
-/

namespace Zune.Jpeg

open Zune.Canon Seg

theorem level_bound (k al : Nat) (ha : al ≤ 15) (v : Int) (h : v.natAbs < 2 ^ 15) :
    -(2 ^ 15) ≤ level k al v * 2 ^ al ∧ level k al v * 2 ^ al < 2 ^ 15 := by
  have hp : (0 : Int) < 2 ^ al := by positivity
  unfold level
  split
  · have h1 := Int.ediv_mul_le v (ne_of_gt hp)
    refine ⟨?_, by omega⟩
    obtain ⟨b, hb⟩ : ∃ b, 15 = al + b := ⟨15 - al, by omega⟩
    have e : (2 : Int) ^ 15 = 2 ^ al * 2 ^ b := by rw [hb, pow_add]
    have e2 : -(2 ^ b) * (2 : Int) ^ al = - 2 ^ 15 := by rw [e]; ring
    have h2 : -(2 ^ b) ≤ v / 2 ^ al := by
      rw [Int.le_ediv_iff_mul_le hp]
      omega
    have := Int.mul_le_mul_of_nonneg_right h2 hp.le
    omega
  · have h1 : (v.tdiv (2 ^ al) * 2 ^ al).natAbs ≤ v.natAbs := by
      rw [Int.natAbs_mul, Int.natAbs_tdiv, Int.natAbs_pow]
      exact Nat.div_mul_le_self _ _
    omega

theorem extend_small (v : Int) (h1 : -(2 ^ 15) ≤ v) (h2 : v < 2 ^ 15) : (BitVec.ofInt 16 v).signExtend 32 = BitVec.ofInt 32 v := by
  have h : (BitVec.ofInt 16 v).toInt = v := by
    rw [BitVec.toInt_ofInt, Int.bmod_eq_of_le]
    · norm_num; omega
    · norm_num; omega
  rw [BitVec.signExtend, h]

theorem sent_low {o f z} (qs : List PScan) : ∀ {first l sent}, (∀ a k x, sent a k = some x → x ≤ 13) → Scans o f z first l sent qs →
    ∀ a k x, sentAfter f sent qs a k = some x → x ≤ 13 := by
  induction qs with
  | nil => intro first l sent h _; exact h
  | cons q qs ih =>
    intro first l sent h hs
    obtain ⟨-, -, h3, -, h5⟩ := hs
    refine ih ?_ h5
    intro a k x hx
    simp only [ScanSpec.after] at hx
    split at hx
    · cases hx
      exact h3.low
    · exact h a k x hx

/-- The block that the transform gets. -/
theorem grid_sent {f : Seg.Frame} {sent : Sent} (hs : ∀ a k x, sent a k = some x → x ≤ 13) {z : Addr → Nat → Int}
    (hz : ∀ a k, (z a k).natAbs < 2 ^ 15) {buf} (hk : Knows sent z buf) (qt : Nat → I32) (k y x : Nat) :
    (gridBlock fun j => (buf (f.block k y x) j).signExtend 32 * qt j) = dequantised qt (sentBlock f sent z k y x) := by
  funext r c
  have key : ∀ r c : Fin 8, zigzagWalk[zigzagWalk.idxOf (r.val, c.val)]? = some (r.val, c.val) ∧
      zigzagWalk.idxOf (r.val, c.val) < 64 := by decide +kernel
  obtain ⟨k1, k2⟩ := key r c
  unfold gridBlock dequantised
  generalize zigzagWalk.idxOf (r.val, c.val) = j at k1 k2
  have := hk (f.block k y x) j _ k1
  simp only at this ⊢
  rw [this, extend_small]
  · congr 2
    unfold sentBlock
    rw [List.getD_eq_getElem?_getD, List.getElem?_map, List.getElem?_range k2]
    rfl
  all_goals
    unfold known
    cases h : sent (f.block k y x) j with
    | none => simp
    | some al =>
      have := level_bound j al (by have := hs _ _ _ h; omega) (z (f.block k y x) j) (hz _ _)
      first | exact this.1 | exact this.2

theorem full_rows (avx2 : Bool) (v : Block) (hd : dcOnly v = true → DcFits (v 0 0)) :
    ((chooseIdct avx2).full v).rows = (idctFull v).rows :=
  c45_selected_partial avx2 64 v (fun i k h _ h1 h2 => absurd h1 (by omega)) hd

/-- What is known of the buffers of component `k` in the loop over the rows. -/
structure RowOk (X rows : Nat) (F : Factor) (qt : Nat → I32) (need : Bool) (len : Nat) (w : Work) : Prop where
  stride : w.stride = 8 * (X * F.h)
  qt : w.qt = qt
  needed : w.needed = need
  raw : if need then w.raw.length = F.h * (X * 8) * F.v * 8 else w.raw = []
  len : len = X * 64 * F.v * F.h * rows

section
variable {f : Seg.Frame} {sent : Sent} (hs : ∀ a k x, sent a k = some x → x ≤ 13) {z : Addr → Nat → Int}
  (hz : ∀ a k, (z a k).natAbs < 2 ^ 15) {buf : Addr → Nat → I16} (hk : Knows sent z buf) (avx2 : Bool)
  {rows : Nat} (hrows : 0 < rows)
include hs hz hk hrows

/-- One block. -/
theorem idct_one {i k len : Nat} {need : Bool} {w : Work} {qt : Nat → I32} (h : RowOk f.mcusAcross rows (f.factor k) qt need len w)
    {raw : List Int} (hl : raw.length = (f.factor k).h * (f.mcusAcross * 8) * (f.factor k).v * 8) {p : Nat × Nat} (h1 : p.1 < (f.factor k).v)
    (h2 : p.2 < f.mcusAcross * (f.factor k).h)
    (hdc : DcSmall qt (sentBlock f sent z k (i * (f.factor k).v + p.1) p.2)) :
    ∃ o, progIdct (chooseIdct avx2) buf len rows i k w raw p = .ok o ∧ o.length = raw.length ∧
      (∀ r c : Fin 8, o[(p.1 * 8 + r.val) * w.stride + (p.2 * 8 + c.val)]? =
        some ((idctFull (dequantised qt (sentBlock f sent z k (i * (f.factor k).v + p.1) p.2))).rows r c)) ∧
      (∀ t, (∀ r c : Fin 8, t ≠ (p.1 * 8 + r.val) * w.stride + (p.2 * 8 + c.val)) → o[t]? = raw[t]?) := by
  generalize hX : f.mcusAcross = X at *
  generalize hF : f.factor k = F at *
  have hstep : len / rows = X * 64 * F.v * F.h := by rw [h.len, Nat.mul_div_cancel _ hrows]
  have hstart : p.2 * 64 + p.1 * 8 * w.stride = 64 * (p.1 * (X * F.h) + p.2) := by rw [h.stride]; ring
  have hin : p.1 * (X * F.h) + p.2 + 1 ≤ F.v * (X * F.h) := mul_add_lt h1 h2
  have hlen : ¬ (len / rows < p.2 * 64 + p.1 * 8 * w.stride + 64) := by
    rw [hstep, hstart]
    have e : X * 64 * F.v * F.h = 64 * (F.v * (X * F.h)) := by ring
    rw [e]
    omega
  have hst : p.1 * 8 * w.stride + p.2 * 8 + 7 * w.stride + 8 ≤ raw.length := by
    rw [hl, h.stride]
    have e1 : F.h * (X * 8) * F.v * 8 = 64 * (F.v * (X * F.h)) := by ring
    have e2 : p.1 * 8 * (8 * (X * F.h)) + p.2 * 8 + 7 * (8 * (X * F.h)) + 8 = 64 * (p.1 * (X * F.h)) + 8 * p.2 + 56 * (X * F.h) + 8 := by ring
    have e3 : (p.1 + 1) * (X * F.h) ≤ F.v * (X * F.h) := Nat.mul_le_mul_right _ (by omega)
    rw [Nat.add_mul] at e3
    omega
  obtain ⟨o, s1, s2, s3, s4⟩ := storeAt_tile (S := (idctFull (dequantised qt (sentBlock f sent z k (i * F.v + p.1) p.2))).rows)
    (show 8 ≤ w.stride by rw [h.stride]; omega) hst
  have hgrid : (gridBlock fun j => (buf (k, (i * (len / rows) + (p.2 * 64 + p.1 * 8 * w.stride) + j) / 64)
      ((i * (len / rows) + (p.2 * 64 + p.1 * 8 * w.stride) + j) % 64)).signExtend 32 * w.qt j) =
      dequantised qt (sentBlock f sent z k (i * F.v + p.1) p.2) := by
    rw [← grid_sent hs hz hk qt k (i * F.v + p.1) p.2]
    funext r c
    unfold gridBlock
    have hj : 8 * r.val + c.val < 64 := by omega
    generalize 8 * r.val + c.val = j at hj
    simp only
    have e : i * (len / rows) + (p.2 * 64 + p.1 * 8 * w.stride) + j = 64 * ((i * F.v + p.1) * (X * F.h) + p.2) + j := by
      rw [hstep, hstart]; ring
    rw [e, h.qt]
    have e1 : (64 * ((i * F.v + p.1) * (X * F.h) + p.2) + j) / 64 = (i * F.v + p.1) * (X * F.h) + p.2 := by omega
    have e2 : (64 * ((i * F.v + p.1) * (X * F.h) + p.2) + j) % 64 = j := by omega
    rw [e1, e2]
    unfold Seg.Frame.block
    rw [hX, hF]
  refine ⟨o, ?_, s2, ?_, ?_⟩
  · unfold progIdct
    simp only
    rw [if_neg hlen, hgrid, full_rows avx2 _ hdc, s1]
  · intro r c
    rw [← s3 r c]
    congr 1
    ring
  · intro t ht
    refine s4 t fun r c => ?_
    have := ht r c
    intro e
    exact this (by rw [e]; ring)

/-- The blocks of a component in a row of MCUs. -/
theorem idct_all {i k len : Nat} {need : Bool} {w : Work} {qt : Nat → I32} (h : RowOk f.mcusAcross rows (f.factor k) qt need len w)
    (hdc : ∀ a < (f.factor k).v, ∀ b < f.mcusAcross * (f.factor k).h, DcSmall qt (sentBlock f sent z k (i * (f.factor k).v + a) b))
    (ps : List (Nat × Nat)) : ∀ (D : List (Nat × Nat)) (raw : List Int),
    raw.length = (f.factor k).h * (f.mcusAcross * 8) * (f.factor k).v * 8 →
    (∀ p ∈ ps, p.1 < (f.factor k).v ∧ p.2 < f.mcusAcross * (f.factor k).h) → (∀ p ∈ D, p.2 < f.mcusAcross * (f.factor k).h) →
    (∀ p ∈ D, ∀ r c : Fin 8, raw[(p.1 * 8 + r.val) * w.stride + (p.2 * 8 + c.val)]? =
        some ((idctFull (dequantised qt (sentBlock f sent z k (i * (f.factor k).v + p.1) p.2))).rows r c)) →
    ∃ o, ps.foldlM (progIdct (chooseIdct avx2) buf len rows i k w) raw = .ok o ∧ o.length = raw.length ∧
      (∀ p ∈ D ++ ps, ∀ r c : Fin 8, o[(p.1 * 8 + r.val) * w.stride + (p.2 * 8 + c.val)]? =
        some ((idctFull (dequantised qt (sentBlock f sent z k (i * (f.factor k).v + p.1) p.2))).rows r c)) := by
  induction ps with
  | nil => intro D raw _ _ _ hD; exact ⟨raw, rfl, rfl, by simpa using hD⟩
  | cons p ps ih =>
    intro D raw hl hps hDx hD
    obtain ⟨p1, p2⟩ := hps p (by simp)
    obtain ⟨o, a1, a2, a3, a4⟩ := idct_one hs hz hk avx2 hrows h hl p1 p2 (hdc _ p1 _ p2)
    obtain ⟨o2, b1, b2, b3⟩ := ih (D ++ [p]) o (by rw [a2, hl]) (fun q hq => hps q (by simp [hq])) (by
      intro q hq
      rcases List.mem_append.1 hq with hq | hq
      · exact hDx q hq
      · rw [List.mem_singleton] at hq
        rw [hq]
        exact p2) (by
      intro q hq r c
      by_cases hqp : q = p
      · rw [hqp]
        exact a3 r c
      · have hqD : q ∈ D := by
          rcases List.mem_append.1 hq with hq | hq
          · exact hq
          · exact absurd (List.mem_singleton.1 hq) hqp
        rw [a4 _ (fun r' c' => ?_)]
        · exact hD q hqD r c
        · have g1 := hDx q hqD
          exact tile_ne (by rw [h.stride]; omega) (by rw [h.stride]; omega) hqp r c r' c')
    refine ⟨o2, ?_, b2.trans a2, by simpa using b3⟩
    rw [List.foldlM_cons, a1]
    exact b1

/-- One component of a row of MCUs. -/
theorem prog_row {i k len : Nat} {need : Bool} {w : Work} {qt : Nat → I32} (h : RowOk f.mcusAcross rows (f.factor k) qt need len w)
    (hdc : ∀ a < (f.factor k).v, ∀ b < f.mcusAcross * (f.factor k).h, DcSmall qt (sentBlock f sent z k (i * (f.factor k).v + a) b)) :
    ∃ w', progRow (chooseIdct avx2) buf len rows i k (f.factor k).v w = .ok w' ∧ RowOk f.mcusAcross rows (f.factor k) qt need len w' ∧
      w'.raw = if need then compRow qt (f.factor k) (sentBlock f sent z k) f.mcusAcross i else [] := by
  cases need with
  | false =>
    refine ⟨w, ?_, h, by simpa using h.raw⟩
    unfold progRow
    rw [if_neg (by rw [h.needed]; simp)]
  | true =>
    have hl : w.raw.length = (f.factor k).h * (f.mcusAcross * 8) * (f.factor k).v * 8 := by simpa using h.raw
    obtain ⟨o, a1, a2, a3⟩ := idct_all hs hz hk avx2 hrows h hdc
      ((List.range (f.factor k).v).flatMap fun a => (List.range (w.stride / 8)).map fun b => (a, b)) [] w.raw hl (by
        intro p hp
        obtain ⟨a, ha, hp⟩ := List.mem_flatMap.1 hp
        obtain ⟨b, hb, rfl⟩ := List.mem_map.1 hp
        rw [List.mem_range] at ha hb
        rw [h.stride, Nat.mul_div_cancel_left _ (by decide)] at hb
        exact ⟨ha, hb⟩) (by simp) (by simp)
    refine ⟨{ w with raw := o }, ?_, ⟨h.stride, h.qt, h.needed, ?_, h.len⟩, ?_⟩
    · unfold progRow
      rw [if_pos h.needed, a1]
    · simpa using a2.trans hl
    · rw [if_pos rfl]
      refine compRow_eq (comps := fun _ => ⟨fun _ => 0, fun _ => 0, fun _ => 0, fun _ => 0, default, default, qt, fun _ => [], fun _ => []⟩) (F := f.factor)
        (Z := sentBlock f sent z) (k := k) (i := i) o (a2.trans hl) ?_
      intro v hv x hx r c
      have := a3 (v, x) (by
        rw [List.nil_append]
        refine List.mem_flatMap.2 ⟨v, List.mem_range.2 hv, List.mem_map.2 ⟨x, ?_, rfl⟩⟩
        rw [h.stride, Nat.mul_div_cancel_left _ (by decide)]
        exact List.mem_range.2 hx) r c
      simp only at this
      rw [h.stride, show 8 * (f.mcusAcross * (f.factor k).h) = (f.factor k).h * (f.mcusAcross * 8) by ring] at this
      exact this

/-- All components of a row of MCUs. -/
theorem prog_comps {i : Nat} {len : Nat → Nat} {qt : Nat → Nat → I32} {need : Nat → Bool} (fs : List Factor) : ∀ (k : Nat) (ws : List Work),
    ws.length = fs.length → (∀ (j : Nat) (F : Factor), fs[j]? = some F → F = f.factor (k + j)) →
    (∀ (j : Nat) (w : Work), ws[j]? = some w → RowOk f.mcusAcross rows (f.factor (k + j)) (qt (k + j)) (need (k + j)) (len (k + j)) w) →
    (∀ j < fs.length, ∀ a < (f.factor (k + j)).v, ∀ b < f.mcusAcross * (f.factor (k + j)).h,
      DcSmall (qt (k + j)) (sentBlock f sent z (k + j) (i * (f.factor (k + j)).v + a) b)) →
    ∃ ws', progComps (chooseIdct avx2) buf len rows i k fs ws = .ok ws' ∧ ws'.length = fs.length ∧
      (∀ (j : Nat) (w : Work), ws'[j]? = some w → RowOk f.mcusAcross rows (f.factor (k + j)) (qt (k + j)) (need (k + j)) (len (k + j)) w ∧
        w.raw = if need (k + j) then compRow (qt (k + j)) (f.factor (k + j)) (sentBlock f sent z (k + j)) f.mcusAcross i else []) := by
  induction fs with
  | nil =>
    intro k ws hl _ _ _
    refine ⟨[], ?_, rfl, by simp⟩
    unfold progComps
    rfl
  | cons F fs ih =>
    intro k ws hl hF hw hdc
    cases ws with
    | nil => simp at hl
    | cons w ws =>
      have hF0 : F = f.factor k := hF 0 F rfl
      subst hF0
      obtain ⟨w', a1, a2, a3⟩ := prog_row hs hz hk avx2 hrows (i := i) (hw 0 w rfl) (hdc 0 (by simp))
      obtain ⟨ws', b1, b2, b3⟩ := ih (k + 1) ws (by simpa using hl) (fun j F h => by
          rw [show k + 1 + j = k + (j + 1) by omega]
          exact hF (j + 1) F h) (fun j w h => by
          rw [show k + 1 + j = k + (j + 1) by omega]
          exact hw (j + 1) w h) (fun j h => by
          rw [show k + 1 + j = k + (j + 1) by omega]
          exact hdc (j + 1) (by simp only [List.length_cons]; omega))
      refine ⟨w' :: ws', ?_, by simp [b2], ?_⟩
      · rw [progComps]
        simp only [Nat.add_zero] at a1
        rw [a1]
        simp only
        rw [b1]
      · intro j x hx
        cases j with
        | zero =>
          cases hx
          exact ⟨a2, a3⟩
        | succ j =>
          rw [show k + (j + 1) = k + 1 + j by omega]
          exact b3 j x hx

/-- The rows of MCUs. -/
theorem prog_rows {len : Nat → Nat} {qt : Nat → Nat → I32} {need : Nat → Bool} (p : Post)
    (hdc : ∀ k < f.comps.length, ∀ y < rows * (f.factor k).v, ∀ x < f.mcusAcross * (f.factor k).h, DcSmall (qt k) (sentBlock f sent z k y x))
    (n : Nat) : ∀ (i : Nat) (ws : List Work) (ps ps' : PState), i + n ≤ rows → ws.length = f.comps.length →
    (∀ (j : Nat) (w : Work), ws[j]? = some w → RowOk f.mcusAcross rows (f.factor j) (qt j) (need j) (len j) w) →
    postAll p (fun i => (List.range f.comps.length).map fun k => if need k then
        compRow (qt k) (f.factor k) (sentBlock f sent z k) f.mcusAcross i else []) n i ps = some ps' →
    progRows (chooseIdct avx2) p buf len f.factors rows n i ws ps = .ok ps' := by
  induction n with
  | zero =>
    intro i ws ps ps' _ _ _ h
    cases h
    rfl
  | succ n ih =>
    intro i ws ps ps' hi hl hw h
    have hfl : f.factors.length = f.comps.length := by simp [Seg.Frame.factors]
    obtain ⟨ws', a1, a2, a3⟩ := prog_comps hs hz hk avx2 hrows (i := i) (len := len) (qt := qt) (need := need) f.factors 0 ws (by rw [hfl, hl])
      (fun j F h => by
        unfold Seg.Frame.factors at h
        rw [List.getElem?_map, Option.map_eq_some_iff] at h
        obtain ⟨j', hj, rfl⟩ := h
        rw [List.getElem?_eq_some_iff] at hj
        obtain ⟨_, hj⟩ := hj
        rw [List.getElem_range] at hj
        rw [Nat.zero_add, hj]) (fun j w h => by
        rw [Nat.zero_add]
        exact hw j w h) (fun j hj a ha b hb => by
        rw [Nat.zero_add] at ha hb ⊢
        exact hdc j (by omega) _ (mul_add_lt_mul (by omega) ha) b hb)
    rw [postAll] at h
    have hraw : ws'.map (·.raw) = (List.range f.comps.length).map fun k => if need k then
        compRow (qt k) (f.factor k) (sentBlock f sent z k) f.mcusAcross i else [] := by
      apply List.ext_getElem?
      intro j
      rw [List.getElem?_map, List.getElem?_map]
      by_cases hj : j < f.comps.length
      · rw [List.getElem?_range hj]
        have hj' : j < ws'.length := by omega
        obtain ⟨_, b⟩ := a3 j _ (List.getElem?_eq_getElem hj')
        rw [List.getElem?_eq_getElem hj', Option.map_some, b]
        simp
      · rw [List.getElem?_eq_none (by omega), List.getElem?_eq_none (by simpa using Nat.le_of_not_lt hj)]
        rfl
    rw [progRows, a1]
    simp only
    unfold postWith
    rw [hraw]
    split at h
    · cases h
    · rename_i ps1 hp1
      rw [hp1]
      simp only
      exact ih (i + 1) ws' ps1 ps' (by omega) (by omega) (fun j w h => by
        have := (a3 j w h).1
        rwa [Nat.zero_add] at this) h

end

end Zune.Jpeg
