import Verif.Jpeg.UpsampleLemmas
import Mathlib.Data.List.Forall2

/-!
# zune-jpeg: upsampling of MCU rows and post processing (lemmas)
-/

namespace Zune.Jpeg

/-! ### Rows -/

/-- `n` rows of width `w` from row `s` of a picture on. -/
def rows (P : Nat → Nat → Int) (s n w : Nat) : List Int :=
  (List.range' s n).flatMap fun r => plane (P r) 0 w

theorem rows_length (P : Nat → Nat → Int) (s n w : Nat) : (rows P s n w).length = n * w := by
  unfold rows
  rw [flatMap_length_const _ _ w (fun r _ => plane_length _ _ _), List.length_range']

theorem rows_append (P : Nat → Nat → Int) (s m n w : Nat) :
    rows P s m w ++ rows P (s + m) n w = rows P s (m + n) w := by
  unfold rows
  rw [← List.flatMap_append]
  have := List.range'_append (s := s) (m := m) (n := n) (step := 1)
  rw [Nat.one_mul] at this
  rw [this]

theorem rows_one (P : Nat → Nat → Int) (s w : Nat) : rows P s 1 w = plane (P s) 0 w := by
  unfold rows
  rw [List.range'_one, List.flatMap_cons, List.flatMap_nil, List.append_nil]

theorem rows_two (P : Nat → Nat → Int) (s w : Nat) :
    rows P s 2 w = plane (P s) 0 w ++ plane (P (s + 1)) 0 w := by
  rw [show 2 = 1 + 1 from rfl, ← rows_append, rows_one, rows_one]

theorem rows_take (P : Nat → Nat → Int) (s n w k : Nat) (h : k ≤ n) :
    (rows P s n w).take (k * w) = rows P s k w := by
  obtain ⟨e, rfl⟩ := Nat.exists_eq_add_of_le h
  rw [← rows_append, List.take_left' (rows_length _ _ _ _)]

theorem rows_drop (P : Nat → Nat → Int) (s n w k : Nat) (h : k ≤ n) :
    (rows P s n w).drop (k * w) = rows P (s + k) (n - k) w := by
  obtain ⟨e, rfl⟩ := Nat.exists_eq_add_of_le h
  rw [← rows_append, List.drop_left' (rows_length _ _ _ _), Nat.add_sub_cancel_left]

theorem rows_congr (P Q : Nat → Nat → Int) (s n w : Nat)
    (h : ∀ r, s ≤ r → r < s + n → P r = Q r) : rows P s n w = rows Q s n w := by
  unfold rows
  rw [List.flatMap_def, List.flatMap_def]
  congr 1
  apply List.map_congr_left
  intro r hr
  rw [List.mem_range'_1] at hr
  rw [h r hr.1 hr.2]

theorem slice_eq (l : List Int) (a b : Nat) (h1 : a ≤ b) (h2 : b ≤ l.length) :
    slice l a b = some ((l.drop a).take (b - a)) := by
  unfold slice
  rw [if_pos ⟨h1, h2⟩]

theorem slice_rows (P : Nat → Nat → Int) (s n w a b : Nat) (tl : List Int) (h1 : a ≤ b) (h2 : b ≤ n) :
    slice (rows P s n w ++ tl) (a * w) (b * w) = some (rows P (s + a) (b - a) w) := by
  have hab : a * w ≤ b * w := Nat.mul_le_mul_right _ h1
  have hbn : b * w ≤ n * w := Nat.mul_le_mul_right _ h2
  rw [slice_eq _ _ _ hab (by rw [List.length_append, rows_length]; omega), List.drop_append_of_le_length
    (by rw [rows_length]; omega), rows_drop _ _ _ _ _ (by omega), ← Nat.sub_mul,
    List.take_append_of_le_length (by rw [rows_length]; exact Nat.mul_le_mul_right _ (by omega)),
    rows_take _ _ _ _ _ (by omega)]

theorem slice_row (P : Nat → Nat → Int) (s n w a : Nat) (tl : List Int) (h : a < n) :
    slice (rows P s n w ++ tl) (a * w) ((a + 1) * w) = some (plane (P (s + a)) 0 w) := by
  rw [slice_rows P s n w a (a + 1) tl (by omega) (by omega), Nat.add_sub_cancel_left, rows_one]

theorem lastChunk_rows (P : Nat → Nat → Int) (s n w k : Nat) (hk : k ≤ n) (h : 0 < k * w) :
    lastChunk (rows P s n w) (k * w) = some (rows P (s + (n - k)) k w) := by
  unfold lastChunk
  have : k * w ≤ n * w := Nat.mul_le_mul_right _ hk
  rw [rows_length, if_pos ⟨h, this⟩, ← Nat.sub_mul, rows_drop _ _ _ _ _ (by omega),
    show n - (n - k) = k by omega]

/-! ### Ratios V and HV -/

/-- Horizontal factor of a ratio. -/
def Ratio.hf : Ratio → Nat
  | .h | .hv => 2
  | .generic a _ => a
  | .none | .v => 1

/-- Vertical factor of a ratio. -/
def Ratio.vf : Ratio → Nat
  | .v | .hv => 2
  | .generic _ b => b
  | .none | .h => 1

theorem sample_eq (r : Ratio) : r.sample = r.vf * r.hf := by
  cases r <;> simp only [Ratio.sample, Ratio.vf, Ratio.hf]
  exact Nat.mul_comm _ _

/-- Is it V or HV? -/
def Ratio.vert (r : Ratio) : Prop := r = .v ∨ r = .hv

/-- One row out of a row and its neighbour above or below. -/
def mixRow (r : Ratio) (w : Nat) (g u : Nat → Int) : Nat → Int :=
  if r = .hv then hSpec (fun i => tri (g i) (u i)) w else fun i => tri (g i) (u i)

/-- Row `y` of the picture upsampled vertically, the edge rows repeated outside; `last` is the last row. -/
def vSpec (r : Ratio) (w : Nat) (P : Nat → Nat → Int) (last y : Nat) : Nat → Int :=
  mixRow r w (P (y / 2)) (if y % 2 = 0 then P (y / 2 - 1) else P (min (y / 2 + 1) last))

theorem vertKernel_eq (avx2 : Bool) (r : Ratio) (hr : r.vert) (w : Nat) (hw : 2 < w)
    (g up dn : Nat → Int) (hg : ∀ i, Sample (g i)) (hu : ∀ i, Sample (up i)) (hd : ∀ i, Sample (dn i))
    (scratch d : List Int) (hs : r = .hv → scratch.length = 2 * w) (hl : d.length = 2 * (w * r.hf)) :
    vertKernel avx2 r (plane g 0 w) (plane up 0 w) (plane dn 0 w) scratch d =
      some (plane (mixRow r w g up) 0 (w * r.hf) ++ plane (mixRow r w g dn) 0 (w * r.hf)) := by
  rcases hr with rfl | rfl
  · have hl' : d.length = 2 * w := by simpa [Ratio.hf] using hl
    show upV avx2 _ _ _ d = _
    rw [upV_eq avx2 g up dn w d hl']
    simp [mixRow, Ratio.hf]
  · have hl' : d.length = 4 * w := by simp only [Ratio.hf] at hl; omega
    show upHV avx2 _ _ _ scratch d = _
    rw [upHV_eq avx2 g up dn w hw hg hu hd scratch d (hs rfl) hl']
    simp only [mixRow, if_pos, Ratio.hf]
    rw [Nat.mul_comm w 2]

theorem vertInto_eq (avx2 : Bool) (r : Ratio) (hr : r.vert) (w : Nat) (hw : 2 < w)
    (g up dn : Nat → Int) (hg : ∀ i, Sample (g i)) (hu : ∀ i, Sample (up i)) (hd : ∀ i, Sample (dn i))
    (scratch : List Int) (hs : r = .hv → scratch.length = 2 * w) (A tl : List Int)
    (hl : 2 * (w * r.hf) ≤ tl.length) :
    vertInto avx2 r (plane g 0 w) (plane up 0 w) (plane dn 0 w) scratch (A ++ tl) A.length
        (w * r.sample) =
      some (A ++ (plane (mixRow r w g up) 0 (w * r.hf) ++ plane (mixRow r w g dn) 0 (w * r.hf)) ++
        tl.drop (2 * (w * r.hf))) := by
  have e : w * r.sample = 2 * (w * r.hf) := by
    rw [sample_eq]
    have : r.vf = 2 := by rcases hr with rfl | rfl <;> rfl
    rw [this, Nat.mul_left_comm]
  unfold vertInto
  rw [e, slice_eq _ _ _ (by omega) (by rw [List.length_append]; omega), List.drop_left,
    Nat.add_sub_cancel_left]
  simp only
  rw [vertKernel_eq avx2 r hr w hw g up dn hg hu hd scratch _ hs (by rw [List.length_take]; omega)]
  simp only
  unfold putAt
  have hx : (plane (mixRow r w g up) 0 (w * r.hf) ++ plane (mixRow r w g dn) 0 (w * r.hf)).length =
      2 * (w * r.hf) := by rw [List.length_append, plane_length, plane_length]; omega
  rw [hx, if_pos (by rw [List.length_append]; omega), List.take_left, List.drop_append, Nat.add_sub_cancel_left,
    List.drop_eq_nil_of_le (by omega), List.nil_append]

theorem rowPlan_eq (c : Comp) (P : Nat → Nat → Int) (w i H pos : Nat) (hi : i < H) (hp : pos < 8)
    (hraw : c.raw = rows P (8 * i) 8 w) (hrow : 0 < i → c.row = plane (P (8 * i - 1)) 0 w) :
    rowPlan c H i 8 w pos =
      if pos = 7 ∧ i ≠ H - 1 then .keep (plane (P (8 * i + 6)) 0 w)
      else .up (plane (P (8 * i + pos - 1)) 0 w) (plane (P (min (8 * i + pos + 1) (8 * H - 1))) 0 w) := by
  have S : ∀ a, a < 8 → slice c.raw (a * w) ((a + 1) * w) = some (plane (P (8 * i + a)) 0 w) := by
    intro a ha
    have := slice_row P (8 * i) 8 w a [] ha
    rw [List.append_nil] at this
    rw [hraw, this]
  have Sp : 0 < pos → slice c.raw ((pos - 1) * w) (pos * w) = some (plane (P (8 * i + pos - 1)) 0 w) := by
    intro h
    have := S (pos - 1) (by omega)
    rw [show pos - 1 + 1 = pos by omega, show 8 * i + (pos - 1) = 8 * i + pos - 1 by omega] at this
    exact this
  unfold rowPlan
  by_cases h0 : pos = 0
  · subst h0
    rw [if_neg (show ¬(0 = 7 ∧ i ≠ H - 1) by omega), S 1 (by omega)]
    by_cases hi0 : i = 0
    · subst hi0
      rw [if_pos ⟨rfl, rfl⟩, S 0 (by omega)]
      simp only [both]
      rw [show min (8 * 0 + 0 + 1) (8 * H - 1) = 8 * 0 + 1 by omega]
    · rw [if_neg (by omega), if_pos ⟨by omega, rfl⟩, hrow (by omega)]
      simp only [both]
      rw [show min (8 * i + 0 + 1) (8 * H - 1) = 8 * i + 1 by omega]
      rfl
  · rw [if_neg (by omega), if_neg (by omega), Sp (by omega)]
    by_cases h7 : pos = 7
    · subst h7
      by_cases hl : i = H - 1
      · rw [if_pos ⟨hl, rfl⟩, S 7 (by omega), if_neg (by omega)]
        simp only [both]
        rw [show min (8 * i + 7 + 1) (8 * H - 1) = 8 * i + 7 by omega]
      · rw [if_neg (by omega), if_neg (by omega), if_pos rfl, if_pos ⟨rfl, hl⟩]
        rfl
    · rw [if_neg (by omega), if_pos (by omega), S (pos + 1) (by omega), if_neg (by omega)]
      simp only [both]
      rw [show min (8 * i + pos + 1) (8 * H - 1) = 8 * i + (pos + 1) by omega]

theorem vSpec_pair (r : Ratio) (w : Nat) (P : Nat → Nat → Int) (last R : Nat) (W : Nat) :
    plane (mixRow r w (P R) (P (R - 1))) 0 W ++ plane (mixRow r w (P R) (P (min (R + 1) last))) 0 W =
      rows (vSpec r w P last) (2 * R) 2 W := by
  rw [rows_two]
  unfold vSpec
  rw [show 2 * R / 2 = R by omega, show (2 * R + 1) / 2 = R by omega, if_pos (by omega), if_neg (by omega)]

theorem vertLoop_eq (avx2 : Bool) (H i w : Nat) (hi : i < H) (hw : 2 < w) (P : Nat → Nat → Int)
    (hP : ∀ r x, Sample (P r x)) (scratch : List Int) :
    ∀ (n pos : Nat) (c : Comp) (tl : List Int), pos + n = 8 → 0 < n → c.ratio.vert → c.stride = w →
      (c.ratio = .hv → scratch.length = 2 * w) → c.raw = rows P (8 * i) 8 w →
      (0 < i → c.row = plane (P (8 * i - 1)) 0 w) → c.row.length = w → c.rowUp.length = w →
      c.dest = rows (vSpec c.ratio w P (8 * H - 1)) (16 * i) (2 * pos) (w * c.ratio.hf) ++ tl →
      n * (2 * (w * c.ratio.hf)) ≤ tl.length →
      ∃ c', vertLoop avx2 H i 8 w scratch n pos (pos * (w * c.ratio.sample)) c = some c' ∧
        c'.ratio = c.ratio ∧ c'.vs = c.vs ∧ c'.stride = w ∧ c'.raw = c.raw ∧ c'.first = c.first ∧
        c'.dest.length = c.dest.length ∧ c'.row.length = w ∧ c'.rowUp.length = w ∧
        (∃ t, c'.dest = rows (vSpec c.ratio w P (8 * H - 1)) (16 * i)
          (if i ≠ H - 1 then 14 else 16) (w * c.ratio.hf) ++ t) ∧
        (i ≠ H - 1 → c'.row = plane (P (8 * i + 7)) 0 w ∧ c'.rowUp = plane (P (8 * i + 6)) 0 w) := by
  intro n
  induction n with
  | zero => intro pos c tl _ h; omega
  | succ n ih =>
    intro pos c tl hpos _ hr hst hs hraw hrow hrl hul hdest htl
    have hcurr : slice c.raw (pos * c.stride) ((pos + 1) * c.stride) =
        some (plane (P (8 * i + pos)) 0 w) := by
      have := slice_row P (8 * i) 8 w pos [] (by omega)
      rw [List.append_nil] at this
      rw [hraw, hst, this]
    unfold vertLoop
    rw [hcurr]
    simp only
    rw [rowPlan_eq c P w i H pos hi (by omega) hraw hrow]
    by_cases hk : pos = 7 ∧ i ≠ H - 1
    · obtain ⟨rfl, hl⟩ := hk
      have hn : n = 0 := by omega
      subst hn
      rw [if_pos ⟨rfl, hl⟩]
      simp only
      rw [plane_length, plane_length, if_pos ⟨hul.symm, hrl.symm⟩]
      refine ⟨_, rfl, rfl, rfl, hst, rfl, rfl, rfl, plane_length _ _ _, plane_length _ _ _, ⟨tl, ?_⟩,
        fun _ => ⟨rfl, rfl⟩⟩
      rw [if_pos hl]
      exact hdest
    · rw [if_neg hk]
      simp only
      have hoff : pos * (w * c.ratio.sample) =
          (rows (vSpec c.ratio w P (8 * H - 1)) (16 * i) (2 * pos) (w * c.ratio.hf)).length := by
        have : c.ratio.vf = 2 := by rcases hr with h | h <;> rw [h] <;> rfl
        rw [rows_length, sample_eq, this, Nat.mul_comm 2 pos, Nat.mul_assoc, Nat.mul_left_comm w 2]
      have htl1 : 2 * (w * c.ratio.hf) ≤ tl.length := by
        rw [Nat.succ_mul] at htl; omega
      have hv : vertInto avx2 c.ratio (plane (P (8 * i + pos)) 0 w) (plane (P (8 * i + pos - 1)) 0 w)
          (plane (P (min (8 * i + pos + 1) (8 * H - 1))) 0 w) scratch c.dest
          (pos * (w * c.ratio.sample)) (c.stride * c.ratio.sample) =
          some (rows (vSpec c.ratio w P (8 * H - 1)) (16 * i) (2 * (pos + 1)) (w * c.ratio.hf) ++
              tl.drop (2 * (w * c.ratio.hf))) := by
        rw [hst, hoff, hdest, vertInto_eq avx2 c.ratio hr w hw _ _ _ (hP _) (hP _) (hP _) scratch hs _ tl htl1,
          vSpec_pair, show 2 * (8 * i + pos) = 16 * i + 2 * pos by omega, rows_append,
          show 2 * pos + 2 = 2 * (pos + 1) by omega]
      rw [hv]
      simp only
      by_cases hn : n = 0
      · subst hn
        have hl : i = H - 1 := by
          by_contra hne
          exact hk ⟨by omega, hne⟩
        refine ⟨_, rfl, rfl, rfl, hst, rfl, rfl, ?_, hrl, hul, ⟨tl.drop (2 * (w * c.ratio.hf)), ?_⟩,
          fun h => absurd hl h⟩
        · simp only [List.length_append, rows_length, List.length_drop]
          rw [hdest, List.length_append, rows_length, show 2 * (pos + 1) = 2 * pos + 2 by omega,
            Nat.add_mul]
          omega
        · rw [if_neg (by simpa using hl), show 2 * (pos + 1) = 16 by omega]
      · have hoff2 : pos * (w * c.ratio.sample) + c.stride * c.ratio.sample =
            (pos + 1) * (w * c.ratio.sample) := by
          rw [hst, Nat.succ_mul]
        rw [hoff2]
        obtain ⟨c', e, h1, h2, h3, h4, h5, h6, h7, h8, h9, h10⟩ := ih (pos + 1)
          { c with dest := rows (vSpec c.ratio w P (8 * H - 1)) (16 * i) (2 * (pos + 1)) (w * c.ratio.hf) ++
              tl.drop (2 * (w * c.ratio.hf)) } (tl.drop (2 * (w * c.ratio.hf))) (by omega) (by omega) hr hst
          hs hraw hrow hrl hul rfl (by
            simp only
            rw [List.length_drop]
            rw [Nat.succ_mul] at htl
            omega)
        refine ⟨c', e, h1, h2, h3, h4, h5, ?_, h7, h8, h9, h10⟩
        rw [h6]
        simp only [List.length_append, rows_length, List.length_drop]
        rw [hdest, List.length_append, rows_length, show 2 * (pos + 1) = 2 * pos + 2 by omega,
          Nat.add_mul]
        omega

/-! ### Loops over chunks -/

theorem chunkLoop_eq (w W v : Nat) (hw : 0 < w) (f : List Int → List Int → Option (List Int))
    (P Q : Nat → Nat → Int)
    (hf : ∀ r d, d.length = v * W → f (plane (P r) 0 w) d = some (rows Q (r * v) v W)) :
    ∀ (n fuel s : Nat) (dst : List Int), n < fuel → n * (v * W) ≤ dst.length →
      chunkLoop w (v * W) f fuel (rows P s n w) dst =
        some (rows Q (s * v) (n * v) W ++ dst.drop (n * (v * W))) := by
  intro n
  induction n with
  | zero =>
    intro fuel s dst hfu _
    obtain ⟨fuel, rfl⟩ : ∃ k, fuel = k + 1 := ⟨fuel - 1, by omega⟩
    unfold chunkLoop
    rw [rows_length, if_neg (by omega), Nat.zero_mul, Nat.zero_mul]
    rfl
  | succ n ih =>
    intro fuel s dst hfu hd
    obtain ⟨fuel, rfl⟩ : ∃ k, fuel = k + 1 := ⟨fuel - 1, by omega⟩
    rw [Nat.succ_mul] at hd
    have h1 : w ≤ (n + 1) * w := by rw [Nat.succ_mul]; omega
    have t1 : (rows P s (n + 1) w).take w = plane (P s) 0 w := by
      have := rows_take P s (n + 1) w 1 (by omega)
      rwa [Nat.one_mul, rows_one] at this
    have t2 : (rows P s (n + 1) w).drop w = rows P (s + 1) n w := by
      have := rows_drop P s (n + 1) w 1 (by omega)
      rwa [Nat.one_mul] at this
    unfold chunkLoop
    rw [rows_length, if_pos ⟨h1, by omega⟩, t1, t2, hf s _ (by rw [List.length_take]; omega),
      ih fuel (s + 1) _ (by omega) (by rw [List.length_drop]; omega)]
    simp only
    rw [← List.append_assoc, Nat.succ_mul s v, rows_append, List.drop_drop, Nat.succ_mul n v,
      Nat.add_comm v (n * v), Nat.succ_mul n (v * W), Nat.add_comm (v * W)]

theorem genRows_eq (w p : Nat) (hw : 0 < w) (hp : 0 < p) (g : Nat → Int) :
    ∀ (v fuel : Nat) (s : Nat) (d : List Int), v < fuel → d.length = v * (w * p) →
      genRows (w * p) (plane g 0 w) fuel d = some (rows (fun _ x => g (x / p)) s v (w * p)) := by
  intro v
  induction v with
  | zero =>
    intro fuel s d hf hd
    obtain ⟨fuel, rfl⟩ : ∃ k, fuel = k + 1 := ⟨fuel - 1, by omega⟩
    have : 0 < w * p := Nat.mul_pos hw hp
    rw [Nat.zero_mul, List.length_eq_zero_iff] at hd
    subst hd
    unfold genRows
    rw [if_neg (by simp; omega)]
    rfl
  | succ v ih =>
    intro fuel s d hf hd
    obtain ⟨fuel, rfl⟩ : ∃ k, fuel = k + 1 := ⟨fuel - 1, by omega⟩
    rw [Nat.succ_mul] at hd
    unfold genRows
    rw [if_pos (by omega), upGeneric_eq g w p hw hp _ (by rw [List.length_take]; omega),
      ih fuel (s + 1) _ (by omega) (by rw [List.length_drop]; omega)]
    simp only
    rw [Nat.add_comm v 1, ← rows_append, rows_one]

/-! ### One component in one MCU row -/

/-- A component as it is meant: ratio, `vertical_sample`, width and the samples of the whole
picture. -/
structure Chan where
  ratio : Ratio
  vs : Nat
  w : Nat
  P : Nat → Nat → Int

/-- Row `y` of the upsampled component of a picture of `H` MCU rows. -/
def Chan.U (a : Chan) (H y : Nat) : Nat → Int :=
  match a.ratio with
  | .none => a.P y
  | .h => hSpec (a.P y) a.w
  | .v => vSpec .v a.w a.P (8 * H - 1) y
  | .hv => vSpec .hv a.w a.P (8 * H - 1) y
  | .generic p q => fun x => a.P (y / q) (x / p)

/-- The component is consistent with the frame. -/
structure Chan.Fits (a : Chan) (p : Post) : Prop where
  wide : 2 < a.w
  smp : ∀ r x, Sample (a.P r x)
  vs0 : 0 < a.vs
  hv : a.vs * a.ratio.vf = p.vMax
  hh : a.w * a.ratio.hf = p.padded
  one : a.ratio.vert → a.vs = 1
  scr : a.ratio = .hv → p.scratch.length = 2 * a.w
  gen : 0 < a.ratio.hf ∧ 0 < a.ratio.vf

/-- The buffers of the component have their sizes. -/
structure Rel (a : Chan) (c : Comp) : Prop where
  ratio : c.ratio = a.ratio
  vs : c.vs = a.vs
  stride : c.stride = a.w
  first : c.first.length = a.vs * a.w * a.ratio.sample
  row : c.row.length = a.w * a.vs
  rowUp : c.rowUp.length = a.w * a.vs

/-- What is kept from the MCU row before row `i`. -/
def Kept (a : Chan) (H i : Nat) (c : Comp) : Prop :=
  match a.ratio with
  | .none => c.first = rows a.P (16 * i - 2) 2 a.w
  | .h => c.dest = rows (a.U H) (16 * (i - 1)) 16 (a.w * 2)
  | .v => c.row = plane (a.P (8 * i - 1)) 0 a.w ∧ c.rowUp = plane (a.P (8 * i - 2)) 0 a.w
  | .hv => c.row = plane (a.P (8 * i - 1)) 0 a.w ∧ c.rowUp = plane (a.P (8 * i - 2)) 0 a.w
  | .generic _ _ => False

/-- Room in `upsample_dest`. -/
def Room (a : Chan) (c : Comp) : Prop :=
  a.ratio = .h ∨ a.ratio = .none ∨ 8 * a.vs * (a.ratio.vf * (a.w * a.ratio.hf)) ≤ c.dest.length

/-- The part of `Kept` that `upsample` leaves for the row after row `i`; the rest is done by `keepLast`. -/
def Half (a : Chan) (H i : Nat) (c : Comp) : Prop :=
  a.ratio = .none ∨ i = H - 1 ∨ Kept a H (i + 1) c

theorem resize_length (l : List Int) (n : Nat) : (resize l n).length = n := by
  unfold resize
  rw [List.length_append, List.length_take, List.length_replicate]
  omega

theorem resize_same (l : List Int) : resize l l.length = l := by
  unfold resize
  rw [List.take_length, Nat.sub_self, List.replicate_zero, List.append_nil]

theorem hRows (avx2 : Bool) (P : Nat → Nat → Int) (hP : ∀ r x, Sample (P r x)) (w : Nat) (hw : 2 < w)
    (fuel s n : Nat) (hf : n < fuel) (d : List Int) (hd : d.length = n * (w * 2)) :
    chunkLoop w (w * 2) (upH avx2) fuel (rows P s n w) d =
      some (rows (fun y => hSpec (P y) w) s n (w * 2)) := by
  have := chunkLoop_eq w (w * 2) 1 (by omega) (upH avx2) P (fun y => hSpec (P y) w) (by
    intro r d hd
    rw [upH_eq avx2 (P r) w hw (hP r) d (by omega), rows_one, Nat.mul_one, Nat.mul_comm w 2])
    n fuel s d hf (by rw [Nat.one_mul]; omega)
  rw [Nat.one_mul] at this
  rw [this, List.drop_eq_nil_of_le (by omega), Nat.mul_one, Nat.mul_one, List.append_nil]

/-- `upsample` on a component of ratio H. -/
theorem upsampleH_eq (avx2 vertical : Bool) (P : Nat → Nat → Int) (hP : ∀ r x, Sample (P r x)) (w : Nat)
    (hw : 2 < w) (s n : Nat) (c : Comp) (hst : c.stride = w) (hraw : c.raw = rows P s n w)
    (hfl : vertical → 0 < c.first.length ∧ c.first.length ≤ n * w * 2) :
    ∃ f, f.length = c.first.length ∧
      (vertical → lastChunk (resize c.dest (n * w * 2)) c.first.length = some f) ∧
      upsampleH avx2 vertical c =
        some { c with first := f, dest := rows (fun y => hSpec (P y) w) s n (w * 2) } := by
  have hr : c.raw.length = n * w := by rw [hraw, rows_length]
  have hn : n < n * w + 1 := by
    have := Nat.le_mul_of_pos_right n (show 0 < w by omega)
    omega
  have hch : chunkLoop c.stride (c.stride * 2) (upH avx2) (c.raw.length + 1) c.raw
      (resize c.dest (c.raw.length * 2)) = some (rows (fun y => hSpec (P y) w) s n (w * 2)) := by
    rw [hr, hst, hraw]
    exact hRows avx2 P hP w hw (n * w + 1) s n hn _ (by rw [resize_length, Nat.mul_assoc])
  unfold upsampleH
  simp only
  simp only [hch, show ¬c.stride = 0 by omega, if_false]
  cases vertical with
  | false =>
    exact ⟨c.first, rfl, fun h => by simp at h, rfl⟩
  | true =>
    obtain ⟨h1, h2⟩ := hfl rfl
    have hl : lastChunk (resize c.dest (n * w * 2)) c.first.length =
        some ((resize c.dest (n * w * 2)).drop ((resize c.dest (n * w * 2)).length - c.first.length)) := by
      unfold lastChunk
      rw [resize_length, if_pos ⟨h1, h2⟩]
    refine ⟨_, ?_, fun _ => hl, ?_⟩
    · rw [List.length_drop, resize_length]; omega
    · rw [if_pos rfl, hr, hl]

/-- `upsample` in a frame without the ratios V and HV. -/
theorem upsample_flat (p : Post) (a : Chan) (ha : a.Fits p) (i H : Nat) (c : Comp) (hc : Rel a c)
    (hroom : Room a c) (hv : ¬a.ratio.vert) (hraw : c.raw = rows a.P (8 * a.vs * i) (8 * a.vs) a.w) :
    ∃ c', upsample p.avx2 p.mcuHeight i p.scratch false c = some c' ∧ Rel a c' ∧ Room a c' ∧
      ∃ t, c'.samples = rows (a.U H) (8 * p.vMax * i) (8 * p.vMax) p.padded ++ t := by
  have hvm := ha.hv
  have hpw := ha.hh
  cases hr : a.ratio with
  | none =>
    rw [hr] at hvm hpw
    have e1 : p.vMax = a.vs := by rw [← hvm]; exact Nat.mul_one _
    have e2 : p.padded = a.w := by rw [← hpw]; exact Nat.mul_one _
    refine ⟨c, ?_, hc, hroom, [], ?_⟩
    · unfold upsample; rw [hc.ratio, hr]
    · unfold Comp.samples
      rw [if_pos (hc.ratio.trans hr), hraw, e1, e2, List.append_nil]
      apply rows_congr
      intro r _ _
      unfold Chan.U
      rw [hr]
  | h =>
    rw [hr] at hvm hpw
    have e1 : p.vMax = a.vs := by rw [← hvm]; exact Nat.mul_one _
    obtain ⟨f, hf, _, e⟩ := upsampleH_eq p.avx2 false a.P ha.smp a.w ha.wide (8 * a.vs * i) (8 * a.vs) c
      hc.stride hraw (by simp)
    have e' : upsample p.avx2 p.mcuHeight i p.scratch false c = upsampleH p.avx2 false c := by
      unfold upsample; rw [hc.ratio, hr]
    refine ⟨_, e'.trans e, ⟨hc.ratio, hc.vs, hc.stride, hf.trans hc.first, hc.row, hc.rowUp⟩, .inl hr, [], ?_⟩
    · unfold Comp.samples
      rw [if_neg (by simp only; rw [hc.ratio, hr]; decide), List.append_nil, e1, ← hpw]
      apply rows_congr
      intro r _ _
      unfold Chan.U
      rw [hr]
  | v => exact absurd (.inl hr) hv
  | hv => exact absurd (.inr hr) hv
  | generic x y =>
    have hg := ha.gen
    rw [hr] at hvm hpw hg
    simp only [Ratio.hf, Ratio.vf] at hvm hpw hg
    have hroom' : 8 * a.vs * (y * (a.w * x)) ≤ c.dest.length := by
      rcases hroom with h | h | h
      · rw [hr] at h; simp at h
      · rw [hr] at h; simp at h
      · rw [hr] at h; exact h
    have hw := ha.wide
    have hyy : y * (a.w * x) = a.w * x * y := Nat.mul_comm _ _
    have hpos : 0 < a.w * x * y := Nat.mul_pos (Nat.mul_pos (by omega) hg.1) hg.2
    have key := chunkLoop_eq a.w (a.w * x) y (by omega)
      (fun row d => genRows (a.w * x) row (d.length + 1) d) a.P (a.U H) (by
        intro r d hd
        have hle : y ≤ d.length := by
          rw [hd]; exact Nat.le_mul_of_pos_right _ (Nat.mul_pos (by omega) hg.1)
        rw [genRows_eq a.w x (by omega) hg.1 (a.P r) y (d.length + 1) (r * y) d (by omega) hd]
        congr 1
        apply rows_congr
        intro k h1 h2
        unfold Chan.U
        rw [hr]
        have : k / y = r := by
          apply Nat.div_eq_of_lt_le h1
          rw [Nat.succ_mul]; exact h2
        simp only [this]) (8 * a.vs) (c.raw.length + 1) (8 * a.vs * i) c.dest (by
          rw [hraw, rows_length]
          have := Nat.le_mul_of_pos_right (8 * a.vs) (show 0 < a.w by omega)
          omega) hroom'
    rw [← hraw, hyy] at key
    have hdest : ∃ D, D = rows (a.U H) (8 * a.vs * i * y) (8 * a.vs * y) (a.w * x) ++
        c.dest.drop (8 * a.vs * (a.w * x * y)) := ⟨_, rfl⟩
    obtain ⟨D, hD⟩ := hdest
    rw [← hD] at key
    refine ⟨{ c with dest := D }, ?_, ⟨hc.ratio, hc.vs, hc.stride, hc.first, hc.row, hc.rowUp⟩, .inr (.inr ?_),
      c.dest.drop (8 * a.vs * (a.w * x * y)), ?_⟩
    · have e' : upsample p.avx2 p.mcuHeight i p.scratch false c = upsampleGeneric x y c := by
        unfold upsample; rw [hc.ratio, hr]
      rw [e']
      unfold upsampleGeneric
      rw [hc.stride, if_neg (by omega), key]
    · rw [hr]
      simp only [Ratio.hf, Ratio.vf]
      rw [hD, List.length_append, rows_length, List.length_drop, hyy, Nat.mul_assoc (8 * a.vs) y, hyy]
      rw [hyy] at hroom'
      omega
    · unfold Comp.samples
      rw [if_neg (by simp only; rw [hc.ratio, hr]; simp)]
      simp only
      rw [hD, ← hpw, ← hvm, ← Nat.mul_assoc 8, Nat.mul_right_comm (8 * a.vs) y i]

theorem vert_core (p : Post) (a : Chan) (ha : a.Fits p) (i H : Nat) (hi : i < H)
    (c : Comp) (hc : Rel a c) (hroom : Room a c) (hv : a.ratio.vert)
    (hkept : 0 < i → c.row = plane (a.P (8 * i - 1)) 0 a.w ∧ c.rowUp = plane (a.P (8 * i - 2)) 0 a.w)
    (hraw : c.raw = rows a.P (8 * a.vs * i) (8 * a.vs) a.w) :
    ∃ c', upsampleVert p.avx2 H i p.scratch c = some c' ∧ Rel a c' ∧ Room a c' ∧ c'.raw = c.raw ∧
      (0 < i → c'.first = rows (vSpec a.ratio a.w a.P (8 * H - 1)) (16 * i - 2) 2 p.padded) ∧
      (∃ t, c'.dest = rows (vSpec a.ratio a.w a.P (8 * H - 1)) (16 * i) (if i ≠ H - 1 then 14 else 16) p.padded ++ t) ∧
      (i ≠ H - 1 → c'.row = plane (a.P (8 * i + 7)) 0 a.w ∧ c'.rowUp = plane (a.P (8 * i + 6)) 0 a.w) := by
  have hvs := ha.one hv
  have hw := ha.wide
  have hvf : a.ratio.vf = 2 := by rcases hv with h | h <;> rw [h] <;> rfl
  have hraw' : c.raw = rows a.P (8 * i) 8 a.w := by
    rw [hvs] at hraw; exact hraw
  have hrl : c.row.length = a.w := by have := hc.row; rw [hvs, Nat.mul_one] at this; exact this
  have hul : c.rowUp.length = a.w := by have := hc.rowUp; rw [hvs, Nat.mul_one] at this; exact this
  have hfl : c.first.length = 2 * (a.w * a.ratio.hf) := by
    have := hc.first
    rw [hvs, Nat.one_mul, sample_eq, hvf, Nat.mul_left_comm] at this
    exact this
  have hdl : 8 * (2 * (a.w * a.ratio.hf)) ≤ c.dest.length := by
    rcases hroom with h | h | h
    · rcases hv with h' | h' <;> rw [h'] at h <;> simp at h
    · rcases hv with h' | h' <;> rw [h'] at h <;> simp at h
    · rw [hvs, hvf] at h; exact h
  have hsum : ∃ c1, vertFirst p.avx2 i p.scratch c = some c1 ∧ c1.ratio = c.ratio ∧ c1.vs = c.vs ∧
      c1.stride = c.stride ∧ c1.raw = c.raw ∧ c1.row = c.row ∧ c1.rowUp = c.rowUp ∧ c1.dest = c.dest ∧
      c1.first.length = c.first.length ∧
      (0 < i → c1.first = rows (vSpec a.ratio a.w a.P (8 * H - 1)) (16 * i - 2) 2 p.padded) := by
    unfold vertFirst
    by_cases h0 : 0 < i
    · obtain ⟨k1, k2⟩ := hkept h0
      have hsl : slice c.raw 0 c.stride = some (plane (a.P (8 * i)) 0 a.w) := by
        have := slice_row a.P (8 * i) 8 a.w 0 [] (by omega)
        rw [List.append_nil, Nat.zero_mul, Nat.zero_add, Nat.one_mul] at this
        rw [hraw', hc.stride]
        exact this
      have hin := vertInto_eq p.avx2 a.ratio hv a.w hw (a.P (8 * i - 1)) (a.P (8 * i - 2)) (a.P (8 * i))
        (ha.smp _) (ha.smp _) (ha.smp _) p.scratch ha.scr [] c.first (by omega)
      rw [List.nil_append, List.nil_append, List.drop_eq_nil_of_le (by omega), List.append_nil,
        show 8 * i - 2 = 8 * i - 1 - 1 by omega] at hin
      have hmin : a.P (8 * i) = a.P (min (8 * i - 1 + 1) (8 * H - 1)) := by
        rw [show min (8 * i - 1 + 1) (8 * H - 1) = 8 * i by omega]
      rw [hmin, vSpec_pair, ← hmin, show 2 * (8 * i - 1) = 16 * i - 2 by omega] at hin
      rw [if_pos h0, hsl]
      simp only
      rw [hc.ratio, hc.stride, k1, k2, show 8 * i - 2 = 8 * i - 1 - 1 by omega]
      have hin' : vertInto p.avx2 a.ratio (plane (a.P (8 * i - 1)) 0 a.w) (plane (a.P (8 * i - 1 - 1)) 0 a.w)
          (plane (a.P (8 * i)) 0 a.w) p.scratch c.first 0 (a.w * a.ratio.sample) =
          some (rows (vSpec a.ratio a.w a.P (8 * H - 1)) (16 * i - 2) 2 (a.w * a.ratio.hf)) := hin
      rw [hin']
      refine ⟨_, rfl, rfl, rfl, rfl, rfl, rfl, rfl, rfl, ?_, fun _ => ?_⟩
      · simp only [rows_length]; exact hfl.symm
      · simp only; rw [ha.hh]
    · rw [if_neg h0]
      exact ⟨c, rfl, rfl, rfl, rfl, rfl, rfl, rfl, rfl, rfl, fun h => absurd h h0⟩
  obtain ⟨c1, e1, q1, q2, q3, q4, q5, q6, q7, q8, q9⟩ := hsum
  obtain ⟨c', e, r1, r2, r3, r4, r5, r6, r7, r8, r9, r10⟩ := vertLoop_eq p.avx2 H i a.w hi hw a.P ha.smp p.scratch
    8 0 c1 c.dest (by omega) (by omega) (by rw [q1, hc.ratio]; exact hv) (by rw [q3, hc.stride])
    (by rw [q1, hc.ratio]; exact ha.scr) (by rw [q4, hraw']) (by rw [q5]; exact fun h => (hkept h).1)
    (by rw [q5, hrl]) (by rw [q6, hul]) (by rw [q7]; rfl) (by rw [q1, hc.ratio]; exact hdl)
  rw [q1, hc.ratio] at r1 r9 e
  rw [ha.hh] at r9
  refine ⟨c', ?_, ⟨r1, by rw [r2, q2, hc.vs], r3, by rw [r5, q8, hc.first], by rw [r7, hvs, Nat.mul_one],
    by rw [r8, hvs, Nat.mul_one]⟩, .inr (.inr ?_), by rw [r4, q4], fun h => by rw [r5, q9 h], r9, r10⟩
  · unfold upsampleVert
    rw [e1]
    have hlen : c1.raw.length = 8 * a.w := by rw [q4, hraw', rows_length]
    have hst : c1.stride = a.w := by rw [q3, hc.stride]
    have hvs1 : c1.vs = 1 := by rw [q2, hc.vs, hvs]
    simp only [hlen, hst, hvs1, Nat.mul_one, Nat.mul_div_cancel _ (show 0 < a.w by omega)]
    rw [if_neg (by omega)]
    rw [Nat.zero_mul] at e
    exact e
  · rw [hvs, hvf, r6, q7]
    exact hdl

/-- `upsample` in a frame with the ratios V or HV. -/
theorem upsample_vert (p : Post) (a : Chan) (ha : a.Fits p) (i H : Nat) (hi : i < H) (hH : p.mcuHeight = H)
    (h2 : p.vMax = 2) (hng : ∀ x y, a.ratio ≠ .generic x y)
    (c : Comp) (hc : Rel a c) (hroom : Room a c) (hkept : 0 < i → Kept a H i c)
    (hraw : c.raw = rows a.P (8 * a.vs * i) (8 * a.vs) a.w) :
    ∃ c', upsample p.avx2 p.mcuHeight i p.scratch true c = some c' ∧ Rel a c' ∧ Room a c' ∧ c'.raw = c.raw ∧
      (0 < i → c'.first = rows (a.U H) (16 * i - 2) 2 p.padded) ∧
      (∃ t, c'.samples = rows (a.U H) (16 * i) (if i ≠ H - 1 then 14 else 16) p.padded ++ t) ∧
      Half a H i c' := by
  subst hH
  have hvm := ha.hv
  have hpw := ha.hh
  have hw := ha.wide
  cases hr : a.ratio with
  | generic x y => exact absurd hr (hng x y)
  | none =>
    rw [hr] at hvm hpw
    have e1 : a.vs = 2 := by rw [← h2, ← hvm]; exact (Nat.mul_one _).symm
    have e2 : p.padded = a.w := by rw [← hpw]; exact Nat.mul_one _
    have hU : a.U p.mcuHeight = a.P := by funext y; unfold Chan.U; rw [hr]
    refine ⟨c, ?_, hc, hroom, rfl, fun h => ?_, ?_, .inl hr⟩
    · unfold upsample; rw [hc.ratio, hr]
    · have := hkept h
      unfold Kept at this
      rw [hr] at this
      rw [this, hU, e2]
    · unfold Comp.samples
      rw [if_pos (hc.ratio.trans hr), hraw, hU, e2, e1, show 8 * 2 * i = 16 * i by omega]
      by_cases hl : i ≠ p.mcuHeight - 1
      · rw [if_pos hl]
        exact ⟨_, (rows_append a.P (16 * i) 14 2 a.w).symm⟩
      · rw [if_neg hl]
        exact ⟨[], (List.append_nil _).symm⟩
  | h =>
    rw [hr] at hvm hpw
    have e1 : a.vs = 2 := by rw [← h2, ← hvm]; exact (Nat.mul_one _).symm
    have hU : a.U p.mcuHeight = fun y => hSpec (a.P y) a.w := by funext y; unfold Chan.U; rw [hr]
    have hfl : c.first.length = 2 * (a.w * 2) := by
      have := hc.first
      rw [e1, hr] at this
      rw [this]
      simp only [Ratio.sample]
      omega
    obtain ⟨f, hf, hlast, e⟩ := upsampleH_eq p.avx2 true a.P ha.smp a.w hw (8 * a.vs * i) (8 * a.vs) c
      hc.stride hraw (fun _ => by rw [hfl, e1]; omega)
    have e' : upsample p.avx2 p.mcuHeight i p.scratch true c = upsampleH p.avx2 true c := by
      unfold upsample; rw [hc.ratio, hr]
    refine ⟨_, e'.trans e, ⟨hc.ratio, hc.vs, hc.stride, hf.trans hc.first, hc.row, hc.rowUp⟩, .inl hr, rfl,
      fun h => ?_, ?_, .inr ?_⟩
    · simp only
      have hk := hkept h
      unfold Kept at hk
      rw [hr] at hk
      simp only at hk
      have hl := hlast rfl
      have hsz : 8 * a.vs * a.w * 2 = (rows (a.U p.mcuHeight) (16 * (i - 1)) 16 (a.w * 2)).length := by
        rw [rows_length, e1]; omega
      rw [hk, hsz, resize_same, hfl, lastChunk_rows _ _ _ _ _ (by omega) (by omega)] at hl
      rw [← Option.some.inj hl, ← hpw]
      simp only [Ratio.hf]
      rw [show 16 * (i - 1) + (16 - 2) = 16 * i - 2 by omega]
    · unfold Comp.samples
      rw [if_neg (by simp only; rw [hc.ratio, hr]; decide), hU, ← hpw]
      simp only [Ratio.hf]
      rw [e1, show 8 * 2 * i = 16 * i by omega]
      by_cases hl : i ≠ p.mcuHeight - 1
      · rw [if_pos hl]
        exact ⟨_, (rows_append _ (16 * i) 14 2 _).symm⟩
      · rw [if_neg hl]
        exact ⟨[], (List.append_nil _).symm⟩
    · right
      unfold Kept
      rw [hr]
      simp only
      rw [hU, e1, show 8 * 2 * i = 16 * (i + 1 - 1) by omega]
  | v =>
    have hU : a.U p.mcuHeight = vSpec a.ratio a.w a.P (8 * p.mcuHeight - 1) := by
      funext y; unfold Chan.U; rw [hr]
    obtain ⟨c', e, k1, k2, k3, k4, k5, k6⟩ := vert_core p a ha i p.mcuHeight hi c hc hroom (.inl hr)
      (fun h => by have := hkept h; unfold Kept at this; rw [hr] at this; exact this) hraw
    have e' : upsample p.avx2 p.mcuHeight i p.scratch true c =
        upsampleVert p.avx2 p.mcuHeight i p.scratch c := by
      unfold upsample; rw [hc.ratio, hr]
    refine ⟨c', e'.trans e, k1, k2, k3, by rw [hU]; exact k4, ?_, ?_⟩
    · unfold Comp.samples
      rw [if_neg (by rw [k1.ratio, hr]; decide), hU]
      exact k5
    · by_cases hl : i = p.mcuHeight - 1
      · exact .inr (.inl hl)
      · right; right
        unfold Kept
        rw [hr]
        simp only
        rw [show 8 * (i + 1) - 1 = 8 * i + 7 by omega, show 8 * (i + 1) - 2 = 8 * i + 6 by omega]
        exact k6 hl
  | hv =>
    have hU : a.U p.mcuHeight = vSpec a.ratio a.w a.P (8 * p.mcuHeight - 1) := by
      funext y; unfold Chan.U; rw [hr]
    obtain ⟨c', e, k1, k2, k3, k4, k5, k6⟩ := vert_core p a ha i p.mcuHeight hi c hc hroom (.inr hr)
      (fun h => by have := hkept h; unfold Kept at this; rw [hr] at this; exact this) hraw
    have e' : upsample p.avx2 p.mcuHeight i p.scratch true c =
        upsampleVert p.avx2 p.mcuHeight i p.scratch c := by
      unfold upsample; rw [hc.ratio, hr]
    refine ⟨c', e'.trans e, k1, k2, k3, by rw [hU]; exact k4, ?_, ?_⟩
    · unfold Comp.samples
      rw [if_neg (by rw [k1.ratio, hr]; decide), hU]
      exact k5
    · by_cases hl : i = p.mcuHeight - 1
      · exact .inr (.inl hl)
      · right; right
        unfold Kept
        rw [hr]
        simp only
        rw [show 8 * (i + 1) - 1 = 8 * i + 7 by omega, show 8 * (i + 1) - 2 = 8 * i + 6 by omega]
        exact k6 hl

/-- `keepLast` completes what is kept. -/
theorem keepLast_eq (p : Post) (a : Chan) (ha : a.Fits p) (i H : Nat)
    (h2 : p.vMax = 2) (hng : ∀ x y, a.ratio ≠ .generic x y)
    (c : Comp) (hc : Rel a c) (hroom : Room a c) (hhalf : Half a H i c)
    (hraw : c.raw = rows a.P (8 * a.vs * i) (8 * a.vs) a.w) :
    ∃ c', keepLast c = some c' ∧ Rel a c' ∧ Room a c' ∧ c'.samples = c.samples ∧
      (i ≠ H - 1 → Kept a H (i + 1) c') := by
  have hvm := ha.hv
  have hw := ha.wide
  by_cases hh : a.ratio = .h
  · refine ⟨c, ?_, hc, hroom, rfl, fun h => ?_⟩
    · unfold keepLast
      rw [if_neg (by rw [hc.ratio, hh]; decide)]
    · rcases hhalf with k | k | k
      · rw [hh] at k; simp at k
      · exact absurd k h
      · exact k
  · have hs1 : 0 < a.ratio.sample ∧ a.ratio.sample ≤ 4 := by
      cases hr : a.ratio with
      | generic x y => exact absurd hr (hng x y)
      | _ => simp [Ratio.sample]
    have h8 : a.ratio.sample * a.vs ≤ 8 * a.vs := Nat.mul_le_mul_right _ (by omega)
    have hvs0 := ha.vs0
    have hpos : 0 < a.ratio.sample * a.vs * a.w := Nat.mul_pos (Nat.mul_pos hs1.1 hvs0) (by omega)
    have hlc := lastChunk_rows a.P (8 * a.vs * i) (8 * a.vs) a.w (a.ratio.sample * a.vs) h8 hpos
    rw [← hraw] at hlc
    have hsz : c.vs * c.stride * c.ratio.sample = a.ratio.sample * a.vs * a.w := by
      rw [hc.vs, hc.stride, hc.ratio, Nat.mul_comm, Nat.mul_assoc]
    have hfl : (rows a.P (8 * a.vs * i + (8 * a.vs - a.ratio.sample * a.vs)) (a.ratio.sample * a.vs) a.w).length =
        c.first.length := by
      rw [rows_length, hc.first, Nat.mul_comm (a.vs * a.w), Nat.mul_assoc]
    refine ⟨{ c with first := rows a.P (8 * a.vs * i + (8 * a.vs - a.ratio.sample * a.vs)) (a.ratio.sample * a.vs) a.w }, ?_, ⟨hc.ratio, hc.vs, hc.stride, hfl.trans hc.first, hc.row, hc.rowUp⟩,
      hroom, rfl, fun h => ?_⟩
    · unfold keepLast
      rw [if_pos (by rw [hc.ratio]; exact hh), hsz, hlc]
      simp only
      rw [if_pos hfl]
    · unfold Kept
      cases hr : a.ratio with
      | generic x y => exact absurd hr (hng x y)
      | h => exact absurd hr hh
      | none =>
        rw [hr] at hvm
        have e1 : a.vs = 2 := by rw [← h2, ← hvm]; exact (Nat.mul_one _).symm
        simp only [Ratio.sample]
        rw [e1, show 8 * 2 * i + (8 * 2 - 1 * 2) = 16 * (i + 1) - 2 by omega]
      | v =>
        rcases hhalf with k | k | k
        · rw [hr] at k; simp at k
        · exact absurd k h
        · unfold Kept at k; rw [hr] at k; exact k
      | hv =>
        rcases hhalf with k | k | k
        · rw [hr] at k; simp at k
        · exact absurd k h
        · unfold Kept at k; rw [hr] at k; exact k

end Zune.Jpeg
