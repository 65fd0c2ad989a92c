/- Properties C31-C34: geometric operations of zune-imageprocs. -/
import Verif.Imageprocs.Model

namespace Zune.Imageprocs
variable {α : Type}

/-! ### C31 -/

theorem len_sub_row (w h r c : Nat) (hr : r < h) : w * h - (r + 1) * w + c = (h - 1 - r) * w + c := by
  obtain ⟨d, rfl⟩ : ∃ d, h = d + r + 1 := ⟨h - r - 1, by omega⟩
  rw [show d + r + 1 - 1 - r = d by omega]
  have : w * (d + r + 1) = (r + 1) * w + d * w := by ring
  rw [this]; omega

theorem half_rows (w h : Nat) (hw : 0 < w) : min (w * h / 2 / w) ((w * h - w * h / 2) / w) = h / 2 := by
  have h1 : w * h / 2 / w = h / 2 := by
    rw [Nat.div_div_eq_div_mul, Nat.mul_comm 2 w, Nat.mul_div_mul_left _ _ hw]
  have h2 : h / 2 ≤ (w * h - w * h / 2) / w := by
    rw [Nat.le_div_iff_mul_le hw]
    have : h / 2 * w ≤ w * h / 2 := by
      rw [Nat.le_div_iff_mul_le (by omega)]
      calc h / 2 * w * 2 = w * (2 * (h / 2)) := by ring
        _ ≤ w * h := Nat.mul_le_mul_left _ (by omega)
    omega
  rw [h1]; omega

/-- Row swaps `r <-> h-1-r`. -/
theorem rowSwap_spec (l : List α) (w h : Nat) (hl : l.length = w * h) :
    ∀ x < w, ∀ y < h, (swapAll l ((grid (h / 2) w).map fun (r, c) => (r * w + c, (h - 1 - r) * w + c)))[y * w + x]? =
      l[(h - 1 - y) * w + x]? := by
  intro x hx y hy
  obtain ⟨h1, h2⟩ := swapAll_spec ((grid (h / 2) w).map fun (r, c) => (r * w + c, (h - 1 - r) * w + c)) l
    (by
      intro p hp
      obtain ⟨⟨r, c⟩, hrc, rfl⟩ := List.mem_map.1 hp
      obtain ⟨hr, hc⟩ := (mem_grid _ _ _ _).1 hrc
      rw [hl]
      exact ⟨rowcol_lt hc (by omega), rowcol_lt hc (by omega)⟩)
    (by
      rw [List.pairwise_map]
      refine grid_pairwise ?_
      intro r hr c hc r' hr' c' hc' hne
      simp only [ne_eq, Prod.mk.injEq, not_and] at hne
      refine ⟨fun e => ?_, fun e => ?_, fun e => ?_, fun e => ?_⟩ <;>
        (have := rowcol_inj hc hc' e; omega))
  by_cases hlo : y < h / 2
  · exact (h1 _ (List.mem_map.2 ⟨(y, x), (mem_grid _ _ _ _).2 ⟨hlo, hx⟩, rfl⟩)).1
  · by_cases hhi : h - 1 - y < h / 2
    · have := (h1 _ (List.mem_map.2 ⟨(h - 1 - y, x), (mem_grid _ _ _ _).2 ⟨hhi, hx⟩, rfl⟩)).2
      simp only [show h - 1 - (h - 1 - y) = y by omega] at this
      exact this
    · have hm : h - 1 - y = y := by omega
      rw [hm]
      apply h2
      intro p hp
      obtain ⟨⟨r, c⟩, hrc, rfl⟩ := List.mem_map.1 hp
      obtain ⟨hr, hc⟩ := (mem_grid _ _ _ _).1 hrc
      constructor <;> (intro e; have := rowcol_inj hx hc e; omega)

/-- **C31**: vertical flip sends row `y` to row `h-1-y`. -/
theorem c31_vertical_flip (l : List α) (w h : Nat) (hw : 0 < w) (hl : l.length = w * h) :
    ∃ out, verticalFlip l w = some out ∧ out.length = w * h ∧
      ∀ x < w, ∀ y < h, out[y * w + x]? = l[(h - 1 - y) * w + x]? := by
  unfold verticalFlip
  rw [if_neg (by omega)]
  refine ⟨_, rfl, by simp [hl], ?_⟩
  simp only [hl, half_rows w h hw]
  have e : (grid (h / 2) w).map (fun (r, c) => (r * w + c, w * h - (r + 1) * w + c)) =
      (grid (h / 2) w).map fun (r, c) => (r * w + c, (h - 1 - r) * w + c) := by
    apply List.map_congr_left
    rintro ⟨r, c⟩ hrc
    obtain ⟨hr, hc⟩ := (mem_grid _ _ _ _).1 hrc
    simp only [len_sub_row w h r c (by omega)]
  rw [e]
  exact rowSwap_spec l w h hl

/-- **C31**: flop sends column `x` to column `w-1-x`. -/
theorem c31_flop (l : List α) (w h : Nat) (hw : 0 < w) (hl : l.length = w * h) :
    ∃ out, flop l w = some out ∧ out.length = w * h ∧
      ∀ x < w, ∀ y < h, out[y * w + x]? = l[y * w + (w - 1 - x)]? := by
  unfold flop
  rw [if_neg (by rw [hl]; simp; omega)]
  refine ⟨_, rfl, by simp [hl], ?_⟩
  have hd : l.length / w = h := by rw [hl]; exact Nat.mul_div_cancel_left _ hw
  have hm : min (w / 2) (w - w / 2) = w / 2 := by omega
  simp only [hd, hm]
  intro x hx y hy
  obtain ⟨h1, h2⟩ := swapAll_spec ((grid h (w / 2)).map fun (y, x) => (y * w + x, y * w + (w - 1 - x))) l
    (by
      intro p hp
      obtain ⟨⟨r, c⟩, hrc, rfl⟩ := List.mem_map.1 hp
      obtain ⟨hr, hc⟩ := (mem_grid _ _ _ _).1 hrc
      rw [hl]
      exact ⟨rowcol_lt (by omega) hr, rowcol_lt (by omega) hr⟩)
    (by
      rw [List.pairwise_map]
      refine grid_pairwise ?_
      intro r hr c hc r' hr' c' hc' hne
      simp only [ne_eq, Prod.mk.injEq, not_and] at hne
      refine ⟨fun e => ?_, fun e => ?_, fun e => ?_, fun e => ?_⟩ <;>
        (have := rowcol_inj (by omega) (by omega) e; omega))
  by_cases hlo : x < w / 2
  · exact (h1 _ (List.mem_map.2 ⟨(y, x), (mem_grid _ _ _ _).2 ⟨hy, hlo⟩, rfl⟩)).1
  · by_cases hhi : w - 1 - x < w / 2
    · have := (h1 _ (List.mem_map.2 ⟨(y, w - 1 - x), (mem_grid _ _ _ _).2 ⟨hy, hhi⟩, rfl⟩)).2
      simp only [show w - 1 - (w - 1 - x) = x by omega] at this
      exact this
    · rw [show w - 1 - x = x by omega]
      apply h2
      intro p hp
      obtain ⟨⟨r, c⟩, hrc, rfl⟩ := List.mem_map.1 hp
      obtain ⟨hr, hc⟩ := (mem_grid _ _ _ _).1 hrc
      constructor <;> (intro e; have := rowcol_inj hx (by omega) e; omega)

theorem flip_get (l : List α) (k : Nat) (hk : k < l.length) : (flip l)[k]? = l[l.length - 1 - k]? := by
  unfold flip
  have hm : min (l.length / 2) (l.length - l.length / 2) = l.length / 2 := by omega
  simp only [hm]
  obtain ⟨h1, h2⟩ := swapAll_spec ((List.range (l.length / 2)).map fun t => (t, l.length - 1 - t)) l
    (by
      intro p hp
      obtain ⟨t, ht, rfl⟩ := List.mem_map.1 hp
      have := List.mem_range.1 ht
      constructor <;> (simp only; omega))
    (by
      rw [List.pairwise_map]
      refine List.Pairwise.imp_of_mem ?_ List.pairwise_lt_range
      intro a b ha hb hab
      have := List.mem_range.1 ha
      have := List.mem_range.1 hb
      refine ⟨?_, ?_, ?_, ?_⟩ <;> (simp only; omega))
  by_cases hlo : k < l.length / 2
  · exact (h1 _ (List.mem_map.2 ⟨k, List.mem_range.2 hlo, rfl⟩)).1
  · by_cases hhi : l.length - 1 - k < l.length / 2
    · have := (h1 _ (List.mem_map.2 ⟨l.length - 1 - k, List.mem_range.2 hhi, rfl⟩)).2
      simp only [show l.length - 1 - (l.length - 1 - k) = k by omega] at this
      exact this
    · rw [show l.length - 1 - k = k by omega]
      apply h2
      intro p hp
      obtain ⟨t, ht, rfl⟩ := List.mem_map.1 hp
      have := List.mem_range.1 ht
      constructor <;> (simp only; omega)

theorem mirror_pos {w h x y : Nat} (hx : x < w) (hy : y < h) :
    w * h - 1 - (y * w + x) = (h - 1 - y) * w + (w - 1 - x) := by
  obtain ⟨d, rfl⟩ : ∃ d, h = d + y + 1 := ⟨h - y - 1, by omega⟩
  obtain ⟨e, rfl⟩ : ∃ e, w = e + x + 1 := ⟨w - x - 1, by omega⟩
  rw [show d + y + 1 - 1 - y = d by omega, show e + x + 1 - 1 - x = e by omega]
  have : (e + x + 1) * (d + y + 1) = (y * (e + x + 1) + x) + 1 + (d * (e + x + 1) + e) := by ring
  rw [this]; omega

/-- **C31**: flip sends `(x,y)` to `(w-1-x, h-1-y)`. -/
theorem c31_flip (l : List α) (w h : Nat) (hl : l.length = w * h) :
    (flip l).length = w * h ∧
      ∀ x < w, ∀ y < h, (flip l)[y * w + x]? = l[(h - 1 - y) * w + (w - 1 - x)]? := by
  refine ⟨by simp [flip, hl], fun x hx y hy => ?_⟩
  rw [flip_get l _ (by rw [hl]; exact rowcol_lt hx hy), hl, mirror_pos hx hy]

/-- **C31**: all three operations are involutions, and flip is vertical flip followed by flop. -/
theorem c31_involutions (l : List α) (w h : Nat) (hw : 0 < w) (hl : l.length = w * h) :
    ((verticalFlip l w).bind fun m => verticalFlip m w) = some l ∧
    ((flop l w).bind fun m => flop m w) = some l ∧
    flip (flip l) = l ∧
    ((verticalFlip l w).bind fun m => flop m w) = some (flip l) := by
  obtain ⟨v, hv, hvl, hvp⟩ := c31_vertical_flip l w h hw hl
  obtain ⟨v2, hv2, hvl2, hvp2⟩ := c31_vertical_flip v w h hw hvl
  obtain ⟨f, hf, hfl, hfp⟩ := c31_flop l w h hw hl
  obtain ⟨f2, hf2, hfl2, hfp2⟩ := c31_flop f w h hw hfl
  obtain ⟨g, hg, hgl, hgp⟩ := c31_flop v w h hw hvl
  obtain ⟨fl, fp⟩ := c31_flip l w h hl
  obtain ⟨fl2, fp2⟩ := c31_flip (flip l) w h fl
  refine ⟨?_, ?_, ?_, ?_⟩
  · rw [hv, Option.bind_some, hv2]
    congr 1
    refine image_ext hvl2 hl fun x hx y hy => ?_
    rw [hvp2 x hx y hy, hvp x hx _ (by omega), show h - 1 - (h - 1 - y) = y by omega]
  · rw [hf, Option.bind_some, hf2]
    congr 1
    refine image_ext hfl2 hl fun x hx y hy => ?_
    rw [hfp2 x hx y hy, hfp _ (by omega) y hy, show w - 1 - (w - 1 - x) = x by omega]
  · refine image_ext fl2 hl fun x hx y hy => ?_
    rw [fp2 x hx y hy, fp _ (by omega) _ (by omega), show h - 1 - (h - 1 - y) = y by omega,
      show w - 1 - (w - 1 - x) = x by omega]
  · rw [hv, Option.bind_some, hg]
    congr 1
    refine image_ext hgl fl fun x hx y hy => ?_
    rw [hgp x hx y hy, hvp _ (by omega) y hy, fp x hx y hy]

/-- An odd sized image meeting the hypotheses, with its results. -/
example : (0 < 3) ∧ [1, 2, 3, 4, 5, 6, 7, 8, 9].length = 3 * 3 ∧
    verticalFlip [1, 2, 3, 4, 5, 6, 7, 8, 9] 3 = some [7, 8, 9, 4, 5, 6, 1, 2, 3] ∧
    flop [1, 2, 3, 4, 5, 6, 7, 8, 9] 3 = some [3, 2, 1, 6, 5, 4, 9, 8, 7] ∧
    flip [1, 2, 3, 4, 5, 6, 7, 8, 9] = [9, 8, 7, 6, 5, 4, 3, 2, 1] := by decide

/-! ### C32 -/

theorem mem_rowPixels (l : List α) (w y x : Nat) (v : α) :
    ((y, x), v) ∈ rowPixels l w ↔ y < l.length / w ∧ x < w ∧ l[y * w + x]? = some v := by
  unfold rowPixels
  simp only [List.mem_filterMap, Option.map_eq_some_iff, Prod.exists]
  constructor
  · rintro ⟨a, b, hab, c, hc, he⟩
    simp only [Prod.mk.injEq] at he
    obtain ⟨⟨rfl, rfl⟩, rfl⟩ := he
    obtain ⟨h1, h2⟩ := (mem_grid _ _ _ _).1 hab
    exact ⟨h1, h2, hc⟩
  · rintro ⟨h1, h2, h3⟩
    exact ⟨y, x, (mem_grid _ _ _ _).2 ⟨h1, h2⟩, v, h3, rfl⟩

/-- A store loop that writes pixel `(x, y)` of a `w*h` image at position `f x y`, with `g` the inverse addressing. -/
theorem scatter_spec (l out : List α) (w h : Nat) (hw : 0 < w) (hl : l.length = w * h) (f : Nat → Nat → Nat)
    (hinj : ∀ x < w, ∀ y < h, ∀ x' < w, ∀ y' < h, f x y = f x' y' → x = x' ∧ y = y') :
    ∀ x < w, ∀ y < h, f x y < out.length →
      (setAll out ((rowPixels l w).map fun ((y, x), v) => (f x y, v)))[f x y]? = l[y * w + x]? := by
  classical
  intro x hx y hy hf
  have hd : l.length / w = h := by rw [hl]; exact Nat.mul_div_cancel_left _ hw
  have hlt : y * w + x < l.length := by rw [hl]; exact rowcol_lt hx hy
  let T : Nat → Option α := fun k => if hk : ∃ p : Nat × Nat, p.1 < w ∧ p.2 < h ∧ f p.1 p.2 = k
    then l[(Classical.choose hk).2 * w + (Classical.choose hk).1]? else none
  have hT : ∀ x < w, ∀ y < h, T (f x y) = l[y * w + x]? := by
    intro x hx y hy
    have hk : ∃ p : Nat × Nat, p.1 < w ∧ p.2 < h ∧ f p.1 p.2 = f x y := ⟨(x, y), hx, hy, rfl⟩
    have hsp := Classical.choose_spec hk
    obtain ⟨e1, e2⟩ := hinj _ hsp.1 _ hsp.2.1 _ hx _ hy hsp.2.2
    show (if hk : _ then _ else _) = _
    rw [dif_pos hk, e1, e2]
  have hs := (setAll_spec ((rowPixels l w).map fun ((y, x), v) => (f x y, v)) out T (by
    intro p hp _
    obtain ⟨⟨⟨b, a⟩, v⟩, hm, rfl⟩ := List.mem_map.1 hp
    obtain ⟨h1, h2, h3⟩ := (mem_rowPixels _ _ _ _ _).1 hm
    simp only
    rw [hT a h2 b (by omega), h3])).1
  have hmem : (f x y, l[y * w + x]) ∈ (rowPixels l w).map fun ((y, x), v) => (f x y, v) :=
    List.mem_map.2 ⟨((y, x), l[y * w + x]), (mem_rowPixels _ _ _ _ _).2 ⟨by omega, hx, List.getElem?_eq_getElem hlt⟩, rfl⟩
  have := hs _ hmem hf
  simp only at this
  rw [this, hT x hx y hy]

/-- **C32**, quarter turns on 8-bit images (and on any correctly sized output): the pixel `(x,y)` of the source is found at
    `(h-1-y, x)` after rotating by 90 degrees and at `(y, w-1-x)` after rotating by 270 degrees, in an image of width `h`. -/
theorem c32_quarter_turns_partial (l out : List α) (w h : Nat) (hw : 0 < w) (hl : l.length = w * h)
    (ho : out.length = w * h) :
    (∃ r, rotate90 l out w h = some r ∧ r.length = h * w ∧
      ∀ x < w, ∀ y < h, r[x * h + (h - 1 - y)]? = l[y * w + x]?) ∧
    (∃ r, rotate270 l out w h = some r ∧ r.length = h * w ∧
      ∀ x < w, ∀ y < h, r[(w - 1 - x) * h + y]? = l[y * w + x]?) := by
  have hd : l.length / w = h := by rw [hl]; exact Nat.mul_div_cancel_left _ hw
  constructor
  · unfold rotate90
    rw [if_neg (by omega)]
    refine ⟨_, rfl, by simp [ho, Nat.mul_comm], fun x hx y hy => ?_⟩
    have := scatter_spec l out w h hw hl (fun x y => x * h + (h - y - 1)) (by
      intro x hx y hy x' hx' y' hy' e
      have := rowcol_inj (by omega) (by omega) e; omega) x hx y hy (by
        rw [ho, Nat.mul_comm w h]; exact rowcol_lt (by omega) hx)
    simp only [show h - 1 - y = h - y - 1 by omega]
    exact this
  · unfold rotate270
    rw [if_neg (by omega)]
    refine ⟨_, rfl, by simp [ho, Nat.mul_comm], fun x hx y hy => ?_⟩
    have := scatter_spec l out w h hw hl (fun x y => (w - x - 1) * h + y) (by
      intro x hx y hy x' hx' y' hy' e
      have := rowcol_inj hy hy' e; omega) x hx y hy (by
        rw [ho, Nat.mul_comm w h]; exact rowcol_lt hy (by omega))
    simp only [show w - 1 - x = w - x - 1 by omega]
    exact this

/-- Rotating an 8-bit channel. -/
theorem rotateChannel_8 (a : Nat) (d : α) (l : List α) (w h : Nat) (hw : 0 < w) (hl : l.length = w * h)
    (ha : a = 90 ∨ a = 270) :
    ∃ r, rotateChannel 1 a d l w h = some r ∧ r.length = h * w ∧
      ∀ x < w, ∀ y < h, (if a = 90 then r[x * h + (h - 1 - y)]? else r[(w - 1 - x) * h + y]?) = l[y * w + x]? := by
  obtain ⟨⟨r, h1, h2, h3⟩, ⟨s, g1, g2, g3⟩⟩ := c32_quarter_turns_partial l (List.replicate (w * h / 1) d) w h hw hl (by simp)
  unfold rotateChannel
  rw [if_neg (by simp [Nat.mod_one])]
  rcases ha with rfl | rfl
  · exact ⟨r, by simpa using h1, h2, fun x hx y hy => by simpa using h3 x hx y hy⟩
  · exact ⟨s, by simpa using g1, g2, fun x hx y hy => by simpa using g3 x hx y hy⟩

/-- **C32** on 8-bit channels: a quarter turn and the opposite quarter turn are inverse, and four quarter turns are the
    identity. -/
theorem c32_group_partial (d : α) (l : List α) (w h : Nat) (hw : 0 < w) (hh : 0 < h) (hl : l.length = w * h) :
    ((rotateChannel 1 90 d l w h).bind fun r => rotateChannel 1 270 d r h w) = some l ∧
    ((rotateChannel 1 90 d l w h).bind fun r1 => (rotateChannel 1 90 d r1 h w).bind fun r2 =>
      (rotateChannel 1 90 d r2 w h).bind fun r3 => rotateChannel 1 90 d r3 h w) = some l := by
  obtain ⟨r1, e1, l1, p1⟩ := rotateChannel_8 90 d l w h hw hl (Or.inl rfl)
  obtain ⟨s, es, ls, ps⟩ := rotateChannel_8 270 d r1 h w hh l1 (Or.inr rfl)
  obtain ⟨r2, e2, l2, p2⟩ := rotateChannel_8 90 d r1 h w hh l1 (Or.inl rfl)
  obtain ⟨r3, e3, l3, p3⟩ := rotateChannel_8 90 d r2 w h hw l2 (Or.inl rfl)
  obtain ⟨r4, e4, l4, p4⟩ := rotateChannel_8 90 d r3 h w hh l3 (Or.inl rfl)
  simp only [if_true] at p1 p2 p3 p4
  simp only [show ¬ (270 = 90) by omega, if_false] at ps
  constructor
  · rw [e1, Option.bind_some, es]
    congr 1
    refine image_ext ls hl fun x hx y hy => ?_
    have := ps (h - 1 - y) (by omega) x hx
    rw [show h - 1 - (h - 1 - y) = y by omega] at this
    rw [this, p1 x hx y hy]
  · rw [e1, Option.bind_some, e2, Option.bind_some, e3, Option.bind_some, e4]
    congr 1
    refine image_ext l4 hl fun x hx y hy => ?_
    -- (x, y) -> (h-1-y, x) -> (w-1-x, h-1-y) -> (y, w-1-x) -> (x, y)
    have a1 := p1 x hx y hy
    have a2 := p2 (h - 1 - y) (by omega) x hx
    have a3 := p3 (w - 1 - x) (by omega) (h - 1 - y) (by omega)
    have a4 := p4 y (by omega) (w - 1 - x) (by omega)
    rw [show h - 1 - (h - 1 - y) = y by omega] at a3
    rw [show w - 1 - (w - 1 - x) = x by omega] at a4
    rw [a4, a3, a2, a1]

/-- A concrete image for the quarter turns. -/
example : rotateChannel 1 90 0 [1, 2, 3, 4, 5, 6] 3 2 = some [4, 1, 5, 2, 6, 3] ∧
    rotateChannel 1 270 0 [1, 2, 3, 4, 5, 6] 3 2 = some [3, 6, 2, 5, 1, 4] := by decide

/-- **C32, negation (half turn)**: "rotating" a 2x2 image by 180 degrees exchanges its rows only, and an image of odd height
    is even torn inside a row. -/
theorem c32_rotate180_wrong :
    rotateChannel 1 180 0 [1, 2, 3, 4] 2 2 = some [3, 4, 1, 2] ∧
    rotateChannel 1 180 0 [1, 2, 3, 4, 5, 6] 2 3 = some [4, 5, 3, 1, 2, 6] := by decide

/-- **C32, negation (16-bit)**: on a 16-bit image the rotated channel has half the samples; a half turn panics. -/
theorem c32_sixteen_bit_wrong :
    rotateChannel 2 90 0 [1, 2, 3, 4] 2 2 = some [3, 1] ∧ rotateChannel 2 180 0 [1, 2, 3, 4] 2 2 = none := by decide

/-- **C32**, half turn, what the code does: for even heights it is the vertical flip; it is a half turn exactly for
    single-column images. -/
theorem c32_rotate180_partial (l : List α) (w h : Nat) (hw : 0 < w) (hl : l.length = w * h) :
    (h % 2 = 0 → rotate180 l w = verticalFlip l w) ∧ (w = 1 → rotate180 l w = some (flip l)) := by
  constructor
  · intro he
    unfold rotate180 verticalFlip
    rw [if_neg (by omega), if_neg (by omega)]
    obtain ⟨n, rfl⟩ : ∃ n, h = 2 * n := ⟨h / 2, by omega⟩
    have e1 : l.length / 2 = n * w := by rw [hl, show w * (2 * n) = 2 * (n * w) by ring]; omega
    have e2 : l.length - n * w = n * w := by rw [hl, show w * (2 * n) = 2 * (n * w) by ring]; omega
    simp only [e1, e2, Nat.mul_div_cancel _ hw, Nat.min_self]
    congr 2
    apply List.map_congr_left
    rintro ⟨r, c⟩ hrc
    obtain ⟨hr, hc⟩ := (mem_grid _ _ _ _).1 hrc
    simp only [Prod.mk.injEq, true_and]
    rw [hl, len_sub_row w (2 * n) r c (by omega), show 2 * n - 1 - r = n + (n - 1 - r) by omega, Nat.add_mul]
  · rintro rfl
    unfold rotate180 flip
    rw [if_neg (by omega)]
    simp only [Nat.div_one, Nat.mul_one]
    congr 2
    unfold grid
    simp only [List.range_one, List.map_cons, List.map_nil, List.map_flatMap]
    rw [← List.map_eq_flatMap]
    apply List.map_congr_left
    intro t ht
    have := List.mem_range.1 ht
    simp only [Prod.mk.injEq]
    constructor <;> omega

/-! ### C33 -/

/-- The transposed image as a partial function on positions. -/
def Spec.transposed (l : List α) (w h k : Nat) : Option α := l[(k % h) * w + k / h]?

theorem transposed_at (l : List α) {w h x y : Nat} (hy : y < h) : Spec.transposed l w h (x * h + y) = l[y * w + x]? := by
  unfold Spec.transposed
  have h1 : (x * h + y) % h = y := by rw [Nat.add_comm, Nat.add_mul_mod_self_right, Nat.mod_eq_of_lt hy]
  have h2 : (x * h + y) / h = x := by
    rw [Nat.add_comm, Nat.add_mul_div_right _ _ (by omega), Nat.div_eq_of_lt hy]; omega
  rw [h1, h2]

theorem setAll_filterMap_spec {β : Type} (idx : List β) (l out : List α) (w h : Nat) (pos src : β → Nat)
    (hpos : ∀ b ∈ idx, Spec.transposed l w h (pos b) = l[src b]?) :
    (∀ b ∈ idx, pos b < out.length → src b < l.length →
      (setAll out (idx.filterMap fun b => (l[src b]?).map fun v => (pos b, v)))[pos b]? = l[src b]?) ∧
    (∀ k, out[k]? = Spec.transposed l w h k →
      (setAll out (idx.filterMap fun b => (l[src b]?).map fun v => (pos b, v)))[k]? = Spec.transposed l w h k) := by
  have hs := setAll_spec (idx.filterMap fun b => (l[src b]?).map fun v => (pos b, v)) out (Spec.transposed l w h) (by
    intro p hp _
    simp only [List.mem_filterMap, Option.map_eq_some_iff] at hp
    obtain ⟨b, hb, v, hv, rfl⟩ := hp
    simp only
    rw [hpos b hb, hv])
  constructor
  · intro b hb hp hsrc
    have hm : (pos b, l[src b]) ∈ idx.filterMap fun b => (l[src b]?).map fun v => (pos b, v) := by
      simp only [List.mem_filterMap, Option.map_eq_some_iff]
      exact ⟨b, hb, l[src b], List.getElem?_eq_getElem hsrc, rfl⟩
    have := hs.1 _ hm hp
    simp only at this
    rw [this, hpos b hb]
  · intro k hk
    by_cases hex : ∃ p ∈ idx.filterMap (fun b => (l[src b]?).map fun v => (pos b, v)), p.1 = k
    · obtain ⟨p, hp, rfl⟩ := hex
      by_cases hl : p.1 < out.length
      · exact hs.1 p hp hl
      · rw [List.getElem?_eq_none (by simpa using Nat.le_of_not_lt hl), ← hk,
          List.getElem?_eq_none (Nat.le_of_not_lt hl)]
    · rw [hs.2 k (fun p hp hc => hex ⟨p, hp, hc.symm⟩), hk]

/-- The scratch tile after filling. -/
theorem tile_temp (l temp : List α) (w h i j : Nat) (hl : l.length = w * h) (hi : i < h / 8) (hj : j < w / 8)
    (ht : temp.length = 64) (m k : Nat) (hm : m < 8) (hk : k < 8) :
    (setAll temp ((grid 8 8).filterMap fun (k, m) => (l[8 * i * w + j * 8 + k * w + m]?).map fun v => (m * 8 + k, v)))[m * 8 + k]?
      = l[(8 * i + k) * w + (j * 8 + m)]? := by
  have hs := setAll_spec ((grid 8 8).filterMap fun (k, m) => (l[8 * i * w + j * 8 + k * w + m]?).map fun v => (m * 8 + k, v))
    temp (fun t => l[8 * i * w + j * 8 + (t % 8) * w + t / 8]?) (by
      intro p hp _
      simp only [List.mem_filterMap, Option.map_eq_some_iff] at hp
      obtain ⟨⟨a, b⟩, hb, v, hv, rfl⟩ := hp
      obtain ⟨ha, hb⟩ := (mem_grid _ _ _ _).1 hb
      simp only at hv ⊢
      rw [← hv, show (b * 8 + a) % 8 = a by omega, show (b * 8 + a) / 8 = b by omega])
  have hsrc : 8 * i * w + j * 8 + k * w + m < l.length := by
    rw [hl, show 8 * i * w + j * 8 + k * w + m = (8 * i + k) * w + (j * 8 + m) by ring]
    exact rowcol_lt (by omega) (by omega)
  have hmem : (m * 8 + k, l[8 * i * w + j * 8 + k * w + m]) ∈
      (grid 8 8).filterMap fun (k, m) => (l[8 * i * w + j * 8 + k * w + m]?).map fun v => (m * 8 + k, v) := by
    simp only [List.mem_filterMap, Option.map_eq_some_iff]
    exact ⟨(k, m), (mem_grid _ _ _ _).2 ⟨hk, hm⟩, _, List.getElem?_eq_getElem hsrc, rfl⟩
  have := hs.1 _ hmem (by rw [ht]; simp only; omega)
  simp only at this
  rw [this, show (m * 8 + k) % 8 = k by omega, show (m * 8 + k) / 8 = m by omega]
  congr 1; ring

/-- Effect of one tile: the scratch keeps its size, positions already right stay right, the tile becomes right. -/
theorem tile_spec (l : List α) (w h i j : Nat) (st : List α × List α) (hl : l.length = w * h) (hi : i < h / 8) (hj : j < w / 8)
    (ho : st.1.length = w * h) (ht : st.2.length = 64) :
    (transposeTile l w h i j st).1.length = w * h ∧ (transposeTile l w h i j st).2.length = 64 ∧
    (∀ k, st.1[k]? = Spec.transposed l w h k → (transposeTile l w h i j st).1[k]? = Spec.transposed l w h k) ∧
    (∀ m < 8, ∀ k < 8, (transposeTile l w h i j st).1[(j * 8 + m) * h + (8 * i + k)]? =
      Spec.transposed l w h ((j * 8 + m) * h + (8 * i + k))) := by
  have hT := fun m hm k hk => tile_temp l st.2 w h i j hl hi hj ht m k hm hk
  unfold transposeTile
  simp only
  generalize htmp : setAll st.2 ((grid 8 8).filterMap fun (k, m) =>
    (l[8 * i * w + j * 8 + k * w + m]?).map fun v => (m * 8 + k, v)) = temp at hT ⊢
  have htl : temp.length = 64 := by rw [← htmp]; simp [ht]
  have hs := setAll_spec ((grid 8 8).filterMap fun (m, k) => (temp[m * 8 + k]?).map fun v => (j * h * 8 + i * 8 + m * h + k, v))
    st.1 (Spec.transposed l w h) (by
      intro p hp _
      simp only [List.mem_filterMap, Option.map_eq_some_iff] at hp
      obtain ⟨⟨m, k⟩, hmk, v, hv, rfl⟩ := hp
      obtain ⟨hm, hk⟩ := (mem_grid _ _ _ _).1 hmk
      simp only at hv ⊢
      rw [hT m hm k hk] at hv
      rw [show j * h * 8 + i * 8 + m * h + k = (j * 8 + m) * h + (8 * i + k) by ring, transposed_at l (by omega)]
      exact hv)
  refine ⟨by simp [ho], htl, fun k hk => ?_, fun m hm k hk => ?_⟩
  · by_cases hex : ∃ p ∈ (grid 8 8).filterMap (fun (m, k) => (temp[m * 8 + k]?).map fun v => (j * h * 8 + i * 8 + m * h + k, v)),
        p.1 = k
    · obtain ⟨p, hp, rfl⟩ := hex
      by_cases hlt : p.1 < st.1.length
      · exact hs.1 p hp hlt
      · rw [List.getElem?_eq_none (by simpa using Nat.le_of_not_lt hlt), ← hk,
          List.getElem?_eq_none (Nat.le_of_not_lt hlt)]
    · rw [hs.2 k (fun p hp hc => hex ⟨p, hp, hc.symm⟩), hk]
  · have hlt : m * 8 + k < temp.length := by rw [htl]; omega
    have hmem : (j * h * 8 + i * 8 + m * h + k, temp[m * 8 + k]) ∈
        (grid 8 8).filterMap fun (m, k) => (temp[m * 8 + k]?).map fun v => (j * h * 8 + i * 8 + m * h + k, v) := by
      simp only [List.mem_filterMap, Option.map_eq_some_iff]
      exact ⟨(m, k), (mem_grid _ _ _ _).2 ⟨hm, hk⟩, _, List.getElem?_eq_getElem hlt, rfl⟩
    have hb : j * h * 8 + i * 8 + m * h + k < st.1.length := by
      rw [ho, show j * h * 8 + i * 8 + m * h + k = (j * 8 + m) * h + (8 * i + k) by ring, Nat.mul_comm w h]
      exact rowcol_lt (by omega) (by omega)
    have := hs.1 _ hmem hb
    simp only at this
    rw [show j * h * 8 + i * 8 + m * h + k = (j * 8 + m) * h + (8 * i + k) by ring] at this
    exact this

theorem tiles_spec (l : List α) (w h : Nat) (hl : l.length = w * h) (ij : List (Nat × Nat))
    (hij : ∀ p ∈ ij, p.1 < h / 8 ∧ p.2 < w / 8) (st : List α × List α) (ho : st.1.length = w * h) (ht : st.2.length = 64) :
    (ij.foldl (fun st (i, j) => transposeTile l w h i j st) st).1.length = w * h ∧
    (∀ k, st.1[k]? = Spec.transposed l w h k →
      (ij.foldl (fun st (i, j) => transposeTile l w h i j st) st).1[k]? = Spec.transposed l w h k) ∧
    (∀ p ∈ ij, ∀ m < 8, ∀ k < 8, (ij.foldl (fun st (i, j) => transposeTile l w h i j st) st).1[(p.2 * 8 + m) * h + (8 * p.1 + k)]? =
      Spec.transposed l w h ((p.2 * 8 + m) * h + (8 * p.1 + k))) := by
  induction ij generalizing st with
  | nil => exact ⟨ho, fun k hk => hk, by simp⟩
  | cons p ps ih =>
    obtain ⟨hi, hj⟩ := hij p (by simp)
    obtain ⟨a1, a2, a3, a4⟩ := tile_spec l w h p.1 p.2 st hl hi hj ho ht
    obtain ⟨b1, b2, b3⟩ := ih (fun q hq => hij q (by simp [hq])) (transposeTile l w h p.1 p.2 st) a1 a2
    simp only [List.foldl_cons]
    refine ⟨b1, fun k hk => b2 k (a3 k hk), fun q hq m hm k hk => ?_⟩
    rcases List.mem_cons.1 hq with rfl | hq
    · exact b2 _ (a4 m hm k hk)
    · exact b3 q hq m hm k hk

/-- **C33** for images at least 8 pixels wide and high: the scalar transpose moves pixel `(x,y)` to `(y,x)`, in debug and
    release builds.  Smaller images: see `c33_small_images_wrong`. -/
theorem c33_transpose_partial (checks : Bool) (d : α) (l out : List α) (w h : Nat) (hw : 8 ≤ w) (hh : 8 ≤ h)
    (hl : l.length = w * h) (ho : out.length = w * h) :
    ∃ r, transposeScalar checks d l out w h = some r ∧ r.length = h * w ∧
      ∀ x < w, ∀ y < h, r[x * h + y]? = l[y * w + x]? := by
  have rw' : remRange w = some (w - w % 8 - 1) := by unfold remRange; rw [if_neg (by omega)]
  have rh' : remRange h = some (h - h % 8 - 1) := by unfold remRange; rw [if_neg (by omega)]
  unfold transposeScalar
  rw [if_neg (by omega)]
  have hd : l.length / (8 * w) = h / 8 := by
    rw [hl, Nat.mul_comm 8 w, Nat.mul_div_mul_left _ _ (by omega)]
  obtain ⟨t1, t2, t3⟩ := tiles_spec l w h hl (grid (l.length / (8 * w)) (w / 8))
    (by rintro ⟨i, j⟩ hp; obtain ⟨a, b⟩ := (mem_grid _ _ _ _).1 hp; exact ⟨by simp only; omega, b⟩)
    (out, List.replicate 64 d) ho (by simp)
  simp only at t1 t2 t3
  rcases hfold : (grid (l.length / (8 * w)) (w / 8)).foldl (fun st (i, j) => transposeTile l w h i j st)
    (out, List.replicate 64 d) with ⟨o1, tmp⟩
  rw [hfold] at t1 t2 t3
  simp only at hfold
  simp only [rw', rh', hfold] at t1 t2 t3 ⊢
  rw [if_neg (by simp)]
  refine ⟨_, rfl, by simp [t1, Nat.mul_comm], fun x hx y hy => ?_⟩
  -- rows
  have R := setAll_filterMap_spec (grid (h - (h - h % 8 - 1)) w) l o1 w h
    (fun p => p.2 * h + (h - h % 8 - 1 + p.1)) (fun p => (h - h % 8 - 1 + p.1) * w + p.2) (by
      rintro ⟨i, j⟩ hp
      obtain ⟨a, b⟩ := (mem_grid _ _ _ _).1 hp
      exact transposed_at l (by simp only; omega))
  have Cc := setAll_filterMap_spec (grid (w - (w - w % 8 - 1)) h) l
    (setAll o1 ((grid (h - (h - h % 8 - 1)) w).filterMap fun (i, j) =>
      (l[(h - h % 8 - 1 + i) * w + j]?).map fun v => (j * h + (h - h % 8 - 1 + i), v))) w h
    (fun p => (w - w % 8 - 1 + p.1) * h + p.2) (fun p => p.2 * w + (w - w % 8 - 1 + p.1)) (by
      rintro ⟨i, j⟩ hp
      obtain ⟨a, b⟩ := (mem_grid _ _ _ _).1 hp
      exact transposed_at l b)
  have hlt : y * w + x < l.length := by rw [hl]; exact rowcol_lt hx hy
  by_cases hcol : w - w % 8 - 1 ≤ x
  · have := Cc.1 (x - (w - w % 8 - 1), y) ((mem_grid _ _ _ _).2 ⟨by omega, hy⟩)
      (by simp only [setAll_length, t1]
          rw [show w - w % 8 - 1 + (x - (w - w % 8 - 1)) = x by omega, Nat.mul_comm w h]
          exact rowcol_lt hy hx)
      (by simp only; rw [show w - w % 8 - 1 + (x - (w - w % 8 - 1)) = x by omega]; exact hlt)
    simp only [show w - w % 8 - 1 + (x - (w - w % 8 - 1)) = x by omega] at this
    exact this
  · have key : (setAll o1 ((grid (h - (h - h % 8 - 1)) w).filterMap fun (i, j) =>
      (l[(h - h % 8 - 1 + i) * w + j]?).map fun v => (j * h + (h - h % 8 - 1 + i), v)))[x * h + y]? =
        Spec.transposed l w h (x * h + y) := by
      by_cases hrow : h - h % 8 - 1 ≤ y
      · have := R.1 (y - (h - h % 8 - 1), x) ((mem_grid _ _ _ _).2 ⟨by omega, hx⟩)
          (by simp only [t1]
              rw [show h - h % 8 - 1 + (y - (h - h % 8 - 1)) = y by omega, Nat.mul_comm w h]
              exact rowcol_lt hy hx)
          (by simp only; rw [show h - h % 8 - 1 + (y - (h - h % 8 - 1)) = y by omega]; exact hlt)
        simp only [show h - h % 8 - 1 + (y - (h - h % 8 - 1)) = y by omega] at this
        rw [transposed_at l hy]
        exact this
      · apply R.2
        have := t3 (y / 8, x / 8) ((mem_grid _ _ _ _).2 ⟨by omega, by omega⟩) (x % 8) (by omega) (y % 8) (by omega)
        simp only [show x / 8 * 8 + x % 8 = x by omega, show 8 * (y / 8) + y % 8 = y by omega] at this
        exact this
    have := Cc.2 _ key
    rw [transposed_at l hy] at this
    exact this

/-- **C33**: transposing twice is the identity (images of at least 8 by 8 pixels). -/
theorem c33_transpose_twice_partial (checks : Bool) (d : α) (l out out2 : List α) (w h : Nat) (hw : 8 ≤ w) (hh : 8 ≤ h)
    (hl : l.length = w * h) (ho : out.length = w * h) (ho2 : out2.length = h * w) :
    ((transposeScalar checks d l out w h).bind fun r => transposeScalar checks d r out2 h w) = some l := by
  obtain ⟨r, e1, l1, p1⟩ := c33_transpose_partial checks d l out w h hw hh hl ho
  obtain ⟨s, e2, l2, p2⟩ := c33_transpose_partial checks d r out2 h w hh hw l1 ho2
  rw [e1, Option.bind_some, e2]
  congr 1
  refine image_ext l2 hl fun x hx y hy => ?_
  rw [p2 y hy x hx, p1 x hx y hy]

/-- A concrete 9x8 image satisfies the hypotheses and its last row and column are moved. -/
example : ∃ r, transposeScalar true 0 (List.range 72) (List.replicate 72 0) 9 8 = some r ∧ r[8 * 8 + 7]? = some 71 := by
  obtain ⟨r, h1, _, h2⟩ := c33_transpose_partial true 0 (List.range 72) (List.replicate 72 0) 9 8 (by omega) (by omega)
    (by simp) (by simp)
  exact ⟨r, h1, by rw [h2 8 (by omega) 7 (by omega)]; decide⟩

/-- **C33, negation**: a 2x3 image panics in debug builds and is left untransposed (all zero) in release builds; a 9x1 image
    loses all but its last two pixels in release builds. -/
theorem c33_small_images_wrong :
    transposeScalar true 0 [1, 2, 3, 4, 5, 6] (List.replicate 6 0) 2 3 = none ∧
    transposeScalar false 0 [1, 2, 3, 4, 5, 6] (List.replicate 6 0) 2 3 = some [0, 0, 0, 0, 0, 0] ∧
    transposeScalar false 0 [1, 2, 3, 4, 5, 6, 7, 8, 9] (List.replicate 9 0) 9 1 = some [0, 0, 0, 0, 0, 0, 0, 8, 9] := by
  decide

/-! ### C34 -/

/-- **C34**: cropping to a window inside the image returns exactly the pixels of the window. -/
theorem c34_crop (d : α) (l : List α) (iw ih ow oh x y : Nat) (hl : l.length = iw * ih) (hx : x + ow ≤ iw)
    (hy : y + oh ≤ ih) :
    (cropChannel d l iw ow oh x y).length = ow * oh ∧
    ∀ c < ow, ∀ r < oh, (cropChannel d l iw ow oh x y)[r * ow + c]? = l[(y + r) * iw + (x + c)]? := by
  unfold cropChannel crop
  by_cases hz : iw = 0 ∨ ow = 0
  · rw [if_pos hz]
    refine ⟨by simp, fun c hc r hr => by omega⟩
  rw [if_neg hz, if_pos hx]
  refine ⟨by simp, fun c hc r hr => ?_⟩
  have hd : l.length / iw = ih := by rw [hl]; exact Nat.mul_div_cancel_left _ (by omega)
  have hd2 : (List.replicate (ow * oh) d).length / ow = oh := by
    rw [List.length_replicate]; exact Nat.mul_div_cancel_left _ (by omega)
  have hrows : min (min (l.length / iw - y) oh) ((List.replicate (ow * oh) d).length / ow) = oh := by
    rw [hd, hd2]; omega
  simp only [hrows]
  have hs := setAll_spec ((grid oh ow).filterMap fun (r, c) => (l[(y + r) * iw + (x + c)]?).map fun v => (r * ow + c, v))
    (List.replicate (ow * oh) d) (fun k => l[(y + k / ow) * iw + (x + k % ow)]?) (by
      intro p hp _
      simp only [List.mem_filterMap, Option.map_eq_some_iff] at hp
      obtain ⟨⟨a, b⟩, hab, v, hv, rfl⟩ := hp
      obtain ⟨ha, hb⟩ := (mem_grid _ _ _ _).1 hab
      simp only at hv ⊢
      have e1 : (a * ow + b) / ow = a := by
        rw [Nat.add_comm, Nat.add_mul_div_right _ _ (by omega), Nat.div_eq_of_lt hb]; omega
      have e2 : (a * ow + b) % ow = b := by rw [Nat.add_comm, Nat.add_mul_mod_self_right, Nat.mod_eq_of_lt hb]
      rw [e1, e2, hv])
  have hlt : (y + r) * iw + (x + c) < l.length := by rw [hl]; exact rowcol_lt (by omega) (by omega)
  have hmem : (r * ow + c, l[(y + r) * iw + (x + c)]) ∈
      (grid oh ow).filterMap fun (r, c) => (l[(y + r) * iw + (x + c)]?).map fun v => (r * ow + c, v) := by
    simp only [List.mem_filterMap, Option.map_eq_some_iff]
    exact ⟨(r, c), (mem_grid _ _ _ _).2 ⟨hr, hc⟩, _, List.getElem?_eq_getElem hlt, rfl⟩
  have := hs.1 _ hmem (by rw [List.length_replicate]; exact rowcol_lt hc hr)
  simp only at this
  rw [this]
  have e1 : (r * ow + c) / ow = r := by
    rw [Nat.add_comm, Nat.add_mul_div_right _ _ (by omega), Nat.div_eq_of_lt hc]; omega
  have e2 : (r * ow + c) % ow = c := by rw [Nat.add_comm, Nat.add_mul_mod_self_right, Nat.mod_eq_of_lt hc]
  rw [e1, e2]

example : cropChannel 0 [1, 2, 3, 4, 5, 6, 7, 8, 9] 3 2 2 1 1 = [5, 6, 8, 9] := by decide

end Zune.Imageprocs
