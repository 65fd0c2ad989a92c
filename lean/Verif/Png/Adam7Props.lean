/- PNG Adam7 interlacing: the passes partition the picture and are reassembled into it. -/
import Verif.Png.Adam7
import Verif.Common.Loops

namespace Zune.Png

/-! ### The passes -/

theorem filter_mod (s o : Nat) (ho : o < s) (w : Nat) :
    (List.range w).filter (fun x => x % s = o) = (List.range ((w - o + s - 1) / s)).map fun i => i * s + o := by
  have hs : 0 < s := by omega
  induction w with
  | zero => rw [Nat.zero_sub, Nat.zero_add, Nat.div_eq_of_lt (by omega)]; rfl
  | succ w ih =>
    rw [List.range_succ, List.filter_append, ih]
    by_cases h : w % s = o
    · have hw : w = w / s * s + o := by rw [← h, Nat.mul_comm, Nat.div_add_mod]
      have e1 : (w - o + s - 1) / s = w / s := by
        rw [show w - o + s - 1 = (s - 1) + w / s * s by omega, Nat.add_mul_div_right _ _ hs, Nat.div_eq_of_lt (by omega), Nat.zero_add]
      have e2 : (w + 1 - o + s - 1) / s = w / s + 1 := by
        rw [show w + 1 - o + s - 1 = 0 + (w / s + 1) * s by rw [Nat.add_mul]; omega, Nat.add_mul_div_right _ _ hs, Nat.zero_div, Nat.zero_add]
      rw [e1, e2, List.range_succ, List.map_append]
      simp only [List.filter_cons, h, decide_true, if_true, List.filter_nil, List.map_cons, List.map_nil]
      rw [← hw]
    · rw [show ([w].filter fun x => x % s = o) = [] by simp [h], List.append_nil]
      congr 2
      rcases Nat.lt_or_ge w o with hlt | hge
      · rw [show w - o = 0 by omega, show w + 1 - o = 0 by omega]
      · have hr : 0 < (w - o) % s := by
          rcases Nat.eq_zero_or_pos ((w - o) % s) with h0 | h0
          · exfalso; apply h
            have := Nat.div_add_mod (w - o) s
            rw [show w = o + s * ((w - o) / s) by omega, Nat.add_mul_mod_self_left, Nat.mod_eq_of_lt ho]
          · exact h0
        have hd := Nat.div_add_mod (w - o) s
        have hlt := Nat.mod_lt (w - o) hs
        have hc := Nat.mul_comm s ((w - o) / s)
        have e1 : (w - o + s - 1) / s = (w - o) / s + 1 := by
          rw [show w - o + s - 1 = ((w - o) % s - 1) + ((w - o) / s + 1) * s by rw [Nat.add_mul]; omega,
            Nat.add_mul_div_right _ _ hs, Nat.div_eq_of_lt (by omega), Nat.zero_add]
        have e2 : (w + 1 - o + s - 1) / s = (w - o) / s + 1 := by
          rw [show w + 1 - o + s - 1 = ((w - o) % s) + ((w - o) / s + 1) * s by rw [Nat.add_mul]; omega,
            Nat.add_mul_div_right _ _ hs, Nat.div_eq_of_lt hlt, Nat.zero_add]
        rw [e1, e2]

/-- The pattern of RFC 2083 and the tables of the source agree. -/
theorem passOf_iff (n : Nat) (p : Pass) (h : (n, p) ∈ (List.range' 1 7).zip adam7) (y x : Nat) :
    Spec.passOf y x = n ↔ y % p.ys = p.yo ∧ x % p.xs = p.xo := by
  have key : ∀ q ∈ (List.range' 1 7).zip adam7, ∀ a < 8, ∀ b < 8,
      ((Spec.pattern.getD a []).getD b 0 = q.1 ↔ a % q.2.ys = q.2.yo ∧ b % q.2.xs = q.2.xo) ∧ q.2.ys ∣ 8 ∧ q.2.xs ∣ 8 := by decide
  obtain ⟨h1, h2, h3⟩ := key (n, p) h (y % 8) (Nat.mod_lt _ (by decide)) (x % 8) (Nat.mod_lt _ (by decide))
  rw [Nat.mod_mod_of_dvd _ h2, Nat.mod_mod_of_dvd _ h3] at h1
  exact h1

/-- The origin lies inside the spacing. -/
theorem pass_bounds : ∀ p ∈ adam7, p.xo < p.xs ∧ p.yo < p.ys := by decide

theorem columns_eq (n : Nat) (p : Pass) (h : (n, p) ∈ (List.range' 1 7).zip adam7) (w y : Nat) :
    Spec.columns n w y = if y % p.ys = p.yo then (List.range (p.width w)).map fun i => i * p.xs + p.xo else [] := by
  have hp : p ∈ adam7 := (List.of_mem_zip h).2
  unfold Spec.columns
  split
  · rename_i hy
    rw [Pass.width, ← filter_mod _ _ (pass_bounds p hp).1]
    apply List.filter_congr
    intro x _
    rw [decide_eq_decide, passOf_iff n p h]
    exact ⟨fun h => h.2, fun h => ⟨hy, h⟩⟩
  · rename_i hy
    rw [List.filter_eq_nil_iff]
    intro x _
    rw [decide_eq_true_eq, passOf_iff n p h]
    exact fun h => hy h.1

theorem lines_eq (n : Nat) (p : Pass) (h : (n, p) ∈ (List.range' 1 7).zip adam7) (w hh : Nat) :
    Spec.lines n w hh = if p.width w = 0 then [] else (List.range (p.height hh)).map fun j => j * p.ys + p.yo := by
  have hp : p ∈ adam7 := (List.of_mem_zip h).2
  unfold Spec.lines
  split
  · rename_i h0
    rw [List.filter_eq_nil_iff]
    intro y _
    rw [decide_eq_true_eq, columns_eq n p h, h0]
    simp
  · rename_i h0
    rw [Pass.height, ← filter_mod _ _ (pass_bounds p hp).2]
    apply List.filter_congr
    intro y _
    rw [decide_eq_decide, columns_eq n p h]
    split
    · rename_i hy
      simp only [hy, iff_true]
      intro h
      rw [List.map_eq_nil_iff, List.range_eq_nil] at h
      exact h0 h
    · rename_i hy; simp [hy]

/-! ### Buffers as blocks of `k` bytes -/

theorem flatten_block_length (k : Nat) (bs : List (List UInt8)) (h : ∀ b ∈ bs, b.length = k) : bs.flatten.length = bs.length * k := by
  induction bs with
  | nil => simp
  | cons b bs ih => rw [List.flatten_cons, List.length_append, h b (by simp), ih fun b hb => h b (by simp [hb]), List.length_cons]; ring

theorem block_get (k : Nat) (bs : List (List UInt8)) (h : ∀ b ∈ bs, b.length = k) (i : Nat) (hi : i < bs.length) (rest : List UInt8) :
    ((bs.flatten ++ rest).drop (i * k)).take k = bs[i] := by
  induction bs generalizing i with
  | nil => simp at hi
  | cons b bs ih =>
    have hb := h b (by simp)
    cases i with
    | zero =>
      simp only [List.flatten_cons, Nat.zero_mul, List.drop_zero, List.append_assoc]
      rw [List.take_left' hb]; rfl
    | succ i =>
      have e : (i + 1) * k = b.length + i * k := by rw [hb]; ring
      rw [e, List.flatten_cons, List.append_assoc, ← List.drop_drop, List.drop_left]
      exact ih (fun b hb => h b (by simp [hb])) i (by simpa using hi)

theorem patch_block (k : Nat) (bs : List (List UInt8)) (h : ∀ b ∈ bs, b.length = k) (i : Nat) (hi : i < bs.length) (v : List UInt8)
    (hv : v.length = k) : patch bs.flatten (i * k) v = (bs.set i v).flatten := by
  have hlen := flatten_block_length k bs h
  have hle : i * k + k ≤ bs.flatten.length := by
    rw [hlen]
    calc i * k + k = (i + 1) * k := by ring
      _ ≤ _ := Nat.mul_le_mul_right _ hi
  unfold patch
  rw [hv, if_pos hle]
  clear hle hlen
  induction bs generalizing i with
  | nil => simp at hi
  | cons b bs ih =>
    have hb := h b (by simp)
    cases i with
    | zero => simp [hb]
    | succ i =>
      have e : (i + 1) * k = b.length + i * k := by rw [hb]; ring
      have hI := ih (fun b hb => h b (by simp [hb])) i (by simpa using hi)
      rw [e, List.flatten_cons, List.set_cons_succ, List.flatten_cons, ← hI, List.take_length_add_append, Nat.add_assoc,
        ← List.drop_drop, List.drop_left]
      simp [List.append_assoc]

theorem set_each (k : Nat) (bs : List (List UInt8)) (h : ∀ b ∈ bs, b.length = k) (i : Nat) (v : List UInt8) (hv : v.length = k) :
    ∀ b ∈ bs.set i v, b.length = k := by
  intro b hb
  rcases List.mem_or_eq_of_mem_set hb with h' | h'
  · exact h b h'
  · rw [h', hv]

theorem patch_all (k : Nat) (ws : List (Nat × List UInt8)) (bs : List (List UInt8)) (h : ∀ b ∈ bs, b.length = k)
    (hw : ∀ p ∈ ws, p.1 < bs.length ∧ p.2.length = k) :
    ws.foldl (fun out p => patch out (p.1 * k) p.2) bs.flatten = (setAll bs ws).flatten ∧ ∀ b ∈ setAll bs ws, b.length = k := by
  induction ws generalizing bs with
  | nil => exact ⟨rfl, h⟩
  | cons p ws ih =>
    obtain ⟨h1, h2⟩ := hw p (by simp)
    rw [List.foldl_cons, patch_block k bs h p.1 h1 p.2 h2]
    exact ih (bs.set p.1 p.2) (set_each k bs h p.1 p.2 h2) fun q hq => by
      rw [List.length_set]; exact hw q (by simp [hq])

/-! ### Pixel sizes -/

theorem samples_flat (d : Nat) (s : List Nat) : (s.flatMap (Spec.sampleBytes d)).length = s.length * (if d = 16 then 2 else 1) := by
  apply flatMap_length_const
  intro a _
  unfold Spec.sampleBytes
  split <;> rfl

/-- Bytes of an output pixel. -/
theorem pixel_length (c : Ctx) (hw : c.Wf) (s : List Nat) (hs : s.length = c.color.comps) :
    (Spec.pixel c.color c.depth (c.plte.getD []) c.trns (c.wantAlpha || c.trns.isSome) s).length = c.outComps * c.bytes := by
  have hp := hw.pal16
  unfold Spec.pixel Ctx.outComps Ctx.bytes
  cases hc : c.color with
  | palette =>
    rw [if_neg (hp hc)]
    cases c.wantAlpha <;> cases c.trns <;> rfl
  | luma =>
    rw [hc] at hs
    simp only [List.length_append, samples_flat, hs, Color.comps]
    cases c.wantAlpha <;> cases c.trns <;> simp [Spec.alphaBytes] <;> split <;> rfl
  | rgb =>
    rw [hc] at hs
    simp only [List.length_append, samples_flat, hs, Color.comps]
    cases c.wantAlpha <;> cases c.trns <;> simp [Spec.alphaBytes] <;> split <;> rfl
  | lumaA =>
    rw [hc] at hs
    simp only [samples_flat, hs, Color.comps]
    cases c.wantAlpha <;> cases c.trns <;> simp
  | rgba =>
    rw [hc] at hs
    simp only [samples_flat, hs, Color.comps]
    cases c.wantAlpha <;> cases c.trns <;> simp

/-! ### Placing a pass -/

/-- The output pixel of samples `s`. -/
abbrev Ctx.px (c : Ctx) (s : List Nat) : List UInt8 :=
  Spec.pixel c.color c.depth (c.plte.getD []) c.trns (c.wantAlpha || c.trns.isSome) s

/-- Block number and contents of every store of a pass. -/
def writes (c : Ctx) (p : Pass) (w x y : Nat) (pix : Nat → Nat → List Nat) : List (Nat × List UInt8) :=
  (grid y x).map fun q => ((q.1 * p.ys + p.yo) * w + (q.2 * p.xs + p.xo), c.px (pix (q.1 * p.ys + p.yo) (q.2 * p.xs + p.xo)))

theorem grid_length (y x : Nat) : (grid y x).length = y * x := by
  induction y with
  | zero => simp [grid]
  | succ y ih =>
    simp only [grid, List.range_succ, List.flatMap_append, List.length_append] at ih ⊢
    simp only [ih, List.flatMap_cons, List.flatMap_nil, List.append_nil, List.length_map, List.length_range]; ring

theorem grid_get (y x j i : Nat) (hj : j < y) (hi : i < x) : (grid y x)[j * x + i]? = some (j, i) := by
  induction y generalizing j with
  | zero => omega
  | succ y ih =>
    have e : grid (y + 1) x = grid y x ++ (List.range x).map fun i => (y, i) := by
      simp [grid, List.range_succ]
    rw [e]
    rcases Nat.lt_or_ge j y with h | h
    · rw [List.getElem?_append_left]
      · exact ih j h
      · rw [grid_length]
        calc j * x + i < j * x + x := by omega
          _ = (j + 1) * x := by ring
          _ ≤ y * x := Nat.mul_le_mul_right _ h
    · have : j = y := by omega
      subst this
      rw [List.getElem?_append_right (by rw [grid_length]; omega), grid_length, Nat.add_sub_cancel_left, List.getElem?_map,
        List.getElem?_range hi]
      rfl

theorem place_spec (c : Ctx) (p : Pass) (w x y : Nat) (pix : Nat → Nat → List Nat)
    (hpix : ∀ j < y, ∀ i < x, (c.px (pix (j * p.ys + p.yo) (i * p.xs + p.xo))).length = c.outComps * c.bytes) (rest : List UInt8)
    (bs : List (List UInt8)) (hb : ∀ b ∈ bs, b.length = c.outComps * c.bytes)
    (hin : ∀ j < y, ∀ i < x, (j * p.ys + p.yo) * w + (i * p.xs + p.xo) < bs.length) :
    place p w (c.outComps * c.bytes) x y
      (((grid y x).flatMap fun q => c.px (pix (q.1 * p.ys + p.yo) (q.2 * p.xs + p.xo))) ++ rest) bs.flatten =
      (setAll bs (writes c p w x y pix)).flatten ∧ ∀ b ∈ setAll bs (writes c p w x y pix), b.length = c.outComps * c.bytes := by
  set k := c.outComps * c.bytes with hk
  have hw : ∀ q ∈ writes c p w x y pix, q.1 < bs.length ∧ q.2.length = k := by
    intro q hq
    simp only [writes, List.mem_map] at hq
    obtain ⟨⟨j, i⟩, hm, rfl⟩ := hq
    rw [mem_grid] at hm
    exact ⟨hin j hm.1 i hm.2, hpix j hm.1 i hm.2⟩
  obtain ⟨h1, h2⟩ := patch_all k (writes c p w x y pix) bs hb hw
  refine ⟨?_, h2⟩
  rw [← h1, writes, List.foldl_map, grid, List.foldl_flatMap, place]
  have aux : ∀ {α : Type} (l : List α) (f g : List UInt8 → α → List UInt8) (o : List UInt8), (∀ o, ∀ a ∈ l, f o a = g o a) →
      l.foldl f o = l.foldl g o := by
    intro α l
    induction l with
    | nil => intros; rfl
    | cons a l ih =>
      intro f g o h
      rw [List.foldl_cons, List.foldl_cons, h o a (by simp)]
      exact ih f g _ fun o b hb => h o b (by simp [hb])
  refine aux _ _ _ _ ?_
  intro o j hj
  rw [List.foldl_map]
  refine aux _ _ _ _ ?_
  intro o i hi
  rw [List.mem_range] at hi hj
  have hblock : (((((List.range y).flatMap fun j => (List.range x).map fun i => (j, i)).flatMap
      fun q => c.px (pix (q.1 * p.ys + p.yo) (q.2 * p.xs + p.xo))) ++ rest).drop ((j * x + i) * k)).take k =
      c.px (pix (j * p.ys + p.yo) (i * p.xs + p.xo)) := by
    have hlt : j * x + i < (grid y x).length := by
      rw [grid_length]
      calc j * x + i < j * x + x := by omega
        _ = (j + 1) * x := by ring
        _ ≤ y * x := Nat.mul_le_mul_right _ hj
    rw [List.flatMap_def]
    rw [block_get k _ (by
      intro b hb
      simp only [List.mem_map] at hb
      obtain ⟨⟨j, i⟩, hm, rfl⟩ := hb
      have hm : (j, i) ∈ grid y x := hm
      rw [mem_grid] at hm
      exact hpix j hm.1 i hm.2) (j * x + i) (by rw [List.length_map]; exact hlt)]
    rw [List.getElem_map]
    have hg := grid_get y x j i hj hi
    rw [List.getElem?_eq_getElem hlt] at hg
    have hg : (grid y x)[j * x + i] = (j, i) := Option.some.inj hg
    show c.px (pix ((grid y x)[j * x + i].1 * p.ys + p.yo) ((grid y x)[j * x + i].2 * p.xs + p.xo)) = _
    rw [hg]
  rw [hblock]
  congr 1
  rw [hk]; ring

/-! ### All passes -/

theorem pass_cols (p : Pass) (hp : p ∈ adam7) (w : Nat) :
    (List.range w).filter (fun x => x % p.xs = p.xo) = (List.range (p.width w)).map fun i => i * p.xs + p.xo :=
  filter_mod _ _ (pass_bounds p hp).1 w

theorem pass_rows (p : Pass) (hp : p ∈ adam7) (h : Nat) :
    (List.range h).filter (fun y => y % p.ys = p.yo) = (List.range (p.height h)).map fun j => j * p.ys + p.yo :=
  filter_mod _ _ (pass_bounds p hp).2 h

theorem pass_size (p : Pass) (hp : p ∈ adam7) (w h : Nat) : p.width w ≤ w ∧ p.height h ≤ h := by
  have h1 := congrArg List.length (pass_cols p hp w)
  have h2 := congrArg List.length (pass_rows p hp h)
  have h3 := List.length_filter_le (fun x => x % p.xs = p.xo) (List.range w)
  have h4 := List.length_filter_le (fun x => x % p.ys = p.yo) (List.range h)
  rw [List.length_map, List.length_range] at h1 h2
  rw [List.length_range] at h3 h4
  omega

theorem pass_in (p : Pass) (hp : p ∈ adam7) (w h j i : Nat) (hj : j < p.height h) (hi : i < p.width w) :
    j * p.ys + p.yo < h ∧ i * p.xs + p.xo < w := by
  have h1 : i * p.xs + p.xo ∈ (List.range w).filter (fun x => x % p.xs = p.xo) := by
    rw [pass_cols p hp]; exact List.mem_map.mpr ⟨i, List.mem_range.mpr hi, rfl⟩
  have h2 : j * p.ys + p.yo ∈ (List.range h).filter (fun x => x % p.ys = p.yo) := by
    rw [pass_rows p hp]; exact List.mem_map.mpr ⟨j, List.mem_range.mpr hj, rfl⟩
  rw [List.mem_filter, List.mem_range] at h1 h2
  exact ⟨h2.1, h1.1⟩

namespace Spec

/-- `rows` (with a filter type each) are the scanlines of pass `n` of the picture with the given samples. -/
def passRows (c : Ctx) (w h n : Nat) (pix : Nat → Nat → List Nat) (rows : List (Nat × List UInt8)) : Prop :=
  List.Forall₂ (fun y r => r.1 ≤ 4 ∧ holds c r.2 (columns n w y).length fun i => pix y ((columns n w y).getD i 0)) (lines n w h) rows

/-- The output picture. -/
def picture (c : Ctx) (w h : Nat) (pix : Nat → Nat → List Nat) : List UInt8 :=
  (List.range h).flatMap fun y => (List.range w).flatMap fun x =>
    pixel c.color c.depth (c.plte.getD []) c.trns (c.wantAlpha || c.trns.isSome) (pix y x)

end Spec

theorem passRows_spec (c : Ctx) (w h n : Nat) (p : Pass) (hn : (n, p) ∈ (List.range' 1 7).zip adam7) (pix : Nat → Nat → List Nat)
    (rows : List (Nat × List UInt8)) (hr : Spec.passRows c w h n pix rows) :
    (p.width w = 0 ∨ p.height h = 0 → rows = []) ∧
    (p.width w ≠ 0 → rows.length = p.height h ∧ ∀ j (hj : j < rows.length), (rows[j]).1 ≤ 4 ∧
      Spec.holds c (rows[j]).2 (p.width w) fun i => if i < p.width w then pix (j * p.ys + p.yo) (i * p.xs + p.xo) else pix (j * p.ys + p.yo) 0) := by
  unfold Spec.passRows at hr
  have hlen := hr.length_eq
  rw [lines_eq n p hn] at hlen hr
  constructor
  · intro h0
    rcases h0 with h0 | h0
    · rw [if_pos h0] at hlen; exact List.length_eq_zero_iff.mp hlen.symm
    · rw [h0] at hlen
      simp only [List.range_zero, List.map_nil, ite_self, List.length_nil] at hlen
      exact List.length_eq_zero_iff.mp hlen.symm
  · intro h0
    rw [if_neg h0] at hlen hr
    rw [List.length_map, List.length_range] at hlen
    refine ⟨hlen.symm, ?_⟩
    intro j hj
    have := List.forall₂_iff_get.mp hr
    have h2 := this.2 j (by rw [List.length_map, List.length_range]; omega) hj
    simp only [List.get_eq_getElem, List.getElem_map, List.getElem_range] at h2
    have hcol : Spec.columns n w (j * p.ys + p.yo) = (List.range (p.width w)).map fun i => i * p.xs + p.xo := by
      rw [columns_eq n p hn, if_pos]
      rw [Nat.add_comm, Nat.add_mul_mod_self_right, Nat.mod_eq_of_lt (pass_bounds p (List.of_mem_zip hn).2).2]
    rw [hcol, List.length_map, List.length_range] at h2
    refine ⟨h2.1, ?_⟩
    have he : (fun i => pix (j * p.ys + p.yo) (((List.range (p.width w)).map fun i => i * p.xs + p.xo).getD i 0)) =
        fun i => if i < p.width w then pix (j * p.ys + p.yo) (i * p.xs + p.xo) else pix (j * p.ys + p.yo) 0 := by
      funext i
      split
      · rename_i hi; simp [List.getD_eq_getElem?_getD, List.getElem?_range hi]
      · rename_i hi
        rw [List.getD_eq_getElem?_getD, List.getElem?_eq_none (by simpa using hi)]; rfl
    rw [← he]
    exact h2.2

theorem passLoop_spec (c : Ctx) (hw : c.Wf) (hk : c.KeyOk) (ha : c.AlphaFine) (w h : Nat) (pix : Nat → Nat → List Nat)
    (hpix : ∀ y x, (pix y x).length = c.color.comps)
    (rows : Nat → List (Nat × List UInt8)) (tail : List UInt8) :
    ∀ (l : List (Nat × Pass)), (∀ q ∈ l, q ∈ (List.range' 1 7).zip adam7) → (∀ q ∈ l, Spec.passRows c w h q.1 pix (rows q.1)) →
    ∀ (scratch fin : List UInt8) (bs : List (List UInt8)), fin.length = w * h * c.outComps * c.bytes →
      (∀ b ∈ bs, b.length = c.outComps * c.bytes) → bs.length = w * h →
      passLoop c w h (l.map Prod.snd) ((l.flatMap fun q => Spec.stream c.bpp [] (rows q.1)) ++ tail) scratch fin bs.flatten =
        .ok (setAll bs (l.flatMap fun q => writes c q.2 w (q.2.width w) (q.2.height h) pix)).flatten := by
  intro l
  induction l with
  | nil => intros; rfl
  | cons q l ih =>
    obtain ⟨n, p⟩ := q
    intro hz hrs scratch fin bs hfin hb hbl
    have hn := hz (n, p) (by simp)
    have hp : p ∈ adam7 := (List.of_mem_zip hn).2
    have hI := ih (fun q hq => hz q (by simp [hq])) fun q hq => hrs q (by simp [hq])
    obtain ⟨hr0, hr1⟩ := passRows_spec c w h n p hn pix (rows n) (hrs (n, p) (by simp))
    simp only [List.map_cons, List.flatMap_cons, passLoop]
    by_cases hxy : p.width w ≠ 0 ∧ p.height h ≠ 0
    · rw [if_pos hxy]
      obtain ⟨hrl, hrows⟩ := hr1 hxy.1
      set x := p.width w with hx
      set y := p.height h with hy
      have hsl : ∀ r ∈ rows n, r.1 ≤ 4 ∧ r.2.length = c.stride x := by
        intro r hr
        obtain ⟨j, hj, rfl⟩ := List.getElem_of_mem hr
        exact ⟨(hrows j hj).1, (hrows j hj).2.1⟩
      have hlen : (Spec.stream c.bpp [] (rows n)).length = ((c.color.comps * x * c.depth + 7) / 8 + 1) * y := by
        rw [stream_length c.bpp (c.stride x) [] (rows n) fun r hr => (hsl r hr).2, hrl, Ctx.stride, Nat.mul_comm x]
      obtain ⟨hsx, hsy⟩ := pass_size p hp w h
      have hroom : c.outStride x * (rows n).length ≤ fin.length := by
        rw [hfin, hrl, Ctx.outStride]
        calc x * c.outComps * c.bytes * y = (x * y) * (c.outComps * c.bytes) := by ring
          _ ≤ (w * h) * (c.outComps * c.bytes) := Nat.mul_le_mul_right _ (Nat.mul_le_mul hsx hsy)
          _ = _ := by ring
      obtain ⟨s', hraw⟩ := createRaw_spec c hw hk ha x (by omega) [] (rows n) hsl scratch fin hroom
      rw [List.append_nil, hrl] at hraw
      rw [List.append_assoc, List.take_left' hlen, List.drop_left' hlen, if_neg (by rw [List.length_append, hlen]; omega), hraw]
      simp only
      have hflat : ((rows n).flatMap fun r => Spec.rowOut c x r.2) =
          (grid y x).flatMap fun q => c.px (pix (q.1 * p.ys + p.yo) (q.2 * p.xs + p.xo)) := by
        rw [grid, List.flatMap_assoc]
        have e : rows n = (List.range y).map fun j => (rows n).getD j (0, []) := by
          apply List.ext_getElem?
          intro j
          by_cases hj : j < y
          · rw [List.getElem?_map, List.getElem?_range hj, List.getElem?_eq_getElem (by omega)]
            simp [List.getD_eq_getElem?_getD, List.getElem?_eq_getElem (show j < (rows n).length by omega)]
          · rw [List.getElem?_eq_none (by omega), List.getElem?_eq_none (by simpa using hj)]
        rw [e, List.flatMap_map]
        apply flatMap_congr'
        intro j hj
        rw [List.mem_range] at hj
        rw [List.flatMap_map]
        have hh := (hrows j (by omega)).2.2
        unfold Spec.rowOut
        apply flatMap_congr'
        intro i hi
        rw [List.mem_range] at hi
        have := hh i hi
        simp only [hi, if_true] at this
        rw [List.getD_eq_getElem?_getD, List.getElem?_eq_getElem (by omega), Option.getD_some, ← this]
      have hpl : ∀ j < y, ∀ i < x, (c.px (pix (j * p.ys + p.yo) (i * p.xs + p.xo))).length = c.outComps * c.bytes :=
        fun j _ i _ => pixel_length c hw _ (hpix _ _)
      obtain ⟨h1, h2⟩ := place_spec c p w x y pix hpl (fin.drop (c.outStride x * y)) bs hb (by
        intro j hj i hi
        obtain ⟨hyl, hxl⟩ := pass_in p hp w h j i hj hi
        rw [hbl]
        calc (j * p.ys + p.yo) * w + (i * p.xs + p.xo) < (j * p.ys + p.yo) * w + w := by omega
          _ = w * (j * p.ys + p.yo + 1) := by ring
          _ ≤ w * h := Nat.mul_le_mul_left _ hyl)
      rw [hflat, h1]
      rw [hI s' _ _ (by
        rw [List.length_append, List.length_drop, flatMap_length_const _ _ _ (fun q _ => pixel_length c hw _ (hpix _ _)), grid_length]
        have : c.outStride x * y = y * x * (c.outComps * c.bytes) := by rw [Ctx.outStride]; ring
        rw [hrl] at hroom
        omega) h2 (by rw [setAll_length, hbl])]
      congr 2
      simp only [setAll, List.foldl_append]
    · rw [if_neg hxy]
      have h0 : p.width w = 0 ∨ p.height h = 0 := by omega
      rw [hr0 h0]
      have hg : grid (p.height h) (p.width w) = [] := by
        rcases h0 with h0 | h0 <;> simp [grid, h0]
      simp only [Spec.stream, List.nil_append, writes, hg, List.map_nil]
      exact hI scratch fin bs hfin hb hbl

/-- Every pixel of the picture belongs to exactly one of the seven passes, at exactly one position of it. -/
theorem pass_unique (w h y x : Nat) (hy : y < h) (hx : x < w) :
    ∃! q : Pass × Nat × Nat, q.1 ∈ adam7 ∧ q.2.1 < q.1.height h ∧ q.2.2 < q.1.width w ∧
      q.2.1 * q.1.ys + q.1.yo = y ∧ q.2.2 * q.1.xs + q.1.xo = x := by
  have hex : ∀ a < 8, ∀ b < 8, ∃ q ∈ (List.range' 1 7).zip adam7, (Spec.pattern.getD a []).getD b 0 = q.1 := by decide
  obtain ⟨⟨n, p⟩, hq, hn⟩ := hex (y % 8) (Nat.mod_lt _ (by decide)) (x % 8) (Nat.mod_lt _ (by decide))
  have hpass : Spec.passOf y x = n := hn
  have hm := (passOf_iff n p hq y x).mp hpass
  have hp : p ∈ adam7 := (List.of_mem_zip hq).2
  have hin1 : y ∈ (List.range h).filter (fun y => y % p.ys = p.yo) := by simp [hy, hm.1]
  have hin2 : x ∈ (List.range w).filter (fun x => x % p.xs = p.xo) := by simp [hx, hm.2]
  rw [pass_rows p hp, List.mem_map] at hin1
  rw [pass_cols p hp, List.mem_map] at hin2
  obtain ⟨j, hj, hjy⟩ := hin1
  obtain ⟨i, hi, hix⟩ := hin2
  rw [List.mem_range] at hj hi
  refine ⟨(p, j, i), ⟨hp, hj, hi, hjy, hix⟩, ?_⟩
  rintro ⟨p', j', i'⟩ ⟨hp', _, _, hjy', hix'⟩
  simp only at hjy' hix' hp'
  obtain ⟨b1, b2⟩ := pass_bounds p' hp'
  have m1 : y % p'.ys = p'.yo := by rw [← hjy', Nat.add_comm, Nat.add_mul_mod_self_right, Nat.mod_eq_of_lt b2]
  have m2 : x % p'.xs = p'.xo := by rw [← hix', Nat.add_comm, Nat.add_mul_mod_self_right, Nat.mod_eq_of_lt b1]
  have hzip : ∀ p ∈ adam7, ∃ n, (n, p) ∈ (List.range' 1 7).zip adam7 := by
    intro p hp
    obtain ⟨k, hk, rfl⟩ := List.getElem_of_mem hp
    refine ⟨k + 1, ?_⟩
    change k < 7 at hk
    interval_cases k <;> simp [adam7, List.range']
  obtain ⟨n', hn'⟩ := hzip p' hp'
  have hsame : n' = n := by rw [← (passOf_iff n' p' hn' y x).mpr ⟨m1, m2⟩, hpass]
  subst hsame
  have hpp : p' = p := by
    have inj : ∀ a ∈ (List.range' 1 7).zip adam7, ∀ b ∈ (List.range' 1 7).zip adam7, a.1 = b.1 → a.2 = b.2 := by
      have : ∀ a ∈ (List.range' 1 7).zip adam7, a.2 = adam7.getD (a.1 - 1) ⟨0, 0, 0, 0⟩ := by
        intro a ha
        simp only [adam7, List.range', List.zip_cons_cons, List.zip_nil_right, List.mem_cons, List.not_mem_nil, or_false] at ha
        rcases ha with h | h | h | h | h | h | h <;> subst h <;> rfl
      intro a ha b hb hab
      rw [this a ha, this b hb, hab]
    exact inj (n', p') hn' (n', p) hq rfl
  subst hpp
  have b1' : 0 < p'.xs := by omega
  have b2' : 0 < p'.ys := by omega
  have ej : j' = j := Nat.eq_of_mul_eq_mul_right b2' (by omega)
  have ei : i' = i := Nat.eq_of_mul_eq_mul_right b1' (by omega)
  rw [ej, ei]

/-- The seven passes are reassembled into the picture. -/
theorem interlaced_spec (c : Ctx) (hw : c.Wf) (hk : c.KeyOk) (ha : c.AlphaFine) (w h : Nat) (pix : Nat → Nat → List Nat)
    (hpix : ∀ y x, (pix y x).length = c.color.comps)
    (rows : Nat → List (Nat × List UInt8)) (hrows : ∀ n ∈ List.range' 1 7, Spec.passRows c w h n pix (rows n))
    (tail scratch out : List UInt8) (ho : out.length = w * h * c.outComps * c.bytes) :
    decodeInterlaced c w h (((List.range' 1 7).flatMap fun n => Spec.stream c.bpp [] (rows n)) ++ tail) scratch out =
      .ok (Spec.picture c w h pix) := by
  -- the output buffer as blocks
  have hblocks : ∀ (m k : Nat) (out : List UInt8), out.length = m * k →
      ∃ bs : List (List UInt8), bs.flatten = out ∧ bs.length = m ∧ ∀ b ∈ bs, b.length = k := by
    intro m k
    induction m with
    | zero => intro out h; exact ⟨[], by rw [Nat.zero_mul] at h; exact (List.length_eq_zero_iff.mp h).symm, rfl, by simp⟩
    | succ m ih =>
      intro out h
      rw [Nat.add_mul, Nat.one_mul] at h
      obtain ⟨bs, h1, h2, h3⟩ := ih (out.drop k) (by rw [List.length_drop]; omega)
      refine ⟨out.take k :: bs, by rw [List.flatten_cons, h1, List.take_append_drop], by simp [h2], ?_⟩
      intro b hb
      rcases List.mem_cons.mp hb with rfl | hb
      · rw [List.length_take]; omega
      · exact h3 b hb
  obtain ⟨bs, rfl, hbl, hb⟩ := hblocks (w * h) (c.outComps * c.bytes) out (by rw [ho]; ring)
  have hmain := passLoop_spec c hw hk ha w h pix hpix rows tail ((List.range' 1 7).zip adam7) (fun q hq => hq)
    (fun q hq => hrows q.1 (List.of_mem_zip hq).1) scratch (List.replicate (w * h * c.outComps * c.bytes) 0) bs
    (by rw [List.length_replicate]) hb hbl
  have e1 : ((List.range' 1 7).zip adam7).map Prod.snd = adam7 := rfl
  have e2 : (((List.range' 1 7).zip adam7).flatMap fun q => Spec.stream c.bpp [] (rows q.1)) =
      (List.range' 1 7).flatMap fun n => Spec.stream c.bpp [] (rows n) := rfl
  rw [e1, e2] at hmain
  rw [decodeInterlaced, hmain]
  congr 1
  set all := ((List.range' 1 7).zip adam7).flatMap fun q => writes c q.2 w (q.2.width w) (q.2.height h) pix with hall
  have hmem : ∀ q ∈ all, ∃ p ∈ adam7, ∃ j < p.height h, ∃ i < p.width w,
      q = ((j * p.ys + p.yo) * w + (i * p.xs + p.xo), c.px (pix (j * p.ys + p.yo) (i * p.xs + p.xo))) := by
    intro q hq
    rw [hall, List.mem_flatMap] at hq
    obtain ⟨⟨n, p⟩, hz, hq⟩ := hq
    simp only [writes, List.mem_map] at hq
    obtain ⟨⟨j, i⟩, hm, rfl⟩ := hq
    rw [mem_grid] at hm
    exact ⟨p, (List.of_mem_zip hz).2, j, hm.1, i, hm.2, rfl⟩
  have hdm : ∀ y x, x < w → (y * w + x) / w = y ∧ (y * w + x) % w = x := by
    intro y x hx
    constructor
    · rw [Nat.mul_comm, Nat.mul_add_div (by omega), Nat.div_eq_of_lt hx, Nat.add_zero]
    · rw [Nat.mul_comm, Nat.mul_add_mod, Nat.mod_eq_of_lt hx]
  obtain ⟨hset, _⟩ := setAll_spec all bs (fun b => some (c.px (pix (b / w) (b % w)))) (by
    intro q hq _
    obtain ⟨p, hp, j, hj, i, hi, rfl⟩ := hmem q hq
    obtain ⟨hyl, hxl⟩ := pass_in p hp w h j i hj hi
    simp only [(hdm _ _ hxl).1, (hdm _ _ hxl).2])
  have hres : setAll bs all = (grid h w).map fun q => c.px (pix q.1 q.2) := by
    apply List.ext_getElem?
    intro b
    by_cases hb : b < w * h
    · have hw0 : 0 < w := by
        rcases Nat.eq_zero_or_pos w with h0 | h0
        · rw [h0] at hb; omega
        · exact h0
      have hxl : b % w < w := Nat.mod_lt _ hw0
      have hyl : b / w < h := Nat.div_lt_of_lt_mul hb
      have hbe : b = b / w * w + b % w := by rw [Nat.mul_comm, Nat.div_add_mod]
      obtain ⟨⟨p, j, i⟩, ⟨hp, hj, hi, hjy, hix⟩, _⟩ := pass_unique w h (b / w) (b % w) hyl hxl
      simp only at hp hj hi hjy hix
      have hin : (b, c.px (pix (b / w) (b % w))) ∈ all := by
        rw [hall, List.mem_flatMap]
        have hzip : ∀ p ∈ adam7, ∃ n, (n, p) ∈ (List.range' 1 7).zip adam7 := by
          intro p hp
          obtain ⟨k, hk, rfl⟩ := List.getElem_of_mem hp
          refine ⟨k + 1, ?_⟩
          change k < 7 at hk
          interval_cases k <;> simp [adam7, List.range']
        obtain ⟨n, hn⟩ := hzip p hp
        refine ⟨(n, p), hn, ?_⟩
        simp only [writes, List.mem_map]
        refine ⟨(j, i), by rw [mem_grid]; exact ⟨hj, hi⟩, ?_⟩
        simp only [hjy, hix]
        rw [← hbe]
      rw [hset _ hin (by rw [hbl]; exact hb)]
      rw [List.getElem?_map, hbe, grid_get h w (b / w) (b % w) hyl hxl, ← hbe]
      rfl
    · rw [List.getElem?_eq_none (by rw [setAll_length, hbl]; omega), List.getElem?_eq_none (by
        rw [List.length_map, grid_length, Nat.mul_comm]; omega)]
  rw [hres, ← List.flatMap_def, grid, List.flatMap_assoc]
  unfold Spec.picture
  apply flatMap_congr'
  intro y _
  rw [List.flatMap_map]

end Zune.Png
