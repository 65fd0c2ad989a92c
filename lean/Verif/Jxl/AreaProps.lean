/-
Property C71: prediction residuals and runs of the JPEG XL encoder determine the samples of a channel.
-/
import Verif.Jxl.Area

namespace Zune.Jxl

/-! ### Specification: the samples around a position, and the equations a decoder solves in raster order -/

/-- The sample to the left, as ISO/IEC 18181-1 extends it beyond the edge: the sample above, or zero in the first row. -/
def leftOf (img : Nat → Nat → Int) (y x : Nat) : Int := if x > 0 then img y (x - 1) else if y > 0 then img (y - 1) x else 0

/-- The sample above; in the first row the sample to the left. -/
def topOf (img : Nat → Nat → Int) (y x : Nat) : Int := if y > 0 then img (y - 1) x else leftOf img y x

/-- The sample above and to the left; the sample to the left where there is none. -/
def topLeftOf (img : Nat → Nat → Int) (y x : Nat) : Int := if x > 0 ∧ y > 0 then img (y - 1) (x - 1) else leftOf img y x

/-- `img` is what a decoder makes of the symbols: each sample is the gradient prediction from the samples before it plus the symbol,
    unpacked. -/
def Decodes (xs ys : Nat) (syms : List Nat) (img : Nat → Nat → Int) : Prop :=
  syms.length = ys * xs ∧ ∀ y < ys, ∀ x < xs, ∃ u, syms[y * xs + x]? = some u ∧
    img y x = gradient (leftOf img y x) (topOf img y x) (topLeftOf img y x) + unpackSigned u

/-- The equations have one solution: a decoder has no choice. -/
theorem decodes_unique {xs ys : Nat} {syms : List Nat} {a b : Nat → Nat → Int} (ha : Decodes xs ys syms a) (hb : Decodes xs ys syms b) :
    ∀ y < ys, ∀ x < xs, a y x = b y x := by
  intro y
  induction y with
  | zero =>
    intro hy x
    induction x with
    | zero =>
      intro hx
      obtain ⟨u, hu, e⟩ := ha.2 0 hy 0 hx
      obtain ⟨v, hv, f⟩ := hb.2 0 hy 0 hx
      rw [hu] at hv
      cases hv
      rw [e, f]
      simp [leftOf, topOf, topLeftOf]
    | succ x ih =>
      intro hx
      obtain ⟨u, hu, e⟩ := ha.2 0 hy (x + 1) hx
      obtain ⟨v, hv, f⟩ := hb.2 0 hy (x + 1) hx
      rw [hu] at hv
      cases hv
      rw [e, f]
      simp [leftOf, topOf, topLeftOf, ih (by omega)]
  | succ y ihy =>
    intro hy x
    induction x with
    | zero =>
      intro hx
      obtain ⟨u, hu, e⟩ := ha.2 (y + 1) hy 0 hx
      obtain ⟨v, hv, f⟩ := hb.2 (y + 1) hy 0 hx
      rw [hu] at hv
      cases hv
      rw [e, f]
      simp [leftOf, topOf, topLeftOf, ihy (by omega) 0 hx]
    | succ x ih =>
      intro hx
      obtain ⟨u, hu, e⟩ := ha.2 (y + 1) hy (x + 1) hx
      obtain ⟨v, hv, f⟩ := hb.2 (y + 1) hy (x + 1) hx
      rw [hu] at hv
      cases hv
      rw [e, f]
      simp [leftOf, topOf, topLeftOf, ih (by omega), ihy (by omega) (x + 1) hx, ihy (by omega) x (by omega)]

/-! ### The rows of the encoder -/

/-- The residual the encoder computes at a position. -/
def residualAt (img : Nat → Nat → Int) (y x : Nat) : Nat :=
  packSigned (img y x - gradient (leftOf img y x) (topOf img y x) (topLeftOf img y x))

theorem leftOf_bound {img : Nat → Nat → Int} {B : Int} (hB : 0 ≤ B) (h : ∀ y x, -B ≤ img y x ∧ img y x ≤ B) (y x : Nat) :
    -B ≤ leftOf img y x ∧ leftOf img y x ≤ B := by
  rw [leftOf]
  split
  · exact h _ _
  · split
    · exact h _ _
    · omega

theorem areaLine_symbols {w : Nat} (pix : Nat → Nat → BitVec w) (B : Int) (hw : 0 < w) (hw' : w ≤ 32) (h0 : 0 ≤ B) (hB : 4 * B < 2 ^ (w - 1))
    (hpix : ∀ y x, -B ≤ (pix y x).toInt ∧ (pix y x).toInt ≤ B) (c p : Line w) (y xs : Nat) (proc : Proc) (hp : proc.Runs)
    (hprev : 0 < y → ∀ x < xs, p.data x = pix (y - 1) x) :
    (areaLine c p y 0 xs ((List.range xs).map (pix y)) proc).2.2.symbols
      = proc.symbols ++ (List.range xs).map (residualAt (fun y x => (pix y x).toInt) y)
    ∧ (areaLine c p y 0 xs ((List.range xs).map (pix y)) proc).2.2.Runs
    ∧ ∀ x < xs, (areaLine c p y 0 xs ((List.range xs).map (pix y)) proc).1.data x = pix y x := by
  have hd : ∀ x < xs, ((List.range xs).map (pix y)).getD x (c.data x) = pix y x := by
    intro x hx
    simp [List.getD_eq_getElem?_getD, hx]
  simp only [areaLine, Line.fill, Nat.not_lt_zero, if_false]
  refine ⟨?_, ?_, hd⟩
  · rw [(row_symbols _ _ _ _ _ xs 0 hp).1, Nat.sub_zero, ← List.range_eq_range']
    congr 1
    apply List.map_congr_left
    intro x hx
    rw [List.mem_range] at hx
    have hz : (0 : BitVec w).toInt = 0 := by simp
    have key : ∀ px l t c : BitVec w, px.toInt = (pix y x).toInt → l.toInt = leftOf (fun y x => (pix y x).toInt) y x →
        t.toInt = topOf (fun y x => (pix y x).toInt) y x → c.toInt = topLeftOf (fun y x => (pix y x).toInt) y x →
        residual px l t c = residualAt (fun y x => (pix y x).toInt) y x := by
      intro px l t c e1 e2 e3 e4
      have hl := leftOf_bound h0 hpix y x
      rw [residual_eq B hw hw' hB (by rw [e1]; exact hpix _ _) (by rw [e2]; exact hl)
        (by rw [e3, topOf]; split; exacts [hpix _ _, hl]) (by rw [e4, topLeftOf]; split; exacts [hpix _ _, hl]), e1, e2, e3, e4, residualAt]
    apply key
    · rw [hd x hx]
    · cases x with
      | zero =>
        by_cases hy : y > 0
        · simp [Line.fromPad, leftOf, hy, hprev hy 0 hx]
        · simp [Line.fromPad, leftOf, hy]
      | succ x => simp only [Line.fromPad]; rw [hd x (by omega)]; simp [leftOf]
    · by_cases hy : y = 0
      · subst hy
        simp only [if_true, topOf, Nat.lt_irrefl, if_false, gt_iff_lt]
        cases x with
        | zero => simp [Line.fromPad, leftOf]
        | succ x => simp only [Line.fromPad]; rw [hd x (by omega)]; simp [leftOf]
      · simp only [if_neg hy, topOf]
        rw [if_pos (by omega), hprev (by omega) x hx]
    · by_cases hy : y = 0
      · subst hy
        simp only [if_true, topLeftOf, Nat.lt_irrefl, and_false, if_false, gt_iff_lt]
        cases x with
        | zero => simp [Line.fromPad, leftOf]
        | succ x => simp only [Line.fromPad]; rw [hd x (by omega)]; simp [leftOf]
      · have hy' : y > 0 := by omega
        simp only [if_neg hy, topLeftOf]
        cases x with
        | zero => simp [Line.fromPad, leftOf, hy', hprev hy' 0 hx]
        | succ x => simp [Line.fromPad, hy', hprev hy' x (by omega)]
  · exact (row_symbols _ _ _ _ _ xs 0 hp).2

theorem areaLoop_symbols {w : Nat} (pix : Nat → Nat → BitVec w) (B : Int) (hw : 0 < w) (hw' : w ≤ 32) (h0 : 0 ≤ B) (hB : 4 * B < 2 ^ (w - 1))
    (hpix : ∀ y x, -B ≤ (pix y x).toInt ∧ (pix y x).toInt ≤ B) (xs n : Nat) : ∀ (c p : Line w) (y : Nat) (proc : Proc), proc.Runs →
    (0 < y → ∀ x < xs, p.data x = pix (y - 1) x) →
    (areaLoop c p y 0 xs ((List.range' y n).map fun y => (List.range xs).map (pix y)) proc).symbols
      = proc.symbols ++ (List.range' y n).flatMap (fun y => (List.range xs).map (residualAt (fun y x => (pix y x).toInt) y))
    ∧ (areaLoop c p y 0 xs ((List.range' y n).map fun y => (List.range xs).map (pix y)) proc).Runs := by
  induction n with
  | zero => intro c p y proc hp _; simpa [areaLoop] using hp
  | succ n ih =>
    intro c p y proc hp hprev
    obtain ⟨h1, h2, h3⟩ := areaLine_symbols pix B hw hw' h0 hB hpix c p y xs proc hp hprev
    obtain ⟨h4, h5⟩ := ih (areaLine c p y 0 xs ((List.range xs).map (pix y)) proc).2.1
      (areaLine c p y 0 xs ((List.range xs).map (pix y)) proc).1 (y + 1) _ h2 (fun _ => h3)
    rw [List.range'_succ, List.map_cons, areaLoop]
    refine ⟨?_, h5⟩
    rw [List.flatMap_cons, ← List.append_assoc, ← h1]
    exact h4

theorem flatMap_range_getElem? {α} (f : Nat → Nat → α) (xs ys y x : Nat) (hy : y < ys) (hx : x < xs) :
    ((List.range ys).flatMap fun y => (List.range xs).map (f y))[y * xs + x]? = some (f y x) := by
  induction ys with
  | zero => omega
  | succ n ih =>
    have hl : ((List.range n).flatMap fun y => (List.range xs).map (f y)).length = n * xs := by
      simp [List.length_flatMap]
    rw [List.range_succ, List.flatMap_append]
    by_cases h : y < n
    · rw [List.getElem?_append_left]
      · exact ih h
      · rw [hl]
        calc y * xs + x < y * xs + xs := by omega
          _ = (y + 1) * xs := by ring
          _ ≤ n * xs := Nat.mul_le_mul_right _ h
    · obtain rfl : y = n := by omega
      rw [List.getElem?_append_right (by rw [hl]; omega), hl, Nat.add_sub_cancel_left]
      simp [hx]

/-! ### C71 -/

/-- **C71** For every channel whose samples stay within the range of the encoder's pixels, the residuals and runs handed to the entropy
    coder are exactly what a decoder needs: expanded, they have one solution and it is the channel.  Runs are absent or at least eight long,
    as the run coder assumes.  Residuals stay below four times the largest sample, below twice if no sample is negative (grey, alpha).  `B` is 255 (8 bit), 65535 (16 bit). -/
theorem c71_prediction {w : Nat} (pix : Nat → Nat → BitVec w) (B : Int) (hwB : (w = 16 ∧ B = 255) ∨ (w = 32 ∧ B = 65535))
    (hpix : ∀ y x, -B ≤ (pix y x).toInt ∧ (pix y x).toInt ≤ B) (xs ys : Nat) :
    let p := area 0 xs ((List.range ys).map fun y => (List.range xs).map (pix y))
    Decodes xs ys p.symbols (fun y x => (pix y x).toInt) ∧
      (∀ img, Decodes xs ys p.symbols img → ∀ y < ys, ∀ x < xs, img y x = (pix y x).toInt) ∧
      (∀ u ∈ p.symbols, u ≤ 4 * B) ∧ ((∀ y x, 0 ≤ (pix y x).toInt) → ∀ u ∈ p.symbols, u ≤ 2 * B) ∧ (p.run = 0 ∨ 8 ≤ p.run) ∧ ∀ c ∈ p.calls, c.run = 0 ∨ 8 ≤ c.run := by
  have hw : 0 < w := by omega
  have hw' : w ≤ 32 := by omega
  have h0 : 0 ≤ B := by omega
  have hB : 4 * B < 2 ^ (w - 1) := by rcases hwB with ⟨rfl, rfl⟩ | ⟨rfl, rfl⟩ <;> decide
  intro p
  have hr : Proc.Runs ⟨0, []⟩ := ⟨Or.inl rfl, by simp⟩
  obtain ⟨h1, h2⟩ := areaLoop_symbols pix B hw hw' h0 hB hpix xs ys (Line.zero w) (Line.zero w) 0 ⟨0, []⟩ hr (by omega)
  rw [← List.range_eq_range'] at h1 h2
  have hs : p.symbols = (List.range ys).flatMap (fun y => (List.range xs).map (residualAt (fun y x => (pix y x).toInt) y)) := by
    rw [show p = area 0 xs ((List.range ys).map fun y => (List.range xs).map (pix y)) from rfl, area, h1]
    simp [Proc.symbols]
  have hdec : Decodes xs ys p.symbols (fun y x => (pix y x).toInt) := by
    refine ⟨by rw [hs]; simp [List.length_flatMap], ?_⟩
    intro y hy x hx
    refine ⟨_, by rw [hs]; exact flatMap_range_getElem? _ xs ys y x hy hx, ?_⟩
    rw [residualAt, unpack_pack]
    ring
  refine ⟨hdec, fun img hi y hy x hx => decodes_unique hi hdec y hy x hx, ?_, ?_, h2.1, h2.2⟩
  rotate_left
  · intro hpos u hu
    rw [hs, List.mem_flatMap] at hu
    obtain ⟨y, -, hu⟩ := hu
    rw [List.mem_map] at hu
    obtain ⟨x, -, rfl⟩ := hu
    have hl : 0 ≤ leftOf (fun y x => (pix y x).toInt) y x ∧ leftOf (fun y x => (pix y x).toInt) y x ≤ B := by
      rw [leftOf]
      split
      · exact ⟨hpos _ _, (hpix _ _).2⟩
      · split
        · exact ⟨hpos _ _, (hpix _ _).2⟩
        · omega
    have ht : 0 ≤ topOf (fun y x => (pix y x).toInt) y x ∧ topOf (fun y x => (pix y x).toInt) y x ≤ B := by
      rw [topOf]; split; exacts [⟨hpos _ _, (hpix _ _).2⟩, hl]
    have hx := hpix y x
    have hx0 := hpos y x
    have hg : 0 ≤ gradient (leftOf (fun y x => (pix y x).toInt) y x) (topOf (fun y x => (pix y x).toInt) y x) (topLeftOf (fun y x => (pix y x).toInt) y x) ∧
        gradient (leftOf (fun y x => (pix y x).toInt) y x) (topOf (fun y x => (pix y x).toInt) y x) (topLeftOf (fun y x => (pix y x).toInt) y x) ≤ B := by
      rw [gradient]; omega
    simp only [residualAt, packSigned]
    split <;> omega
  intro u hu
  rw [hs, List.mem_flatMap] at hu
  obtain ⟨y, -, hu⟩ := hu
  rw [List.mem_map] at hu
  obtain ⟨x, -, rfl⟩ := hu
  have hl := leftOf_bound h0 hpix y x
  have ht : -B ≤ topOf (fun y x => (pix y x).toInt) y x ∧ topOf (fun y x => (pix y x).toInt) y x ≤ B := by
    rw [topOf]; split; exacts [hpix _ _, hl]
  have hg := gradient_bound (c := topLeftOf (fun y x => (pix y x).toInt) y x) hl ht
  have hx := hpix y x
  simp only [residualAt, packSigned]
  split <;> omega

/-- Three rows of nine samples: a run that spans rows, broken by a bright sample in the last row. -/
example : area 0 9 ((List.range 3).map fun y => (List.range 9).map fun x => if y = 2 ∧ x = 4 then (200 : BitVec 16) else 0)
    = ⟨0, [⟨22, [400, 399, 0, 0]⟩, ⟨0, [0]⟩]⟩ := by decide +kernel

end Zune.Jxl
