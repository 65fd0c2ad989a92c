/-
**C111**: resizing with separable kernels.  **C112**: dimensions that keep the ratio.
-/
import Verif.Imageprocs.BilinearProps

namespace Zune.Imageprocs
open Zune.Float

/-! ### Sums -/

/-- A sum over the first `n` numbers. -/
def sumTo (n : Nat) (f : Nat → Rat) : Rat := ((List.range n).map f).sum

theorem sumTo_zero (f : Nat → Rat) : sumTo 0 f = 0 := rfl

theorem sumTo_succ (n : Nat) (f : Nat → Rat) : sumTo (n + 1) f = sumTo n f + f n := by
  unfold sumTo
  rw [List.range_succ, List.map_append, List.sum_append]
  simp

theorem sumTo_congr {n : Nat} {f g : Nat → Rat} (h : ∀ i < n, f i = g i) : sumTo n f = sumTo n g := by
  unfold sumTo
  congr 1
  exact List.map_congr_left fun i hi => h i (List.mem_range.1 hi)

theorem sumTo_le {n : Nat} {f g : Nat → Rat} (h : ∀ i < n, f i ≤ g i) : sumTo n f ≤ sumTo n g := by
  induction n with
  | zero => simp [sumTo]
  | succ n ih => rw [sumTo_succ, sumTo_succ]; exact add_le_add (ih fun i hi => h i (by omega)) (h n (by omega))

theorem sumTo_mul (c : Rat) (n : Nat) (f : Nat → Rat) : sumTo n (fun i => c * f i) = c * sumTo n f := by
  induction n with
  | zero => simp [sumTo]
  | succ n ih => rw [sumTo_succ, sumTo_succ, ih, mul_add]

theorem sumTo_sub (n : Nat) (f g : Nat → Rat) : sumTo n (fun i => f i - g i) = sumTo n f - sumTo n g := by
  induction n with
  | zero => simp [sumTo]
  | succ n ih => rw [sumTo_succ, sumTo_succ, sumTo_succ, ih]; ring

theorem sumTo_abs (n : Nat) (f : Nat → Rat) : |sumTo n f| ≤ sumTo n (fun i => |f i|) := by
  induction n with
  | zero => simp [sumTo]
  | succ n ih => rw [sumTo_succ, sumTo_succ]; exact le_trans (abs_add_le _ _) (by linarith)

theorem sumTo_one (f : Nat → Rat) : sumTo 1 f = f 0 := by simp [sumTo]

/-- The rounding errors of a sequential sum. -/
theorem fsum_approx {k : Nat} {A x y : Nat → Rat} : ∀ n : Nat, (∀ i < n, Approx k (A i) (x i) (y i)) →
    Approx (k + n) (sumTo n A) (sumTo n x) (fsum ((List.range n).map y))
  | 0, _ => ⟨by simp [sumTo], by simp [sumTo, fsum]⟩
  | n + 1, h => by
    have ih := fsum_approx n fun i hi => h i (by omega)
    have e : fsum ((List.range (n + 1)).map y) = rnd 24 (fsum ((List.range n).map y) + y n) := by
      unfold fsum
      rw [List.range_succ, List.map_append, List.foldl_append]
      rfl
    rw [e, sumTo_succ, sumTo_succ]
    exact (ih.add ((h n (by omega)).mono (by omega))).rnd

/-! ### Kernels -/

/-- What a kernel for output position `x` is, when `n` samples become `o`: the middle is at `t`, near (x + 1/2)·n/o − 1/2; the positions are the `a` on both sides of `t` as far
    as they exist, `s` is the first and `c` their number; the weights are the values of `k` at the distances, divided by their sum (up to rounding). -/
structure Taps (k : Rat → Rat) (a n o x : Nat) (t : Rat) (s c : Nat) (ws : Nat → Rat) : Prop where
  near : |t - ((x + 1 / 2) * n / o - 1 / 2)| ≤ 5 * n / 2 ^ 24
  first : (s : Int) = max 0 (⌊t⌋ - a + 1)
  last : (s + c : Int) = min (n : Int) (⌊t⌋ + a + 1)
  some : 0 < c
  weights : ∃ total : Rat, |total - sumTo c (fun i => k (rnd 24 ((s + i : Nat) - t)))| ≤ 7 / 2 ^ 24 * sumTo c (fun i => |k (rnd 24 ((s + i : Nat) - t))|) ∧
    (0 < total → ∀ i < c, |ws i * total - k (rnd 24 ((s + i : Nat) - t))| ≤ 3 / 2 ^ 24 * |k (rnd 24 ((s + i : Nat) - t))|) ∧
    (total ≤ 0 → ∀ i < c, ws i = k (rnd 24 ((s + i : Nat) - t)))

theorem half_fits {x : Nat} (h : x < 2 ^ 22) : Fits 24 ((x : Rat) + 1 / 2) :=
  ⟨2 * x + 1, -1, by rw [abs_of_nonneg (by omega)]; norm_num; omega, by push_cast; rw [zpow_neg, zpow_one]; ring⟩

theorem center_spec {n o x : Nat} (hn : 0 < n) (hn2 : n ≤ 2 ^ 20) (ho : o ≤ 2 ^ 20) (hx : x < o) :
    ∃ t, t = rnd 24 (rnd 24 (rnd 24 (x + 1 / 2) * kRatio n o) - 1 / 2) ∧ |t - ((x + 1 / 2) * n / o - 1 / 2)| ≤ 5 * n / 2 ^ 24 ∧ -1 ≤ ⌊t⌋ ∧ ⌊t⌋ < n := by
  have o0 : (0 : Rat) < o := by exact_mod_cast Nat.lt_of_le_of_lt (Nat.zero_le _) hx
  have n0 : (1 : Rat) ≤ n := by exact_mod_cast hn
  have n2 : (n : Rat) ≤ 2 ^ 20 := by exact_mod_cast hn2
  have x0 : (0 : Rat) ≤ x + 1 / 2 := by positivity
  refine ⟨_, rfl, ?_⟩
  rw [rnd_fit (by norm_num) (half_fits (by omega : x < 2 ^ 22))]
  have ek : kRatio n o = rnd 24 ((n : Rat) / o) := by unfold kRatio; rw [rnd_nat24 (by omega), rnd_nat24 (by omega)]
  rw [ek]
  have ap := ((Approx.self ((x : Rat) + 1 / 2)).mul ((Approx.self ((n : Rat) / o)).rnd)).rnd
  rw [abs_of_nonneg x0, abs_of_nonneg (show (0 : Rat) ≤ n / o by positivity), ← mul_div_assoc] at ap
  have nr := ap.near (by omega)
  push_cast at nr
  generalize hp : rnd 24 (((x : Rat) + 1 / 2) * rnd 24 ((n : Rat) / o)) = p at nr ap
  have p0 : 0 ≤ p := by
    rw [← hp, ← rnd_zero 24]
    refine rnd_mono (by norm_num) (mul_nonneg x0 ?_)
    rw [← rnd_zero 24]
    exact rnd_mono (by norm_num) (by positivity)
  have hle : (x : Rat) + 1 ≤ o := by exact_mod_cast hx
  have Pn : ((x : Rat) + 1 / 2) * n / o ≤ n := by
    rw [div_le_iff₀ o0, mul_comm]
    exact mul_le_mul_of_nonneg_left (by linarith) (by linarith)
  have P0 : 0 ≤ ((x : Rat) + 1 / 2) * n / o := by positivity
  have e3 : (3 : Rat) / 2 ^ 24 * (((x : Rat) + 1 / 2) * n / o) ≤ 3 * n / 2 ^ 24 := by
    have := mul_le_mul_of_nonneg_left Pn (show (0 : Rat) ≤ 3 / 2 ^ 24 by norm_num)
    linarith
  have e3' : 3 * (n : Rat) / 2 ^ 24 ≤ 3 / 2 ^ 4 := by linarith
  have fq : Fits 24 ((n : Rat) - 1 / 4) :=
    ⟨4 * n - 1, -2, by rw [abs_of_nonneg (by omega)]; norm_num; omega, by push_cast; rw [show (2 : Rat) ^ (-2 : Int) = 1 / 4 by norm_num]; ring⟩
  have fh : Fits 24 (-(1 / 2) : Rat) := ⟨-1, -1, by norm_num, by norm_num⟩
  have up : rnd 24 (p - 1 / 2) ≤ n - 1 / 4 := rnd_le (by norm_num) fq (by linarith [nr.1])
  have dn : -(1 / 2) ≤ rnd 24 (p - 1 / 2) := le_rnd (by norm_num) fh (by linarith)
  have er : |rnd 24 (p - 1 / 2) - (p - 1 / 2)| ≤ |p - 1 / 2| / 2 ^ 24 := by rw [le_div_iff₀ (by norm_num)]; exact rnd_err 24 _
  have pa : |p - 1 / 2| ≤ n + 1 / 2 := by rw [abs_le]; constructor <;> linarith [nr.1]
  refine ⟨?_, ?_, ?_⟩
  · have : (n + 1 / 2 : Rat) / 2 ^ 24 ≤ 2 * n / 2 ^ 24 := by linarith
    have e := le_trans er (le_trans (div_le_div_of_nonneg_right pa (by norm_num)) this)
    rw [abs_le] at e ⊢
    constructor <;> linarith [nr.1, nr.2, e.1, e.2]
  · rw [Int.le_floor]; push_cast; linarith
  · rw [Int.floor_lt]; push_cast; linarith

/-- The kernels are as specified and lie inside of the line. -/
theorem convKernel_spec (k : Rat → Rat) {a n o x : Nat} (ha : 1 ≤ a) (ha3 : a ≤ 3) (hn : 0 < n) (hn2 : n ≤ 2 ^ 20) (ho : o ≤ 2 ^ 20) (hx : x < o) :
    ∃ K t, convKernel k a n (kRatio n o) x = some K ∧ K.start + K.weights.length ≤ n ∧ K.weights.length ≤ 6 ∧ Taps k a n o x t K.start K.weights.length (fun i => K.weights.getD i 0) := by
  obtain ⟨t, ht, h1, h2, h3⟩ := center_spec hn hn2 ho hx
  unfold convKernel
  rw [← ht]
  dsimp only
  generalize hS : max (-(a : Int) + 1) (-⌊t⌋) = S
  generalize hE : min (a : Int) ((n : Int) - ⌊t⌋ - 1) = E
  have c1 : ¬(E < S ∨ E - S + 1 > 6 ∨ ⌊t⌋ + S < 0) := by omega
  rw [if_neg c1]
  obtain ⟨c, hc⟩ : ∃ c : Nat, E - S + 1 = c := ⟨(E - S + 1).toNat, by omega⟩
  obtain ⟨s, hs⟩ : ∃ s : Nat, ⌊t⌋ + S = s := ⟨(⌊t⌋ + S).toNat, by omega⟩
  rw [hc, hs, Int.toNat_natCast, Int.toNat_natCast]
  have er : ((List.range c).map fun (i : Nat) => k (rnd 24 (((s : Int) + (i : Int) : Int) - t))) = (List.range c).map fun (i : Nat) => k (rnd 24 ((s + i : Nat) - t)) := by
    refine List.map_congr_left fun i _ => ?_
    push_cast; rfl
  rw [er]
  have tot := fsum_approx (k := 0) (A := fun i => |k (rnd 24 ((s + i : Nat) - t))|) (x := fun i => k (rnd 24 ((s + i : Nat) - t))) (y := fun i => k (rnd 24 ((s + i : Nat) - t))) c
    fun i _ => Approx.self _
  generalize hT : fsum ((List.range c).map fun (i : Nat) => k (rnd 24 ((s + i : Nat) - t))) = T at tot ⊢
  have c6 : c ≤ 6 := by omega
  have near7 : |T - sumTo c (fun i => k (rnd 24 ((s + i : Nat) - t)))| ≤ 7 / 2 ^ 24 * sumTo c (fun i => |k (rnd 24 ((s + i : Nat) - t))|) := by
    have := (tot.mono (show 0 + c ≤ 6 by omega)).near (by omega)
    rw [show ((6 : Nat) : Rat) + 1 = 7 by norm_num] at this
    rw [abs_le]
    constructor <;> linarith [this.1, this.2]
  have len : (if T > 0 then ((List.range c).map fun (i : Nat) => k (rnd 24 ((s + i : Nat) - t))).map (fun w => rnd 24 (w * rnd 24 (1 / T)))
      else (List.range c).map fun (i : Nat) => k (rnd 24 ((s + i : Nat) - t))).length = c := by split <;> simp
  refine ⟨_, t, rfl, ?_, ?_, ?_⟩
  · show s + _ ≤ n
    rw [len]; omega
  · show List.length _ ≤ 6
    rw [len]; exact c6
  · show Taps k a n o x t s (List.length _) _
    rw [len]
    refine ⟨h1, by omega, by omega, by omega, T, near7, fun hT0 i hi => ?_, fun hT0 i hi => ?_⟩
    · simp only [if_pos hT0, List.map_map]
      rw [List.getD_eq_getElem?_getD, List.getElem?_map, List.getElem?_range hi]
      show |rnd 24 (k (rnd 24 ((s + i : Nat) - t)) * rnd 24 (1 / T)) * T - k (rnd 24 ((s + i : Nat) - t))| ≤ _
      have ap := (((Approx.self (k (rnd 24 ((s + i : Nat) - t)))).mul ((Approx.self (1 / T)).rnd)).rnd).near (by omega)
      generalize k (rnd 24 (((s + i : Nat) : Rat) - t)) = v at ap ⊢
      push_cast at ap
      have : v * (1 / T) * T = v := by field_simp
      rw [abs_of_pos (show 0 < 1 / T by positivity)] at ap
      have q1 := mul_le_mul_of_nonneg_right ap.1 hT0.le
      have q2 := mul_le_mul_of_nonneg_right ap.2 hT0.le
      have e : ((2 : Rat) + 1) / 2 ^ 24 * (|v| * (1 / T)) * T = 3 / 2 ^ 24 * |v| := by field_simp; ring
      rw [add_mul, this, e] at q1
      rw [add_mul, this, e] at q2
      rw [abs_le]
      constructor <;> linarith
    · rw [List.getD_eq_getElem?_getD]
      simp only [if_neg (not_lt.2 hT0)]
      rw [List.getElem?_map, List.getElem?_range hi]; rfl

/-! ### Passes -/

/-- The list is the picture `p` of `w` × `h`. -/
def IsPlane (img : List Rat) (w h : Nat) (p : Nat → Nat → Rat) : Prop := img.length = w * h ∧ ∀ x < w, ∀ y < h, img[y * w + x]? = some (p x y)

/-- The weighted sum as computed. -/
def weighed (K : ConvKernel) (f : Nat → Rat) : Rat := fsum ((List.range K.weights.length).map fun i => rnd 24 (f (K.start + i) * K.weights.getD i 0))

theorem lineSum_eq {K : ConvKernel} {line : List Rat} {f : Nat → Rat} {n : Nat} (hf : ∀ i < n, line[i]? = some (f i)) (hK : K.start + K.weights.length ≤ n) :
    lineSum K line = some (weighed K f) := by
  unfold lineSum weighed
  rw [mapM_eq_map (f := fun i => f (K.start + i)) fun i hi => hf _ (by have := List.mem_range.1 hi; omega)]
  show some (fsum _) = _
  congr 2
  refine List.ext_getElem? fun i => ?_
  rw [List.getElem?_zipWith, List.getElem?_map, List.getElem?_map]
  rcases Nat.lt_or_ge i K.weights.length with h | h
  · rw [List.getElem?_range h, List.getElem?_eq_getElem h]
    show some (rnd 24 (f (K.start + i) * K.weights[i])) = some (rnd 24 (f (K.start + i) * K.weights.getD i 0))
    rw [List.getD_eq_getElem?_getD, List.getElem?_eq_getElem h]; rfl
  · rw [List.getElem?_eq_none (l := List.range _) (by simpa using h)]; rfl

theorem flatten_plane {rows : List (List Rat)} {w h : Nat} {p : Nat → Nat → Rat} (hl : rows.length = h) (H : ∀ y < h, rows[y]? = some ((List.range w).map fun x => p x y)) :
    IsPlane rows.flatten w h p := by
  have len : ∀ r ∈ rows, r.length = w := fun r hr => by
    obtain ⟨y, hy, e⟩ := List.mem_iff_getElem.1 hr
    have := H y (by omega)
    rw [List.getElem?_eq_getElem hy, e] at this
    rw [Option.some.inj this]; simp
  refine ⟨by rw [rows_length len, hl, Nat.mul_comm], fun x hx y hy => ?_⟩
  rw [rows_get len hx, H y hy, Option.bind_some, List.getElem?_map, List.getElem?_range hx]; rfl

theorem passH_spec {ks : Nat → ConvKernel} {img : List Rat} {w h ow : Nat} {p : Nat → Nat → Rat} (hw : 0 < w) (hp : IsPlane img w h p)
    (hk : ∀ x < ow, (ks x).start + (ks x).weights.length ≤ w) :
    ∃ out, passH ((List.range ow).map ks) img w = some out ∧ IsPlane out ow h (fun x y => weighed (ks x) (fun i => p i y)) := by
  obtain ⟨hl, hg⟩ := hp
  have row : ∀ y < h, (((List.range ow).map ks).mapM fun k => lineSum k ((img.drop (y * w)).take w)) =
      some ((List.range ow).map fun x => weighed (ks x) (fun i => p i y)) := fun y hy => by
    rw [List.mapM_map]
    refine mapM_eq_map fun x hx => ?_
    refine lineSum_eq (n := w) (fun i hi => ?_) (hk x (List.mem_range.1 hx))
    rw [row_get img hi]; exact hg i hi y hy
  obtain ⟨out, h1, h2, h3⟩ := mapM_get (g := fun row => ((List.range ow).map ks).mapM fun k => lineSum k row) (l := chunksOf w img) fun r hr => by
    obtain ⟨y, hy, e⟩ := List.mem_iff_getElem.1 hr
    rw [chunksOf_rows hw hl] at hy
    have := chunksOf_get hw hl hy
    rw [List.getElem?_eq_getElem (by rw [chunksOf_rows hw hl]; exact hy), e] at this
    rw [Option.some.inj this]
    exact ⟨_, row y hy⟩
  refine ⟨out.flatten, by unfold passH; rw [h1]; rfl, flatten_plane (by rw [h2, chunksOf_rows hw hl]) fun y hy => ?_⟩
  obtain ⟨o, ho, e⟩ := h3 y _ (chunksOf_get hw hl hy)
  rw [row y hy] at e
  rw [ho, ← Option.some.inj e]

theorem columnOf_get {img : List Rat} {w h x : Nat} {p : Nat → Nat → Rat} (hw : 0 < w) (hp : IsPlane img w h p) (hx : x < w) : columnOf img w x = (List.range h).map (p x) := by
  obtain ⟨hl, hg⟩ := hp
  unfold columnOf chunksOf
  rw [hl, Nat.mul_div_cancel_left _ hw, List.filterMap_map]
  have : ∀ l : List Nat, (∀ y ∈ l, y < h) → List.filterMap ((fun r : List Rat => r[x]?) ∘ fun i => (img.drop (i * w)).take w) l = l.map (p x) := fun l => by
    induction l with
    | nil => intro _; rfl
    | cons y l ih =>
      intro hy
      rw [List.filterMap_cons_some (b := p x y), ih fun z hz => hy z (by simp [hz]), List.map_cons]
      show ((img.drop (y * w)).take w)[x]? = _
      rw [row_get img hx]
      exact hg x hx y (hy y (by simp))
  exact this _ fun y hy => List.mem_range.1 hy

theorem passV_spec {ks : Nat → ConvKernel} {img : List Rat} {w h oh : Nat} {p : Nat → Nat → Rat} (hw : 0 < w) (hp : IsPlane img w h p)
    (hk : ∀ y < oh, (ks y).start + (ks y).weights.length ≤ h) :
    ∃ out, passV ((List.range oh).map ks) img w = some out ∧ IsPlane out w oh (fun x y => weighed (ks y) (fun j => p x j)) := by
  have row : ∀ y < oh, ((List.range w).mapM fun x => lineSum (ks y) (columnOf img w x)) = some ((List.range w).map fun x => weighed (ks y) (fun j => p x j)) := fun y hy => by
    refine mapM_eq_map fun x hx => ?_
    refine lineSum_eq (n := h) (fun i hi => ?_) (hk y hy)
    rw [columnOf_get hw hp (List.mem_range.1 hx), List.getElem?_map, List.getElem?_range hi]; rfl
  refine ⟨_, ?_, flatten_plane (rows := (List.range oh).map fun y => (List.range w).map fun x => weighed (ks y) (fun j => p x j)) (by simp) fun y hy => ?_⟩
  · unfold passV
    rw [List.mapM_map]
    show ((List.range oh).mapM fun y => (List.range w).mapM fun x => lineSum (ks y) (columnOf img w x)).bind _ = _
    rw [mapM_eq_map (f := fun y => (List.range w).map fun x => weighed (ks y) (fun j => p x j)) fun y hy => row y (List.mem_range.1 hy)]
    rfl
  · rw [List.getElem?_map, List.getElem?_range hy]; rfl

theorem weighed_approx {K : ConvKernel} {f : Nat → Rat} {A x : Nat → Rat} {k : Nat} (h : ∀ i < K.weights.length, Approx k (A (K.start + i)) (x (K.start + i)) (f (K.start + i))) :
    Approx (k + 1 + K.weights.length) (sumTo K.weights.length fun i => A (K.start + i) * |K.weights.getD i 0|)
      (sumTo K.weights.length fun i => x (K.start + i) * K.weights.getD i 0) (weighed K f) := by
  refine fsum_approx _ fun i hi => ?_
  have := ((h i hi).mul (Approx.self (K.weights.getD i 0))).rnd
  exact this.mono (by omega)

/-! ## C111: separable kernels -/

/-- The positions and weights in one direction: middle, first position, number of positions, weights. -/
structure Tap where
  t : Rat
  s : Nat
  c : Nat
  ws : Nat → Rat

/-- In a direction whose length is kept every sample is itself; otherwise the kernel `k` of radius `a` decides. -/
def Tap.ok (k : Rat → Rat) (a n o x : Nat) (T : Tap) : Prop := if n = o then T.s = x ∧ T.c = 1 ∧ T.ws 0 = 1 else Taps k a n o x T.t T.s T.c T.ws

/-- The weighted sum of samples. -/
def tapSum (X Y : Tap) (f : Nat → Nat → Rat) : Rat := sumTo Y.c fun j => sumTo X.c (fun i => f (X.s + i) (Y.s + j) * X.ws i) * Y.ws j

/-- The same with the absolute values of weights. -/
def tapSize (X Y : Tap) (f : Nat → Nat → Rat) : Rat := sumTo Y.c fun j => sumTo X.c (fun i => f (X.s + i) (Y.s + j) * |X.ws i|) * |Y.ws j|

/-- One direction: the kernels exist if the length changes, and describe taps. -/
theorem kernels_spec (k : Rat → Rat) {a n o : Nat} (ha : 1 ≤ a) (ha3 : a ≤ 3) (hn : 0 < n) (hn2 : n ≤ 2 ^ 20) (ho : o ≤ 2 ^ 20) (hno : n ≠ o) :
    ∃ ks : Nat → ConvKernel, (List.range o).mapM (convKernel k a n (kRatio n o)) = some ((List.range o).map ks) ∧
      ∀ x < o, (ks x).start + (ks x).weights.length ≤ n ∧ (ks x).weights.length ≤ 6 ∧
        ∃ t, Tap.ok k a n o x ⟨t, (ks x).start, (ks x).weights.length, fun i => (ks x).weights.getD i 0⟩ := by
  have H : ∀ x : Nat, ∃ K : ConvKernel, x < o → convKernel k a n (kRatio n o) x = some K ∧ K.start + K.weights.length ≤ n ∧ K.weights.length ≤ 6 ∧
      ∃ t, Taps k a n o x t K.start K.weights.length (fun i => K.weights.getD i 0) := fun x => by
    by_cases hx : x < o
    · obtain ⟨K, t, h1, h2, h3, h4⟩ := convKernel_spec k ha ha3 hn hn2 ho hx
      exact ⟨K, fun _ => ⟨h1, h2, h3, t, h4⟩⟩
    · exact ⟨⟨0, []⟩, fun h => absurd h hx⟩
  choose ks hks using H
  refine ⟨ks, mapM_eq_map fun x hx => (hks x (List.mem_range.1 hx)).1, fun x hx => ?_⟩
  obtain ⟨-, h2, h3, t, h4⟩ := hks x hx
  refine ⟨h2, h3, t, ?_⟩
  unfold Tap.ok
  rw [if_neg hno]; exact h4

/-- Horizontal part with its errors. -/
theorem partH (k : Rat → Rat) {a w h ow : Nat} {img : List Rat} {f : Nat → Nat → Rat} (ha : 1 ≤ a) (ha3 : a ≤ 3) (hw : 0 < w) (hw2 : w ≤ 2 ^ 20) (ho : ow ≤ 2 ^ 20)
    (hp : IsPlane img w h f) (f0 : ∀ x y, 0 ≤ f x y) :
    ∃ (out : List Rat) (p : Nat → Nat → Rat) (X : Nat → Tap), stepH k a w ow img = some out ∧ IsPlane out ow h p ∧
      ∀ x < ow, Tap.ok k a w ow x (X x) ∧ ∀ y, Approx 7 (sumTo (X x).c (fun i => f ((X x).s + i) y * |(X x).ws i|)) (sumTo (X x).c (fun i => f ((X x).s + i) y * (X x).ws i)) (p x y) := by
  by_cases e : w = ow
  · subst e
    refine ⟨img, f, fun x => ⟨0, x, 1, fun _ => 1⟩, if_pos rfl, hp, fun x hx => ⟨by unfold Tap.ok; rw [if_pos rfl]; exact ⟨rfl, rfl, rfl⟩, fun y => ?_⟩⟩
    rw [sumTo_one, sumTo_one, abs_one, mul_one, Nat.add_zero]
    have := Approx.self (f x y)
    rw [abs_of_nonneg (f0 x y)] at this
    exact this.mono (by omega)
  · obtain ⟨ks, h1, h2⟩ := kernels_spec k ha ha3 hw hw2 ho e
    obtain ⟨out, h3, h4⟩ := passH_spec hw hp fun x hx => (h2 x hx).1
    have H : ∀ x : Nat, ∃ t : Rat, x < ow → Tap.ok k a w ow x ⟨t, (ks x).start, (ks x).weights.length, fun i => (ks x).weights.getD i 0⟩ := fun x => by
      by_cases hx : x < ow
      · obtain ⟨t, ht⟩ := (h2 x hx).2.2; exact ⟨t, fun _ => ht⟩
      · exact ⟨0, fun h => absurd h hx⟩
    choose t ht using H
    refine ⟨out, _, fun x => ⟨t x, (ks x).start, (ks x).weights.length, fun i => (ks x).weights.getD i 0⟩, by unfold stepH; rw [if_neg e, h1]; exact h3, h4, fun x hx => ⟨ht x hx, fun y => ?_⟩⟩
    have c6 := (h2 x hx).2.1
    refine (weighed_approx (K := ks x) (k := 0) (f := fun i => f i y) (A := fun i => f i y) (x := fun i => f i y) fun i _ => ?_).mono (by omega)
    have := Approx.self (f ((ks x).start + i) y)
    rwa [abs_of_nonneg (f0 _ y)] at this

/-- Vertical part with its errors. -/
theorem partV (k : Rat → Rat) {a w h oh : Nat} {img : List Rat} {p A q : Nat → Nat → Rat} (ha : 1 ≤ a) (ha3 : a ≤ 3) (hw : 0 < w) (hh : 0 < h) (hh2 : h ≤ 2 ^ 20) (ho : oh ≤ 2 ^ 20)
    (hp : IsPlane img w h p) (hq : ∀ x < w, ∀ y, Approx 7 (A x y) (q x y) (p x y)) :
    ∃ (out : List Rat) (r : Nat → Nat → Rat) (Y : Nat → Tap), stepV k a w h oh img = some out ∧ IsPlane out w oh r ∧
      ∀ y < oh, Tap.ok k a h oh y (Y y) ∧ ∀ x < w, Approx 14 (sumTo (Y y).c (fun j => A x ((Y y).s + j) * |(Y y).ws j|)) (sumTo (Y y).c (fun j => q x ((Y y).s + j) * (Y y).ws j)) (r x y) := by
  by_cases e : h = oh
  · subst e
    refine ⟨img, p, fun y => ⟨0, y, 1, fun _ => 1⟩, if_pos rfl, hp, fun y hy => ⟨by unfold Tap.ok; rw [if_pos rfl]; exact ⟨rfl, rfl, rfl⟩, fun x hx => ?_⟩⟩
    rw [sumTo_one, sumTo_one, abs_one, mul_one, mul_one, Nat.add_zero]
    exact (hq x hx y).mono (by omega)
  · obtain ⟨ks, h1, h2⟩ := kernels_spec k ha ha3 hh hh2 ho e
    obtain ⟨out, h3, h4⟩ := passV_spec hw hp fun x hx => (h2 x hx).1
    have H : ∀ y : Nat, ∃ t : Rat, y < oh → Tap.ok k a h oh y ⟨t, (ks y).start, (ks y).weights.length, fun i => (ks y).weights.getD i 0⟩ := fun y => by
      by_cases hy : y < oh
      · obtain ⟨t, ht⟩ := (h2 y hy).2.2; exact ⟨t, fun _ => ht⟩
      · exact ⟨0, fun h => absurd h hy⟩
    choose t ht using H
    refine ⟨out, _, fun y => ⟨t y, (ks y).start, (ks y).weights.length, fun i => (ks y).weights.getD i 0⟩, by unfold stepV; rw [if_neg e, h1]; exact h3, h4, fun y hy => ⟨ht y hy, fun x hx => ?_⟩⟩
    have c6 := (h2 y hy).2.1
    exact (weighed_approx (K := ks y) (k := 7) (f := fun j => p x j) (A := fun j => A x j) (x := fun j => q x j) fun j _ => hq x hx _).mono (by omega)

/-- **C111** (resizing with separable kernels).  For every kernel, radius 1 to 3 and sides from 1 to 2²⁰ nothing panics, and every new sample is the weighted sum of the samples around
    its place, clamped and rounded down, up to 15/2²⁴ of the sum of the absolute terms; the weights are the kernel at the distances divided by their sum (`Taps`), in a direction
    whose length is kept the sample itself.  A picture resized to its own size is returned as it is. -/
theorem c111_separable (m : Nat) (k : Rat → Rat) {a : Nat} {img : List Nat} {w h ow oh : Nat} (ha : 1 ≤ a) (ha3 : a ≤ 3) (hw : 0 < w) (hh : 0 < h) (how : 0 < ow)
    (hw2 : w ≤ 2 ^ 20) (hh2 : h ≤ 2 ^ 20) (how2 : ow ≤ 2 ^ 20) (hoh2 : oh ≤ 2 ^ 20) (hl : img.length = w * h) :
    (w = ow ∧ h = oh → separable m k a img w h ow oh = some img) ∧
    (¬(w = ow ∧ h = oh) → ∃ (out : List Nat) (X Y : Nat → Tap), separable m k a img w h ow oh = some out ∧ out.length = ow * oh ∧
      (∀ x < ow, Tap.ok k a w ow x (X x)) ∧ (∀ y < oh, Tap.ok k a h oh y (Y y)) ∧
      ∀ x < ow, ∀ y < oh, ∃ v, out[y * ow + x]? = some v ∧
        RoundedDown (15 / 2 ^ 24 * tapSize (X x) (Y y) (pixelAt img w h)) (clampQ 0 m (tapSum (X x) (Y y) (pixelAt img w h))) v) := by
  refine ⟨fun e => by unfold separable; rw [if_pos e], fun e => ?_⟩
  have plane : IsPlane (img.map fun (v : Nat) => (v : Rat)) w h (fun x y => pixelAt img w h x y) := by
    refine ⟨by simpa using hl, fun x hx y hy => ?_⟩
    have := row_bound (w := w) hy
    unfold pixelAt
    beta_reduce
    rw [Nat.min_eq_left (by omega), Nat.min_eq_left (by omega), List.getElem?_map, List.getElem?_eq_getElem (by rw [hl]; omega)]; rfl
  obtain ⟨y1, p, X, e1, hp, hX⟩ := partH k ha ha3 hw hw2 how2 plane fun x y => by unfold pixelAt; positivity
  obtain ⟨z1, r, Y, e2, hr, hY⟩ := partV k ha ha3 how hh hh2 hoh2 hp fun x hx y => (hX x hx).2 y
  refine ⟨z1.map (toSample m), X, Y, ?_, by simpa using hr.1, fun x hx => (hX x hx).1, fun y hy => (hY y hy).1, fun x hx y hy => ⟨toSample m (r x y), ?_, ?_⟩⟩
  · unfold separable
    rw [if_neg e]
    rw [e1, Option.bind_some, e2, Option.bind_some]
  · rw [List.getElem?_map, hr.2 x hx y hy]; rfl
  · have := rounded_approx (m := m) ((hY y hy).2 x hx) (by omega)
    rw [show (((14 : Nat) : Rat) + 1) = 15 by norm_num] at this
    exact this

/-- Non-vacuity: the sizes of an enlargement to a half more. -/
example : (separable 255 (bicubicKernel 0 0) 2 (List.replicate 6 100) 3 2 4 3).isSome := by
  obtain ⟨o, -, -, h, -⟩ := (c111_separable 255 (bicubicKernel 0 0) (a := 2) (img := List.replicate 6 100) (w := 3) (h := 2) (ow := 4) (oh := 3) (by decide) (by decide) (by decide)
    (by decide) (by decide) (by decide) (by decide) (by decide) (by decide) (by decide)).2 (by decide)
  rw [h]; rfl

/-! ### Kernels with small negative lobes -/

/-- What is needed of a kernel of radius 2: it is clearly positive up to a little more than 1/2, hardly negative up to 1 and nowhere below −3/40. -/
structure Lobes (k : Rat → Rat) : Prop where
  top : ∀ d, |d| ≤ 133 / 256 → 23 / 50 ≤ k d
  mid : ∀ d, |d| ≤ 1 → -(1 / 2 ^ 12) ≤ k d
  low : ∀ d, -(3 / 40) ≤ k d

theorem rnd_abs_le {B d : Rat} (hB : Fits 24 B) (h : |d| ≤ B) : |rnd 24 d| ≤ B := by
  obtain ⟨m, e, h1, h2⟩ := hB
  have hn : Fits 24 (-B) := ⟨-m, e, by rwa [abs_neg], by rw [h2]; push_cast; ring⟩
  rw [abs_le] at h ⊢
  exact ⟨le_rnd (by norm_num) hn h.1, rnd_le (by norm_num) ⟨m, e, h1, h2⟩ h.2⟩

theorem fold_low {r l : Rat} (h : l ≤ r) : min l (3 * l) ≤ 2 * r - |r| := by
  rcases le_total 0 r with h0 | h0
  · rw [abs_of_nonneg h0]; exact le_trans (min_le_left _ _) (by linarith)
  · rw [abs_of_nonpos h0]; exact le_trans (min_le_right _ _) (by linarith)

/-- With such a kernel the negative weights are at most a third of the positive ones. -/
theorem taps_fair {k : Rat → Rat} {n o x : Nat} {t : Rat} {s c : Nat} {ws : Nat → Rat} (T : Taps k 2 n o x t s c ws) (hn : 0 < n) (hn2 : n ≤ 2 ^ 16) (ho : x < o) (K : Lobes k) :
    0 < sumTo c (fun i => k (rnd 24 ((s + i : Nat) - t))) ∧
    sumTo c (fun i => |k (rnd 24 ((s + i : Nat) - t))|) ≤ 2 * sumTo c (fun i => k (rnd 24 ((s + i : Nat) - t))) := by
  have o0 : (0 : Rat) < o := by exact_mod_cast Nat.lt_of_le_of_lt (Nat.zero_le _) ho
  have n0 : (1 : Rat) ≤ n := by exact_mod_cast hn
  have n2 : (n : Rat) ≤ 2 ^ 16 := by exact_mod_cast hn2
  have P0 : 0 ≤ ((x : Rat) + 1 / 2) * n / o := by positivity
  have hle : (x : Rat) + 1 ≤ o := by exact_mod_cast ho
  have Pn : ((x : Rat) + 1 / 2) * n / o ≤ n := by
    rw [div_le_iff₀ o0, mul_comm]
    exact mul_le_mul_of_nonneg_left (by linarith) (by positivity)
  have nr := abs_le.1 T.near
  have low : -(133 / 256) ≤ t := by linarith [nr.1]
  have high : t ≤ n - 1 + 133 / 256 := by linarith [nr.2]
  have F0 : -1 ≤ ⌊t⌋ := by rw [Int.le_floor]; push_cast; linarith
  have Fn : ⌊t⌋ < n := by rw [Int.floor_lt]; push_cast; linarith
  have fl := Int.floor_le t
  have fu := Int.lt_floor_add_one t
  have f1 := T.first
  have f2 := T.last
  have c0 := T.some
  generalize ⌊t⌋ = F at *
  set r : Int → Rat := fun j => k (rnd 24 (j - t)) with hr
  have er : ∀ i : Nat, k (rnd 24 (((s + i : Nat) : Rat) - t)) = r (s + i) := fun i => by rw [hr]; push_cast; rfl
  simp only [er]
  have fitT : Fits 24 (133 / 256 : Rat) := ⟨133, -8, by norm_num, by norm_num⟩
  have fit1 : Fits 24 (1 : Rat) := ⟨1, 0, by norm_num, by norm_num⟩
  set g : Int → Rat := fun j => 2 * r j - |r j| with hg
  have gLow : ∀ j, -(9 / 40) ≤ g j := fun j => by
    have := fold_low (K.low (rnd 24 (j - t)))
    rw [min_eq_right (by norm_num)] at this
    have e : (3 : Rat) * -(3 / 40) = -(9 / 40) := by norm_num
    rw [e] at this; exact this
  have gMid : ∀ j : Int, |(j : Rat) - t| ≤ 1 → -(3 / 2 ^ 12) ≤ g j := fun j hj => by
    have := fold_low (K.mid (rnd 24 (j - t)) (rnd_abs_le fit1 hj))
    rw [min_eq_right (by norm_num)] at this
    have e : (3 : Rat) * -(1 / 2 ^ 12) = -(3 / 2 ^ 12) := by norm_num
    rw [e] at this; exact this
  have gTop : ∀ j : Int, |(j : Rat) - t| ≤ 133 / 256 → 23 / 50 ≤ g j := fun j hj => by
    have := fold_low (K.top (rnd 24 (j - t)) (rnd_abs_le fitT hj))
    rw [min_eq_left (by norm_num)] at this
    exact this
  have g0 := gMid F (by rw [abs_le]; constructor <;> linarith)
  have g1 := gMid (F + 1) (by rw [abs_le]; push_cast; constructor <;> linarith)
  have near : 23 / 50 ≤ g F ∨ 23 / 50 ≤ g (F + 1) := by
    rcases le_total (t - F) (1 / 2) with h | h
    · left; refine gTop F ?_; rw [abs_le]; constructor <;> linarith
    · right; refine gTop (F + 1) ?_; rw [abs_le]; push_cast; constructor <;> linarith
  have first : F = -1 → 23 / 50 ≤ g (F + 1) := fun h => by
    refine gTop (F + 1) ?_
    rw [abs_le]; rw [h] at fl fu ⊢; push_cast at fl fu ⊢; constructor <;> linarith
  have last : F + 1 = n → 23 / 50 ≤ g F := fun h => by
    have h' : (F : Rat) + 1 = n := by exact_mod_cast h
    refine gTop F ?_
    rw [abs_le]; constructor <;> linarith
  have key : 0 < sumTo c (fun i => g (s + i)) := by
    have e : ∃ e : Nat, (s : Int) = F - 1 + e ∧ (e = 0 ∧ 2 ≤ c ∧ c ≤ 4 ∨ e = 1 ∧ c ≤ 3 ∨ e = 2 ∧ c ≤ 2) := ⟨(s - (F - 1)).toNat, by omega, by omega⟩
    obtain ⟨e, es, ec⟩ := e
    have cl := gLow (F - 1)
    have cr := gLow (F + 2)
    rw [es]
    rcases ec with ⟨rfl, h1, h2⟩ | ⟨rfl, h2⟩ | ⟨rfl, h2⟩
    · obtain rfl | rfl | rfl : c = 2 ∨ c = 3 ∨ c = 4 := by omega
      · have := last (by omega)
        simp only [sumTo_succ, sumTo_zero]
        simp only [show F - 1 + ((0 : Nat) : Int) + ((0 : Nat) : Int) = F - 1 by omega, show F - 1 + ((0 : Nat) : Int) + ((0 + 1 : Nat) : Int) = F by omega]
        linarith
      · simp only [sumTo_succ, sumTo_zero]
        simp only [show F - 1 + ((0 : Nat) : Int) + ((0 : Nat) : Int) = F - 1 by omega, show F - 1 + ((0 : Nat) : Int) + ((0 + 1 : Nat) : Int) = F by omega,
          show F - 1 + ((0 : Nat) : Int) + ((0 + 1 + 1 : Nat) : Int) = F + 1 by omega]
        rcases near with h | h <;> linarith
      · simp only [sumTo_succ, sumTo_zero]
        simp only [show F - 1 + ((0 : Nat) : Int) + ((0 : Nat) : Int) = F - 1 by omega, show F - 1 + ((0 : Nat) : Int) + ((0 + 1 : Nat) : Int) = F by omega,
          show F - 1 + ((0 : Nat) : Int) + ((0 + 1 + 1 : Nat) : Int) = F + 1 by omega, show F - 1 + ((0 : Nat) : Int) + ((0 + 1 + 1 + 1 : Nat) : Int) = F + 2 by omega]
        rcases near with h | h <;> linarith
    · obtain rfl | rfl | rfl : c = 1 ∨ c = 2 ∨ c = 3 := by omega
      · have := last (by omega)
        simp only [sumTo_succ, sumTo_zero]
        simp only [show F - 1 + ((1 : Nat) : Int) + ((0 : Nat) : Int) = F by omega]
        linarith
      · simp only [sumTo_succ, sumTo_zero]
        simp only [show F - 1 + ((1 : Nat) : Int) + ((0 : Nat) : Int) = F by omega, show F - 1 + ((1 : Nat) : Int) + ((0 + 1 : Nat) : Int) = F + 1 by omega]
        rcases near with h | h <;> linarith
      · simp only [sumTo_succ, sumTo_zero]
        simp only [show F - 1 + ((1 : Nat) : Int) + ((0 : Nat) : Int) = F by omega, show F - 1 + ((1 : Nat) : Int) + ((0 + 1 : Nat) : Int) = F + 1 by omega,
          show F - 1 + ((1 : Nat) : Int) + ((0 + 1 + 1 : Nat) : Int) = F + 2 by omega]
        rcases near with h | h <;> linarith
    · have := first (by omega)
      obtain rfl | rfl : c = 1 ∨ c = 2 := by omega
      · simp only [sumTo_succ, sumTo_zero]
        simp only [show F - 1 + ((2 : Nat) : Int) + ((0 : Nat) : Int) = F + 1 by omega]
        linarith
      · simp only [sumTo_succ, sumTo_zero]
        simp only [show F - 1 + ((2 : Nat) : Int) + ((0 : Nat) : Int) = F + 1 by omega, show F - 1 + ((2 : Nat) : Int) + ((0 + 1 : Nat) : Int) = F + 2 by omega]
        linarith
  have split : sumTo c (fun i => g (s + i)) = 2 * sumTo c (fun i => r (s + i)) - sumTo c (fun i => |r (s + i)|) := by
    rw [← sumTo_mul, ← sumTo_sub]
  have ab : 0 ≤ sumTo c (fun i => |r (s + i)|) := le_trans (abs_nonneg _) (sumTo_abs c fun i => r (s + i))
  constructor <;> linarith

/-- The weights sum to one, and their absolute values to at most 2.01. -/
theorem tap_unit {k : Rat → Rat} {n o x : Nat} {T : Tap} (h : Tap.ok k 2 n o x T) (hn : 0 < n) (hn2 : n ≤ 2 ^ 16) (ho : x < o) (K : Lobes k) :
    |sumTo T.c T.ws - 1| ≤ 21 / 2 ^ 24 ∧ sumTo T.c (fun i => |T.ws i|) ≤ 201 / 100 := by
  unfold Tap.ok at h
  split at h
  · obtain ⟨-, h1, h2⟩ := h
    rw [h1, sumTo_one, sumTo_one, h2]
    norm_num
  · obtain ⟨S, h1, h2, -⟩ := h.weights
    obtain ⟨R0, R2⟩ := taps_fair h hn hn2 ho K
    set r : Nat → Rat := fun i => k (rnd 24 (((T.s + i : Nat) : Rat) - T.t)) with hr
    replace R2 : sumTo T.c (fun i => |r i|) ≤ 2 * sumTo T.c r := R2
    replace h1 : |S - sumTo T.c r| ≤ 7 / 2 ^ 24 * sumTo T.c (fun i => |r i|) := h1
    rw [abs_le] at h1
    have S0 : 0 < S := by linarith [h1.1]
    have h3 : ∀ i < T.c, |T.ws i * S - r i| ≤ 3 / 2 ^ 24 * |r i| := h2 S0
    have a1 : sumTo T.c T.ws * S ≤ sumTo T.c r + 3 / 2 ^ 24 * sumTo T.c (fun i => |r i|) := by
      have e := sumTo_sub T.c (fun i => S * T.ws i) r
      rw [sumTo_mul] at e
      have q : sumTo T.c (fun i => S * T.ws i - r i) ≤ sumTo T.c (fun i => 3 / 2 ^ 24 * |r i|) := sumTo_le fun i hi => by have := (abs_le.1 (h3 i hi)).2; linarith
      rw [sumTo_mul] at q
      linarith
    have a2 : sumTo T.c r - 3 / 2 ^ 24 * sumTo T.c (fun i => |r i|) ≤ sumTo T.c T.ws * S := by
      have e := sumTo_sub T.c r (fun i => S * T.ws i)
      rw [sumTo_mul] at e
      have q : sumTo T.c (fun i => r i - S * T.ws i) ≤ sumTo T.c (fun i => 3 / 2 ^ 24 * |r i|) := sumTo_le fun i hi => by have := (abs_le.1 (h3 i hi)).1; linarith
      rw [sumTo_mul] at q
      linarith
    have a3 : sumTo T.c (fun i => |T.ws i|) * S ≤ (1 + 3 / 2 ^ 24) * sumTo T.c (fun i => |r i|) := by
      rw [mul_comm, ← sumTo_mul, ← sumTo_mul]
      refine sumTo_le fun i hi => ?_
      have e : S * |T.ws i| = |T.ws i * S| := by rw [abs_mul, abs_of_pos S0]; ring
      have q := abs_add_le (T.ws i * S - r i) (r i)
      rw [sub_add_cancel] at q
      rw [e]
      linarith [h3 i hi]
    generalize sumTo T.c (fun i => |T.ws i|) = V at *
    generalize sumTo T.c T.ws = W at *
    generalize sumTo T.c (fun i => |r i|) = A at *
    generalize sumTo T.c r = R at *
    have lo : (1 - 14 / 2 ^ 24) * R ≤ S := by linarith [h1.1]
    have hi : S ≤ (1 + 14 / 2 ^ 24) * R := by linarith [h1.2]
    refine ⟨?_, ?_⟩
    · rw [abs_le]
      constructor
      · by_contra hc
        have : W * S < (1 - 21 / 2 ^ 24) * S := mul_lt_mul_of_pos_right (by linarith) S0
        have : (1 - 21 / 2 ^ 24) * S ≤ (1 - 21 / 2 ^ 24) * ((1 + 14 / 2 ^ 24) * R) := mul_le_mul_of_nonneg_left hi (by norm_num)
        linarith
      · by_contra hc
        have : (1 + 21 / 2 ^ 24) * S < W * S := mul_lt_mul_of_pos_right (by linarith) S0
        have : (1 + 21 / 2 ^ 24) * ((1 - 14 / 2 ^ 24) * R) ≤ (1 + 21 / 2 ^ 24) * S := mul_le_mul_of_nonneg_left lo (by norm_num)
        linarith
    · by_contra hc
      have : 201 / 100 * S < V * S := mul_lt_mul_of_pos_right (not_le.1 hc) S0
      linarith

/-- Flat pictures under a kernel with small negative lobes. -/
theorem flat_partial {m : Nat} {k : Rat → Rat} {w h ow oh v : Nat} (K : Lobes k) (hm : m ≤ 65535) (hv : v ≤ m) (hw : 0 < w) (hh : 0 < h) (how : 0 < ow)
    (hw2 : w ≤ 2 ^ 16) (hh2 : h ≤ 2 ^ 16) (how2 : ow ≤ 2 ^ 20) (hoh2 : oh ≤ 2 ^ 20) :
    ∃ out, separable m k 2 (List.replicate (w * h) v) w h ow oh = some out ∧ out.length = ow * oh ∧ ∀ u ∈ out, u ≤ v ∧ v ≤ u + 1 := by
  have hl : (List.replicate (w * h) v).length = w * h := by simp
  obtain ⟨same, diff⟩ := c111_separable m k (a := 2) (by omega) (by omega) hw hh how (by omega) (by omega) how2 hoh2 hl
  by_cases e : w = ow ∧ h = oh
  · refine ⟨_, same e, by rw [hl, e.1, e.2], fun u hu => ?_⟩
    rw [List.eq_of_mem_replicate hu]; omega
  obtain ⟨out, X, Y, h1, h2, hX, hY, h3⟩ := diff e
  refine ⟨out, h1, h2, fun u hu => ?_⟩
  obtain ⟨i, hi, rfl⟩ := List.mem_iff_getElem.1 hu
  rw [h2] at hi
  have hx : i % ow < ow := Nat.mod_lt _ how
  have hy : i / ow < oh := Nat.div_lt_of_lt_mul hi
  obtain ⟨u', g, r⟩ := h3 _ hx _ hy
  rw [show i / ow * ow + i % ow = i by rw [Nat.mul_comm]; exact Nat.div_add_mod i ow, List.getElem?_eq_getElem (by omega)] at g
  rw [Option.some.inj g]
  obtain ⟨xu, xn⟩ := tap_unit (hX _ hx) hw hw2 hx K
  obtain ⟨yu, yn⟩ := tap_unit (hY _ hy) hh hh2 hy K
  generalize X (i % ow) = P at *
  generalize Y (i / ow) = Q at *
  have pix : ∀ x y, pixelAt (List.replicate (w * h) v) w h x y = v := fun x y => by
    unfold pixelAt
    have : min y (h - 1) * w + w ≤ w * h := row_bound (by omega)
    rw [List.getElem?_replicate, if_pos (by omega)]; rfl
  have sum : tapSum P Q (pixelAt (List.replicate (w * h) v) w h) = sumTo Q.c Q.ws * (sumTo P.c P.ws * v) := by
    unfold tapSum
    simp only [pix, sumTo_mul]
    ring
  have size : tapSize P Q (pixelAt (List.replicate (w * h) v) w h) = sumTo Q.c (fun j => |Q.ws j|) * (sumTo P.c (fun i => |P.ws i|) * v) := by
    unfold tapSize
    simp only [pix, sumTo_mul]
    ring
  rw [sum, size] at r
  obtain ⟨r1, r2⟩ := r
  rw [abs_le] at xu yu
  have v0 : (0 : Rat) ≤ v := by positivity
  have vm : (v : Rat) ≤ m := by exact_mod_cast hv
  have mm : (m : Rat) ≤ 65535 := by exact_mod_cast hm
  have pa : 0 ≤ sumTo P.c (fun i => |P.ws i|) := le_trans (abs_nonneg _) (sumTo_abs P.c P.ws)
  generalize sumTo P.c (fun i => |P.ws i|) = pp at *
  generalize sumTo Q.c (fun i => |Q.ws i|) = qq at *
  generalize sumTo P.c P.ws = p at *
  generalize sumTo Q.c Q.ws = q at *
  have z1 : p * v ≤ (1 + 21 / 2 ^ 24) * v := mul_le_mul_of_nonneg_right (by linarith) v0
  have z2 : (1 - 21 / 2 ^ 24) * v ≤ p * v := mul_le_mul_of_nonneg_right (by linarith) v0
  have z0 : 0 ≤ p * v := le_trans (mul_nonneg (by norm_num) v0) z2
  have z3 : q * (p * v) ≤ (1 + 21 / 2 ^ 24) * (p * v) := mul_le_mul_of_nonneg_right (by linarith) z0
  have z4 : (1 - 21 / 2 ^ 24) * (p * v) ≤ q * (p * v) := mul_le_mul_of_nonneg_right (by linarith) z0
  have y1 : pp * v ≤ 201 / 100 * v := mul_le_mul_of_nonneg_right xn v0
  have y2 : qq * (pp * v) ≤ 201 / 100 * (pp * v) := mul_le_mul_of_nonneg_right yn (mul_nonneg pa v0)
  generalize q * (p * v) = z at *
  generalize p * (v : Rat) = zz at *
  generalize qq * (pp * (v : Rat)) = y at *
  generalize pp * (v : Rat) = yy at *
  have zlo : v - 1 / 4 ≤ z := by linarith
  have zhi : z ≤ v + 1 / 4 := by linarith
  have c1 : v - 1 / 4 ≤ clampQ 0 m z := by
    unfold clampQ
    exact le_trans (le_min (by linarith) zlo) (le_max_right _ _)
  have c2 : clampQ 0 m z ≤ v + 1 / 4 := by
    unfold clampQ
    exact max_le (by linarith) (le_trans (min_le_right _ _) zhi)
  have ep : 15 / 2 ^ 24 * y ≤ 1 / 4 := by linarith
  constructor
  · have : (u' : Rat) < v + 1 := by linarith
    have : u' < v + 1 := by exact_mod_cast this
    omega
  · have : (v : Rat) < u' + 2 := by linarith
    have : v < u' + 2 := by exact_mod_cast this
    omega

/-! ### Bicubic kernels -/

theorem approx_sub {n : Nat} {A B x y x' y' : Rat} (h : Approx n A x y) (h' : Approx n B x' y') : Approx n (A + B) (x - x') (y - y') := by
  rw [sub_eq_add_neg, sub_eq_add_neg]
  refine h.add ⟨by rw [abs_neg]; exact h'.size, ?_⟩
  rw [show -y' - -x' = -(y' - x') by ring, abs_neg]; exact h'.err

theorem approx_size {x B : Rat} (h : |x| ≤ B) : Approx 0 B x x := (Approx.self x).widen h

theorem approx_close {A X X' Y Y' : Rat} (h : Approx 9 A X Y) (hA : A ≤ 35) (hX : X = X') (hY : Y = Y') : |Y' - X'| ≤ 1 / 2 ^ 15 := by
  have nr := (h.widen hA).near (by omega)
  push_cast at nr
  subst hX hY
  rw [abs_le]
  constructor <;> linarith [nr.1, nr.2]

/-- Rounding moves the kernel by at most 1/2¹⁵. -/
theorem bicubic_near {b c : Rat} (b0 : 0 ≤ b) (b1 : b ≤ 1) (c0 : 0 ≤ c) (c1 : c ≤ 1 / 2) (x : Rat) : |bicubicKernel b c x - bicubicExact b c x| ≤ 1 / 2 ^ 15 := by
  have B : Approx 0 1 b b := approx_size (by rw [abs_of_nonneg b0]; exact b1)
  have C : Approx 0 (1 / 2) c c := approx_size (by rw [abs_of_nonneg c0]; exact c1)
  have num : ∀ q : Rat, Approx 0 |q| q q := Approx.self
  unfold bicubicKernel bicubicExact
  dsimp only
  have x0 := abs_nonneg x
  generalize |x| = z at *
  split
  · next h =>
    have Z : Approx 0 1 z z := approx_size (by rw [abs_of_nonneg x0]; exact h.le)
    have Z2 := (Z.mul Z).rnd
    have Z3 := (Z2.mul Z).rnd
    have p1 := (approx_sub ((approx_sub ((num 12).mono (show 0 ≤ 1 by omega)) (((num 9).mul B).rnd.mono (show _ ≤ 1 by omega))).rnd) (((num 6).mul C).rnd.mono (show _ ≤ 1 + 1 by omega))).rnd.mul Z3 |>.rnd
    have p2 := ((((num (-18)).mono (show 0 ≤ 1 by omega)).add (((num 12).mul B).rnd.mono (show _ ≤ 1 by omega))).rnd.add (((num 6).mul C).rnd.mono (show _ ≤ 1 + 1 by omega))).rnd.mul Z2 |>.rnd
    have p3 := (approx_sub ((num 6).mono (show 0 ≤ 1 by omega)) (((num 2).mul B).rnd.mono (show _ ≤ 1 by omega))).rnd
    have all := ((((p1.mono (show _ ≤ 6 by omega)).add (p2.mono (show _ ≤ 6 by omega))).rnd.add (p3.mono (show _ ≤ 6 + 1 by omega))).rnd.mul (num (1 / 6))).rnd
    refine approx_close (all.mono (by omega)) ?_ ?_ (by rw [mul_one_div])
    · norm_num
    · ring
  · split
    · next h =>
      have Z : Approx 0 2 z z := approx_size (by rw [abs_of_nonneg x0]; exact h.le)
      have Z2 := (Z.mul Z).rnd
      have Z3 := (Z2.mul Z).rnd
      have nB : Approx 0 1 (-b) (-b) := approx_size (by rw [abs_neg, abs_of_nonneg b0]; exact b1)
      have p1 := (approx_sub (nB.mono (show 0 ≤ 1 by omega)) (((num 6).mul C).rnd.mono (show _ ≤ 1 by omega))).rnd.mul Z3 |>.rnd
      have p2 := (((num 6).mul B).rnd.add (((num 30).mul C).rnd.mono (show _ ≤ 0 + 0 + 1 by omega))).rnd.mul Z2 |>.rnd
      have p3 := (approx_sub (((num (-12)).mul B).rnd) (((num 48).mul C).rnd.mono (show _ ≤ 0 + 0 + 1 by omega))).rnd.mul Z |>.rnd
      have p4 := (((num 8).mul B).rnd.add (((num 24).mul C).rnd.mono (show _ ≤ 0 + 0 + 1 by omega))).rnd
      have all := (((((p1.mono (show _ ≤ 5 by omega)).add (p2.mono (show _ ≤ 5 by omega))).rnd.add (p3.mono (show _ ≤ 5 + 1 by omega))).rnd.add
        (p4.mono (show _ ≤ 5 + 1 + 1 by omega))).rnd.mul (num (1 / 6))).rnd
      refine approx_close (all.mono (by omega)) ?_ ?_ (by rw [mul_one_div])
      · norm_num [abs_of_pos]
      · ring
    · simp

/-- The kernels of the family of Mitchell and Netravali that the code offers (B-spline 1, 0; Mitchell 1/3, 1/3; Catmull-Rom 0, 1/2; Hermite 0, 0) have small lobes. -/
theorem bicubic_lobes {b c : Rat} (b0 : 0 ≤ b) (b1 : b ≤ 1) (c0 : 0 ≤ c) (c1 : c ≤ 1 / 2) : Lobes (bicubicKernel b c) := by
  have near : ∀ d, bicubicExact b c d - 1 / 2 ^ 15 ≤ bicubicKernel b c d := fun d => by
    have := (abs_le.1 (bicubic_near b0 b1 c0 c1 d)).1
    linarith
  have inner : ∀ x : Rat, ((12 - 9 * b - 6 * c) * x ^ 3 + (-18 + 12 * b + 6 * c) * x ^ 2 + (6 - 2 * b)) / 6 =
      (1 - b) * ((1 - x) ^ 2 * (1 + 2 * x)) + b * ((3 * x ^ 3 - 6 * x ^ 2 + 4) / 6) + c * (x ^ 2 * (1 - x)) := fun x => by ring
  have outer : ∀ x : Rat, ((-b - 6 * c) * x ^ 3 + (6 * b + 30 * c) * x ^ 2 + (-12 * b - 48 * c) * x + (8 * b + 24 * c)) / 6 =
      b * ((2 - x) ^ 3 / 6) - c * ((x - 1) * (2 - x) ^ 2) := fun x => by ring
  have in0 : ∀ x : Rat, 0 ≤ x → x < 1 → 0 ≤ bicubicExact b c x := fun x h0 h1 => by
    unfold bicubicExact
    dsimp only
    rw [abs_of_nonneg h0, if_pos h1, inner]
    have s1 : 0 ≤ (1 - x) ^ 2 * (1 + 2 * x) := mul_nonneg (sq_nonneg _) (by linarith)
    have s2 : 0 ≤ (3 * x ^ 3 - 6 * x ^ 2 + 4) / 6 := by nlinarith [mul_nonneg h0 (sq_nonneg (1 - x)), sq_nonneg x]
    have s3 : 0 ≤ x ^ 2 * (1 - x) := mul_nonneg (sq_nonneg _) (by linarith)
    have := mul_nonneg (sub_nonneg.2 b1) s1
    have := mul_nonneg b0 s2
    have := mul_nonneg c0 s3
    linarith
  have even : ∀ d, bicubicExact b c d = bicubicExact b c |d| := fun d => by
    unfold bicubicExact
    rw [abs_abs]
  have out1 : ∀ x : Rat, 1 ≤ x → -(2 / 27) ≤ bicubicExact b c x := fun x h1 => by
    unfold bicubicExact
    dsimp only
    rw [abs_of_nonneg (by linarith), if_neg (not_lt.2 h1)]
    split
    · next h2 =>
      rw [outer]
      have s1 : 0 ≤ (2 - x) ^ 3 / 6 := by have := pow_nonneg (show 0 ≤ 2 - x by linarith) 3; linarith
      have s2 : (x - 1) * (2 - x) ^ 2 ≤ 4 / 27 := by nlinarith [mul_nonneg (sq_nonneg (x - 4 / 3)) (show (0 : Rat) ≤ 7 / 3 - x by linarith)]
      have s3 : 0 ≤ (x - 1) * (2 - x) ^ 2 := mul_nonneg (by linarith) (sq_nonneg _)
      have s4 : c * ((x - 1) * (2 - x) ^ 2) ≤ 1 / 2 * (4 / 27) := mul_le_mul c1 s2 s3 (by norm_num)
      have := mul_nonneg b0 s1
      linarith
    · norm_num
  refine ⟨fun d hd => ?_, fun d hd => ?_, fun d => ?_⟩
  · have n := near d
    have h0 := abs_nonneg d
    rw [even] at n
    generalize |d| = x at *
    have ex : 466 / 1000 ≤ bicubicExact b c x := by
      unfold bicubicExact
      dsimp only
      rw [abs_of_nonneg h0, if_pos (by linarith), inner]
      have s1 : 466 / 1000 ≤ (1 - x) ^ 2 * (1 + 2 * x) := by nlinarith [mul_nonneg h0 (sub_nonneg.2 hd), sq_nonneg x, mul_nonneg (mul_nonneg h0 h0) (sub_nonneg.2 hd)]
      have s2 : 466 / 1000 ≤ (3 * x ^ 3 - 6 * x ^ 2 + 4) / 6 := by
        nlinarith [mul_nonneg h0 (sub_nonneg.2 hd), sq_nonneg x, mul_nonneg (mul_nonneg h0 h0) (sub_nonneg.2 hd)]
      have s3 : 0 ≤ x ^ 2 * (1 - x) := mul_nonneg (sq_nonneg _) (by linarith)
      have := mul_le_mul_of_nonneg_left s1 (sub_nonneg.2 b1)
      have := mul_le_mul_of_nonneg_left s2 b0
      have := mul_nonneg c0 s3
      linarith
    linarith
  · have n := near d
    rw [even] at n
    rcases lt_or_eq_of_le hd with h | h
    · have := in0 _ (abs_nonneg d) h
      linarith
    · have e : bicubicExact b c 1 = b / 6 := by
        unfold bicubicExact
        dsimp only
        rw [abs_one, if_neg (by norm_num), if_pos (by norm_num)]; ring
      rw [h, e] at n
      linarith
  · have n := near d
    rw [even] at n
    rcases lt_or_ge |d| 1 with h | h
    · have := in0 _ (abs_nonneg d) h; linarith
    · have := out1 _ h; linarith

/-- **C111** (flat pictures).  With each of the bicubic kernels that the code offers a picture of one value, up to 65536 in width and height, keeps it or gets one less; that it is
    always kept is false (`c111_white_wrong`). -/
theorem c111_constant_partial {m w h ow oh v : Nat} {b c : Rat} (hk : (b = 1 ∧ c = 0) ∨ (b = rnd 24 (1 / 3) ∧ c = rnd 24 (1 / 3)) ∨ (b = 0 ∧ c = 1 / 2) ∨ (b = 0 ∧ c = 0))
    (hm : m ≤ 65535) (hv : v ≤ m) (hw : 0 < w) (hh : 0 < h) (how : 0 < ow) (hw2 : w ≤ 2 ^ 16) (hh2 : h ≤ 2 ^ 16) (how2 : ow ≤ 2 ^ 20) (hoh2 : oh ≤ 2 ^ 20) :
    ∃ out, separable m (bicubicKernel b c) 2 (List.replicate (w * h) v) w h ow oh = some out ∧ out.length = ow * oh ∧ ∀ u ∈ out, u ≤ v ∧ v ≤ u + 1 := by
  have third : 0 ≤ rnd 24 (1 / 3) ∧ rnd 24 (1 / 3) ≤ 1 / 2 := by decide +kernel
  refine flat_partial (bicubic_lobes ?_ ?_ ?_ ?_) hm hv hw hh how hw2 hh2 how2 hoh2 <;>
    rcases hk with ⟨rfl, rfl⟩ | ⟨rfl, rfl⟩ | ⟨rfl, rfl⟩ | ⟨rfl, rfl⟩ <;> linarith [third.1, third.2]

/-- Non-vacuity. -/
example : ∃ out, separable 255 (bicubicKernel 0 (1 / 2)) 2 (List.replicate (3 * 2) 200) 3 2 7 5 = some out ∧ out.length = 7 * 5 ∧ ∀ u ∈ out, u ≤ 200 ∧ 200 ≤ u + 1 :=
  c111_constant_partial (by simp) (by decide) (by decide) (by decide) (by decide) (by decide) (by decide) (by decide) (by decide) (by decide)

/-- **C111** (white).  Enlarging a white row of three samples to four (Hermite kernel): the outer ones are no longer white. -/
theorem c111_white_wrong : separable 255 (bicubicKernel 0 0) 2 (List.replicate 3 255) 3 1 4 1 = some [254, 255, 255, 254] := by decide +kernel

/-- **C111** (the bicubic kernels).  The four values of a kernel around every place sum to one exactly, for all parameters. -/
theorem c111_unit (b c : Rat) {f : Rat} (f0 : 0 ≤ f) (f1 : f < 1) :
    bicubicExact b c (-1 - f) + bicubicExact b c (-f) + bicubicExact b c (1 - f) + bicubicExact b c (2 - f) = 1 := by
  unfold bicubicExact
  dsimp only
  rw [abs_of_nonpos (show -1 - f ≤ 0 by linarith), abs_of_nonpos (show -f ≤ 0 by linarith), abs_of_nonneg (show 0 ≤ 1 - f by linarith), abs_of_nonneg (show 0 ≤ 2 - f by linarith),
    if_neg (show ¬(-(-1 - f) < 1) by linarith), if_pos (show -(-1 - f) < 2 by linarith), if_pos (show -(-f) < 1 by linarith), if_neg (show ¬(2 - f < 1) by linarith)]
  rcases f0.eq_or_lt with rfl | h
  · norm_num; ring
  · rw [if_pos (show 1 - f < 1 by linarith), if_pos (show 2 - f < 2 by linarith)]
    ring

/-- Non-vacuity. -/
example : bicubicExact 0 (1 / 2) (-1 - 1 / 4) + bicubicExact 0 (1 / 2) (-(1 / 4)) + bicubicExact 0 (1 / 2) (1 - 1 / 4) + bicubicExact 0 (1 / 2) (2 - 1 / 4) = 1 :=
  c111_unit 0 (1 / 2) (by norm_num) (by norm_num)

/-! ### Shrinking -/

theorem plane_ext {l l' : List Rat} {w h : Nat} {p p' : Nat → Nat → Rat} (hw : 0 < w) (hl : IsPlane l w h p) (hl' : IsPlane l' w h p') (e : ∀ x < w, ∀ y < h, p x y = p' x y) : l = l' := by
  refine List.ext_getElem? fun i => ?_
  rcases Nat.lt_or_ge i (w * h) with hi | hi
  · have hx : i % w < w := Nat.mod_lt _ hw
    have hy : i / w < h := Nat.div_lt_of_lt_mul hi
    have a := hl.2 _ hx _ hy
    have b := hl'.2 _ hx _ hy
    rw [show i / w * w + i % w = i by rw [Nat.mul_comm]; exact Nat.div_add_mod i w] at a b
    rw [a, b, e _ hx _ hy]
  · rw [List.getElem?_eq_none (by rw [hl.1]; exact hi), List.getElem?_eq_none (by rw [hl'.1]; exact hi)]

/-- A few intervals do not cover everything. -/
theorem uncovered {s c : Nat → Nat} {b n : Nat} (hc : ∀ x, c x ≤ b) : ∀ o : Nat, o * b < n → ∃ z < n, ∀ x < o, ∀ i < c x, s x + i ≠ z := fun o h => by
  by_contra hn
  push Not at hn
  have sub : Finset.range n ⊆ (Finset.range o).biUnion fun x => (Finset.range (c x)).image fun i => s x + i := fun z hz => by
    obtain ⟨x, hx, i, hi, e⟩ := hn z (Finset.mem_range.1 hz)
    rw [Finset.mem_biUnion]
    exact ⟨x, Finset.mem_range.2 hx, Finset.mem_image.2 ⟨i, Finset.mem_range.2 hi, e⟩⟩
  have a := Finset.card_le_card sub
  have b' := Finset.card_biUnion_le (s := Finset.range o) (t := fun x => (Finset.range (c x)).image fun i => s x + i)
  have d : ∑ x ∈ Finset.range o, ((Finset.range (c x)).image fun i => s x + i).card ≤ ∑ _x ∈ Finset.range o, b :=
    Finset.sum_le_sum fun x _ => le_trans Finset.card_image_le (by rw [Finset.card_range]; exact hc x)
  rw [Finset.sum_const, Finset.card_range, show o • b = o * b from rfl] at d
  rw [Finset.card_range] at a
  omega

/-- **C111** (shrinking).  The kernels are not stretched when a picture shrinks: if the width becomes less than a sixth, there is a column of the picture that has no influence at all. -/
theorem c111_skips (m : Nat) (k : Rat → Rat) {a w h ow oh : Nat} (ha : 1 ≤ a) (ha3 : a ≤ 3) (hw2 : w ≤ 2 ^ 20) (how : 0 < ow) (hs : ow * 6 < w) :
    ∃ z < w, ∀ img img' : List Nat, img.length = w * h → img'.length = w * h → (∀ x < w, ∀ y < h, x ≠ z → img[y * w + x]? = img'[y * w + x]?) →
      separable m k a img w h ow oh = separable m k a img' w h ow oh := by
  obtain ⟨ks, h1, h2⟩ := kernels_spec k ha ha3 (n := w) (o := ow) (by omega) hw2 (by omega) (by omega)
  obtain ⟨z, hz, H⟩ := uncovered (s := fun x => (ks x).start) (c := fun x => min 6 (ks x).weights.length) (b := 6) (n := w) (fun x => by omega) ow hs
  refine ⟨z, hz, fun img img' hl hl' e => ?_⟩
  have plane : ∀ l : List Nat, l.length = w * h → IsPlane (l.map fun (v : Nat) => (v : Rat)) w h (fun x y => pixelAt l w h x y) := fun l hl => by
    refine ⟨by simpa using hl, fun x hx y hy => ?_⟩
    have := row_bound (w := w) hy
    unfold pixelAt
    beta_reduce
    rw [Nat.min_eq_left (by omega), Nat.min_eq_left (by omega), List.getElem?_map, List.getElem?_eq_getElem (by rw [hl]; omega)]; rfl
  have step : stepH k a w ow (img.map fun (v : Nat) => (v : Rat)) = stepH k a w ow (img'.map fun (v : Nat) => (v : Rat)) := by
    unfold stepH
    rw [if_neg (by omega), if_neg (by omega), h1, Option.bind_some, Option.bind_some]
    obtain ⟨o1, e1, p1⟩ := passH_spec (by omega) (plane img hl) fun x hx => (h2 x hx).1
    obtain ⟨o2, e2, p2⟩ := passH_spec (by omega) (plane img' hl') fun x hx => (h2 x hx).1
    rw [e1, e2, plane_ext how p1 p2 fun x hx y hy => ?_]
    unfold weighed
    congr 1
    refine List.map_congr_left fun i hi => ?_
    have hi := List.mem_range.1 hi
    have b1 := (h2 x hx).1
    have b2 := (h2 x hx).2.1
    have ne := H x hx i (by omega)
    have := e ((ks x).start + i) (by omega) y hy ne
    unfold pixelAt
    beta_reduce
    rw [Nat.min_eq_left (show y ≤ h - 1 by omega), Nat.min_eq_left (by omega), this]
  unfold separable
  rw [if_neg (by omega), if_neg (by omega), step]

/-- Non-vacuity. -/
example : ∃ z < 13, ∀ img img' : List Nat, img.length = 13 * 2 → img'.length = 13 * 2 → (∀ x < 13, ∀ y < 2, x ≠ z → img[y * 13 + x]? = img'[y * 13 + x]?) →
    separable 255 (bicubicKernel 0 0) 2 img 13 2 2 2 = separable 255 (bicubicKernel 0 0) 2 img' 13 2 2 2 :=
  c111_skips 255 _ (by decide) (by decide) (by decide) (by decide) (by decide)

/-! ## C112: dimensions that keep the ratio -/

/-- The result fits into the box, reaches one of its sides up to one, and has the old ratio up to one unit on either side. -/
structure FitsBox (ow oh nw nh a b : Nat) : Prop where
  width : a ≤ nw
  height : b ≤ nh
  full : nw ≤ a + 1 ∨ nh ≤ b + 1
  wide : a * oh ≤ b * ow + ow + 2
  tall : b * ow ≤ a * oh + oh + 2

theorem err53 {x B : Rat} (h0 : 0 ≤ x) (hB : x ≤ B) : rnd 53 x ≤ x + B / 2 ^ 53 ∧ x ≤ rnd 53 x + B / 2 ^ 53 := by
  have e := rnd_err 53 x
  rw [abs_of_nonneg h0] at e
  have e' : |rnd 53 x - x| ≤ B / 2 ^ 53 := by rw [le_div_iff₀ (by norm_num)]; exact le_trans e hB
  rw [abs_le] at e'
  constructor <;> linarith [e'.1, e'.2]

theorem nat53 {n : Nat} (h : n ≤ 2 ^ 26) : rnd 53 (n : Rat) = n := rnd_fit (by norm_num) (fits_nat (by omega))

/-- One side: the ratio and its quotient. -/
theorem ratio_side {o n : Nat} {q : Rat} (ho : 0 < o) (hn : 0 < n) (hn2 : n ≤ 2 ^ 26) (hq : rnd 53 ((o : Rat) / n) ≤ q) : 0 < q ∧ (o : Rat) / q ≤ n + 1 / 2 ^ 26 := by
  have o0 : (0 : Rat) < o := by exact_mod_cast ho
  have n0 : (0 : Rat) < n := by exact_mod_cast hn
  have n2 : (n : Rat) ≤ 2 ^ 26 := by exact_mod_cast hn2
  have x0 : 0 < (o : Rat) / n := by positivity
  have e := (err53 x0.le le_rfl).2
  have low : (o : Rat) / n * (1 - 1 / 2 ^ 53) ≤ q := by linarith
  have q0 : 0 < q := lt_of_lt_of_le (mul_pos x0 (by norm_num)) low
  refine ⟨q0, ?_⟩
  rw [div_le_iff₀ q0]
  have : (o : Rat) = n * (o / n) := by field_simp
  have k : (n + 1 / 2 ^ 26 : Rat) * ((o : Rat) / n * (1 - 1 / 2 ^ 53)) ≤ (n + 1 / 2 ^ 26) * q := mul_le_mul_of_nonneg_left low (by positivity)
  have f : (n : Rat) ≤ (n + 1 / 2 ^ 26) * (1 - 1 / 2 ^ 53) := by linarith
  have g := mul_le_mul_of_nonneg_right f x0.le
  linarith

/-- **C112** (ratio_dimensions_smaller).  For all sides up to 2²⁶ the result fits into the wanted box, reaches one of its sides up to one unit and keeps the ratio as far as whole
    numbers allow. -/
theorem c112_smaller {ow oh nw nh : Nat} (h1 : 0 < ow) (h2 : 0 < oh) (h3 : 0 < nw) (h4 : 0 < nh) (g1 : ow ≤ 2 ^ 26) (g2 : oh ≤ 2 ^ 26) (g3 : nw ≤ 2 ^ 26) (g4 : nh ≤ 2 ^ 26) :
    FitsBox ow oh nw nh (ratioSmaller ow oh nw nh).1 (ratioSmaller ow oh nw nh).2 := by
  unfold ratioSmaller
  rw [nat53 g1, nat53 g2, nat53 g3, nat53 g4]
  dsimp only
  generalize hp : (if rnd 53 ((oh : Rat) / nh) < rnd 53 ((ow : Rat) / nw) then rnd 53 ((ow : Rat) / nw) else rnd 53 ((oh : Rat) / nh)) = p
  have pw : rnd 53 ((ow : Rat) / nw) ≤ p := by rw [← hp]; split <;> linarith
  have ph : rnd 53 ((oh : Rat) / nh) ≤ p := by rw [← hp]; split <;> linarith
  have pe : p = rnd 53 ((ow : Rat) / nw) ∨ p = rnd 53 ((oh : Rat) / nh) := by rw [← hp]; split <;> simp
  clear hp
  obtain ⟨p0, ew⟩ := ratio_side h1 h3 g3 pw
  obtain ⟨-, eh⟩ := ratio_side h2 h4 g4 ph
  -- both quotients and their whole parts
  have side : ∀ o n : Nat, n ≤ 2 ^ 26 → (o : Rat) / p ≤ n + 1 / 2 ^ 26 → ∃ a : Nat, ⌊rnd 53 ((o : Rat) / p)⌋.toNat = a ∧ a ≤ n ∧ (a : Rat) ≤ o / p + 1 / 2 ^ 26 ∧ (o : Rat) / p - 1 / 2 ^ 26 < a + 1 := by
    intro o n hn e
    have x0 : 0 ≤ (o : Rat) / p := by positivity
    have n2 : (n : Rat) ≤ 2 ^ 26 := by exact_mod_cast hn
    have er := err53 x0 (show (o : Rat) / p ≤ 2 ^ 27 by linarith)
    have y0 : 0 ≤ rnd 53 ((o : Rat) / p) := by rw [← rnd_zero 53]; exact rnd_mono (by norm_num) x0
    have f0 := Int.floor_nonneg.2 y0
    have fl := Int.floor_le (rnd 53 ((o : Rat) / p))
    have fu := Int.lt_floor_add_one (rnd 53 ((o : Rat) / p))
    obtain ⟨a, ha⟩ := Int.eq_ofNat_of_zero_le f0
    rw [ha] at fl fu ⊢
    push_cast at fl fu
    refine ⟨a, rfl, ?_, by linarith [er.1], by linarith [er.2]⟩
    have : (a : Rat) < n + 1 := by linarith [er.1]
    have : a < n + 1 := by exact_mod_cast this
    omega
  have full : ∀ o n a : Nat, 0 < o → 0 < n → n ≤ 2 ^ 26 → p = rnd 53 ((o : Rat) / n) → (o : Rat) / p - 1 / 2 ^ 26 < a + 1 → n ≤ a + 1 := by
    intro o n a ho hn hn2 e h
    have o0 : (0 : Rat) < o := by exact_mod_cast ho
    have n0 : (0 : Rat) < n := by exact_mod_cast hn
    have n2 : (n : Rat) ≤ 2 ^ 26 := by exact_mod_cast hn2
    have x0 : 0 < (o : Rat) / n := by positivity
    have er := (err53 x0.le le_rfl).1
    rw [← e] at er
    have : (n : Rat) - 1 / 2 ^ 26 ≤ o / p := by
      rw [le_div_iff₀ p0]
      have i : (o : Rat) = n * (o / n) := by field_simp
      have k : (n - 1 / 2 ^ 26 : Rat) * p ≤ (n - 1 / 2 ^ 26) * (o / n * (1 + 1 / 2 ^ 53)) :=
        mul_le_mul_of_nonneg_left (by linarith) (by have : (1 : Rat) ≤ n := by exact_mod_cast hn
                                                    linarith)
      have f : (n - 1 / 2 ^ 26 : Rat) * (1 + 1 / 2 ^ 53) ≤ n := by linarith
      have g := mul_le_mul_of_nonneg_right f x0.le
      linarith
    have : (n : Rat) < a + 2 := by linarith
    have : n < a + 2 := by exact_mod_cast this
    omega
  obtain ⟨a, ea, a1, a2, a3⟩ := side ow nw g3 ew
  obtain ⟨b, eb, b1, b2, b3⟩ := side oh nh g4 eh
  rw [ea, eb]
  have w2 : (ow : Rat) ≤ 2 ^ 26 := by exact_mod_cast g1
  have q2 : (oh : Rat) ≤ 2 ^ 26 := by exact_mod_cast g2
  have w0 : (0 : Rat) < ow := by exact_mod_cast h1
  have q0 : (0 : Rat) < oh := by exact_mod_cast h2
  have ex : (ow : Rat) / p * oh = oh / p * ow := by ring
  have t1 := mul_le_mul_of_nonneg_right a2 q0.le
  have t2 := mul_le_mul_of_nonneg_right b3.le w0.le
  have t3 := mul_le_mul_of_nonneg_right b2 w0.le
  have t4 := mul_le_mul_of_nonneg_right a3.le q0.le
  refine ⟨a1, b1, ?_, ?_, ?_⟩
  · rcases pe with e | e
    · exact Or.inl (full ow nw a h1 h3 g3 e a3)
    · exact Or.inr (full oh nh b h2 h4 g4 e b3)
  · have : (a : Rat) * oh ≤ b * ow + ow + 2 := by linarith
    exact_mod_cast this
  · have : (b : Rat) * ow ≤ a * oh + oh + 2 := by linarith
    exact_mod_cast this

/-- Non-vacuity, and a result as expected. -/
example : ratioSmaller 1920 1080 800 800 = (800, 450) ∧ FitsBox 1920 1080 800 800 800 450 :=
  ⟨by decide +kernel, ⟨by decide, by decide, Or.inl (by decide), by decide, by decide⟩⟩

/-- **C112** (one less).  A box that has the old ratio exactly is not reached: 100 × 100 into 83 × 83 gives 82 × 82. -/
theorem c112_exact_wrong : ratioSmaller 100 100 83 83 = (82, 82) := by decide +kernel

/-- **C112** (nothing left).  A long thin picture gets the height 0. -/
theorem c112_zero_wrong : ratioSmaller 1000 1 100 100 = (100, 0) := by decide +kernel

/-- **C112** (ratio_dimensions_larger).  The function for the larger dimension never gives more than the box, so it does not cover the box either: a picture of ratio 2 : 1 in a square
    leaves half of it empty. -/
theorem c112_larger_wrong : (∀ ow oh nw nh : Nat, 0 < ow → 0 < oh → 0 < nw → 0 < nh → ow ≤ 2 ^ 26 → oh ≤ 2 ^ 26 → nw ≤ 2 ^ 26 → nh ≤ 2 ^ 26 →
      (ratioLarger ow oh nw nh).1 ≤ nw ∧ (ratioLarger ow oh nw nh).2 ≤ nh) ∧
    ratioLarger 100 50 200 200 = (200, 100) :=
  ⟨fun ow oh nw nh h1 h2 h3 h4 g1 g2 g3 g4 => ⟨(c112_smaller h1 h2 h3 h4 g1 g2 g3 g4).width, (c112_smaller h1 h2 h3 h4 g1 g2 g3 g4).height⟩, by decide +kernel⟩

end Zune.Imageprocs
