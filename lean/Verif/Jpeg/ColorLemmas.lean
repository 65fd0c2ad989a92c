import Verif.Jpeg.ColorModel
import Mathlib.Data.List.Range
import Mathlib.Tactic.IntervalCases
import Mathlib.Tactic.Linarith

/-! # zune-jpeg: colour conversion (lemmas) -/

namespace Zune.Jpeg

theorem wrap16_id (x : Int) (h0 : -32768 ≤ x) (h1 : x < 32768) : wrap16 x = x := by
  unfold wrap16; omega

theorem clampU8_toNat (a : Int) : ((clampU8 a).toNat : Int) = max 0 (min 255 a) := by
  unfold clampU8
  rw [UInt8.toNat_ofNat']
  omega

theorem lowByte_toNat (a : Int) (h0 : 0 ≤ a) (h1 : a ≤ 255) : ((lowByte a).toNat : Int) = a := by
  unfold lowByte
  rw [UInt8.toNat_ofNat']
  omega

/-! ## AVX2 lanes -/

/-- The chroma lanes of one pixel in the AVX2 code. -/
def uvLane (cb cr : Int) : Int × Int :=
  (wrap16 (wrap16 (((cr % 256).toNat : Int) + 256 * ((0 : Nat) : Int)) - 128),
   wrap16 (wrap16 ((((cb % 256).toNat ||| (cr / 256 % 256).toNat : Nat) : Int) + 256 * ((0 : Nat) : Int)) - 128))

/-- One colour of one pixel in the AVX2 code, before the saturation to bytes. -/
def avxLane (k : Int × Int) (y cb cr : Int) : Int :=
  packus32 (((uvLane cb cr).1 * k.1 + (uvLane cb cr).2 * k.2 + (y * 16384 + 0 * 0 + 8191)) / 2 ^ 14)

/-! The shuffles move bytes without looking at them, so they commute with any renaming of the
bytes, and it is enough to run them once on the lane numbers. -/

theorem gather_map {α β} (f : α → β) (l : List α) (idx : List Nat) :
    gather (l.map f) idx = (gather l idx).map f := by
  unfold gather
  rw [List.map_filterMap]
  apply List.filterMap_congr
  intro i _
  rw [List.getElem?_map]

theorem blendv_map {α β} (f : α → β) (a b : List α) (m : List Bool) :
    blendv (a.map f) (b.map f) m = (blendv a b m).map f := by
  unfold blendv
  generalize m ++ m = m
  induction a generalizing b m with
  | nil => rfl
  | cons x t ih =>
    cases b with
    | nil => rfl
    | cons y u =>
      cases m with
      | nil => rfl
      | cons v w =>
        simp only [List.map_cons, List.zip_cons_cons]
        rw [ih u w]
        cases v <;> rfl

theorem permute2x128_map {α β} (f : α → β) (z : α) (k : Nat) (a b : List α) :
    permute2x128 (f z) k (a.map f) (b.map f) = (permute2x128 z k a b).map f := by
  unfold permute2x128
  simp only [List.map_append]
  congr 1 <;> split <;> simp [List.map_take, List.map_drop]

theorem interleaveRgb_map {α β} (f : α → β) (z : α) (r g b : List α) :
    interleaveRgb (f z) (r.map f) (g.map f) (b.map f) = (interleaveRgb z r g b).map f := by
  unfold interleaveRgb packOrder16 permute4x64 shuffle8
  simp only [← List.map_replicate, ← List.map_append, gather_map, blendv_map, permute2x128_map,
    ← List.map_take]

theorem interleaveRgba_map {α β} (f : α → β) (z o : α) (r g b : List α) :
    interleaveRgba (f z) (f o) (r.map f) (g.map f) (b.map f) = (interleaveRgba z o r g b).map f := by
  unfold interleaveRgba packOrder16 unpackLo8 unpackHi8 blendHalves
  simp only [← List.map_replicate, ← List.map_append, gather_map, permute2x128_map,
    ← List.map_take, ← List.map_drop]

/-- The byte with a given number: those of the three registers, then two constants. -/
def laneOf {α} (r g b : Nat → α) (z o : α) (i : Nat) : α :=
  if i < 16 then r i else if i < 32 then g (i - 16) else if i < 48 then b (i - 32)
  else if i = 48 then z else o

theorem interleaveRgb_eq {α} (z : α) (r g b : Nat → α) :
    interleaveRgb z ((List.range 16).map r) ((List.range 16).map g) ((List.range 16).map b) =
      (List.range 16).flatMap fun i => [r i, g i, b i] := by
  have h := interleaveRgb_map (laneOf r g b z z) 48 (List.range 16) (List.range' 16 16)
    (List.range' 32 16)
  have e : interleaveRgb 48 (List.range 16) (List.range' 16 16) (List.range' 32 16) =
      (List.range 16).flatMap fun i => [i, i + 16, i + 32] := by decide +kernel
  rw [e] at h
  exact h

theorem interleaveRgba_eq {α} (z o : α) (r g b : Nat → α) :
    interleaveRgba z o ((List.range 16).map r) ((List.range 16).map g) ((List.range 16).map b) =
      (List.range 16).flatMap fun i => [r i, g i, b i, o] := by
  have h := interleaveRgba_map (laneOf r g b z o) 48 49 (List.range 16) (List.range' 16 16)
    (List.range' 32 16)
  have e : interleaveRgba 48 49 (List.range 16) (List.range' 16 16) (List.range' 32 16) =
      (List.range 16).flatMap fun i => [i, i + 16, i + 32, 49] := by decide +kernel
  rw [e] at h
  exact h

/-- Lanes 0..3 and 8..11: the pixels in the registers called `lo`. -/
def loPix : List Nat := [0, 1, 2, 3, 8, 9, 10, 11]

/-- Lanes 4..7 and 12..15: the pixels in the registers called `hi`. -/
def hiPix : List Nat := [4, 5, 6, 7, 12, 13, 14, 15]

theorem unpack8_map {α β} (f : α → β) (a b : List α) :
    unpackLo8 (a.map f) (b.map f) = (unpackLo8 a b).map f ∧
    unpackHi8 (a.map f) (b.map f) = (unpackHi8 a b).map f := by
  unfold unpackLo8 unpackHi8
  simp only [← List.map_append, gather_map, and_self]

theorem unpack16_map {α β} (f : α → β) (a b : List α) :
    unpackLo16 (a.map f) (b.map f) = (unpackLo16 a b).map f ∧
    unpackHi16 (a.map f) (b.map f) = (unpackHi16 a b).map f := by
  unfold unpackLo16 unpackHi16
  simp only [← List.map_append, gather_map, and_self]

/-- Bytes by number: even ones from `p`, odd ones from `q`, and zero from 32 on. -/
def byteOf {α} (p q : Nat → α) (z : α) (i : Nat) : α :=
  if i < 32 then (if i % 2 = 0 then p (i / 2) else q (i / 2)) else z

theorem unpackLo8_eq {α} (p q : Nat → α) (z : α) :
    unpackLo8 ((List.range 16).flatMap fun i => [p i, q i]) (List.replicate 32 z) =
      loPix.flatMap fun i => [p i, z, q i, z] := by
  have h := (unpack8_map (byteOf p q z) (List.range 32) (List.replicate 32 32)).1
  have e : unpackLo8 (List.range 32) (List.replicate 32 32) =
      loPix.flatMap fun i => [2 * i, 32, 2 * i + 1, 32] := by decide +kernel
  rw [e] at h
  exact h

theorem unpackHi8_eq {α} (p q : Nat → α) (z : α) :
    unpackHi8 ((List.range 16).flatMap fun i => [p i, q i]) (List.replicate 32 z) =
      hiPix.flatMap fun i => [p i, z, q i, z] := by
  have h := (unpack8_map (byteOf p q z) (List.range 32) (List.replicate 32 32)).2
  have e : unpackHi8 (List.range 32) (List.replicate 32 32) =
      hiPix.flatMap fun i => [2 * i, 32, 2 * i + 1, 32] := by decide +kernel
  rw [e] at h
  exact h

theorem unpackLo16_eq {α} (p : Nat → α) (z : α) :
    unpackLo16 ((List.range 16).map p) (List.replicate 16 z) = loPix.flatMap fun i => [p i, z] := by
  have h := (unpack16_map (fun i => if i < 16 then p i else z) (List.range 16) (List.replicate 16 16)).1
  have e : unpackLo16 (List.range 16) (List.replicate 16 16) =
      loPix.flatMap fun i => [i, 16] := by decide +kernel
  rw [e] at h
  exact h

theorem unpackHi16_eq {α} (p : Nat → α) (z : α) :
    unpackHi16 ((List.range 16).map p) (List.replicate 16 z) = hiPix.flatMap fun i => [p i, z] := by
  have h := (unpack16_map (fun i => if i < 16 then p i else z) (List.range 16) (List.replicate 16 16)).2
  have e : unpackHi16 (List.range 16) (List.replicate 16 16) =
      hiPix.flatMap fun i => [i, 16] := by decide +kernel
  rw [e] at h
  exact h

theorem packOrder32_eq {α} (f : Nat → α) :
    packOrder32 (loPix.map f) (hiPix.map f) = (List.range 16).map f := by
  have e : gather (loPix ++ hiPix) [0, 1, 2, 3, 8, 9, 10, 11, 4, 5, 6, 7, 12, 13, 14, 15] =
      List.range 16 := by decide +kernel
  unfold packOrder32
  rw [← List.map_append, gather_map, e]

theorem lanes16_eq (p q : Nat → Nat) (l : List Nat) :
    lanes16 (l.flatMap fun i => [p i, 0, q i, 0]) =
      l.flatMap fun i => [wrap16 ((p i : Int) + 256 * ((0 : Nat) : Int)),
        wrap16 ((q i : Int) + 256 * ((0 : Nat) : Int))] := by
  induction l with
  | nil => rfl
  | cons i t ih =>
    rw [List.flatMap_cons, List.flatMap_cons, ← ih]
    rfl

theorem madd_eq (u v : Nat → Int) (k : Int × Int) (l : List Nat) :
    madd (l.flatMap fun i => [u i, v i]) k = l.map fun i => u i * k.1 + v i * k.2 := by
  induction l with
  | nil => rfl
  | cons i t ih =>
    rw [List.flatMap_cons, List.map_cons, ← ih]
    rfl

theorem zip_map_same {α β γ δ} (f : α → β) (g : α → γ) (h : β × γ → δ) (l : List α) :
    ((l.map f).zip (l.map g)).map h = l.map fun i => h (f i, g i) := by
  rw [List.zip_map', List.map_map]
  rfl

theorem avxBase_eq (y cb cr : Nat → Int) :
    avxBase ((List.range 16).map y) ((List.range 16).map cb) ((List.range 16).map cr) =
      ((List.range 16).map (fun i => avxLane (22970, 0) (y i) (cb i) (cr i)),
       (List.range 16).map (fun i => avxLane (-11700, -5638) (y i) (cb i) (cr i)),
       (List.range 16).map (fun i => avxLane (0, 29032) (y i) (cb i) (cr i))) := by
  unfold avxBase
  simp only [zip_map_same, ← List.flatMap_def, uvBytes]
  simp only [unpackLo8_eq, unpackHi8_eq, unpackLo16_eq, unpackHi16_eq, lanes16_eq,
    List.map_flatMap, List.map_cons, List.map_nil, madd_eq, zip_map_same, List.map_map]
  refine Prod.ext ?_ (Prod.ext ?_ ?_)
  · exact packOrder32_eq fun i => avxLane (22970, 0) (y i) (cb i) (cr i)
  · exact packOrder32_eq fun i => avxLane (-11700, -5638) (y i) (cb i) (cr i)
  · exact packOrder32_eq fun i => avxLane (0, 29032) (y i) (cb i) (cr i)

/-- A sample in the range that the transforms produce. -/
def Sample (x : Int) : Prop := 0 ≤ x ∧ x ≤ 255

theorem uvLane_eq (cb cr : Int) (hb : Sample cb) (hr : Sample cr) :
    uvLane cb cr = (cr - 128, cb - 128) := by
  obtain ⟨hb0, hb1⟩ := hb
  obtain ⟨hr0, hr1⟩ := hr
  have e : (cr / 256 % 256).toNat = 0 := by omega
  unfold uvLane
  rw [e, Nat.or_zero]
  unfold wrap16
  refine Prod.ext ?_ ?_ <;> simp only <;> omega

theorem pack_eq (n : Int) (h : n / 2 ^ 14 < 32768) :
    packus16 (packus32 (n / 2 ^ 14)) = clampU8 (n / 2 ^ 14) := by
  unfold packus16 packus32 clampU8 wrap16
  congr 2
  omega

theorem avxPixel_eq (y cb cr : Int) (hy : Sample y) (hb : Sample cb) (hr : Sample cr) :
    (⟨packus16 (avxLane (22970, 0) y cb cr), packus16 (avxLane (-11700, -5638) y cb cr),
      packus16 (avxLane (0, 29032) y cb cr)⟩ : Rgb) = ycbcrPixel y cb cr := by
  unfold avxLane
  rw [uvLane_eq cb cr hb hr]
  obtain ⟨hy0, hy1⟩ := hy
  obtain ⟨hb0, hb1⟩ := hb
  obtain ⟨hr0, hr1⟩ := hr
  unfold ycbcrPixel
  rw [wrap16_id (cr - 128) (by omega) (by omega), wrap16_id (cb - 128) (by omega) (by omega)]
  simp only
  rw [pack_eq _ (by omega), pack_eq _ (by omega), pack_eq _ (by omega)]
  simp only [Rgb.mk.injEq]
  refine ⟨?_, ?_, ?_⟩ <;> (congr 2; ring)

/-! ## Loops -/

theorem flatMap_length_const {α β} (l : List α) (f : α → List β) (n : Nat)
    (h : ∀ a ∈ l, (f a).length = n) : (l.flatMap f).length = l.length * n := by
  induction l with
  | nil => simp
  | cons a t ih =>
    rw [List.flatMap_cons, List.length_append, h a (by simp), ih (fun b hb => h b (by simp [hb])),
      List.length_cons, Nat.succ_mul, Nat.add_comm]

/-- A plane with the samples `g s, g (s+1), …`. -/
def plane (g : Nat → Int) (s n : Nat) : List Int := (List.range' s n).map g

theorem plane_length (g : Nat → Int) (s n : Nat) : (plane g s n).length = n := by
  simp [plane]

theorem plane_take (g : Nat → Int) (s n k : Nat) (h : k ≤ n) : (plane g s n).take k = plane g s k := by
  unfold plane
  rw [← List.map_take]
  obtain ⟨e, rfl⟩ := Nat.exists_eq_add_of_le h
  have := List.range'_append (s := s) (m := k) (n := e) (step := 1)
  rw [← this, List.take_left' (by simp)]

theorem plane_drop (g : Nat → Int) (s n k : Nat) : (plane g s n).drop k = plane g (s + k) (n - k) := by
  unfold plane
  rw [← List.map_drop, List.drop_range', Nat.mul_one]

theorem pixelLoop_eq (k : Nat) (f : List UInt8 → List Int → List UInt8) (gs : List (Nat → Int)) :
    ∀ (w fuel s n : Nat) (out : List UInt8), w < fuel → w ≤ n → w * k ≤ out.length →
      out.length < (w + 1) * k →
      pixelLoop k f fuel (gs.map fun g => plane g s n) out =
        ((List.range w).flatMap fun j => f ((out.drop (j * k)).take k) (gs.map fun g => g (s + j))) ++
          out.drop (w * k) := by
  intro w
  induction w with
  | zero =>
    intro fuel s n out hf _ _ hlt
    obtain ⟨fuel, rfl⟩ := Nat.exists_eq_succ_of_ne_zero (by omega : fuel ≠ 0)
    unfold pixelLoop
    rw [if_neg (by omega)]
    simp
  | succ w ih =>
    intro fuel s n out hf hn hle hlt
    obtain ⟨fuel, rfl⟩ := Nat.exists_eq_succ_of_ne_zero (by omega : fuel ≠ 0)
    obtain ⟨n, rfl⟩ := Nat.exists_eq_succ_of_ne_zero (by omega : n ≠ 0)
    rw [Nat.succ_mul] at hle hlt
    rw [Nat.succ_mul] at hlt
    have hcond : k ≤ out.length ∧ (gs.map fun g => plane g s (n + 1)).all (fun p => !p.isEmpty) = true := by
      refine ⟨by omega, ?_⟩
      rw [List.all_eq_true]
      intro p hp
      obtain ⟨g, _, rfl⟩ := List.mem_map.1 hp
      simp [plane, List.range'_succ]
    unfold pixelLoop
    rw [if_pos hcond]
    have e1 : (gs.map fun g => plane g s (n + 1)).filterMap List.head? = gs.map fun g => g s := by
      clear ih hcond
      induction gs with
      | nil => rfl
      | cons g t iht =>
        rw [List.map_cons, List.map_cons, List.filterMap_cons, iht]
        rfl
    have e2 : (gs.map fun g => plane g s (n + 1)).map List.tail = gs.map fun g => plane g (s + 1) n := by
      rw [List.map_map]
      apply List.map_congr_left
      intro g _
      simp [plane, List.range'_succ]
    rw [e1, e2, ih fuel (s + 1) n (out.drop k) (by omega) (by omega)
      (by rw [List.length_drop]; omega) (by rw [List.length_drop, Nat.succ_mul]; omega)]
    rw [List.range_succ_eq_map, List.flatMap_cons, List.flatMap_map, List.append_assoc]
    congr 1
    · simp
    · congr 1
      · apply List.flatMap_congr
        intro j _
        rw [List.drop_drop, Nat.succ_mul, Nat.add_comm k]
        congr 2
        funext g
        congr 1
        omega
      · rw [List.drop_drop, Nat.succ_mul, Nat.add_comm k]

/-- One line: the loop over lines runs its body exactly once. -/
theorem lineLoop_one (stride padded : Nat)
    (body : List (List Int) → List UInt8 → Option (List UInt8)) (fuel s : Nat)
    (gs : List (Nat → Int)) (hg : gs ≠ []) (out : List UInt8) (hs : 0 < stride) (hp : 0 < padded)
    (ho : stride ≤ out.length) (hf : 2 ≤ fuel) :
    lineLoop stride padded body fuel (gs.map fun g => plane g s padded) out =
      (body (gs.map fun g => plane g s padded) (out.take stride)).map (· ++ out.drop stride) := by
  obtain ⟨fuel, rfl⟩ := Nat.exists_eq_add_of_le' hf
  have hall : (gs.map fun g => plane g s padded).all (fun p => decide (padded ≤ p.length)) = true := by
    rw [List.all_eq_true]
    intro p hp
    obtain ⟨g, _, rfl⟩ := List.mem_map.1 hp
    simp [plane_length]
  have e1 : (gs.map fun g => plane g s padded).map (List.take padded) = gs.map fun g => plane g s padded := by
    rw [List.map_map]
    apply List.map_congr_left
    intro g _
    exact plane_take g s padded padded (Nat.le_refl _)
  have e2 : ∀ o, lineLoop stride padded body (fuel + 1)
      ((gs.map fun g => plane g s padded).map (List.drop padded)) o = some o := by
    intro o
    unfold lineLoop
    rw [if_neg (by omega), if_neg]
    rintro ⟨_, h⟩
    obtain ⟨g, t, rfl⟩ := List.exists_cons_of_ne_nil hg
    simp only [List.map_cons, List.all_cons, Bool.and_eq_true, decide_eq_true_eq, plane_drop,
      plane_length] at h
    omega
  unfold lineLoop
  rw [if_neg (by omega), if_pos ⟨ho, hall⟩, e1]
  cases body (gs.map fun g => plane g s padded) (out.take stride) with
  | none => rfl
  | some d =>
    simp only [e2]
    rfl

theorem pixelLines_eq (stride padded k w : Nat) (f : List UInt8 → List Int → List UInt8)
    (gs : List (Nat → Int)) (hg : gs ≠ []) (out : List UInt8) (hw : 0 < w) (hk : 0 < k)
    (hp : w ≤ padded) (ho : stride ≤ out.length) (h1 : w * k ≤ stride) (h2 : stride < (w + 1) * k) :
    pixelLines stride padded k f (gs.map fun g => plane g 0 padded) out =
      some (((List.range w).flatMap fun j => f ((out.drop (j * k)).take k) (gs.map fun g => g j)) ++
        out.drop (w * k)) := by
  have hs : 0 < stride := Nat.lt_of_lt_of_le (Nat.mul_pos hw hk) h1
  have hwk : w ≤ w * k := Nat.le_mul_of_pos_right w hk
  unfold pixelLines
  rw [lineLoop_one stride padded _ _ 0 gs hg out hs (by omega) ho (by omega), Option.map_some,
    pixelLoop_eq k f gs w _ 0 padded _ (by rw [List.length_take]; omega) hp
      (by rw [List.length_take]; omega) (by rw [List.length_take]; omega)]
  congr 1
  rw [List.append_assoc]
  congr 1
  · apply List.flatMap_congr
    intro j hj
    have hj := List.mem_range.1 hj
    have : (j + 1) * k ≤ w * k := Nat.mul_le_mul_right k hj
    rw [Nat.succ_mul] at this
    rw [List.drop_take, List.take_take, Nat.min_eq_left (by omega)]
    simp
  · rw [List.drop_take]
    have e : out.drop stride = (out.drop (w * k)).drop (stride - w * k) := by
      rw [List.drop_drop]; congr 1; omega
    rw [e, List.take_append_drop]

/-! ## The YCbCr line -/

/-- A conversion of sixteen pixels that treats each pixel by itself. -/
def Kernel (k : List Int → List Int → List Int → List UInt8) (n : Nat)
    (f : Nat → List UInt8) (y cb cr : Nat → Int) : Prop :=
  (∀ i, (f i).length = n) ∧
  ∀ s, k (plane y s 16) (plane cb s 16) (plane cr s 16) = (List.range' s 16).flatMap f

theorem conv16Loop_eq (k : List Int → List Int → List Int → List UInt8) (n : Nat)
    (f : Nat → List UInt8) (y cb cr : Nat → Int) (hk : Kernel k n f y cb cr) :
    ∀ (m fuel s p : Nat) (out : List UInt8), m < fuel → 16 * m ≤ p → 16 * m * n ≤ out.length →
      out.length < 16 * (m + 1) * n →
      conv16Loop k n fuel (plane y s p) (plane cb s p) (plane cr s p) out =
        (List.range' s (16 * m)).flatMap f ++ out.drop (16 * m * n) := by
  intro m
  induction m with
  | zero =>
    intro fuel s p out hf _ _ hlt
    obtain ⟨fuel, rfl⟩ := Nat.exists_eq_succ_of_ne_zero (by omega : fuel ≠ 0)
    unfold conv16Loop
    rw [if_neg (by omega)]
    simp
  | succ m ih =>
    intro fuel s p out hf hp hle hlt
    obtain ⟨fuel, rfl⟩ := Nat.exists_eq_succ_of_ne_zero (by omega : fuel ≠ 0)
    have a1 : 16 * (m + 1) * n = 16 * n + 16 * m * n := by ring
    have a2 : 16 * (m + 1 + 1) * n = 16 * n + 16 * (m + 1) * n := by ring
    unfold conv16Loop
    simp only [plane_length]
    rw [if_pos (by omega), plane_take _ _ _ _ (by omega), plane_take _ _ _ _ (by omega),
      plane_take _ _ _ _ (by omega), plane_drop, plane_drop, plane_drop, hk.2 s,
      ih fuel (s + 16) (p - 16) (out.drop (16 * n)) (by omega) (by omega)
        (by rw [List.length_drop]; omega) (by rw [List.length_drop]; omega),
      List.drop_drop, ← a1, ← List.append_assoc, ← List.flatMap_append]
    congr 2

theorem copyInto_eq (a b : List UInt8) (off : Nat) (h : off + b.length ≤ a.length) :
    copyInto a off b = some (a.take off ++ b ++ a.drop (off + b.length)) := by
  unfold copyInto; rw [if_pos h]

/-- The first samples of a plane followed by zeroes, as a plane. -/
def padded0 (g : Nat → Int) (p : Nat) (i : Nat) : Int := if i < p then g i else 0

theorem first16_eq (g : Nat → Int) (p : Nat) :
    first16 (plane g 0 p) = plane (padded0 g p) 0 16 := by
  apply List.ext_getElem?
  intro i
  unfold first16 plane padded0
  by_cases h : i < 16
  · by_cases h2 : i < p
    · rw [List.getElem?_append_left (by simp; omega)]
      simp [List.getElem?_take, h, h2, List.getElem?_range']
    · rw [List.getElem?_append_right (by simp; omega)]
      simp [List.getElem?_range', h, h2, List.getElem?_replicate]
      omega
  · rw [List.getElem?_eq_none (by simp; omega), List.getElem?_eq_none (by simp; omega)]

theorem take_flatMap_range (f : Nat → List UInt8) (n : Nat) (hf : ∀ i, (f i).length = n)
    (s a b : Nat) (h : a ≤ b) :
    ((List.range' s b).flatMap f).take (a * n) = (List.range' s a).flatMap f := by
  obtain ⟨e, rfl⟩ := Nat.exists_eq_add_of_le h
  have := List.range'_append (s := s) (m := a) (n := e) (step := 1)
  rw [← this, List.flatMap_append, List.take_left']
  rw [flatMap_length_const _ f n (fun i _ => hf i), List.length_range']

theorem ycbcrBody_eq (k : List Int → List Int → List Int → List UInt8) (n : Nat)
    (F : Int → Int → Int → List UInt8) (hn : n ≤ 4) (hn0 : 0 < n)
    (hF : ∀ a b c, (F a b c).length = n)
    (hk : ∀ y cb cr : Nat → Int, (∀ i, Sample (y i) ∧ Sample (cb i) ∧ Sample (cr i)) → ∀ s,
      k (plane y s 16) (plane cb s 16) (plane cr s 16) =
        (List.range' s 16).flatMap fun i => F (y i) (cb i) (cr i))
    (width padded : Nat) (hp : width ≤ padded) (y cb cr : Nat → Int)
    (hs : ∀ i, Sample (y i) ∧ Sample (cb i) ∧ Sample (cr i)) (out : List UInt8)
    (ho : out.length = width * n) :
    ycbcrBody k n width (plane y 0 padded) (plane cb 0 padded) (plane cr 0 padded) out =
      some ((List.range width).flatMap fun i => F (y i) (cb i) (cr i)) := by
  have hlen : ∀ s m, (((List.range' s m).flatMap fun i => F (y i) (cb i) (cr i))).length = m * n := by
    intro s m
    rw [flatMap_length_const _ _ n (fun i _ => hF _ _ _), List.length_range']
  unfold ycbcrBody
  by_cases hw : width < 16
  · have hwn : width * n ≤ 16 * n := Nat.mul_le_mul_right n (by omega)
    rw [if_pos hw, first16_eq, first16_eq, first16_eq, hk _ _ _ ?_ 0]
    · have l16 : ((List.range' 0 16).flatMap fun i => F (padded0 y padded i) (padded0 cb padded i)
          (padded0 cr padded i)).length = 16 * n := by
        rw [flatMap_length_const _ _ n (fun i _ => hF _ _ _), List.length_range']
      rw [copyInto_eq _ _ _ (by rw [l16, List.length_replicate]; omega)]
      simp only [List.take_zero, List.nil_append]
      rw [if_pos (by omega), List.take_append_of_le_length (by rw [l16]; omega),
        take_flatMap_range _ n (fun i => hF _ _ _) 0 width 16 (by omega)]
      have e : ((List.range' 0 width).flatMap fun i => F (padded0 y padded i) (padded0 cb padded i)
          (padded0 cr padded i)) = (List.range width).flatMap fun i => F (y i) (cb i) (cr i) := by
        rw [← List.range_eq_range']
        apply List.flatMap_congr
        intro i hi
        have := List.mem_range.1 hi
        unfold padded0
        rw [if_pos (by omega), if_pos (by omega), if_pos (by omega)]
      rw [e]
      have l := hlen 0 width
      rw [← List.range_eq_range'] at l
      rw [copyInto_eq _ _ _ (by omega)]
      congr 1
      rw [List.take_zero, List.nil_append, List.drop_eq_nil_of_le (by omega), List.append_nil]
    · intro i
      have z : Sample 0 := by unfold Sample; omega
      obtain ⟨a, b, c⟩ := hs i
      unfold padded0
      refine ⟨?_, ?_, ?_⟩ <;> split <;> assumption
  · have hm := Nat.div_add_mod width 16
    have hmod := Nat.mod_lt width (show 0 < 16 by decide)
    generalize hmm : width / 16 = m at hm
    have b1 : 16 * m * n ≤ width * n := Nat.mul_le_mul_right n (by omega)
    have b2 : width * n < 16 * (m + 1) * n := Nat.mul_lt_mul_of_pos_right (by omega) hn0
    have b3 : (width - 16) * n ≤ 16 * m * n := Nat.mul_le_mul_right n (by omega)
    have b4 : (width - 16) * n + 16 * n = width * n := by rw [← Nat.add_mul]; congr 1; omega
    have b5 : width ≤ width * n := Nat.le_mul_of_pos_right width hn0
    rw [if_neg hw, conv16Loop_eq k n (fun i => F (y i) (cb i) (cr i)) y cb cr
      ⟨fun i => hF _ _ _, hk y cb cr hs⟩ m _ 0 padded out (by omega) (by omega) (by omega) (by omega)]
    simp only [plane_length, plane_drop, Nat.zero_add]
    rw [if_neg (by omega), if_pos (by omega), plane_take _ _ _ _ (by omega),
      plane_take _ _ _ _ (by omega), plane_take _ _ _ _ (by omega), hk y cb cr hs (width - 16),
      copyInto_eq _ _ _ (by rw [hlen, List.length_replicate]; omega)]
    simp only [List.take_zero, List.nil_append]
    rw [if_pos (by rw [List.length_append, hlen, List.length_drop]; omega),
      List.take_left' (hlen _ _),
      copyInto_eq _ _ _ (by rw [List.length_append, hlen, hlen, List.length_drop]; omega)]
    congr 1
    have hd : ((List.range' 0 (16 * m)).flatMap (fun i => F (y i) (cb i) (cr i)) ++
        out.drop (16 * m * n)).drop (width * n) = [] :=
      List.drop_eq_nil_of_le (by rw [List.length_append, hlen, List.length_drop]; omega)
    rw [hlen, b4, hd, List.append_nil, List.take_append_of_le_length (by rw [hlen]; omega),
      take_flatMap_range _ n (fun i => hF _ _ _) 0 (width - 16) (16 * m) (by omega),
      ← List.flatMap_append, List.range_eq_range']
    congr 1
    have := List.range'_append (s := 0) (m := width - 16) (n := 16) (step := 1)
    rw [Nat.one_mul, Nat.zero_add] at this
    rw [this]
    congr 1
    omega

theorem plane16 (g : Nat → Int) (s : Nat) :
    plane g s 16 = (List.range 16).map fun i => g (s + i) := by
  unfold plane
  rw [List.range'_eq_map_range, List.map_map]
  rfl

theorem zip3_range (l : List Nat) (y cb cr : Nat → Int) :
    (l.map y).zip ((l.map cb).zip (l.map cr)) = l.map fun i => (y i, cb i, cr i) := by
  rw [List.zip_map', List.zip_map']

theorem conv16Scalar_eq (l : Layout) (y cb cr : Nat → Int) (s n : Nat) :
    conv16Scalar l (plane y s n) (plane cb s n) (plane cr s n) =
      (List.range' s n).flatMap fun i => l.store (ycbcrPixel (y i) (cb i) (cr i)) := by
  unfold conv16Scalar plane
  rw [zip3_range, List.map_map, List.flatMap_def]
  rfl

theorem conv16Avx_eq (alpha : Bool) (y cb cr : Nat → Int)
    (hs : ∀ i, Sample (y i) ∧ Sample (cb i) ∧ Sample (cr i)) (s : Nat) :
    conv16Avx alpha (plane y s 16) (plane cb s 16) (plane cr s 16) =
      (List.range' s 16).flatMap fun i =>
        (if alpha then Layout.rgba else Layout.rgb).store (ycbcrPixel (y i) (cb i) (cr i)) := by
  unfold conv16Avx
  rw [plane16, plane16, plane16, avxBase_eq]
  simp only [List.map_map]
  rw [List.range'_eq_map_range, List.flatMap_map]
  cases alpha
  · rw [if_neg (by decide)]
    refine (interleaveRgb_eq 0 _ _ _).trans ?_
    apply List.flatMap_congr
    intro i _
    obtain ⟨a, b, c⟩ := hs (s + i)
    rw [if_neg (by decide), ← avxPixel_eq _ _ _ a b c]
    rfl
  · rw [if_pos rfl]
    refine (interleaveRgba_eq 0 255 _ _ _).trans ?_
    apply List.flatMap_congr
    intro i _
    obtain ⟨a, b, c⟩ := hs (s + i)
    rw [if_pos rfl, ← avxPixel_eq _ _ _ a b c]
    rfl

theorem conv16_eq (avx2 : Bool) (l : Layout) (y cb cr : Nat → Int)
    (hs : ∀ i, Sample (y i) ∧ Sample (cb i) ∧ Sample (cr i)) (s : Nat) :
    conv16 avx2 l (plane y s 16) (plane cb s 16) (plane cr s 16) =
      (List.range' s 16).flatMap fun i => l.store (ycbcrPixel (y i) (cb i) (cr i)) := by
  cases avx2
  · exact conv16Scalar_eq l y cb cr s 16
  · cases l
    · exact conv16Avx_eq false y cb cr hs s
    · exact conv16Avx_eq true y cb cr hs s
    · exact conv16Scalar_eq .bgr y cb cr s 16
    · exact conv16Scalar_eq .bgra y cb cr s 16

theorem ycbcrLines_eq (avx2 : Bool) (l : Layout) (width padded : Nat) (hw : 0 < width)
    (hp : width ≤ padded) (y cb cr : Nat → Int)
    (hs : ∀ i, Sample (y i) ∧ Sample (cb i) ∧ Sample (cr i)) (out : List UInt8)
    (ho : out.length = width * l.n) :
    ycbcrLines avx2 l width padded (plane y 0 padded) (plane cb 0 padded) (plane cr 0 padded) out =
      some ((List.range width).flatMap fun i => l.store (ycbcrPixel (y i) (cb i) (cr i))) := by
  have hn : l.n ≤ 4 ∧ 0 < l.n := by cases l <;> decide
  have hst : ∀ p, (l.store p).length = l.n := by intro p; cases l <;> rfl
  have hb : width ≤ width * l.n := Nat.le_mul_of_pos_right width hn.2
  unfold ycbcrLines
  have := lineLoop_one (width * l.n) padded
    (fun p o => match p with
      | [y, cb, cr] => ycbcrBody (conv16 avx2 l) l.n width y cb cr o
      | _ => none) (out.length + 1) 0 [y, cb, cr] (by simp) out (by omega) (by omega) (by omega) (by omega)
  refine this.trans ?_
  have hbody := ycbcrBody_eq (conv16 avx2 l) l.n (fun a b c => l.store (ycbcrPixel a b c)) hn.1 hn.2
    (fun _ _ _ => hst _) (fun y cb cr hs s => conv16_eq avx2 l y cb cr hs s) width padded hp y cb cr hs
    (out.take (width * l.n)) (by rw [List.length_take]; omega)
  simp only [List.map_cons, List.map_nil, hbody, Option.map_some]
  rw [List.drop_eq_nil_of_le (by omega), List.append_nil]

end Zune.Jpeg
