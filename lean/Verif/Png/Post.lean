/- PNG row post-processing: the model's `post` computes the specified output row. -/
import Verif.Png.ExpandSpec

namespace Zune.Png

/-- States the header parser can produce (crates/zune-png/src/headers/readers.rs): valid depth, a palette for palette images and no
    palette chunk for sub-byte greyscale, a colour key only for greyscale, RGB and palette images. -/
structure Ctx.Wf (c : Ctx) : Prop where
  depth : c.depth = 1 ∨ c.depth = 2 ∨ c.depth = 4 ∨ c.depth = 8 ∨ c.depth = 16
  pal16 : c.color = .palette → c.depth ≠ 16
  pal : c.color = .palette → c.plte.isSome
  noPal : c.color ≠ .palette → c.depth < 8 → c.plte = none
  key : ∀ k ∈ c.trns, (c.color = .luma ∨ c.color = .rgb ∨ c.color = .palette) ∧ 4 ≤ k.length

/-- The 16-bit colour key reads the same in both byte orders, or the machine is big endian. -/
def Ctx.KeyOk (c : Ctx) : Prop :=
  c.depth = 16 → ∀ k ∈ c.trns, c.le = false ∨ ∀ v ∈ k, v / 256 % 256 = v % 256

/-- The bytes of a pixel between unpacking and expansion. -/
def unit (c : Ctx) (s : List Nat) : List UInt8 :=
  if c.color = .palette then [UInt8.ofNat (s.headD 0)] else s.flatMap (Spec.sampleBytes c.depth)

/-- The samples of pixel `x`. -/
def samplesOf (c : Ctx) (packed : List UInt8) (x : Nat) : List Nat :=
  (List.range c.color.comps).map fun i => Spec.sample c.depth packed (x * c.color.comps + i)

/-- The unpacked row. -/
def units (c : Ctx) (width : Nat) (packed : List UInt8) : List (List UInt8) :=
  (List.range width).map fun x => unit c (samplesOf c packed x)

theorem comps_pos (c : Color) : 0 < c.comps := by cases c <;> decide

theorem samplesOf_length (c : Ctx) (packed : List UInt8) (x : Nat) : (samplesOf c packed x).length = c.color.comps := by
  simp [samplesOf]

theorem samplesOf_lt (c : Ctx) (packed : List UInt8) (x : Nat) : ∀ v ∈ samplesOf c packed x, v < 2 ^ c.depth := by
  intro v hv
  simp only [samplesOf, List.mem_map] at hv
  obtain ⟨i, _, rfl⟩ := hv
  exact sample_lt _ _ _

theorem flatMap_length_const {α : Type} (l : List α) (f : α → List UInt8) (k : Nat) (h : ∀ a ∈ l, (f a).length = k) :
    (l.flatMap f).length = l.length * k := by
  induction l with
  | nil => simp
  | cons a l ih =>
    rw [List.flatMap_cons, List.length_append, h a (by simp), ih fun b hb => h b (by simp [hb]), List.length_cons]; ring

theorem sampleBytes_length (c : Ctx) (s : Nat) : (Spec.sampleBytes c.depth s).length = c.bytes := by
  unfold Spec.sampleBytes Ctx.bytes
  split <;> rfl

theorem unit_length (c : Ctx) (hw : c.Wf) (s : List Nat) (hs : s.length = c.color.comps) :
    (unit c s).length = c.color.comps * c.bytes := by
  unfold unit
  split
  · rename_i h
    have := hw.pal16 h
    simp [h, Color.comps, Ctx.bytes, this]
  · rw [flatMap_length_const _ _ c.bytes (fun a _ => sampleBytes_length c a), hs]

theorem units_length (c : Ctx) (width : Nat) (packed : List UInt8) : (units c width packed).length = width := by simp [units]

theorem units_each (c : Ctx) (hw : c.Wf) (width : Nat) (packed : List UInt8) :
    ∀ u ∈ units c width packed, u.length = c.color.comps * c.bytes := by
  intro u hu
  simp only [units, List.mem_map] at hu
  obtain ⟨x, _, rfl⟩ := hu
  exact unit_length c hw _ (samplesOf_length c packed x)

theorem range_mul_flatMap {α : Type} (w n : Nat) (f : Nat → List α) :
    (List.range (w * n)).flatMap f = (List.range w).flatMap fun x => (List.range n).flatMap fun i => f (x * n + i) := by
  induction w with
  | zero => simp
  | succ w ih =>
    rw [Nat.succ_mul, List.range_add, List.flatMap_append, ih, List.range_succ, List.flatMap_append, List.flatMap_map]
    simp

/-- Rows of whole bytes are already unpacked. -/
theorem units_whole (c : Ctx) (hw : c.Wf) (h8 : ¬ c.depth < 8) (width : Nat) (packed : List UInt8)
    (hl : packed.length = c.stride width) : (units c width packed).flatten = packed := by
  have hu : (units c width packed).flatten =
      (List.range (width * c.color.comps)).flatMap fun k => Spec.sampleBytes c.depth (Spec.sample c.depth packed k) := by
    rw [range_mul_flatMap, units, List.flatMap_def]
    congr 1
    apply List.map_congr_left
    intro x _
    unfold unit
    split
    · rename_i h
      have := hw.pal16 h
      have h8' : c.depth = 8 := by rcases hw.depth with h | h | h | h | h <;> omega
      have hlt := sample_lt 8 x packed
      simp [samplesOf, h, Color.comps, Spec.sampleBytes, h8']
    · rw [samplesOf, List.flatMap_map]
  rw [hu]
  rcases hw.depth with h | h | h | h | h
  · omega
  · omega
  · omega
  · rw [h]
    have : packed.length = width * c.color.comps := by rw [hl, Ctx.stride, h]; omega
    rw [← this, ← row8]
  · rw [h]
    have : packed.length = width * c.color.comps * 2 := by rw [hl, Ctx.stride, h]; omega
    rw [← row16 _ _ this]

/-- Unpacking sub-byte rows. -/
theorem units_bits (c : Ctx) (hw : c.Wf) (h8 : c.depth < 8) (width : Nat) (packed junk out : List UInt8)
    (hl : packed.length = c.stride width) (ho : width * c.color.comps ≤ out.length) :
    expandBits width c.depth c.color.comps c.plte.isSome (packed ++ junk) out =
      (units c width packed).flatten ++ out.drop (width * c.color.comps) := by
  have hbits : c.depth * (width * c.color.comps) ≤ 8 * packed.length := by
    rw [hl, Ctx.stride, Nat.mul_comm c.depth]; omega
  have hd : c.depth = 1 ∨ c.depth = 2 ∨ c.depth = 4 := by rcases hw.depth with h | h | h | h | h <;> omega
  rw [expandBits_spec _ _ _ _ _ _ hd (by rw [List.length_append]; omega) ho]
  congr 1
  rw [units, ← List.flatMap_def, range_mul_map]
  apply flatMap_congr'
  intro x hx
  have hx := List.mem_range.mp hx
  have hs : ∀ i, i < c.color.comps → Spec.sample c.depth (packed ++ junk) (x * c.color.comps + i) =
      Spec.sample c.depth packed (x * c.color.comps + i) := by
    intro i hi
    refine sample_left _ _ _ _ (le_trans (Nat.mul_le_mul_left _ ?_) hbits)
    have : (x + 1) * c.color.comps ≤ width * c.color.comps := Nat.mul_le_mul_right _ hx
    rw [Nat.succ_mul] at this
    omega
  unfold unit
  by_cases h : c.color = .palette
  · rw [if_pos h]
    have hp := hw.pal h
    have h1 : c.color.comps = 1 := by rw [h]; rfl
    rw [h1] at hs ⊢
    simp only [hp, if_true, samplesOf, h1]
    simp only [List.range_one, List.map_cons, List.map_nil, List.headD_cons]
    rw [hs 0 (by omega)]
  · rw [if_neg h]
    have hp := hw.noPal h h8
    rw [samplesOf, List.flatMap_map]
    simp only [hp, Option.isSome_none, Bool.false_eq_true, if_false]
    rw [List.map_eq_flatMap]
    apply flatMap_congr'
    intro i hi
    have hi := List.mem_range.mp hi
    rw [hs i hi]
    have : c.depth ≠ 16 := by omega
    simp [Spec.sampleBytes, this]

/-! ### Pixel by pixel -/

theorem key8_eq (d v : Nat) (hd : d = 1 ∨ d = 2 ∨ d = 4 ∨ d = 8) :
    key8 d v = UInt8.ofNat (v % 2 ^ d * 255 / (2 ^ d - 1)) := by
  have e : ∀ k, (1 <<< k) - 1 = 2 ^ k - 1 := by intro k; rw [Nat.one_shiftLeft]
  have e8 : v &&& 255 = v % 2 ^ 8 := Nat.and_two_pow_sub_one_eq_mod v 8
  have hm : v &&& 255 &&& ((1 <<< d) - 1) = v % 2 ^ d := by
    rw [e, e8, Nat.and_two_pow_sub_one_eq_mod]
    rcases hd with rfl | rfl | rfl | rfl <;> omega
  unfold key8
  rw [hm]
  have hlt : v % 2 ^ d < 2 ^ d := Nat.mod_lt _ (by positivity)
  generalize v % 2 ^ d = m at hlt
  apply UInt8.toNat_inj.mp
  simp only [UInt8.toNat_mul, UInt8.toNat_ofNat']
  have hs : (depthScale d).toNat * (2 ^ d - 1) = 255 := by rcases hd with rfl | rfl | rfl | rfl <;> decide
  have hpos : 0 < 2 ^ d - 1 := by rcases hd with rfl | rfl | rfl | rfl <;> decide
  have he : m * 255 / (2 ^ d - 1) = m * (depthScale d).toNat := by
    rw [← hs, ← Nat.mul_assoc, Nat.mul_div_cancel _ hpos]
  rw [he, Nat.mod_mul_mod]

theorem scaled_inj (d a b : Nat) (hd : d = 1 ∨ d = 2 ∨ d = 4 ∨ d = 8) (ha : a < 2 ^ d) (hb : b < 2 ^ d) :
    UInt8.ofNat (a * 255 / (2 ^ d - 1)) = UInt8.ofNat (b * 255 / (2 ^ d - 1)) ↔ a = b := by
  refine ⟨fun h => ?_, fun h => by rw [h]⟩
  have h := congrArg UInt8.toNat h
  simp only [UInt8.toNat_ofNat'] at h
  rcases hd with rfl | rfl | rfl | rfl <;> norm_num at h ha hb <;> omega

theorem be2 (v : Nat) : beBytes 2 v = [UInt8.ofNat (v / 256 % 256), UInt8.ofNat (v % 256)] := by
  have h : ∀ n : Nat, UInt8.ofNat n = UInt8.ofNat (n % 256) := by
    intro n
    apply UInt8.toNat_inj.mp
    simp
  simp only [beBytes]
  simp only [pow_one, pow_zero, Nat.div_one]
  rw [h (v / 256), h v]

theorem word_inj (a b : Nat) (ha : a < 2 ^ 16) :
    [UInt8.ofNat (b / 256 % 256), UInt8.ofNat (b % 256)] = [UInt8.ofNat (a / 256), UInt8.ofNat (a % 256)] ↔ a = b % 2 ^ 16 := by
  simp only [List.cons.injEq, and_true]
  constructor
  · rintro ⟨h1, h2⟩
    have h1 := congrArg UInt8.toNat h1
    have h2 := congrArg UInt8.toNat h2
    simp only [UInt8.toNat_ofNat'] at h1 h2
    omega
  · intro h
    constructor <;> (congr 1; omega)

theorem neBytes_ok (c : Ctx) (hk : c.KeyOk) (h16 : c.depth = 16) (k : List Nat) (hkey : c.trns = some k) (i : Nat)
    (hi : i < k.length) :
    neBytes c.le (k.getD i 0) = [UInt8.ofNat (k.getD i 0 / 256 % 256), UInt8.ofNat (k.getD i 0 % 256)] := by
  unfold neBytes
  cases hle : c.le
  · simp [be2]
  · rcases hk h16 k (by simp [hkey]) with h | h
    · rw [hle] at h; cases h
    · have := h (k.getD i 0) (by
        rw [List.getD_eq_getElem?_getD, List.getElem?_eq_getElem hi]
        simp)
      simp only [leBytes, be2]
      generalize k.getD i 0 = w at this ⊢
      simp [this]

theorem list_len1 (s : List Nat) (h : s.length = 1) : ∃ a, s = [a] := by
  match s, h with
  | [a], _ => exact ⟨a, rfl⟩

theorem list_len3 (s : List Nat) (h : s.length = 3) : ∃ a b c, s = [a, b, c] := by
  match s, h with
  | [a, b, c], _ => exact ⟨a, b, c, rfl⟩

theorem list_len4 (s : List Nat) (h : 4 ≤ s.length) : ∃ a b c d t, s = a :: b :: c :: d :: t := by
  match s, h with
  | a :: b :: c :: d :: t, _ => exact ⟨a, b, c, d, t, rfl⟩

theorem rowOut_eq (c : Ctx) (width : Nat) (packed : List UInt8) (f : List UInt8 → List UInt8)
    (h : ∀ s : List Nat, s.length = c.color.comps → (∀ v ∈ s, v < 2 ^ c.depth) →
      f (unit c s) = Spec.pixel c.color c.depth (c.plte.getD []) c.trns (c.wantAlpha || c.trns.isSome) s) :
    (units c width packed).flatMap f = Spec.rowOut c width packed := by
  rw [units, List.flatMap_map, Spec.rowOut]
  apply flatMap_congr'
  intro x _
  exact h _ (samplesOf_length c packed x) (samplesOf_lt c packed x)

theorem expandTrns_spec (c : Ctx) (hw : c.Wf) (hk : c.KeyOk) (key : List Nat) (hkey : c.trns = some key)
    (hcol : c.color ≠ .palette) (width : Nat) (packed rest row : List UInt8) (hr : row.length = c.outStride width) :
    expandTrns c.le c.color c.depth key ((units c width packed).flatten ++ rest) row = .ok (Spec.rowOut c width packed) := by
  obtain ⟨hc, h4⟩ := hw.key key (by simp [hkey])
  obtain ⟨k0, k1, k2, k3, kt, rfl⟩ := list_len4 key h4
  have hul := units_length c width packed
  have hue := units_each c hw width packed
  unfold expandTrns
  by_cases h16 : c.depth = 16
  · rw [if_pos h16]
    have n0 := neBytes_ok c hk h16 _ hkey 0 (by simp)
    have n1 := neBytes_ok c hk h16 _ hkey 1 (by simp)
    have n2 := neBytes_ok c hk h16 _ hkey 2 (by simp)
    simp only [List.getD_cons_zero, List.getD_cons_succ] at n0 n1 n2
    rcases hc with hc | hc | hc
    · simp only [hc]
      congr 1
      rw [zipChunks_flatten 2 4 (by decide) _ _ _ _ (by simpa [hc, Color.comps, Ctx.bytes, h16] using hue)
        (by rw [hr, hul, Ctx.outStride, Ctx.outComps, Ctx.bytes]; simp [hkey, hc, h16]; omega) (by decide)]
      apply rowOut_eq
      intro s hs hlt
      rw [hc] at hs
      obtain ⟨a, rfl⟩ := list_len1 s hs
      have ha : a < 2 ^ 16 := by rw [← h16]; exact hlt a (by simp)
      have hw' := word_inj a k0 ha
      simp only [List.getD_cons_zero, n0, unit, hc, reduceCtorEq, if_false, List.flatMap_cons, List.flatMap_nil, List.append_nil,
        Spec.sampleBytes, h16, if_true, Spec.pixel, hkey, Option.isSome_some, Bool.or_true, List.length_singleton, List.take_succ_cons,
        List.take_zero, List.map_cons, List.map_nil]
      simp only [ne_eq, hw', List.cons.injEq, and_true, Spec.alphaBytes, if_true]
      simp only [Nat.reducePow]
      by_cases e : a = k0 % 65536 <;> simp [e, List.replicate]
    · simp only [hc]
      congr 1
      rw [zipChunks_flatten 6 8 (by decide) _ _ _ _ (by simpa [hc, Color.comps, Ctx.bytes, h16] using hue)
        (by rw [hr, hul, Ctx.outStride, Ctx.outComps, Ctx.bytes]; simp [hkey, hc, h16]; omega) (by decide)]
      apply rowOut_eq
      intro s hs hlt
      rw [hc] at hs
      obtain ⟨a, b, e, rfl⟩ := list_len3 s hs
      have ha : a < 2 ^ 16 := by rw [← h16]; exact hlt a (by simp)
      have hb : b < 2 ^ 16 := by rw [← h16]; exact hlt b (by simp)
      have he : e < 2 ^ 16 := by rw [← h16]; exact hlt e (by simp)
      have w0 := word_inj a k0 ha
      have w1 := word_inj b k1 hb
      have w2 := word_inj e k2 he
      simp only [List.cons.injEq, and_true] at w0 w1 w2
      simp only [List.getD_cons_zero, List.getD_cons_succ, n0, n1, n2, unit, hc, reduceCtorEq, if_false, List.flatMap_cons,
        List.flatMap_nil, List.append_nil, Spec.sampleBytes, h16, if_true, Spec.pixel, hkey, Option.isSome_some, Bool.or_true,
        List.length_cons, List.length_nil, List.take_succ_cons, List.take_zero, List.map_cons, List.map_nil, List.cons_append,
        List.nil_append]
      have heq : ([UInt8.ofNat (k0 / 256 % 256), UInt8.ofNat (k0 % 256), UInt8.ofNat (k1 / 256 % 256), UInt8.ofNat (k1 % 256),
          UInt8.ofNat (k2 / 256 % 256), UInt8.ofNat (k2 % 256)] = [UInt8.ofNat (a / 256), UInt8.ofNat (a % 256),
          UInt8.ofNat (b / 256), UInt8.ofNat (b % 256), UInt8.ofNat (e / 256), UInt8.ofNat (e % 256)]) ↔
          a = k0 % 2 ^ 16 ∧ b = k1 % 2 ^ 16 ∧ e = k2 % 2 ^ 16 := by
        simp only [List.cons.injEq, and_true]
        rw [← w0, ← w1, ← w2]
        tauto
      simp only [ne_eq, heq, List.cons.injEq, and_true, Spec.alphaBytes, if_true]
      simp only [Nat.reducePow]
      by_cases g : a = k0 % 65536 ∧ b = k1 % 65536 ∧ e = k2 % 65536
      · simp [g, List.replicate]
      · simp only [g, not_false_eq_true, if_true, decide_true, List.replicate, true_and]
    · exact absurd hc hcol
  · rw [if_neg h16]
    have hd : c.depth = 1 ∨ c.depth = 2 ∨ c.depth = 4 ∨ c.depth = 8 := by rcases hw.depth with h | h | h | h | h <;> omega
    have hmod : ∀ v, v % 2 ^ c.depth < 2 ^ c.depth := fun v => Nat.mod_lt _ (by positivity)
    rcases hc with hc | hc | hc
    · simp only [hc]
      congr 1
      rw [zipChunks_flatten 1 2 (by decide) _ _ _ _ (by simpa [hc, Color.comps, Ctx.bytes, h16] using hue)
        (by rw [hr, hul, Ctx.outStride, Ctx.outComps, Ctx.bytes]; simp [hkey, hc, h16]) (by decide)]
      apply rowOut_eq
      intro s hs hlt
      rw [hc] at hs
      obtain ⟨a, rfl⟩ := list_len1 s hs
      have ha := hlt a (by simp)
      have hw' := scaled_inj c.depth a (k0 % 2 ^ c.depth) hd ha (hmod k0)
      simp only [List.getD_cons_zero, unit, hc, reduceCtorEq, if_false, List.flatMap_cons, List.flatMap_nil, List.append_nil,
        Spec.sampleBytes, h16, Spec.pixel, hkey, Option.isSome_some, Bool.or_true, if_true, List.length_singleton,
        List.take_succ_cons, List.take_zero, List.map_cons, List.map_nil, List.headD_cons, key8_eq _ _ hd]
      simp only [ne_eq, hw', List.cons.injEq, and_true, Spec.alphaBytes, h16, if_false]
      by_cases e : a = k0 % 2 ^ c.depth <;> simp [e, List.replicate]
    · simp only [hc]
      congr 1
      rw [zipChunks_flatten 3 4 (by decide) _ _ _ _ (by simpa [hc, Color.comps, Ctx.bytes, h16] using hue)
        (by rw [hr, hul, Ctx.outStride, Ctx.outComps, Ctx.bytes]; simp [hkey, hc, h16]) (by decide)]
      apply rowOut_eq
      intro s hs hlt
      rw [hc] at hs
      obtain ⟨a, b, e, rfl⟩ := list_len3 s hs
      have w0 := scaled_inj c.depth a (k0 % 2 ^ c.depth) hd (hlt a (by simp)) (hmod k0)
      have w1 := scaled_inj c.depth b (k1 % 2 ^ c.depth) hd (hlt b (by simp)) (hmod k1)
      have w2 := scaled_inj c.depth e (k2 % 2 ^ c.depth) hd (hlt e (by simp)) (hmod k2)
      simp only [List.getD_cons_zero, List.getD_cons_succ, unit, hc, reduceCtorEq, if_false, List.flatMap_cons, List.flatMap_nil,
        List.append_nil, Spec.sampleBytes, h16, Spec.pixel, hkey, Option.isSome_some, Bool.or_true, if_true, List.length_cons,
        List.length_nil, List.take_succ_cons, List.take_zero, List.map_cons, List.map_nil, key8_eq _ _ hd, List.cons_append,
        List.nil_append]
      simp only [ne_eq, w0, w1, w2, List.cons.injEq, and_true, Spec.alphaBytes, h16, if_false]
      by_cases e : a = k0 % 2 ^ c.depth ∧ b = k1 % 2 ^ c.depth ∧ e = k2 % 2 ^ c.depth <;> simp [e, List.replicate]
    · exact absurd hc hcol

theorem expandPalette_spec (c : Ctx) (hw : c.Wf) (pal : List Entry) (hp : c.plte = some pal) (hc : c.color = .palette)
    (width : Nat) (packed rest row : List UInt8) (hr : row.length = c.outStride width) :
    expandPalette pal (if c.trns.isSome || c.addAlphaChannel then 4 else 3) ((units c width packed).flatten ++ rest) row =
      Spec.rowOut c width packed := by
  have h16 := hw.pal16 hc
  have hul := units_length c width packed
  have hue := units_each c hw width packed
  have hadd : c.addAlphaChannel = c.wantAlpha := by simp [Ctx.addAlphaChannel, hc, Color.hasAlpha]
  have hpix : ∀ s : List Nat, s.length = c.color.comps → (∀ v ∈ s, v < 2 ^ c.depth) →
      ∃ a, s = [a] ∧ (UInt8.ofNat a).toNat % 256 = a := by
    intro s hs hlt
    rw [hc] at hs
    obtain ⟨a, rfl⟩ := list_len1 s hs
    have ha := hlt a (by simp)
    refine ⟨a, rfl, ?_⟩
    simp only [UInt8.toNat_ofNat']
    have : (2 : Nat) ^ c.depth ≤ 256 := by
      rcases hw.depth with h | h | h | h | h <;> simp [h] at h16 ⊢
    omega
  unfold expandPalette
  by_cases ha : (c.trns.isSome || c.addAlphaChannel) = true
  · rw [if_pos ha, if_neg (by decide), if_pos rfl]
    have ha' : (c.wantAlpha || c.trns.isSome) = true := by rw [← hadd, Bool.or_comm]; exact ha
    rw [zipChunks_flatten 1 4 (by decide) _ _ _ _ (by simpa [hc, Color.comps, Ctx.bytes, h16] using hue) (by
      rw [hr, hul, Ctx.outStride, Ctx.outComps, Ctx.bytes]
      rw [hadd] at ha
      cases h1 : c.wantAlpha <;> cases h2 : c.trns <;> simp_all) (by decide)]
    apply rowOut_eq
    intro s hs hlt
    obtain ⟨a, rfl, hm⟩ := hpix s hs hlt
    simp only [unit, hc, if_true, Spec.pixel, ha', List.headD_cons, hm, hp, Option.getD_some]
    rfl
  · rw [if_neg ha, if_pos rfl]
    have ha' : (c.wantAlpha || c.trns.isSome) = false := by
      rw [← hadd, Bool.or_comm]; simpa using ha
    rw [zipChunks_flatten 1 3 (by decide) _ _ _ _ (by simpa [hc, Color.comps, Ctx.bytes, h16] using hue) (by
      rw [hr, hul, Ctx.outStride, Ctx.outComps, Ctx.bytes]
      simp only [Bool.or_eq_false_iff] at ha'
      cases h2 : c.trns <;> simp_all) (by decide)]
    apply rowOut_eq
    intro s hs hlt
    obtain ⟨a, rfl, hm⟩ := hpix s hs hlt
    simp only [unit, hc, if_true, Spec.pixel, ha', List.headD_cons, hm, hp, Option.getD_some]
    rfl

theorem addAlpha_spec (c : Ctx) (hw : c.Wf) (hc : c.color ≠ .palette) (ha : c.addAlphaChannel = true) (ht : c.trns = none)
    (width : Nat) (packed rest row : List UInt8) (hr : row.length = c.outStride width) :
    addAlpha c.color c.depth ((units c width packed).flatten ++ rest) row = .ok (Spec.rowOut c width packed) := by
  have hul := units_length c width packed
  have hue := units_each c hw width packed
  simp only [Ctx.addAlphaChannel, Bool.and_eq_true, Bool.not_eq_true'] at ha
  obtain ⟨hwa, hna⟩ := ha
  have key : ∀ (col : Color), (col = .luma ∨ col = .rgb) → c.color = col → ∀ s : List Nat,
      unit c s ++ List.replicate c.bytes 255 =
      Spec.pixel c.color c.depth (c.plte.getD []) c.trns (c.wantAlpha || c.trns.isSome) s := by
    rintro col (rfl | rfl) hcol s <;>
      simp [unit, hcol, Spec.pixel, ht, hwa, Spec.alphaBytes, Ctx.bytes]
  have hos : row.length = width * ((if c.color = .luma then 2 else 4) * c.bytes) := by
    rw [hr, Ctx.outStride, Ctx.outComps, hwa]
    cases hcol : c.color <;> simp_all [Color.hasAlpha, Nat.mul_assoc]
  unfold addAlpha
  cases hcol : c.color with
  | palette => exact absurd hcol hc
  | lumaA => simp [hcol, Color.hasAlpha] at hna
  | rgba => simp [hcol, Color.hasAlpha] at hna
  | luma =>
    have key := key .luma (by simp) hcol
    by_cases h16 : c.depth = 16
    · simp only [h16, beq_self_eq_true]
      congr 1
      rw [zipChunks_flatten 2 4 (by decide) _ _ _ _ (by simpa [hcol, Color.comps, Ctx.bytes, h16] using hue)
        (by rw [hos, hul]; simp [hcol, Ctx.bytes, h16]) (by decide)]
      apply rowOut_eq
      intro s _ _
      simpa [Ctx.bytes, h16, List.replicate] using key s
    · simp only [beq_eq_false_iff_ne.mpr h16]
      congr 1
      rw [zipChunks_flatten 1 2 (by decide) _ _ _ _ (by simpa [hcol, Color.comps, Ctx.bytes, h16] using hue)
        (by rw [hos, hul]; simp [hcol, Ctx.bytes, h16]) (by decide)]
      apply rowOut_eq
      intro s _ _
      simpa [Ctx.bytes, h16, List.replicate] using key s
  | rgb =>
    have key := key .rgb (by simp) hcol
    by_cases h16 : c.depth = 16
    · simp only [h16, beq_self_eq_true]
      congr 1
      rw [zipChunks_flatten 6 8 (by decide) _ _ _ _ (by simpa [hcol, Color.comps, Ctx.bytes, h16] using hue)
        (by rw [hos, hul]; simp [hcol, Ctx.bytes, h16]) (by decide)]
      apply rowOut_eq
      intro s _ _
      simpa [Ctx.bytes, h16, List.replicate] using key s
    · simp only [beq_eq_false_iff_ne.mpr h16]
      congr 1
      rw [zipChunks_flatten 3 4 (by decide) _ _ _ _ (by simpa [hcol, Color.comps, Ctx.bytes, h16] using hue)
        (by rw [hos, hul]; simp [hcol, Ctx.bytes, h16]) (by decide)]
      apply rowOut_eq
      intro s _ _
      simpa [Ctx.bytes, h16, List.replicate] using key s

/-- When alpha is added by the `add_alpha` path, the code only gets it right for palette images, or without a colour key and with
    whole-byte samples or the `extra` flag. -/
def Ctx.AlphaOk (c : Ctx) (extra : Bool) : Prop :=
  c.addAlphaChannel = true → c.color = .palette ∨ (c.trns = none ∧ (¬ c.depth < 8 ∨ extra = true))

theorem outComps_ge (c : Ctx) : c.color.comps ≤ c.outComps := by
  unfold Ctx.outComps
  cases c.wantAlpha <;> cases c.trns <;> cases c.color <;> simp [Color.comps]

theorem samples_le (c : Ctx) (width : Nat) : width * c.color.comps ≤ c.outStride width := by
  have h1 : width * c.color.comps ≤ width * c.outComps := Nat.mul_le_mul_left _ (outComps_ge c)
  have h2 : 1 ≤ c.bytes := by unfold Ctx.bytes; split <;> omega
  calc width * c.color.comps ≤ width * c.outComps * 1 := by omega
    _ ≤ _ := Nat.mul_le_mul_left _ h2

/-- Rows which need no alpha or palette. -/
theorem plain_out (c : Ctx) (ht : c.trns = none) (ha : c.addAlphaChannel = false) (hc : c.color ≠ .palette) (width : Nat)
    (packed : List UInt8) :
    (units c width packed).flatten = Spec.rowOut c width packed ∧ c.outComps = c.color.comps := by
  have hwa : c.color.hasAlpha = false → c.wantAlpha = false := by
    intro h; simpa [Ctx.addAlphaChannel, h] using ha
  constructor
  · have := rowOut_eq c width packed id (by
      intro s _ _
      cases hcol : c.color with
      | palette => exact absurd hcol hc
      | luma => simp [unit, hcol, Spec.pixel, ht, hwa (by rw [hcol]; rfl)]
      | rgb => simp [unit, hcol, Spec.pixel, ht, hwa (by rw [hcol]; rfl)]
      | lumaA => simp [unit, hcol, Spec.pixel]
      | rgba => simp [unit, hcol, Spec.pixel])
    rw [← this, List.flatMap_id]
  · unfold Ctx.outComps
    cases hcol : c.color with
    | palette => exact absurd hcol hc
    | luma => simp [ht, hwa (by rw [hcol]; rfl), Color.comps]
    | rgb => simp [ht, hwa (by rw [hcol]; rfl), Color.comps]
    | lumaA => simp [Color.comps]
    | rgba => simp [Color.comps]

theorem stride_whole (c : Ctx) (hw : c.Wf) (h8 : ¬ c.depth < 8) (width : Nat) :
    c.stride width = width * c.color.comps * c.bytes := by
  rcases hw.depth with h | h | h | h | h
  · omega
  · omega
  · omega
  · simp [Ctx.stride, Ctx.bytes, h]; omega
  · simp [Ctx.stride, Ctx.bytes, h]; omega

theorem stride_le (c : Ctx) (hw : c.Wf) (width : Nat) : c.stride width ≤ c.outStride width := by
  by_cases h8 : c.depth < 8
  · refine le_trans ?_ (samples_le c width)
    unfold Ctx.stride
    have : width * c.color.comps * c.depth ≤ width * c.color.comps * 4 := Nat.mul_le_mul_left _ (by
      rcases hw.depth with h | h | h | h | h <;> omega)
    omega
  · rw [stride_whole c hw h8, Ctx.outStride]
    exact Nat.mul_le_mul_right _ (Nat.mul_le_mul_left _ (outComps_ge c))

/-- The part of `post` after unpacking. -/
theorem post_tail (c : Ctx) (hw : c.Wf) (hk : c.KeyOk) (ha : c.addAlphaChannel = true → c.color = .palette ∨ c.trns = none)
    (width : Nat) (packed rest row : List UInt8) (hr : row.length = c.outStride width)
    (hrow : c.color ≠ .palette → c.trns = none → c.addAlphaChannel = false → row = Spec.rowOut c width packed) :
    postTail c ((units c width packed).flatten ++ rest) row =
    .ok ((units c width packed).flatten ++ rest, Spec.rowOut c width packed) := by
  by_cases hc : c.color = .palette
  · obtain ⟨pal, hp⟩ := Option.isSome_iff_exists.mp (hw.pal hc)
    have hrow' : trnsStep c ((units c width packed).flatten ++ rest) row = .ok row := by
      unfold trnsStep; cases c.trns <;> simp [hc]
    have := expandPalette_spec c hw pal hp hc width packed rest row hr
    simp only [postTail, hrow', paletteStep, hp, hc, this, Except.bind, bind, pure, Except.pure]
  · have hm : ∀ s r, paletteStep c s r = if c.addAlphaChannel then addAlpha c.color c.depth s r else .ok r := by
      intro s r
      unfold paletteStep
      cases c.plte <;> cases hcol : c.color <;> simp_all
    cases ht : c.trns with
    | some key =>
      have hadd : c.addAlphaChannel = false := by
        cases h : c.addAlphaChannel
        · rfl
        · rcases ha h with h | h
          · exact absurd h hc
          · rw [ht] at h; cases h
      simp only [postTail, hm, trnsStep, ht, ne_eq, hc, not_false_eq_true, if_true, hadd]
      rw [expandTrns_spec c hw hk key ht hc width packed rest row hr]
      rfl
    | none =>
      cases hadd : c.addAlphaChannel
      · rw [hrow hc ht hadd]
        simp only [postTail, hm, trnsStep, ht, hadd]
        rfl
      · simp only [postTail, hm, trnsStep, ht, hadd, if_true]
        have := addAlpha_spec c hw hc hadd ht width packed rest row hr
        show (do let row ← addAlpha c.color c.depth _ row; _) = _
        rw [this]
        rfl

theorem post_spec (c : Ctx) (hw : c.Wf) (hk : c.KeyOk) (extra : Bool) (ha : c.AlphaOk extra)
    (hx1 : (c.plte.isSome || c.trns.isSome) = true → extra = true)
    (hx2 : extra = true → (c.plte.isSome || c.trns.isSome || c.addAlphaChannel) = true) (width : Nat)
    (scratch packed junk : List UInt8) (hs : c.outStride width ≤ scratch.length) (hl : packed.length = c.stride width)
    (hr : (packed ++ junk).length = c.outStride width) :
    ∃ s', post c extra width scratch (packed ++ junk) = .ok (s', Spec.rowOut c width packed) ∧ s'.length = scratch.length := by
  have ha' : c.addAlphaChannel = true → c.color = .palette ∨ c.trns = none := by
    intro h; rcases ha h with h | h
    · exact .inl h
    · exact .inr h.1
  have hn := samples_le c width
  have hlen : (units c width packed).flatten.length = width * (c.color.comps * c.bytes) := by
    rw [← List.flatMap_id', flatMap_length_const _ _ _ (units_each c hw width packed), units_length]
  have htk : (packed ++ junk).take (c.stride width) = packed := by rw [← hl]; simp
  unfold post
  by_cases h8 : c.depth < 8
  · have hb1 : c.bytes = 1 := by unfold Ctx.bytes; rw [if_neg (by omega)]
    cases hex : extra
    · -- only widening
      have h1 : c.plte = none ∧ c.trns = none := by
        have : ¬ (c.plte.isSome || c.trns.isSome) = true := fun h => by have := hx1 h; rw [hex] at this; cases this
        simpa using this
      have hc : c.color ≠ .palette := fun h => by have := hw.pal h; simp [h1.1] at this
      have hadd : c.addAlphaChannel = false := by
        cases h : c.addAlphaChannel
        · rfl
        · rcases ha h with h | ⟨_, h | h⟩
          · exact absurd h hc
          · exact absurd h8 h
          · rw [hex] at h; cases h
      obtain ⟨ho, hoc⟩ := plain_out c h1.2 hadd hc width packed
      have hz : width * c.color.comps = (packed ++ junk).length := by rw [hr, Ctx.outStride, hoc, hb1]; omega
      have hrow := units_bits c hw h8 width packed (scratch.drop (c.stride width)) (packed ++ junk) hl (by rw [hr]; exact hn)
      rw [show (packed ++ junk).drop (width * c.color.comps) = [] from List.drop_of_length_le (by omega), List.append_nil, ho] at hrow
      refine ⟨packed ++ scratch.drop (c.stride width), ?_, ?_⟩
      · simp only [h8, if_true, htk, hrow, Bool.false_eq_true, if_false]
        simp only [postTail, paletteStep, trnsStep, h1.2, hadd, h1.1, Bool.false_eq_true, if_false]
        rfl
      · rw [List.length_append, List.length_drop, hl]
        have hsl := stride_le c hw width
        omega
    · have hsc := units_bits c hw h8 width packed junk scratch hl (by omega)
      refine ⟨(units c width packed).flatten ++ scratch.drop (width * c.color.comps), ?_, ?_⟩
      · simp only [h8, if_true, hsc]
        refine post_tail c hw hk ha' width packed _ _ hr ?_
        intro h1 h2 h3
        have := hx2 hex
        simp [h2, h3, hw.noPal h1 h8] at this
      · rw [List.length_append, List.length_drop, hlen, hb1, Nat.mul_one]; omega
  · refine ⟨(units c width packed).flatten ++ scratch.drop (c.stride width), ?_, ?_⟩
    · simp only [h8, if_false, htk]
      have hu := units_whole c hw h8 width packed hl
      rw [show packed ++ scratch.drop (c.stride width) =
        (units c width packed).flatten ++ scratch.drop (c.stride width) by rw [hu]]
      refine post_tail c hw hk ha' width packed _ _ hr ?_
      intro h1 h2 h3
      obtain ⟨ho, hoc⟩ := plain_out c h2 h3 h1 width packed
      have : junk = [] := by
        rw [← List.length_eq_zero_iff]
        rw [List.length_append, hl, stride_whole c hw h8, Ctx.outStride, hoc] at hr
        omega
      rw [this, List.append_nil, ← ho, hu]
    · rw [List.length_append, List.length_drop, hlen]
      have := stride_whole c hw h8 width
      have := stride_le c hw width
      rw [← Nat.mul_assoc]
      omega

end Zune.Png
