/- PNG pixel formats, specified on the packed row read as one big-endian number, and lemmas about the expansion loops. -/
import Verif.Png.Expand
import Verif.Png.Simd

namespace Zune.Png

namespace Spec

/-- Sample number `k` of a packed row (RFC 2083 2.3: leftmost pixels in the high-order bits, 16-bit samples big endian): the row is one
    big-endian number, samples are its consecutive `d`-bit digits from the top. -/
def sample (d : Nat) (row : List UInt8) (k : Nat) : Nat := beVal row / 2 ^ (8 * row.length - d * (k + 1)) % 2 ^ d

/-- A sample as output bytes: two bytes for 16 bits, otherwise one byte scaled to the full range `0..255`. -/
def sampleBytes (d s : Nat) : List UInt8 :=
  if d = 16 then [UInt8.ofNat (s / 256), UInt8.ofNat (s % 256)] else [UInt8.ofNat (s * 255 / (2 ^ d - 1))]

/-- An alpha value, opaque or transparent, as output bytes. -/
def alphaBytes (d : Nat) (opaque_ : Bool) : List UInt8 :=
  List.replicate (if d = 16 then 2 else 1) (if opaque_ then 255 else 0)

/-- A pixel with samples `s`: palette entries, or the samples themselves, followed by an alpha value if the output has one which the
    image lacks.  Such a pixel is transparent exactly if it equals the colour key. -/
def pixel (color : Color) (d : Nat) (plte : List Entry) (key : Option (List Nat)) (alpha : Bool) (s : List Nat) : List UInt8 :=
  match color with
  | .palette =>
    let e := plte.getD (s.headD 0) {}
    [e.red, e.green, e.blue] ++ if alpha then [e.alpha] else []
  | .lumaA | .rgba => s.flatMap (sampleBytes d)
  | .luma | .rgb =>
    s.flatMap (sampleBytes d) ++
      if alpha then alphaBytes d (match key with | some k => decide (s ≠ (k.take s.length).map (· % 2 ^ d)) | none => true) else []

/-- The output row of a packed row: alpha is present if asked for or if the image has transparency information. -/
def rowOut (c : Ctx) (width : Nat) (row : List UInt8) : List UInt8 :=
  (List.range width).flatMap fun x =>
    pixel c.color c.depth (c.plte.getD []) c.trns (c.wantAlpha || c.trns.isSome)
      ((List.range c.color.comps).map fun i => sample c.depth row (x * c.color.comps + i))

end Spec

/-! ### Samples -/

theorem beVal_append (p t : List UInt8) : beVal (p ++ t) = beVal p * 256 ^ t.length + beVal t := by
  induction p with
  | nil => simp [beVal]
  | cons b p ih => simp only [List.cons_append, beVal, ih, List.length_append, pow_add]; ring

theorem sample_left (d j : Nat) (p t : List UInt8) (h : d * (j + 1) ≤ 8 * p.length) :
    Spec.sample d (p ++ t) j = Spec.sample d p j := by
  unfold Spec.sample
  rw [beVal_append, List.length_append]
  have e : 8 * (p.length + t.length) - d * (j + 1) = 8 * t.length + (8 * p.length - d * (j + 1)) := by omega
  have e2 : (2 : Nat) ^ (8 * t.length) = 256 ^ t.length := by rw [pow_mul]; norm_num
  have hv := beVal_lt t
  rw [e, pow_add, e2, ← Nat.div_div_eq_div_mul, Nat.mul_comm (beVal p), Nat.mul_add_div (by positivity),
    Nat.div_eq_of_lt hv, Nat.add_zero]

theorem sample_right (d j m : Nat) (p t : List UInt8) (hp : d * m = 8 * p.length) (h : d * (j + 1) ≤ 8 * t.length) :
    Spec.sample d (p ++ t) (m + j) = Spec.sample d t j := by
  unfold Spec.sample
  rw [beVal_append, List.length_append]
  have e1 : d * (m + j + 1) = d * m + d * (j + 1) := by ring
  have e : 8 * (p.length + t.length) - d * (m + j + 1) = 8 * t.length - d * (j + 1) := by omega
  have e2 : (256 : Nat) ^ t.length = 2 ^ (8 * t.length - d * (j + 1)) * (2 ^ d * 2 ^ (d * j)) := by
    rw [← pow_add, ← pow_add, show 8 * t.length - d * (j + 1) + (d + d * j) = 8 * t.length by
      have : d * (j + 1) = d + d * j := by ring
      omega, pow_mul]
    norm_num
  rw [e, e2, Nat.mul_left_comm, Nat.mul_add_div (by positivity), Nat.mul_left_comm, Nat.mul_add_mod]

theorem sample_lt (d j : Nat) (row : List UInt8) : Spec.sample d row j < 2 ^ d := Nat.mod_lt _ (by positivity)

theorem sample_byte (b : UInt8) : Spec.sample 8 [b] 0 = b.toNat := by
  have := b.toNat_lt
  simp [Spec.sample, beVal]

theorem sample_word (a b : UInt8) : Spec.sample 16 [a, b] 0 = a.toNat * 256 + b.toNat := by
  have := a.toNat_lt; have := b.toNat_lt
  simp [Spec.sample, beVal]
  omega

theorem range_add_map {α : Type} (a b : Nat) (f : Nat → α) :
    (List.range (a + b)).map f = (List.range a).map f ++ (List.range b).map fun j => f (a + j) := by
  rw [List.range_add, List.map_append, List.map_map]; rfl

theorem flatMap_congr' {α β : Type} (l : List α) (f g : α → List β) (h : ∀ a ∈ l, f a = g a) : l.flatMap f = l.flatMap g := by
  induction l with
  | nil => rfl
  | cons a l ih => rw [List.flatMap_cons, List.flatMap_cons, h a (by simp), ih fun b hb => h b (by simp [hb])]

theorem range_mul_map {α : Type} (w n : Nat) (f : Nat → α) :
    (List.range (w * n)).map f = (List.range w).flatMap fun x => (List.range n).map fun i => f (x * n + i) := by
  induction w with
  | zero => simp
  | succ w ih => rw [Nat.succ_mul, range_add_map, ih, List.range_succ, List.flatMap_append]; simp

/-- Whole-byte rows consist of their samples. -/
theorem row8 (row : List UInt8) : row = (List.range row.length).flatMap fun k => Spec.sampleBytes 8 (Spec.sample 8 row k) := by
  induction row with
  | nil => rfl
  | cons b t ih =>
    rw [List.length_cons, Nat.add_comm, List.range_add, List.flatMap_append]
    have h0 : Spec.sample 8 (b :: t) 0 = b.toNat := by
      rw [← sample_byte b]; exact sample_left 8 0 [b] t (by simp)
    have h1 : ∀ k ∈ List.range t.length, Spec.sampleBytes 8 (Spec.sample 8 (b :: t) (1 + k)) =
        Spec.sampleBytes 8 (Spec.sample 8 t k) := by
      intro k hk
      simp only [List.mem_range] at hk
      have := sample_right 8 k 1 [b] t (by simp) (by omega)
      rw [show b :: t = [b] ++ t from rfl, this]
    rw [List.flatMap_map, flatMap_congr' _ _ _ h1, ← ih]
    simp [h0, Spec.sampleBytes]

theorem row16 (n : Nat) (row : List UInt8) (h : row.length = n * 2) :
    row = (List.range n).flatMap fun k => Spec.sampleBytes 16 (Spec.sample 16 row k) := by
  induction n generalizing row with
  | zero => simp at h; subst h; rfl
  | succ n ih =>
    match row, h with
    | [], h => simp at h
    | [_], h => simp at h; omega
    | a :: b :: t, h =>
      have ht : t.length = n * 2 := by simp at h; omega
      rw [Nat.add_comm, List.range_add, List.flatMap_append]
      have h0 : Spec.sample 16 (a :: b :: t) 0 = a.toNat * 256 + b.toNat := by
        rw [← sample_word a b]; exact sample_left 16 0 [a, b] t (by simp)
      have h1 : ∀ k ∈ List.range n, Spec.sampleBytes 16 (Spec.sample 16 (a :: b :: t) (1 + k)) =
          Spec.sampleBytes 16 (Spec.sample 16 t k) := by
        intro k hk
        simp only [List.mem_range] at hk
        have := sample_right 16 k 1 [a, b] t (by simp) (by omega)
        rw [show a :: b :: t = [a, b] ++ t from rfl, this]
      rw [List.flatMap_map, flatMap_congr' _ _ _ h1, ← ih t ht]
      have e1 : (a.toNat * 256 + b.toNat) / 256 = a.toNat := by have := b.toNat_lt; omega
      have e2 : (a.toNat * 256 + b.toNat) % 256 = b.toNat := by have := b.toNat_lt; omega
      simp [h0, Spec.sampleBytes, e1, e2]

/-! ### Unpacking -/

theorem unpack_table1 : ∀ b s : UInt8, s = 0xFF ∨ s = 1 → unpackByte 1 s b =
    (List.range 8).map fun j => s * UInt8.ofNat (Spec.sample 1 [b] j) := by
  have h : ∀ b : UInt8, (unpackByte 1 0xFF b = (List.range 8).map fun j => 0xFF * UInt8.ofNat (Spec.sample 1 [b] j)) ∧
      (unpackByte 1 1 b = (List.range 8).map fun j => 1 * UInt8.ofNat (Spec.sample 1 [b] j)) := by decide +kernel
  rintro b s (rfl | rfl)
  · exact (h b).1
  · exact (h b).2

theorem unpack_table2 : ∀ b s : UInt8, s = 0x55 ∨ s = 1 → unpackByte 2 s b =
    (List.range 4).map fun j => s * UInt8.ofNat (Spec.sample 2 [b] j) := by
  have h : ∀ b : UInt8, (unpackByte 2 0x55 b = (List.range 4).map fun j => 0x55 * UInt8.ofNat (Spec.sample 2 [b] j)) ∧
      (unpackByte 2 1 b = (List.range 4).map fun j => 1 * UInt8.ofNat (Spec.sample 2 [b] j)) := by decide +kernel
  rintro b s (rfl | rfl)
  · exact (h b).1
  · exact (h b).2

theorem unpack_table4 : ∀ b s : UInt8, s = 0x11 ∨ s = 1 → unpackByte 4 s b =
    (List.range 2).map fun j => s * UInt8.ofNat (Spec.sample 4 [b] j) := by
  have h : ∀ b : UInt8, (unpackByte 4 0x11 b = (List.range 2).map fun j => 0x11 * UInt8.ofNat (Spec.sample 4 [b] j)) ∧
      (unpackByte 4 1 b = (List.range 2).map fun j => 1 * UInt8.ofNat (Spec.sample 4 [b] j)) := by decide +kernel
  rintro b s (rfl | rfl)
  · exact (h b).1
  · exact (h b).2

theorem unpackLoop_spec (d : Nat) (s : UInt8) (hd : d * (8 / d) = 8)
    (hb : ∀ b, unpackByte d s b = (List.range (8 / d)).map fun j => s * UInt8.ofNat (Spec.sample d [b] j))
    (input out : List UInt8) (h : d * out.length ≤ 8 * input.length) :
    unpackLoop d s input out = (List.range out.length).map fun k => s * UInt8.ofNat (Spec.sample d input k) := by
  have hd0 : 0 < d := by
    rcases Nat.eq_zero_or_pos d with h0 | h0
    · rw [h0] at hd; omega
    · exact h0
  induction input generalizing out with
  | nil =>
    have : out.length = 0 := by
      simp only [List.length_nil, Nat.mul_zero, Nat.le_zero, Nat.mul_eq_zero] at h
      omega
    rw [List.length_eq_zero_iff] at this
    subst this; rfl
  | cons b t ih =>
    have hleft : ∀ j, j < 8 / d → Spec.sample d (b :: t) j = Spec.sample d [b] j := by
      intro j hj
      refine sample_left d j [b] t ?_
      have : d * (j + 1) ≤ d * (8 / d) := Nat.mul_le_mul_left _ hj
      simpa [hd] using this
    rw [unpackLoop]
    by_cases hl : 8 / d ≤ out.length
    · rw [if_pos hl, hb]
      have hm : d * (out.drop (8 / d)).length ≤ 8 * t.length := by
        rw [List.length_drop, Nat.mul_sub, hd]
        simp only [List.length_cons] at h
        omega
      rw [ih _ hm, List.length_drop]
      conv_rhs => rw [← Nat.add_sub_cancel' hl, range_add_map]
      congr 1
      · apply List.map_congr_left
        intro j hj
        rw [hleft j (List.mem_range.mp hj)]
      · apply List.map_congr_left
        intro j hj
        have hj := List.mem_range.mp hj
        have := sample_right d j (8 / d) [b] t (by simpa using hd) (by
          have : d * (j + 1) ≤ d * (out.drop (8 / d)).length := Nat.mul_le_mul_left _ (by rw [List.length_drop]; omega)
          omega)
        rw [show b :: t = [b] ++ t from rfl, this]
    · rw [if_neg hl, hb, ← List.map_take, List.take_range, Nat.min_eq_left (by omega)]
      apply List.map_congr_left
      intro j hj
      have hj := List.mem_range.mp hj
      rw [hleft j (by omega)]

theorem expandBits_spec (width d n : Nat) (plte : Bool) (input out : List UInt8) (hd : d = 1 ∨ d = 2 ∨ d = 4)
    (h : d * (width * n) ≤ 8 * input.length) (ho : width * n ≤ out.length) :
    expandBits width d n plte input out =
      ((List.range (width * n)).map fun k =>
        if plte then UInt8.ofNat (Spec.sample d input k) else UInt8.ofNat (Spec.sample d input k * 255 / (2 ^ d - 1))) ++
      out.drop (width * n) := by
  unfold expandBits
  rw [if_pos hd]
  simp only
  have hl : (out.take (width * n)).length = width * n := by simp [ho]
  congr 1
  have fin : ∀ (s : UInt8) (k : Nat), s.toNat * (2 ^ d - 1) = 255 →
      s * UInt8.ofNat (Spec.sample d input k) = UInt8.ofNat (Spec.sample d input k * 255 / (2 ^ d - 1)) := by
    intro s k hs
    have hlt := sample_lt d k input
    have hpos : 0 < 2 ^ d - 1 := by
      rcases Nat.eq_zero_or_pos (2 ^ d - 1) with h0 | h0
      · rw [h0] at hs; omega
      · exact h0
    have he : Spec.sample d input k * 255 / (2 ^ d - 1) = s.toNat * Spec.sample d input k := by
      rw [← hs, ← Nat.mul_assoc, Nat.mul_div_cancel _ hpos, Nat.mul_comm]
    rw [he]
    apply UInt8.toNat_inj.mp
    simp [UInt8.toNat_mul, UInt8.toNat_ofNat']
  rcases hd with rfl | rfl | rfl
  · show unpackLoop 1 (if plte then 1 else 0xFF) _ _ = _
    rw [unpackLoop_spec 1 _ (by decide) (fun b => unpack_table1 b (if plte then 1 else 0xFF) (by cases plte <;> simp)) _ _ (by rw [hl]; omega), hl]
    apply List.map_congr_left
    intro k _
    cases plte
    · exact fin _ k (by decide)
    · simp
  · show unpackLoop 2 (if plte then 1 else 0x55) _ _ = _
    rw [unpackLoop_spec 2 _ (by decide) (fun b => unpack_table2 b (if plte then 1 else 0x55) (by cases plte <;> simp)) _ _ (by rw [hl]; omega), hl]
    apply List.map_congr_left
    intro k _
    cases plte
    · exact fin _ k (by decide)
    · simp
  · show unpackLoop 4 (if plte then 1 else 0x11) _ _ = _
    rw [unpackLoop_spec 4 _ (by decide) (fun b => unpack_table4 b (if plte then 1 else 0x11) (by cases plte <;> simp)) _ _ (by rw [hl]; omega), hl]
    apply List.map_congr_left
    intro k _
    cases plte
    · exact fin _ k (by decide)
    · simp

/-! ### Chunked loops -/

theorem zipChunks_flatten (k m : Nat) (hk : 0 < k) (f : List UInt8 → List UInt8) (cs : List (List UInt8)) (rest out : List UInt8)
    (hc : ∀ c ∈ cs, c.length = k) (ho : out.length = cs.length * m) (hm : 0 < m) :
    zipChunks k m f (cs.flatten ++ rest) out = cs.flatMap f := by
  induction cs generalizing out with
  | nil =>
    simp at ho; subst ho
    rw [zipChunks, dif_neg (by simp; omega)]; rfl
  | cons c cs ih =>
    have h1 : c.length = k := hc c (by simp)
    simp only [List.length_cons, Nat.succ_mul] at ho
    rw [zipChunks, dif_pos ⟨hk, by simp [h1], by omega⟩]
    simp only [List.flatten_cons, List.append_assoc, List.flatMap_cons]
    rw [List.take_append_of_le_length (by omega), List.take_of_length_le (by omega),
      List.drop_append_of_le_length (by omega), List.drop_of_length_le (by omega), List.nil_append]
    rw [ih _ (fun c hcs => hc c (by simp [hcs])) (by rw [List.length_drop]; omega)]

end Zune.Png
