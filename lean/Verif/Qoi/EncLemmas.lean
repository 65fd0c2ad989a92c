/- The QOI encoder's chunk stream denotes its input under the chunk specification (helper lemmas). -/
import Verif.Qoi.Refine

namespace Zune.Qoi
open Zune.Bytestream

theorem runByte_toNat (run : Nat) (h1 : 1 ≤ run) (h2 : run ≤ 62) : (runByte run).toNat = 191 + run := by
  have : ∀ i : Fin 62, (runByte (i.val + 1)).toNat = 192 + i.val := by decide +kernel
  have h := this ⟨run - 1, by omega⟩
  simp only at h
  rw [show run - 1 + 1 = run by omega] at h
  omega

theorem not_inRange_diff (v : UInt8) (h : inRange 2 253 v = false) : (v + 2).toNat < 4 := by
  revert v; decide +kernel

theorem not_inRange_luma (v : UInt8) (h : inRange 8 247 v = false) : (v + 8).toNat < 16 := by
  revert v; decide +kernel

theorem not_inRange_lumag (v : UInt8) (h : inRange 32 223 v = false) : (v + 32).toNat < 64 := by
  revert v; decide +kernel

theorem ofNat_of_toNat (x : UInt8) (n : Nat) (h : x.toNat = n) : x = UInt8.ofNat n := by
  rw [← h]; simp

theorem diffByte_toNat (i j k : UInt8) (hi : i.toNat < 4) (hj : j.toNat < 4) (hk : k.toNat < 4) :
    ((0x40 : UInt8) ||| i <<< (4 : UInt8) ||| j <<< (2 : UInt8) ||| k).toNat = 64 + 16 * i.toNat + 4 * j.toNat + k.toNat := by
  have : ∀ a b c : Fin 4, ((0x40 : UInt8) ||| UInt8.ofNat a.val <<< (4 : UInt8) ||| UInt8.ofNat b.val <<< (2 : UInt8) |||
      UInt8.ofNat c.val).toNat = 64 + 16 * a.val + 4 * b.val + c.val := by decide +kernel
  have h := this ⟨_, hi⟩ ⟨_, hj⟩ ⟨_, hk⟩
  simpa using h

theorem lumaByte1_toNat (i : UInt8) (hi : i.toNat < 64) : ((0x80 : UInt8) ||| i).toNat = 128 + i.toNat := by
  revert i; decide +kernel

theorem lumaByte2_toNat (i j : UInt8) (hi : i.toNat < 16) (hj : j.toNat < 16) :
    (i <<< (4 : UInt8) ||| j).toNat = 16 * i.toNat + j.toNat := by
  have : ∀ a b : Fin 16, (UInt8.ofNat a.val <<< (4 : UInt8) ||| UInt8.ofNat b.val).toNat = 16 * a.val + b.val := by
    decide +kernel
  have h := this ⟨_, hi⟩ ⟨_, hj⟩
  simpa using h

theorem addB_spec (x y : UInt8) (d bias : Nat) (hb : bias ≤ 256)
    (h : (x.toNat + d) % 256 = (y.toNat + bias) % 256) : Spec.addB x d bias = y := by
  unfold Spec.addB
  have hy := y.toNat_lt
  have : (x.toNat + d + 256 - bias) % 256 = y.toNat := by omega
  rw [this]; simp

theorem sub_add_toNat (a b c : UInt8) : ((a - b) + c).toNat = (a.toNat + (256 - b.toNat) + c.toNat) % 256 := by
  have := b.toNat_lt
  simp [UInt8.toNat_add, UInt8.toNat_sub]
  omega

theorem diff_arith (x y i : Nat) (hx : x < 256) (hi : i = (y + (256 - x) + 2) % 256) :
    (x + i) % 256 = (y + 2) % 256 := by omega

theorem split4 (i j k : Nat) (hi : i < 4) (hj : j < 4) (hk : k < 4) :
    (64 + 16 * i + 4 * j + k) / 16 % 4 = i ∧ (64 + 16 * i + 4 * j + k) / 4 % 4 = j ∧ (64 + 16 * i + 4 * j + k) % 4 = k := by
  omega

theorem split16 (j k : Nat) (hk : k < 16) : (16 * j + k) / 16 = j ∧ (16 * j + k) % 16 = k := by
  omega

theorem luma_arith_g (x y i : Nat) (hx : x < 256) (hi : i = (y + (256 - x) + 32) % 256) :
    (x + i) % 256 = (y + 32) % 256 := by omega

theorem luma_arith (x y g i j : Nat) (hx : x < 256) (hg : g < 256)
    (hi : i = (g + 32) % 256) (hj : j = ((y + (256 - x)) % 256 + (256 - g) + 8) % 256) :
    (x + (i + j)) % 256 = (y + 40) % 256 := by
  omega

/-- Every difference chunk the encoder emits denotes the pixel it was emitted for. -/
theorem encPixel_chunk (idx cache : Nat → Px) (prev p : Px) (t : List UInt8)
    (hi : idx (Spec.hash p) = p → cache (Spec.hash p) = p) :
    Spec.chunk cache prev (encPixel idx prev p ++ t) = some (p, 1, t) := by
  unfold encPixel
  rw [encHash_eq]
  have hh : Spec.hash p < 64 := Spec.hash_lt p
  split
  · rename_i h
    have hz : ((0x00 : UInt8) ||| UInt8.ofNat (Spec.hash p)).toNat = Spec.hash p := by
      simp; omega
    simp only [List.cons_append, List.nil_append, Spec.chunk, hz]
    rw [if_neg (by omega), if_neg (by omega), if_pos hh, hi h]
  · split
    · rename_i ha
      have br := prev.r.toNat_lt; have bg := prev.g.toNat_lt; have bb := prev.b.toNat_lt
      have cr := p.r.toNat_lt; have cg := p.g.toNat_lt; have cb := p.b.toNat_lt
      simp only
      split
      · rename_i h
        simp only [Bool.and_eq_true, Bool.not_eq_true'] at h
        obtain ⟨⟨h1, h2⟩, h3⟩ := h
        have h1 := not_inRange_diff _ h1
        have h2 := not_inRange_diff _ h2
        have h3 := not_inRange_diff _ h3
        have hb := diffByte_toNat _ _ _ h1 h2 h3
        have er := sub_add_toNat p.r prev.r 2
        have eg := sub_add_toNat p.g prev.g 2
        have eb := sub_add_toNat p.b prev.b 2
        simp only [show UInt8.toNat 2 = 2 from rfl] at er eg eb
        generalize (p.r - prev.r + 2).toNat = i at *
        generalize (p.g - prev.g + 2).toNat = j at *
        generalize (p.b - prev.b + 2).toNat = k at *
        obtain ⟨s1, s2, s3⟩ := split4 i j k h1 h2 h3
        simp only [List.cons_append, List.nil_append, Spec.chunk, hb, s1, s2, s3]
        rw [if_neg (by omega), if_neg (by omega), if_neg (by omega), if_pos (by omega)]
        rw [addB_spec _ p.r _ _ (by omega) (diff_arith _ _ _ br er), addB_spec _ p.g _ _ (by omega) (diff_arith _ _ _ bg eg),
          addB_spec _ p.b _ _ (by omega) (diff_arith _ _ _ bb eb), ← ha]
      split
      · rename_i h
        simp only [Bool.and_eq_true, Bool.not_eq_true'] at h
        obtain ⟨⟨h1, h2⟩, h3⟩ := h
        have h1 := not_inRange_luma _ h1
        have h2 := not_inRange_lumag _ h2
        have h3 := not_inRange_luma _ h3
        have hb1 := lumaByte1_toNat _ h2
        have hb2 := lumaByte2_toNat _ _ h1 h3
        have er : (p.r - prev.r).toNat = (p.r.toNat + (256 - prev.r.toNat)) % 256 := by
          simp [UInt8.toNat_sub]; omega
        have eb : (p.b - prev.b).toNat = (p.b.toNat + (256 - prev.b.toNat)) % 256 := by
          simp [UInt8.toNat_sub]; omega
        have e8r := sub_add_toNat (p.r - prev.r) (p.g - prev.g) 8
        have e8b := sub_add_toNat (p.b - prev.b) (p.g - prev.g) 8
        have e32 := sub_add_toNat p.g prev.g 32
        have e32' : (p.g - prev.g + 32).toNat = ((p.g - prev.g).toNat + 32) % 256 := by simp [UInt8.toNat_add]
        have gl := (p.g - prev.g).toNat_lt
        simp only [show UInt8.toNat 8 = 8 from rfl, show UInt8.toNat 32 = 32 from rfl] at e8r e8b e32
        rw [er] at e8r
        rw [eb] at e8b
        generalize (p.r - prev.r - (p.g - prev.g) + 8).toNat = j at *
        generalize (p.b - prev.b - (p.g - prev.g) + 8).toNat = k at *
        generalize (p.g - prev.g + 32).toNat = i at *
        generalize (p.g - prev.g).toNat = g at *
        obtain ⟨s1, s2⟩ := split16 j k h3
        simp only [List.cons_append, List.nil_append, Spec.chunk, hb1, hb2, s1, s2]
        rw [if_neg (by omega), if_neg (by omega), if_neg (by omega), if_neg (by omega), if_pos (by omega),
          Nat.add_sub_cancel_left]
        rw [addB_spec _ p.r _ _ (by omega) (luma_arith _ _ _ _ _ br gl e32' e8r),
          addB_spec _ p.g _ _ (by omega) (luma_arith_g _ _ _ bg e32),
          addB_spec _ p.b _ _ (by omega) (luma_arith _ _ _ _ _ bb gl e32' e8b), ← ha]
      · obtain ⟨r, g, b, a⟩ := p
        simp only at *
        simp [Spec.chunk, ha]
    · simp [Spec.chunk]

/-- Relation between the encoder cache and the decoder cache. -/
def CacheInv (idx cache : Nat → Px) (prev : Px) : Prop :=
  (∀ p, idx (Spec.hash p) = p → cache (Spec.hash p) = p) ∧
  (idx (Spec.hash prev) = prev ∨ Spec.hash (idx (Spec.hash prev)) ≠ Spec.hash prev)

theorem CacheInv.run {idx cache : Nat → Px} {prev : Px} (h : CacheInv idx cache prev) :
    CacheInv idx (fun i => if i = Spec.hash prev then prev else cache i) prev := by
  refine ⟨fun p hp => ?_, h.2⟩
  simp only
  split
  · rename_i he
    rcases h.2 with h2 | h2
    · rw [he, h2] at hp; exact hp
    · rw [he] at hp; rw [hp] at h2; exact absurd he h2
  · exact h.1 p hp

theorem encIndex_self (idx : Nat → Px) (p : Px) : encIndex idx p (Spec.hash p) = p := by
  unfold encIndex
  rw [encHash_eq]
  split
  · assumption
  · simp

theorem CacheInv.pixel {idx cache : Nat → Px} {prev : Px} (h : CacheInv idx cache prev) (p : Px) :
    CacheInv (encIndex idx p) (fun i => if i = Spec.hash p then p else cache i) p := by
  refine ⟨fun q hq => ?_, Or.inl (encIndex_self idx p)⟩
  simp only
  split
  · rename_i he
    rw [he, encIndex_self] at hq; exact hq
  · rename_i he
    have : encIndex idx p (Spec.hash q) = idx (Spec.hash q) := by
      unfold encIndex
      rw [encHash_eq]
      split
      · rfl
      · simp [he]
    rw [this] at hq
    exact h.1 q hq

theorem pixels_run (fuel n : Nat) (cache : Nat → Px) (prev : Px) (run : Nat) (t : List UInt8)
    (h1 : 1 ≤ run) (h2 : run ≤ 62) (ps : List Px) (t' : List UInt8)
    (h : Spec.pixels fuel n (fun i => if i = Spec.hash prev then prev else cache i) prev t = some (ps, t')) :
    Spec.pixels (fuel + 1) (run + n) cache prev (runByte run :: t) = some (List.replicate run prev ++ ps, t') := by
  have hb := runByte_toNat run h1 h2
  have hc : Spec.chunk cache prev (runByte run :: t) = some (prev, run, t) := by
    simp only [Spec.chunk, hb]
    rw [if_neg (by omega), if_neg (by omega), if_neg (by omega), if_neg (by omega), if_neg (by omega)]
    congr 3
    omega
  rw [Spec.pixels, if_neg (by omega)]
  simp only [hc]
  rw [show min run (run + n) = run by omega, show run + n - run = n by omega, h]

theorem pixels_one (fuel n : Nat) (cache : Nat → Px) (prev p : Px) (s t : List UInt8)
    (hc : Spec.chunk cache prev s = some (p, 1, t)) (ps : List Px) (t' : List UInt8)
    (h : Spec.pixels fuel n (fun i => if i = Spec.hash p then p else cache i) p t = some (ps, t')) :
    Spec.pixels (fuel + 1) (n + 1) cache prev s = some (p :: ps, t') := by
  rw [Spec.pixels, if_neg (by omega)]
  simp only [hc]
  rw [show min 1 (n + 1) = 1 by omega, show n + 1 - 1 = n by omega, h]
  simp

theorem pixels_zero (fuel : Nat) (cache : Nat → Px) (prev : Px) (t : List UInt8) :
    Spec.pixels fuel 0 cache prev t = some ([], t) := by
  unfold Spec.pixels; simp

theorem encBody_spec (pxs : List Px) (idx cache : Nat → Px) (prev : Px) (run fuel : Nat) (tail : List UInt8)
    (hinv : CacheInv idx cache prev) (hrun : run ≤ 61) (hf : run + pxs.length ≤ fuel) :
    Spec.pixels fuel (run + pxs.length) cache prev (encBody idx prev run pxs ++ tail) =
      some (List.replicate run prev ++ pxs, tail) := by
  induction pxs generalizing idx cache prev run fuel with
  | nil =>
    unfold encBody
    by_cases h : run > 0
    · rw [if_pos h]
      obtain ⟨f, rfl⟩ : ∃ f, fuel = f + 1 := ⟨fuel - 1, by omega⟩
      exact pixels_run f 0 cache prev run _ h (by omega) [] tail (pixels_zero _ _ _ _)
    · rw [if_neg h]
      have : run = 0 := by omega
      subst this
      simp [pixels_zero]
  | cons p ps ih =>
    unfold encBody
    simp only [List.length_cons] at hf ⊢
    by_cases hp : p = prev
    · subst hp
      rw [if_pos rfl]
      have hrep : List.replicate run p ++ p :: ps = List.replicate (run + 1) p ++ ps := by
        rw [List.replicate_succ']; simp
      rw [hrep]
      split
      · rename_i h62
        obtain ⟨f, rfl⟩ : ∃ f, fuel = f + 1 := ⟨fuel - 1, by omega⟩
        rw [show run + (ps.length + 1) = 62 + ps.length by omega, h62]
        refine pixels_run f _ cache p 62 _ (by omega) (by omega) ps tail ?_
        have := ih idx _ p 0 f hinv.run (by omega) (by omega)
        simpa using this
      · rw [show run + (ps.length + 1) = run + 1 + ps.length by omega]
        exact ih idx cache p (run + 1) fuel hinv (by omega) (by omega)
    · rw [if_neg hp]
      by_cases hr : run > 0
      · rw [if_pos hr]
        obtain ⟨f, rfl⟩ : ∃ f, fuel = f + 2 := ⟨fuel - 2, by omega⟩
        simp only [List.cons_append, List.nil_append, List.append_assoc]
        refine pixels_run (f + 1) _ cache prev run _ hr (by omega) (p :: ps) tail ?_
        refine pixels_one f _ _ prev p _ _ (encPixel_chunk idx _ prev p _ (hinv.run.1 p)) ps tail ?_
        have := ih (encIndex idx p) _ p 0 f (hinv.run.pixel p) (by omega) (by omega)
        simpa using this
      · rw [if_neg hr]
        have : run = 0 := by omega
        subst this
        obtain ⟨f, rfl⟩ : ∃ f, fuel = f + 1 := ⟨fuel - 1, by omega⟩
        simp only [List.nil_append, List.append_assoc, Nat.zero_add, List.replicate_zero]
        refine pixels_one f _ _ prev p _ _ (encPixel_chunk idx _ prev p _ (hinv.1 p)) ps tail ?_
        have := ih (encIndex idx p) _ p 0 f (hinv.pixel p) (by omega) (by omega)
        simpa using this

theorem cacheInv_start : CacheInv (fun _ => pxZero) (fun _ => ⟨0, 0, 0, 0⟩) pxStart := by
  refine ⟨fun p hp => hp, Or.inr ?_⟩
  decide

theorem image_encBody (pxs : List Px) (tail : List UInt8) :
    Spec.image pxs.length (encBody (fun _ => pxZero) pxStart 0 pxs ++ tail) = some (pxs, tail) := by
  have := encBody_spec pxs (fun _ => pxZero) (fun _ => ⟨0, 0, 0, 0⟩) pxStart 0 pxs.length tail cacheInv_start
    (by omega) (by omega)
  simpa [Spec.image, pxStart] using this

/-! Interleaved data and pixels. -/

theorem pixelsOf_length (cs : Cs) (al : UInt8) (n : Nat) (data : List UInt8) (h : data.length = n * cs.n) :
    (pixelsOf cs al data).length = n := by
  induction n generalizing data with
  | zero => 
    have : data = [] := List.length_eq_zero_iff.1 (by omega)
    subst this; simp [pixelsOf]
  | succ n ih =>
    cases cs
    · rcases data with _ | ⟨a, _ | ⟨b, _ | ⟨c, t⟩⟩⟩ <;> simp [Cs.n] at h <;> try omega
      simp only [pixelsOf, List.length_cons]
      rw [ih t (by simp [Cs.n]; omega)]
    · rcases data with _ | ⟨a, _ | ⟨b, _ | ⟨c, _ | ⟨d, t⟩⟩⟩⟩ <;> simp [Cs.n] at h <;> try omega
      simp only [pixelsOf, List.length_cons]
      rw [ih t (by simp [Cs.n]; omega)]

theorem pixelsOf_bytes (cs : Cs) (al : UInt8) (n : Nat) (data : List UInt8) (h : data.length = n * cs.n) :
    ((pixelsOf cs al data).map (·.bytes cs)).flatten = data := by
  induction n generalizing data with
  | zero => 
    have : data = [] := List.length_eq_zero_iff.1 (by omega)
    subst this; simp [pixelsOf]
  | succ n ih =>
    cases cs
    · rcases data with _ | ⟨a, _ | ⟨b, _ | ⟨c, t⟩⟩⟩ <;> simp [Cs.n] at h <;> try omega
      have := ih t (by simp [Cs.n]; omega)
      simp only [pixelsOf, List.map_cons, List.flatten_cons, this]; simp [Px.bytes]
    · rcases data with _ | ⟨a, _ | ⟨b, _ | ⟨c, _ | ⟨d, t⟩⟩⟩⟩ <;> simp [Cs.n] at h <;> try omega
      have := ih t (by simp [Cs.n]; omega)
      simp only [pixelsOf, List.map_cons, List.flatten_cons, this]; simp [Px.bytes]

/-! Size of the chunk stream. -/

/-- Largest chunk for a colorspace. -/
theorem encPixel_le (idx : Nat → Px) (prev p : Px) (m : Nat) (hm : 4 ≤ m) (h : p.a ≠ prev.a → 5 ≤ m) :
    (encPixel idx prev p).length ≤ m := by
  unfold encPixel
  split
  · simp; omega
  split
  · simp only
    split
    · simp; omega
    split
    · simp; omega
    · simpa using hm
  · rename_i h2; simpa using h h2

theorem encBody_le (m : Nat) (hm : 4 ≤ m) (pxs : List Px) (idx : Nat → Px) (prev : Px) (run : Nat)
    (h : 5 ≤ m ∨ ∀ p ∈ pxs, p.a = prev.a) :
    (encBody idx prev run pxs).length ≤ (if run > 0 then 1 else 0) + m * pxs.length := by
  induction pxs generalizing idx prev run with
  | nil => unfold encBody; split <;> simp
  | cons p ps ih =>
    have h' : 5 ≤ m ∨ ∀ q ∈ ps, q.a = p.a := by
      rcases h with h | h
      · exact Or.inl h
      · refine Or.inr fun q hq => ?_
        rw [h q (by simp [hq]), h p (by simp)]
    have hlen : m * (p :: ps).length = m * ps.length + m := by simp [Nat.mul_succ]
    unfold encBody
    by_cases hp : p = prev
    · rw [if_pos hp]
      split
      · have := ih idx p 0 h'
        simp at this ⊢
        rw [Nat.mul_succ]; omega
      · have := ih idx p (run + 1) h'
        simp at this ⊢
        rw [Nat.mul_succ]; split <;> omega
    · rw [if_neg hp]
      have := ih (encIndex idx p) p 0 h'
      have hpx := encPixel_le idx prev p m hm (by
        rcases h with h | h
        · exact fun _ => h
        · exact fun hc => absurd (h p (by simp)) hc)
      simp at this
      rw [hlen]
      split <;> simp <;> omega

theorem pixelsOf_alpha (al : UInt8) (data : List UInt8) : ∀ p ∈ pixelsOf .rgb al data, p.a = al := by
  have : ∀ n (data : List UInt8), data.length ≤ n → ∀ p ∈ pixelsOf .rgb al data, p.a = al := by
    intro n
    induction n with
    | zero =>
      intro data h
      have : data = [] := List.length_eq_zero_iff.1 (by omega)
      subst this; simp [pixelsOf]
    | succ n ih =>
      intro data h
      rcases data with _ | ⟨a, _ | ⟨b, _ | ⟨c, t⟩⟩⟩
      · simp [pixelsOf]
      · simp [pixelsOf]
      · simp [pixelsOf]
      · simp at h
        intro p hp
        simp only [pixelsOf, List.mem_cons] at hp
        rcases hp with rfl | hp
        · rfl
        · exact ih t (by omega) p hp
  exact this _ data (le_refl _)

end Zune.Qoi
