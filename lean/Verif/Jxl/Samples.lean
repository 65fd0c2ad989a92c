/-
Lemmas about the frame level of the JPEG XL encoder: the samples it reads, and its counts of symbols.
-/
import Verif.Jxl.StreamModel
import Verif.Jxl.DescProps

namespace Zune.Jxl

theorem mapM_some {α β} {f : α → Option β} {g : α → β} {l : List α} (h : ∀ a ∈ l, f a = some (g a)) : l.mapM f = some (l.map g) := by
  induction l with
  | nil => rfl
  | cons a l ih =>
    rw [List.mapM_cons, h a (by simp), ih fun a ha => h a (by simp [ha])]
    rfl

theorem mapM_eq_some {α β} {f : α → Option β} {l : List α} {r : List β} (h : l.mapM f = some r) :
    r.length = l.length ∧ ∀ (i : Nat) a, l[i]? = some a → ∃ b, r[i]? = some b ∧ f a = some b := by
  induction l generalizing r with
  | nil => cases h; simp
  | cons a l ih =>
    rw [List.mapM_cons] at h
    cases ha : f a with
    | none => rw [ha] at h; cases h
    | some b =>
      cases hl : l.mapM f with
      | none => rw [ha, hl] at h; cases h
      | some r' =>
        rw [ha, hl] at h
        cases h
        obtain ⟨h1, h2⟩ := ih hl
        refine ⟨by simp [h1], fun i x hx => ?_⟩
        cases i with
        | zero => simp at hx; subst hx; exact ⟨b, rfl, ha⟩
        | succ i => exact h2 i x (by simpa using hx)

theorem mapM_ok {α β} {f : α → Option β} {l : List α} (h : ∀ a ∈ l, ∃ b, f a = some b) : ∃ r, l.mapM f = some r := by
  induction l with
  | nil => exact ⟨_, rfl⟩
  | cons a l ih =>
    obtain ⟨b, hb⟩ := h a (by simp)
    obtain ⟨r, hr⟩ := ih fun a ha => h a (by simp [ha])
    exact ⟨b :: r, by rw [List.mapM_cons, hb, hr]; rfl⟩

/-! ### Samples -/

/-- The options the encoder accepts, with data of the right size. -/
structure Opts.Fits (o : Opts) (data : List UInt8) : Prop where
  bytes : o.bytes = 1 ∨ o.bytes = 2
  channels : 1 ≤ o.channels ∧ o.channels ≤ 4
  width : 1 < o.width
  height : 1 < o.height
  length : data.length = o.expected

/-- The sample of channel `c` at a position of the picture, zero outside. -/
def pixAt (o : Opts) (data : List UInt8) (c y x : Nat) : BitVec (16 * o.bytes) :=
  if ¬(y < o.height ∧ x < o.width) then 0 else ((if o.bytes = 1 then pixel8 (16 * o.bytes) else pixel16 (16 * o.bytes))
    ((data.drop (o.stride * y + x * (o.bytes * o.channels))).take (o.bytes * o.channels))).getD c 0

theorem chunksExact_take (n : Nat) (hn : 0 < n) (k : Nat) : ∀ l : List UInt8, k * n ≤ l.length →
    (chunksExact n l).take k = (List.range k).map fun i => (l.drop (i * n)).take n := by
  induction k with
  | zero => intro l _; simp
  | succ k ih =>
    intro l hl
    rw [Nat.succ_mul] at hl
    rw [chunksExact, dif_pos ⟨hn, by omega⟩, List.take_succ_cons, ih _ (by simp; omega), List.range_succ_eq_map, List.map_cons, List.map_map]
    simp only [Nat.zero_mul, List.drop_zero, List.cons.injEq, true_and]
    apply List.map_congr_left
    intro i _
    simp only [Function.comp, List.drop_drop, Nat.succ_eq_add_one, Nat.succ_mul]
    rw [Nat.add_comm n]

theorem sampleRow_eq {o : Opts} {data : List UInt8} (h : o.Fits data) (c x0 y xs : Nat) (hx : x0 + xs ≤ o.width) (hy : y < o.height) :
    sampleRow o data c (o.stride * y + x0 * o.channels * o.bytes) xs = some ((List.range xs).map fun x => pixAt o data c y (x0 + x)) := by
  have hlen := h.length
  have hn : 0 < o.bytes * o.channels := by
    have := h.bytes; have := h.channels
    exact Nat.mul_pos (by omega) (by omega)
  have e1 : x0 * o.channels * o.bytes = x0 * (o.bytes * o.channels) := by ring
  have e2 : o.stride = o.width * (o.bytes * o.channels) := by rw [Opts.stride]; ring
  have e3 : o.expected = o.height * o.stride := by rw [Opts.expected, Opts.stride]; ring
  have h1 : o.stride * y + o.stride ≤ data.length := by
    rw [hlen, e3, ← Nat.mul_succ, Nat.mul_comm o.height]
    exact Nat.mul_le_mul_left _ hy
  have h2 : x0 * (o.bytes * o.channels) + xs * (o.bytes * o.channels) ≤ o.stride := by
    rw [e2, ← Nat.add_mul]
    exact Nat.mul_le_mul_right _ hx
  rw [sampleRow, e1, if_pos (by omega), fillRow, chunksExact_take _ hn _ _ (by rw [List.length_drop]; omega), List.map_map, List.map_map]
  congr 1
  apply List.map_congr_left
  intro x hx'
  rw [List.mem_range] at hx'
  simp only [Function.comp, List.drop_drop, pixAt]
  rw [if_neg (not_not.2 ⟨hy, by omega⟩), Nat.add_mul, Nat.add_assoc]

theorem sampleRows_eq {o : Opts} {data : List UInt8} (h : o.Fits data) (c x0 y0 xs ys : Nat) (hx : x0 + xs ≤ o.width) (hy : y0 + ys ≤ o.height) :
    sampleRows o data c x0 y0 xs ys = some ((List.range ys).map fun y => (List.range xs).map fun x => pixAt o data c (y0 + y) (x0 + x)) := by
  rw [sampleRows]
  apply mapM_some
  intro y hy'
  rw [List.mem_range] at hy'
  exact sampleRow_eq h c x0 (y0 + y) xs hx (by omega)

/-- The range of the samples: the least one and the largest one. -/
def Opts.range (o : Opts) : Int × Int :=
  if o.bytes = 1 then (if o.channels ≤ 2 then (0, 255) else (-255, 255))
  else if o.channels = 1 then (0, 65535) else if o.channels = 2 then (-32768, 32767) else (-65535, 65535)

theorem mem_pixel8 {l : List UInt8} {v : BitVec 16} (h : v ∈ pixel8 16 l) :
    -255 ≤ v.toInt ∧ v.toInt ≤ 255 ∧ (l.length ≤ 2 → 0 ≤ v.toInt) := by
  have hb : ∀ b : UInt8, 0 ≤ (ofByte 16 b).toInt ∧ (ofByte 16 b).toInt ≤ 255 := by
    intro b
    rw [ofByte_toInt]
    have := b.toNat_lt
    omega
  unfold pixel8 at h
  split at h
  · simp at h; subst h; have := hb ‹_›; omega
  · simp at h; rcases h with rfl | rfl <;> [have := hb ‹_›; have := hb ‹_›] <;> grind
  · rename_i r g b
    have := c50_ycocg (w := 16) _ _ _ 255 (by simp) (hb r) (hb g) (hb b)
    simp at h
    simp
    rcases h with rfl | rfl | rfl <;> omega
  · rename_i r g b a
    have := c50_ycocg (w := 16) _ _ _ 255 (by simp) (hb r) (hb g) (hb b)
    have := hb a
    simp at h
    simp
    rcases h with rfl | rfl | rfl | rfl <;> omega
  · simp at h

theorem ofSignedWord_toInt (a b : UInt8) : -32768 ≤ (ofSignedWord 32 a b).toInt ∧ (ofSignedWord 32 a b).toInt ≤ 32767 := by
  rw [ofSignedWord, BitVec.toInt_signExtend_of_le (by omega)]
  have h1 := BitVec.le_toInt (BitVec.ofNat 16 (leVal [a, b]))
  have h2 := BitVec.toInt_lt (x := BitVec.ofNat 16 (leVal [a, b]))
  omega

theorem mem_pixel16 {l : List UInt8} {v : BitVec 32} (h : v ∈ pixel16 32 l) :
    -65535 ≤ v.toInt ∧ v.toInt ≤ 65535 ∧ (l.length ≤ 2 → 0 ≤ v.toInt) ∧ (l.length = 4 → -32768 ≤ v.toInt ∧ v.toInt ≤ 32767) := by
  have hb : ∀ a b : UInt8, 0 ≤ (ofWord 32 a b).toInt ∧ (ofWord 32 a b).toInt ≤ 65535 := by
    intro a b
    rw [ofWord_toInt]
    have := word_lt a b
    omega
  unfold pixel16 at h
  split at h
  · rename_i x y
    simp at h; subst h; have := hb x y; simp; omega
  · rename_i x y z w
    have h1 := ofSignedWord_toInt x y
    have h2 := ofSignedWord_toInt z w
    simp at h; simp; rcases h with rfl | rfl <;> omega
  · rename_i r r' g g' b b'
    have := c50_ycocg (w := 32) _ _ _ 65535 (by simp) (hb r r') (hb g g') (hb b b')
    simp at h
    simp
    rcases h with rfl | rfl | rfl <;> omega
  · rename_i r r' g g' b b' a a'
    have := c50_ycocg (w := 32) _ _ _ 65535 (by simp) (hb r r') (hb g g') (hb b b')
    have := hb a a'
    simp at h
    simp
    rcases h with rfl | rfl | rfl | rfl <;> omega
  · simp at h

theorem getD_zero_or_mem {α} [Zero α] (l : List α) (c : Nat) : l.getD c 0 = 0 ∨ l.getD c 0 ∈ l := by
  rw [List.getD_eq_getElem?_getD]
  cases h : l[c]? with
  | none => exact Or.inl rfl
  | some a => exact Or.inr (List.mem_of_getElem? h)

theorem range_zero (o : Opts) : o.range.1 ≤ 0 ∧ 0 ≤ o.range.2 := by
  unfold Opts.range
  split
  · split <;> simp
  · split
    · simp
    · split <;> simp

theorem pixAt_length {o : Opts} {data : List UInt8} (h : o.Fits data) {y x : Nat} (hy : y < o.height) (hx : x < o.width) :
    ((data.drop (o.stride * y + x * (o.bytes * o.channels))).take (o.bytes * o.channels)).length = o.bytes * o.channels := by
  have e2 : o.stride = o.width * (o.bytes * o.channels) := by rw [Opts.stride]; ring
  have e3 : o.expected = o.height * o.stride := by rw [Opts.expected, Opts.stride]; ring
  have h1 : o.stride * y + o.stride ≤ data.length := by
    rw [h.length, e3, ← Nat.mul_succ, Nat.mul_comm o.height]
    exact Nat.mul_le_mul_left _ hy
  have h2 : x * (o.bytes * o.channels) + o.bytes * o.channels ≤ o.stride := by
    rw [e2, ← Nat.succ_mul]
    exact Nat.mul_le_mul_right _ hx
  rw [List.length_take, List.length_drop]
  omega

theorem pixAt_range {o : Opts} {data : List UInt8} (h : o.Fits data) (c y x : Nat) :
    o.range.1 ≤ (pixAt o data c y x).toInt ∧ (pixAt o data c y x).toInt ≤ o.range.2 := by
  have h0 := range_zero o
  rw [pixAt]
  split
  · simpa using h0
  · rename_i hyx
    have hlen := pixAt_length h (y := y) (x := x) (by omega) (by omega)
    generalize (data.drop (o.stride * y + x * (o.bytes * o.channels))).take (o.bytes * o.channels) = l at hlen ⊢
    obtain ⟨w, hh, b, ch, e⟩ := o
    have hch := h.channels
    have hb := h.bytes
    clear h
    simp only at hb hch hlen ⊢
    rcases hb with rfl | rfl
    · simp only [if_true]
      rcases getD_zero_or_mem (pixel8 (16 * 1) l) c with h1 | h1
      · rw [h1]; simpa using h0
      · have := mem_pixel8 h1
        simp only [Opts.range, if_true]
        split <;> simp only <;> omega
    · simp only [show ¬(2 = 1) by omega, if_false]
      rcases getD_zero_or_mem (pixel16 (16 * 2) l) c with h1 | h1
      · rw [h1]; simpa using h0
      · have := mem_pixel16 h1
        simp only [Opts.range, show ¬(2 = 1) by omega, if_false]
        split
        · simp only; omega
        · split <;> simp only <;> omega

/-! ### Residuals -/

theorem residualAt_le {img : Nat → Nat → Int} {lo hi : Int} (h0 : lo ≤ 0 ∧ 0 ≤ hi) (h : ∀ y x, lo ≤ img y x ∧ img y x ≤ hi) (y x : Nat) :
    (residualAt img y x : Int) ≤ 2 * (hi - lo) := by
  have hl : lo ≤ leftOf img y x ∧ leftOf img y x ≤ hi := by
    rw [leftOf]
    split
    · exact h _ _
    · split
      · exact h _ _
      · exact h0
  have ht : lo ≤ topOf img y x ∧ topOf img y x ≤ hi := by rw [topOf]; split; exacts [h _ _, hl]
  have hx := h y x
  have hg : lo ≤ gradient (leftOf img y x) (topOf img y x) (topLeftOf img y x) ∧ gradient (leftOf img y x) (topOf img y x) (topLeftOf img y x) ≤ hi := by
    rw [gradient]; omega
  simp only [residualAt, packSigned]
  split <;> omega

theorem areaLine_skip {w : Nat} (c p : Line w) {y : Nat} (hy : 1 ≤ y) (xs : Nat) (s : List (BitVec w)) (proc : Proc) :
    areaLine c p y 1 xs s proc = areaLine c p y 0 xs s proc := by
  have h1 : ¬ y < 1 := by omega
  simp only [areaLine, h1, Nat.not_lt_zero, if_false]

theorem areaLoop_skip {w : Nat} (xs : Nat) (rows : List (List (BitVec w))) : ∀ (c p : Line w) (y : Nat) (proc : Proc), 1 ≤ y →
    areaLoop c p y 1 xs rows proc = areaLoop c p y 0 xs rows proc := by
  induction rows with
  | nil => intros; rfl
  | cons s rows ih =>
    intro c p y proc hy
    rw [areaLoop, areaLoop, areaLine_skip _ _ hy]
    exact ih _ _ _ _ (by omega)

/-- The area sampled for the counts: the first row only serves for prediction. -/
theorem area_skip {w : Nat} (pix : Nat → Nat → BitVec w) (B : Int) (hwB : (w = 16 ∧ B = 255) ∨ (w = 32 ∧ B = 65535))
    (hpix : ∀ y x, -B ≤ (pix y x).toInt ∧ (pix y x).toInt ≤ B) (xs n : Nat) :
    (area 1 xs ((List.range (1 + n)).map fun y => (List.range xs).map (pix y))).symbols
      = (List.range' 1 n).flatMap (fun y => (List.range xs).map (residualAt (fun y x => (pix y x).toInt) y))
    ∧ (area 1 xs ((List.range (1 + n)).map fun y => (List.range xs).map (pix y))).Runs := by
  have hw : 0 < w := by omega
  have hw' : w ≤ 32 := by omega
  have h0 : 0 ≤ B := by omega
  have hB : 4 * B < 2 ^ (w - 1) := by rcases hwB with ⟨rfl, rfl⟩ | ⟨rfl, rfl⟩ <;> decide
  have hr : Proc.Runs ⟨0, []⟩ := ⟨Or.inl rfl, by simp⟩
  rw [area, Nat.add_comm, show List.range (n + 1) = 0 :: List.range' 1 n by rw [List.range_eq_range', List.range'_succ], List.map_cons, areaLoop, areaLoop_skip _ _ _ _ _ _ (by omega)]
  have e : ∀ c p : Line w, ∀ s proc, (areaLine c p 0 1 xs s proc).2.2 = proc := by
    intro c p s proc
    simp [areaLine]
  have h := areaLoop_symbols pix B hw hw' h0 hB hpix xs n
    (areaLine (Line.zero w) (Line.zero w) 0 1 xs ((List.range xs).map (pix 0)) ⟨0, []⟩).2.1
    (areaLine (Line.zero w) (Line.zero w) 0 1 xs ((List.range xs).map (pix 0)) ⟨0, []⟩).1 1 ⟨0, []⟩ hr (by
      intro _ x hx
      simp [areaLine, Line.fill, List.getD_eq_getElem?_getD, hx])
  rw [e]
  simpa [Proc.symbols] using h

/-- How many bits residuals have. -/
def Opts.resBits (o : Opts) : Nat := if o.bytes = 1 then (if o.channels ≤ 2 then 9 else 10) else if o.channels ≤ 2 then 17 else 18

theorem resBits_lt {o : Opts} {data : List UInt8} (h : o.Fits data) : o.resBits < o.numSymbols ∧ o.numSymbols ≤ 19 := by
  have := h.channels
  unfold Opts.resBits Opts.numSymbols
  split
  · split <;> split <;> omega
  · split <;> omega

theorem range_resBits {o : Opts} {data : List UInt8} (h : o.Fits data) : 2 * (o.range.2 - o.range.1) < 2 ^ o.resBits := by
  have := h.channels
  unfold Opts.resBits Opts.range
  split
  · split <;> simp
  · split
    · rw [if_pos (by omega)]; simp
    · split
      · rw [if_pos (by omega)]; simp
      · rw [if_neg (by omega)]; simp

theorem residualAt_lt {o : Opts} {data : List UInt8} (h : o.Fits data) (c x0 y0 y x : Nat) :
    residualAt (fun y x => (pixAt o data c (y0 + y) (x0 + x)).toInt) y x < 2 ^ o.resBits := by
  have h1 := residualAt_le (img := fun y x => (pixAt o data c (y0 + y) (x0 + x)).toInt) (range_zero o) (fun y x => pixAt_range h c _ _) y x
  have h2 := range_resBits h
  have h3 : ((2 ^ o.resBits : Nat) : Int) = 2 ^ o.resBits := by push_cast; rfl
  omega

/-- The bound of C71. -/
theorem pixAt_bound {o : Opts} {data : List UInt8} (h : o.Fits data) : ∃ B : Int,
    (o.bytes = 1 ∧ 16 * o.bytes = 16 ∧ B = 255 ∨ o.bytes = 2 ∧ 16 * o.bytes = 32 ∧ B = 65535) ∧
      ∀ c y x, -B ≤ (pixAt o data c y x).toInt ∧ (pixAt o data c y x).toInt ≤ B := by
  have hr := pixAt_range h
  rcases h.bytes with hb | hb
  · refine ⟨255, Or.inl ⟨hb, by rw [hb], rfl⟩, fun c y x => ?_⟩
    have := hr c y x
    have h2 : -255 ≤ o.range.1 ∧ o.range.2 ≤ 255 := by
      rw [Opts.range, if_pos hb]; split <;> simp
    omega
  · refine ⟨65535, Or.inr ⟨hb, by rw [hb], rfl⟩, fun c y x => ?_⟩
    have := hr c y x
    have h2 : -65535 ≤ o.range.1 ∧ o.range.2 ≤ 65535 := by
      rw [Opts.range, if_neg (by omega)]
      split
      · simp
      · split <;> simp
    omega

/-! ### Counts -/

/-- Counts of the right shape: `k` residual tokens may occur. -/
structure Shape (k : Nat) (n : List Nat × List Nat) : Prop where
  raw : n.1.length = 19
  lz : n.2.length = 33
  rawZero : ∀ t, k ≤ t → n.1.getD t 0 = 0
  lzZero : ∀ t, 28 ≤ t → n.2.getD t 0 = 0

theorem bump_ok {l : List Nat} {i : Nat} (h : i < l.length) :
    ∃ l', bump l i = some l' ∧ l'.length = l.length ∧ ∀ t, t ≠ i → l'.getD t 0 = l.getD t 0 := by
  refine ⟨_, if_pos h, by simp, fun t ht => ?_⟩
  simp only [List.getD_eq_getElem?_getD]
  rw [List.getElem?_set_ne (by omega)]

theorem countCall_ok {k : Nat} (hk : 1 ≤ k ∧ k ≤ 19) {n : List Nat × List Nat} (hn : Shape k n) {q : Call}
    (hv : ∀ v ∈ q.residuals, (hybrid000 v).1 < k) (hr : q.run = 0 ∨ 8 ≤ q.run ∧ q.run - 8 < 2 ^ 16) :
    ∃ n', countCall n q = some n' ∧ Shape k n' := by
  have h1 : ∃ m, countRun n q.run = some m ∧ Shape k m := by
    rcases hr with h0 | ⟨h8, h16⟩
    · exact ⟨n, by rw [countRun, if_pos h0], hn⟩
    · obtain ⟨raw, e1, e2, e3⟩ := bump_ok (l := n.1) (i := 0) (by rw [hn.raw]; omega)
      obtain ⟨-, -, -, h4⟩ := c52_run (q.run - 8) (by omega)
      have ht := h4 16 (by omega) h16
      obtain ⟨lz, f1, f2, f3⟩ := bump_ok (l := n.2) (i := (hybridLz77 (q.run - 8)).1) (by rw [hn.lz]; omega)
      refine ⟨(raw, lz), ?_, ?_⟩
      · rw [countRun, if_neg (by omega), e1]
        have hlt : ¬ q.run < lz77MinLength + 1 := by simp only [lz77MinLength]; omega
        simp only [Option.bind_eq_bind, Option.bind_some, hlt, if_false]
        rw [show q.run - (lz77MinLength + 1) = q.run - 8 from rfl, f1]
        rfl
      · exact ⟨by simp [e2, hn.raw], by simp [f2, hn.lz], fun t ht' => by rw [e3 t (by omega)]; exact hn.rawZero t ht',
          fun t ht' => by rw [f3 t (by omega)]; exact hn.lzZero t ht'⟩
  obtain ⟨m, hm, hs⟩ := h1
  have h2 : ∀ (l : List Nat), (∀ v ∈ l, (hybrid000 v).1 < k) → ∀ raw : List Nat, raw.length = 19 → (∀ t, k ≤ t → raw.getD t 0 = 0) →
      ∃ raw', l.foldlM (fun raw r => bump raw (hybrid000 r).1) raw = some raw' ∧ raw'.length = 19 ∧ ∀ t, k ≤ t → raw'.getD t 0 = 0 := by
    intro l
    induction l with
    | nil => intro _ raw h1 h2; exact ⟨raw, rfl, h1, h2⟩
    | cons v l ih =>
      intro hl raw h1 h2
      have hv := hl v (by simp)
      obtain ⟨raw', e1, e2, e3⟩ := bump_ok (l := raw) (i := (hybrid000 v).1) (by omega)
      obtain ⟨r, f1, f2⟩ := ih (fun v hv => hl v (by simp [hv])) raw' (by omega) (fun t ht => by rw [e3 t (by omega)]; exact h2 t ht)
      exact ⟨r, by rw [List.foldlM_cons, e1]; exact f1, f2⟩
  obtain ⟨raw', e1, e2, e3⟩ := h2 q.residuals hv m.1 hs.raw hs.rawZero
  refine ⟨(raw', m.2), ?_, ⟨e2, hs.lz, e3, hs.lzZero⟩⟩
  rw [countCall, hm]
  show (q.residuals.foldlM (fun raw r => bump raw (hybrid000 r).1) m.1 >>= fun raw => pure (raw, m.2)) = _
  rw [e1]
  rfl

theorem foldlM_ok {α β} {P : β → Prop} {f : β → α → Option β} {l : List α} (h : ∀ a ∈ l, ∀ b, P b → ∃ b', f b a = some b' ∧ P b') :
    ∀ b, P b → ∃ b', l.foldlM f b = some b' ∧ P b' := by
  induction l with
  | nil => intro b hb; exact ⟨b, rfl, hb⟩
  | cons a l ih =>
    intro b hb
    obtain ⟨b1, e1, h1⟩ := h a (by simp) b hb
    obtain ⟨b2, e2, h2⟩ := ih (fun a ha => h a (by simp [ha])) b1 h1
    exact ⟨b2, by rw [List.foldlM_cons, e1]; exact e2, h2⟩

/-- The sampled area lies in the picture. -/
theorem sampleArea_spec {o : Opts} {data : List UInt8} (h : o.Fits data) {g : Nat} (hg : g < o.groupsY * o.groupsX) :
    (o.sampleArea g).1 + (o.sampleArea g).2.2.1 ≤ o.width ∧ (o.sampleArea g).2.1 + (1 + (o.sampleArea g).2.2.2) ≤ o.height ∧
      (o.sampleArea g).2.2.1 ≤ 256 ∧ (o.sampleArea g).2.2.2 ≤ 255 := by
  have hw := h.width
  have hh := h.height
  have hX : 0 < o.groupsX := by unfold Opts.groupsX; omega
  have hxg : g % o.groupsX < o.groupsX := Nat.mod_lt _ hX
  have hyg : g / o.groupsX < o.groupsY := (Nat.div_lt_iff_lt_mul hX).2 hg
  simp only [Opts.sampleArea, chunkSize]
  generalize g % o.groupsX = xg at *
  generalize g / o.groupsX = yg at *
  unfold Opts.groupsY at hyg
  generalize min o.effort 127 = e
  generalize 2 * e * min (o.height - yg * 256) 256 / 256 = q
  unfold Opts.groupsX at hxg
  omega

theorem channelCounts_ok {o : Opts} {data : List UInt8} (h : o.Fits data) (c : Nat) :
    ∃ n, channelCounts o data c = some n ∧ Shape o.numSymbols n := by
  have hz : Shape o.numSymbols (List.replicate numRaw 0, List.replicate numLz77 0) :=
    ⟨by simp [numRaw], by simp [numLz77], fun t _ => by simp [List.getD_eq_getElem?_getD, List.getElem?_replicate]; split <;> rfl,
      fun t _ => by simp [List.getD_eq_getElem?_getD, List.getElem?_replicate]; split <;> rfl⟩
  rw [channelCounts]
  split
  · apply foldlM_ok _ _ hz
    intro g hg n hn
    rw [List.mem_range] at hg
    obtain ⟨s1, s2, s3, s4⟩ := sampleArea_spec h hg
    obtain ⟨B, hB, hpix⟩ := pixAt_bound h
    have hres := resBits_lt h
    rw [collectSamples]
    simp only [sampleRows_eq h c _ _ _ _ s1 s2]
    obtain ⟨a1, a2⟩ := area_skip (fun y x => pixAt o data c ((o.sampleArea g).2.1 + y) ((o.sampleArea g).1 + x)) B (by omega) (fun y x => hpix c _ _)
      (o.sampleArea g).2.2.1 (o.sampleArea g).2.2.2
    show ∃ n', (area 1 (o.sampleArea g).2.2.1 _).calls.foldlM countCall n = some n' ∧ _
    generalize hp : area 1 (o.sampleArea g).2.2.1 ((List.range (1 + (o.sampleArea g).2.2.2)).map fun y =>
      (List.range (o.sampleArea g).2.2.1).map fun x => pixAt o data c ((o.sampleArea g).2.1 + y) ((o.sampleArea g).1 + x)) = p at a1 a2 ⊢
    apply foldlM_ok _ _ hn
    intro q hq m hm
    have hmem : ∀ v ∈ q.residuals, v ∈ p.symbols := by
      intro v hv
      rw [Proc.symbols]
      exact List.mem_append_left _ (List.mem_flatMap.2 ⟨q, hq, List.mem_append_right _ hv⟩)
    have hlen : p.symbols.length = (o.sampleArea g).2.2.2 * (o.sampleArea g).2.2.1 := by rw [a1]; simp [List.length_flatMap]
    have hl2 : p.symbols.length ≤ 255 * 256 := by rw [hlen]; exact Nat.mul_le_mul s4 s3
    apply countCall_ok (by omega) hm
    · intro v hv
      have := hmem v hv
      rw [a1, List.mem_flatMap] at this
      obtain ⟨y, -, hy⟩ := this
      obtain ⟨x, -, rfl⟩ := List.mem_map.1 hy
      have h1 := residualAt_lt h c (o.sampleArea g).1 (o.sampleArea g).2.1 y x
      have h3 : 2 ^ o.resBits ≤ 2 ^ 18 := Nat.pow_le_pow_right (by omega) (by omega)
      obtain ⟨-, -, -, h4⟩ := c52_residual _ (Nat.lt_of_lt_of_le h1 (Nat.le_trans h3 (by decide)))
      have := h4 _ h1
      omega
    · have h1 := length_runs p q.run (List.mem_cons_of_mem _ (List.mem_map_of_mem hq))
      rcases a2.2 q hq with h0 | h8
      · exact Or.inl h0
      · right; omega
  · exact ⟨_, rfl, hz⟩

/-- What is known about the code of a channel. -/
def ChannelCode (o : Opts) (code : PrefixCode) : Prop :=
  ∃ raw lz : List Nat, raw.length = 19 ∧ lz.length = 33 ∧ (∀ t < 19, raw.getD t 0 ≠ 0 ↔ t < o.numSymbols) ∧ (∀ t < 33, lz.getD t 0 ≠ 0 ↔ t < 28) ∧
    PrefixCode.new o.bytes raw lz = some code

theorem numSymbols_cases {o : Opts} {data : List UInt8} (h : o.Fits data) :
    o.bytes = 1 ∧ (o.numSymbols = 10 ∨ o.numSymbols = 11) ∨ o.bytes = 2 ∧ o.numSymbols = 19 := by
  rw [Opts.numSymbols]
  rcases h.bytes with hb | hb
  · rw [if_pos hb]; split <;> omega
  · rw [if_neg (by omega)]; omega

theorem scaled_getD {a b : List Nat} (h : a.length = b.length) (t : Nat) : (scaled a b).getD t 0 = a.getD t 0 * 256 + b.getD t 0 := by
  simp only [scaled, List.getD_eq_getElem?_getD]
  by_cases ht : t < a.length
  · rw [List.getElem?_zipWith, List.getElem?_eq_getElem ht, List.getElem?_eq_getElem (by omega)]
    simp [Nat.shiftLeft_eq]
  · rw [List.getElem?_eq_none (by simp; omega), List.getElem?_eq_none (by omega), List.getElem?_eq_none (by omega)]
    rfl

theorem channelCode_ok {o : Opts} {data : List UInt8} (h : o.Fits data) (c : Nat) : ∃ code, channelCode o data c = some code ∧ ChannelCode o code := by
  obtain ⟨n, e, hs⟩ := channelCounts_ok h c
  have hk := numSymbols_cases h
  have hbl : o.baseRaw.length = 19 := by
    have : o.numSymbols = 10 ∨ o.numSymbols = 11 ∨ o.numSymbols = 19 := by omega
    rcases this with h | h | h <;> rw [Opts.baseRaw, h] <;> rfl
  have hb : ∀ t < 19, o.baseRaw.getD t 0 ≠ 0 ↔ t < o.numSymbols := by
    have : o.numSymbols = 10 ∨ o.numSymbols = 11 ∨ o.numSymbols = 19 := by omega
    rcases this with h | h | h <;> rw [Opts.baseRaw, h] <;> decide
  have hz : ∀ t < 33, baseLz77.getD t 0 ≠ 0 ↔ t < 28 := by decide
  have hr : ∀ t < 19, (scaled n.1 o.baseRaw).getD t 0 ≠ 0 ↔ t < o.numSymbols := by
    intro t ht
    rw [scaled_getD (by rw [hs.raw, hbl])]
    have h1 := hb t ht
    have h2 := hs.rawZero t
    omega
  have hl : ∀ t < 33, (scaled n.2 baseLz77).getD t 0 ≠ 0 ↔ t < 28 := by
    intro t ht
    rw [scaled_getD (by rw [hs.lz]; rfl)]
    have h1 := hz t ht
    have h2 := hs.lzZero t
    omega
  have l1 : (scaled n.1 o.baseRaw).length = 19 := by simp [scaled, hs.raw, hbl]
  have l2 : (scaled n.2 baseLz77).length = 33 := by simp [scaled, hs.lz, baseLz77]
  obtain ⟨code, hc, -⟩ := c72_code o.bytes o.numSymbols _ _ hk l1 l2 hr hl
  refine ⟨code, ?_, _, _, l1, l2, hr, hl, hc⟩
  rw [channelCode, e]
  exact hc

theorem codes_ok {o : Opts} {data : List UInt8} (h : o.Fits data) :
    ∃ cs, codes o data = some cs ∧ cs.length = 4 ∧ ∀ code ∈ cs, ChannelCode o code := by
  obtain ⟨cs, hcs⟩ := mapM_ok (f := channelCode o data) (l := List.range 4) fun c _ => (channelCode_ok h c).imp fun _ => And.left
  obtain ⟨h1, h2⟩ := mapM_eq_some hcs
  refine ⟨cs, hcs, by simpa using h1, fun code hm => ?_⟩
  obtain ⟨i, hi, rfl⟩ := List.mem_iff_getElem.1 hm
  obtain ⟨b, e1, e2⟩ := h2 i i (by rw [List.getElem?_range (by simpa [h1] using hi)])
  obtain ⟨code', e3, h3⟩ := channelCode_ok h i
  rw [List.getElem?_eq_getElem hi] at e1
  cases e1
  rw [e2] at e3
  cases e3
  exact h3

end Zune.Jxl
