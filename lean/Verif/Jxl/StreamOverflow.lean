/-
Property C75 where it fails: 16-bit pictures for which the encoder reserves too little.
-/
import Verif.Jxl.StreamProps

namespace Zune.Jxl

/-! ### Writers that overflow -/

theorem acSection_parts {o : Opts} {data : List UInt8} {cs : List PrefixCode} {ws r : List BitWriter} {g : Nat} (h : acSection o data cs ws g = some r) :
    ∀ c < o.channels, ∀ b, ws[c]? = some b → ∃ b', acChannel o data cs g c b = some b' := by
  intro c hc b hb
  rw [acSection_eq] at h
  cases hm : (List.range o.channels).mapM (fun c => (ws[c]?).bind (acChannel o data cs g c)) with
  | none => rw [hm] at h; cases h
  | some used =>
    obtain ⟨-, h2⟩ := mapM_eq_some hm
    obtain ⟨b', -, h3⟩ := h2 c c (List.getElem?_range hc)
    rw [hb] at h3
    exact ⟨b', h3⟩

theorem groupData_parts {o : Opts} {data : List UInt8} {cs : List PrefixCode} {groups : List (List BitWriter)} (h : groupData o data cs = some groups)
    (hc4 : o.channels ≤ 4) :
    (o.oneGroup = true → 0 < o.channels → ∃ b b', dcGlobal o cs = some b ∧ acChannel o data cs 0 0 b = some b') ∧
    ∀ g < o.groupsX * o.groupsY, ∀ c < o.channels, c ≠ 0 → ∃ b', acChannel o data cs g c BitWriter.new = some b' := by
  rw [groupData] at h
  cases hd : dcGlobal o cs with
  | none => rw [hd] at h; cases h
  | some b =>
    rw [hd] at h
    cases h1 : o.oneGroup with
    | true =>
      simp only [h1, if_true] at h
      replace h : (acSection o data cs (b :: freshWriters.tail) 0).bind (fun r => some [r]) = some groups := h
      cases hr : acSection o data cs (b :: freshWriters.tail) 0 with
      | none => rw [hr] at h; cases h
      | some r =>
        have hp := acSection_parts hr
        refine ⟨fun _ h0 => ?_, fun g hg c hc h0 => ?_⟩
        · obtain ⟨b', hb'⟩ := hp 0 h0 b rfl
          exact ⟨b, b', rfl, hb'⟩
        · have hg0 : g = 0 := by
            have : o.groupsX = 1 ∧ o.groupsY = 1 := by simpa [Opts.oneGroup] using h1
            rw [this.1, this.2] at hg
            omega
          subst hg0
          refine hp c hc _ ?_
          have : c = 1 ∨ c = 2 ∨ c = 3 := by omega
          rcases this with rfl | rfl | rfl <;> rfl
    | false =>
      simp only [h1, Bool.false_eq_true, if_false] at h
      replace h : ((List.range (o.groupsX * o.groupsY)).mapM (acSection o data cs freshWriters)).bind (fun gs =>
        some ((b :: freshWriters.tail) :: List.replicate (1 + o.dcGroups) freshWriters ++ gs)) = some groups := h
      cases hr : (List.range (o.groupsX * o.groupsY)).mapM (acSection o data cs freshWriters) with
      | none => rw [hr] at h; cases h
      | some gs =>
        refine ⟨(by intro h; cases h), fun g hg c hc h0 => ?_⟩
        obtain ⟨-, h2⟩ := mapM_eq_some hr
        obtain ⟨r, -, h3⟩ := h2 g g (List.getElem?_range hg)
        refine acSection_parts h3 c hc _ ?_
        have : c = 1 ∨ c = 2 ∨ c = 3 := by omega
        rcases this with rfl | rfl | rfl <;> rfl

/-- Nothing is written if the first channel of the only group does not fit. -/
theorem first_overflow {o : Opts} {data : List UInt8} (h : o.Fits data) (h1 : o.oneGroup = true)
    (hs : ∀ cs, codes o data = some cs → (100000 + o.width * o.height * 16) + 576 ≤ (chanBits o data cs 0 0).length) : encodeBody o data = none := by
  obtain ⟨cs, c1, c2, c3⟩ := codes_ok h
  have hs := hs cs c1
  rw [encodeBody_eq, c1, Option.bind_some]
  cases hg : groupData o data cs with
  | none => rfl
  | some groups =>
    exfalso
    have hch := h.channels
    obtain ⟨b, b', e1, e2⟩ := (groupData_parts hg hch.2).1 h1 hch.1
    obtain ⟨b2, e3, e4, e5, -⟩ := dcGlobal_ok h c2 c3
    rw [e1] at e3
    cases e3
    simp only [h1, if_true] at e4 e5
    obtain ⟨e6, e7⟩ := (acChannel_first h c2 (fun code hc => ChannelCode.spec h (c3 code hc)) (groups_pos h) h1 e4).1 b' e2
    have l1 := e6.length
    have l2 := e6.left
    have l3 := e6.pos
    rw [e7, e5] at l3
    rw [List.length_append] at l1
    omega

/-- Nothing is written if a later channel does not fit. -/
theorem own_overflow {o : Opts} {data : List UInt8} (h : o.Fits data) {g c : Nat} (hg : g < o.groupsX * o.groupsY) (hc : c < o.channels) (h0 : c ≠ 0)
    (hs : ∀ cs, codes o data = some cs → (o.groupArea g).2.2.1 * (o.groupArea g).2.2.2 * o.maxBits + 580 ≤ (chanBits o data cs g c).length) : encodeBody o data = none := by
  obtain ⟨cs, c1, c2, c3⟩ := codes_ok h
  have hs := hs cs c1
  rw [encodeBody_eq, c1, Option.bind_some]
  cases hgr : groupData o data cs with
  | none => rfl
  | some groups =>
    exfalso
    have hch := h.channels
    obtain ⟨b', e2⟩ := (groupData_parts hgr hch.2).2 g hg c hc h0
    obtain ⟨e6, e7⟩ := (acChannel_fresh h c2 (fun code hc => ChannelCode.spec h (c3 code hc)) hg hc (by simp [h0])).1 b' e2
    have l1 := e6.length
    have l2 := e6.left
    have l3 := e6.pos
    rw [e7] at l3
    rw [own_other (Or.inr h0)] at l1
    generalize (o.groupArea g).2.2.1 * (o.groupArea g).2.2.2 * o.maxBits = m at *
    omega

/-! ### Bits of large residuals -/

/-- Extra bits and eight. -/
def bigCost (v : Nat) : Nat := 8 + v.log2

theorem residualBits_big {o : Opts} {data : List UInt8} (h : o.Fits data) (hb : o.bytes = 2) {c : PrefixCode} (hc : ChannelCode o c) {v : Nat} (h1 : 2 ^ 16 ≤ v) (h2 : v < 2 ^ 18) :
    (residualBits c v).1 = bigCost v := by
  obtain ⟨raw, lz, hr, hl, hraw, hlz, hn⟩ := hc
  obtain ⟨c', hc', -, -, -, -, -, -, -, h8⟩ := c72_code o.bytes o.numSymbols raw lz (numSymbols_cases h) hr hl hraw hlz
  rw [hn] at hc'
  cases hc'
  have h0 : v ≠ 0 := by omega
  have e : hybrid000 v = (v.log2 + 1, v.log2, v - 2 ^ v.log2) := by
    simp only [hybrid000, msb_eq h0 (by omega : v < 2 ^ 32), if_pos h0, ne_eq, Nat.one_shiftLeft]
  have hlog : v.log2 = 16 ∨ v.log2 = 17 := by
    have a1 : 16 ≤ v.log2 := (Nat.le_log2 h0).2 h1
    have a2 : v.log2 < 18 := (Nat.log2_lt h0).2 h2
    omega
  rw [residualBits, e]
  simp only
  rw [h8 hb _ (by omega) (by omega), bigCost]
  rcases hlog with e | e <;> rw [e] <;> rfl

theorem chanBits_big {o : Opts} {data : List UInt8} (h : o.Fits data) (hb : o.bytes = 2) {cs : List PrefixCode} (hl : cs.length = 4) (hcs : ∀ code ∈ cs, ChannelCode o code)
    {g c : Nat} (hc : c < o.channels) (hv : ∀ v ∈ (o.proc data g c).symbols, 2 ^ 16 ≤ v ∧ v < 2 ^ 18) :
    (chanBits o data cs g c).length = ((o.proc data g c).symbols.map bigCost).sum := by
  have hch := h.channels
  have hc4 : c < cs.length := by omega
  rw [chanBits, List.getElem?_eq_getElem hc4]
  have hcode := hcs _ (List.getElem_mem hc4)
  show (fields (channelBits cs[c] (o.proc data g c))).length = _
  generalize cs[c] = code at hcode
  have hr := run_infix (o.proc data g c)
  generalize o.proc data g c = p at *
  have hr0 : ∀ r ∈ p.run :: p.calls.map Call.run, r = 0 := by
    intro r hrm
    by_contra hne
    have : 0 ∈ p.symbols := (hr r hrm).subset (by simp [hne])
    have := hv 0 this
    omega
  have hrun := hr0 p.run (by simp)
  have hcall : ∀ k ∈ p.calls, k.run = 0 ∧ ∀ v ∈ k.residuals, 2 ^ 16 ≤ v ∧ v < 2 ^ 18 := by
    intro k hk
    refine ⟨hr0 _ (by simp; exact Or.inr ⟨k, hk, rfl⟩), fun v hv' => hv v ?_⟩
    rw [Proc.symbols, List.mem_append, List.mem_flatMap]
    exact Or.inl ⟨k, hk, by simp [Call.expand, hv']⟩
  rw [channelBits, Proc.symbols, hrun]
  simp only [runBits, if_true, List.append_nil, List.replicate_zero]
  generalize p.calls = l at hcall
  have hres : ∀ l : List Nat, (∀ v ∈ l, 2 ^ 16 ≤ v ∧ v < 2 ^ 18) → (fields (l.map (residualBits code))).length = (l.map bigCost).sum := by
    intro l hl
    induction l with
    | nil => rfl
    | cons v l ih =>
      rw [List.map_cons, fields, List.length_append, ih fun v hv => hl v (by simp [hv]), List.map_cons, List.sum_cons, lsb_length,
        residualBits_big h hb hcode (hl v (by simp)).1 (hl v (by simp)).2]
  clear hr hr0 hrun
  induction l with
  | nil => rfl
  | cons k l ih =>
    have h1 := hcall k (by simp)
    rw [List.flatMap_cons, fields_append, List.length_append, ih fun k hk => hcall k (by simp [hk]), List.flatMap_cons, List.map_append, List.sum_append, callBits, h1.1,
      Call.expand, h1.1]
    simp only [runBits, if_true, List.nil_append, List.replicate_zero]
    rw [hres _ h1.2]

/-! ### Checkerboards -/

/-- The bytes of a checkerboard with pixels `a` (in the upper left corner) and `b`. -/
def board (w h : Nat) (a b : List UInt8) : List UInt8 := (List.range (h * w)).flatMap fun i => if (i / w + i % w) % 2 = 0 then a else b

theorem flatMap_piece {α β} (f : α → List β) (k : Nat) : ∀ (l : List α), (∀ a ∈ l, (f a).length = k) →
    (l.flatMap f).length = l.length * k ∧ ∀ (i : Nat) a, l[i]? = some a → ((l.flatMap f).drop (i * k)).take k = f a := by
  intro l
  induction l with
  | nil => simp
  | cons x l ih =>
    intro hl
    obtain ⟨h1, h2⟩ := ih fun a ha => hl a (by simp [ha])
    have hx := hl x (by simp)
    refine ⟨by rw [List.flatMap_cons, List.length_append, h1, hx, List.length_cons]; ring, fun i a hi => ?_⟩
    rw [List.flatMap_cons]
    cases i with
    | zero =>
      simp at hi
      subst hi
      simp [← hx]
    | succ i =>
      rw [show (i + 1) * k = (f x).length + i * k by rw [hx]; ring, ← List.drop_drop, List.drop_left]
      exact h2 i a (by simpa using hi)

theorem board_length (w h : Nat) {a b : List UInt8} (hab : a.length = b.length) : (board w h a b).length = h * w * a.length := by
  rw [board, (flatMap_piece _ a.length _ fun i _ => by split <;> simp [hab]).1, List.length_range]

theorem board_pixel {o : Opts} {a b : List UInt8} (ha : a.length = o.bytes * o.channels) (hab : a.length = b.length) {y x : Nat} (hy : y < o.height) (hx : x < o.width) :
    pixelBytes o (board o.width o.height a b) y x = if (y + x) % 2 = 0 then a else b := by
  have h1 : y * o.width + x < o.height * o.width := by
    calc y * o.width + x < y * o.width + o.width := by omega
      _ = (y + 1) * o.width := by ring
      _ ≤ _ := Nat.mul_le_mul_right _ hy
  have := (flatMap_piece (fun i => if (i / o.width + i % o.width) % 2 = 0 then a else b) a.length (List.range (o.height * o.width)) fun i _ => by split <;> simp [hab]).2
    (y * o.width + x) _ (List.getElem?_range h1)
  rw [pixelBytes, ← ha, board, this, Nat.mul_comm y, Nat.mul_add_div (by omega), Nat.div_eq_of_lt hx, Nat.mul_add_mod, Nat.mod_eq_of_lt hx, Nat.add_zero]

theorem pixAt_bytes (o : Opts) (data : List UInt8) (c : Nat) {y x : Nat} (hy : y < o.height) (hx : x < o.width) :
    pixAt o data c y x = ((if o.bytes = 1 then pixel8 (16 * o.bytes) else pixel16 (16 * o.bytes)) (pixelBytes o data y x)).getD c 0 := by
  rw [pixAt, if_neg (not_not.2 ⟨hy, hx⟩), pixelBytes, Opts.stride]
  rw [show o.bytes * o.width * o.channels * y + x * (o.bytes * o.channels) = (y * o.width + x) * (o.bytes * o.channels) by ring]

theorem gradient_same (a t : Int) : gradient a a t = a := by
  rw [gradient]
  omega

/-- The symbols of the first group, if the samples of the channel alternate. -/
theorem board_symbols {o : Opts} {data : List UInt8} (h : o.Fits data) {c : Nat} {p q : Int}
    (hV : ∀ y < o.height, ∀ x < o.width, (pixAt o data c y x).toInt = if (y + x) % 2 = 0 then p else q) :
    (o.proc data 0 c).symbols.length = min o.height 256 * min o.width 256 ∧
    ∀ (i : Nat) u, (o.proc data 0 c).symbols[i]? = some u → (i = 0 → unpackSigned u = p) ∧ (i ≠ 0 → unpackSigned u = p - q ∨ unpackSigned u = q - p) := by
  obtain ⟨B, hB, hpix⟩ := pixAt_bound h
  have hd : Decodes (min (o.width - 0 % o.groupsX * 256) 256) (min (o.height - 0 / o.groupsX * 256) 256) (o.proc data 0 c).symbols
      fun y x => (pixAt o data c (0 / o.groupsX * 256 + y) (0 % o.groupsX * 256 + x)).toInt :=
    (c71_prediction (fun y x => pixAt o data c ((o.groupArea 0).2.1 + y) ((o.groupArea 0).1 + x)) B (by omega) (fun y x => hpix c _ _) (o.groupArea 0).2.2.1
      (o.groupArea 0).2.2.2).1
  simp only [Nat.zero_mod, Nat.zero_div, Nat.zero_mul, Nat.sub_zero, Nat.zero_add] at hd
  obtain ⟨h1, h2⟩ := hd
  refine ⟨h1, fun i u hi => ?_⟩
  have hw := h.width
  have hh := h.height
  have hxs : 0 < min o.width 256 := by omega
  have hiL : i < min o.height 256 * min o.width 256 := by
    rw [← h1]
    exact (List.getElem?_eq_some_iff.1 hi).1
  have hx := Nat.mod_lt i hxs
  have hy : i / min o.width 256 < min o.height 256 := (Nat.div_lt_iff_lt_mul hxs).2 hiL
  obtain ⟨u', hu', he⟩ := h2 _ hy _ hx
  have hdm : i / min o.width 256 * min o.width 256 + i % min o.width 256 = i := by rw [Nat.mul_comm]; exact Nat.div_add_mod i _
  rw [hdm, hi] at hu'
  cases hu'
  change (pixAt o data c (i / min o.width 256) (i % min o.width 256)).toInt = _ at he
  generalize hyy : i / min o.width 256 = y at *
  generalize hxx : i % min o.width 256 = x at *
  have hV' : ∀ y' x', y' ≤ y → x' ≤ x → (pixAt o data c y' x').toInt = if (y' + x') % 2 = 0 then p else q := fun y' x' a b => hV y' (by omega) x' (by omega)
  constructor
  · intro hi0
    subst hi0
    have ex : x = 0 := by rw [← hxx]; simp
    have ey : y = 0 := by rw [← hyy]; simp
    subst ex ey
    rw [hV' 0 0 (by omega) (by omega)] at he
    simp [leftOf, topOf, topLeftOf, gradient] at he
    exact he.symm
  · intro hi0
    have hne : ¬(x = 0 ∧ y = 0) := by
      rintro ⟨rfl, rfl⟩
      omega
    have hl : leftOf (fun y x => (pixAt o data c y x).toInt) y x = if (y + x) % 2 = 0 then q else p := by
      rw [leftOf]
      split
      · rw [hV' y (x - 1) (by omega) (by omega)]
        split <;> split <;> first | rfl | omega
      · rw [if_pos (by omega), hV' (y - 1) x (by omega) (by omega)]
        split <;> split <;> first | rfl | omega
    have ht : topOf (fun y x => (pixAt o data c y x).toInt) y x = if (y + x) % 2 = 0 then q else p := by
      rw [topOf]
      split
      · rw [hV' (y - 1) x (by omega) (by omega)]
        split <;> split <;> first | rfl | omega
      · exact hl
    rw [hl, ht, gradient_same, hV' y x (by omega) (by omega)] at he
    split at he <;> omega

theorem unpack_abs {u : Nat} {m : Nat} (h : unpackSigned u = m ∨ unpackSigned u = -(m : Int)) : 2 * m - 1 ≤ u ∧ u ≤ 2 * m := by
  rw [unpackSigned] at h
  split at h <;> omega

theorem bigCost_ge {k v : Nat} (h : 2 ^ k ≤ v) : 8 + k ≤ bigCost v := by
  have := (Nat.le_log2 (show v ≠ 0 by have := Nat.two_pow_pos k; omega)).2 h
  rw [bigCost]
  omega

theorem sum_ge {l : List Nat} {n : Nat} (h : ∀ v ∈ l, n ≤ v) : l.length * n ≤ l.sum := by
  induction l with
  | nil => simp
  | cons a l ih =>
    have := ih fun v hv => h v (by simp [hv])
    have := h a (by simp)
    rw [List.length_cons, List.sum_cons, Nat.succ_mul]
    omega

/-- **C75** is false of 16-bit grey pictures of one group: the writer of the first section has 16 bits for each sample (and 100000 more), but a sample can take
    24.  The encoder panics on every checkerboard of black and white with at least 12572 pixels in one group (say, 113 times 113). -/
theorem c75_checkerboard_panics (w h e : Nat) (hw : 1 < w ∧ w ≤ 256) (hh : 1 < h ∧ h ≤ 256) (hs : 12572 ≤ w * h) :
    encode ⟨w, h, 2, 1, e⟩ (board w h [255, 255] [0, 0]) = .error .panic := by
  have hlen := board_length w h (a := [255, 255]) (b := [0, 0]) rfl
  have hexp : (Opts.mk w h 2 1 e).expected = h * w * 2 := by
    rw [Opts.expected]
    ring
  have hf : (Opts.mk w h 2 1 e).Fits (board w h [255, 255] [0, 0]) := ⟨Or.inr rfl, ⟨Nat.le_refl 1, by simp only; omega⟩, hw.1, hh.1, by rw [hlen, hexp]; rfl⟩
  have h1g : (Opts.mk w h 2 1 e).oneGroup = true := by
    simp only [Opts.oneGroup, Bool.and_eq_true, beq_iff_eq, Opts.groupsX, Opts.groupsY]
    omega
  have hV : ∀ y < h, ∀ x < w, (pixAt ⟨w, h, 2, 1, e⟩ (board w h [255, 255] [0, 0]) 0 y x).toInt = if (y + x) % 2 = 0 then 65535 else 0 := by
    intro y hy x hx
    have h1 := board_pixel (o := ⟨w, h, 2, 1, e⟩) (a := [255, 255]) (b := [0, 0]) rfl rfl hy hx
    rw [pixAt_bytes _ _ _ hy hx]
    simp only at h1 ⊢
    rw [h1]
    by_cases hp : (y + x) % 2 = 0 <;> simp only [hp, if_true, if_false] <;> rfl
  obtain ⟨s1, s2⟩ := board_symbols (c := 0) hf hV
  have hbody : encodeBody ⟨w, h, 2, 1, e⟩ (board w h [255, 255] [0, 0]) = none := by
    apply first_overflow hf h1g
    intro cs hcs
    obtain ⟨cs', c1, c2, c3⟩ := codes_ok hf
    rw [hcs] at c1
    cases c1
    have hv : ∀ v ∈ ((Opts.mk w h 2 1 e).proc (board w h [255, 255] [0, 0]) 0 0).symbols, 2 ^ 16 ≤ v ∧ v < 2 ^ 18 := by
      intro v hv
      obtain ⟨i, hi⟩ := List.getElem?_of_mem hv
      obtain ⟨a1, a2⟩ := s2 i v hi
      have : unpackSigned v = (65535 : Nat) ∨ unpackSigned v = -((65535 : Nat) : Int) := by
        by_cases hi0 : i = 0
        · exact Or.inl (a1 hi0)
        · exact a2 hi0
      have := unpack_abs this
      omega
    rw [chanBits_big hf rfl c2 c3 (by simp only; omega) hv]
    have := sum_ge (l := ((Opts.mk w h 2 1 e).proc (board w h [255, 255] [0, 0]) 0 0).symbols.map bigCost) (n := 24) fun v hv' => by
      obtain ⟨u, hu, rfl⟩ := List.mem_map.1 hv'
      exact bigCost_ge (k := 16) (hv u hu).1
    rw [List.length_map, s1, min_eq_left hw.2, min_eq_left hh.2, Nat.mul_comm h w] at this
    simp only
    omega
  have hle : h * w ≤ 256 * 256 := Nat.mul_le_mul hh.2 hw.2
  rw [encode, if_neg (by simp only; omega), if_neg (by simp only; omega), if_neg (by rw [hexp]; omega), if_neg (by rw [hexp, hlen]; simp), hbody]

/-- A picture of 200 times 100 pixels. -/
example : encode ⟨200, 100, 2, 1, 4⟩ (board 200 100 [255, 255] [0, 0]) = .error .panic := c75_checkerboard_panics 200 100 4 (by decide) (by decide) (by decide)

/-- **C75** is false of 16-bit colour pictures: a writer has 24 bits for each sample (and 516 more), but a sample can take 25, as the difference of two colours has 17
    bits and that of two such differences 18.  The encoder panics on every checkerboard of red and blue, with alpha or without, with at least 600 pixels in its first
    group (say, 25 times 24). -/
theorem c75_red_blue_panics (w h e : Nat) (alpha : List UInt8) (ha : alpha.length = 0 ∨ alpha.length = 2) (hw : 1 < w ∧ w < 2 ^ 30) (hh : 1 < h ∧ h < 2 ^ 30)
    (hs : 600 ≤ min w 256 * min h 256) :
    encode ⟨w, h, 2, 3 + alpha.length / 2, e⟩ (board w h ([255, 255, 0, 0, 0, 0] ++ alpha) ([0, 0, 0, 0, 255, 255] ++ alpha)) = .error .panic := by
  have hal : 2 * (3 + alpha.length / 2) = 6 + alpha.length := by omega
  have hch : 3 ≤ 3 + alpha.length / 2 ∧ 3 + alpha.length / 2 ≤ 4 := by omega
  have hlen := board_length w h (a := [255, 255, 0, 0, 0, 0] ++ alpha) (b := [0, 0, 0, 0, 255, 255] ++ alpha) rfl
  have hco : ∀ b : Bool, ((pixel16 32 ((if b then [255, 255, 0, 0, 0, 0] else [0, 0, 0, 0, 255, 255]) ++ alpha)).getD 1 0).toInt = if b then 65535 else -65535 := by
    intro b
    match alpha, ha with
    | [], _ => cases b <;> rfl
    | [x, y], _ => cases b <;> rfl
  rw [List.length_append, show ([255, 255, 0, 0, 0, 0] : List UInt8).length = 6 from rfl, ← hal] at hlen
  have hpl : ([255, 255, 0, 0, 0, 0] ++ alpha).length = 2 * (3 + alpha.length / 2) := by rw [hal, List.length_append]; rfl
  generalize 3 + alpha.length / 2 = ch at *
  generalize hdata : board w h ([255, 255, 0, 0, 0, 0] ++ alpha) ([0, 0, 0, 0, 255, 255] ++ alpha) = data at *
  have hexp : (Opts.mk w h 2 ch e).expected = h * w * (2 * ch) := by
    rw [Opts.expected]
    ring
  have hf : (Opts.mk w h 2 ch e).Fits data := ⟨Or.inr rfl, by simp only; omega, hw.1, hh.1, by rw [hlen, hexp]⟩
  have hV : ∀ y < h, ∀ x < w, (pixAt ⟨w, h, 2, ch, e⟩ data 1 y x).toInt = if (y + x) % 2 = 0 then 65535 else -65535 := by
    intro y hy x hx
    have h1 := board_pixel (o := ⟨w, h, 2, ch, e⟩) (a := [255, 255, 0, 0, 0, 0] ++ alpha) (b := [0, 0, 0, 0, 255, 255] ++ alpha) hpl rfl hy hx
    simp only [hdata] at h1
    rw [pixAt_bytes _ _ _ hy hx]
    simp only
    rw [h1]
    have h2 := hco (decide ((y + x) % 2 = 0))
    by_cases hp : (y + x) % 2 = 0
    · simp only [hp, decide_true, if_true] at h2 ⊢
      exact h2
    · simp only [hp, decide_false, Bool.false_eq_true, if_false] at h2 ⊢
      exact h2
  obtain ⟨s1, s2⟩ := board_symbols (c := 1) hf hV
  have hbody : encodeBody ⟨w, h, 2, ch, e⟩ data = none := by
    apply own_overflow (g := 0) (c := 1) hf (groups_pos hf) (by simp only; omega) (by omega)
    intro cs hcs
    obtain ⟨cs', c1, c2, c3⟩ := codes_ok hf
    rw [hcs] at c1
    cases c1
    have hv : ∀ (i : Nat) v, ((Opts.mk w h 2 ch e).proc data 0 1).symbols[i]? = some v → (2 ^ 16 ≤ v ∧ v < 2 ^ 18) ∧ (i ≠ 0 → 2 ^ 17 ≤ v) := by
      intro i v hi
      obtain ⟨a1, a2⟩ := s2 i v hi
      by_cases hi0 : i = 0
      · have := unpack_abs (u := v) (m := 65535) (Or.inl (a1 hi0))
        omega
      · have := unpack_abs (u := v) (m := 131070) (a2 hi0)
        omega
    rw [chanBits_big hf rfl c2 c3 (by simp only; omega) fun v hv' => by
      obtain ⟨i, hi⟩ := List.getElem?_of_mem hv'
      exact (hv i v hi).1]
    have harea : ((Opts.mk w h 2 ch e).groupArea 0).2.2.1 * ((Opts.mk w h 2 ch e).groupArea 0).2.2.2 = min w 256 * min h 256 := by
      simp [Opts.groupArea]
    rw [harea]
    simp only [Nat.mul_comm (min h 256)] at s1
    generalize ((Opts.mk w h 2 ch e).proc data 0 1).symbols = l at *
    match l, s1 with
    | [], s1 => simp at s1; omega
    | u :: l, s1 =>
      have k1 := bigCost_ge (k := 16) (hv 0 u rfl).1.1
      have k2 := sum_ge (l := l.map bigCost) (n := 25) fun v hv' => by
        obtain ⟨u, hu, rfl⟩ := List.mem_map.1 hv'
        obtain ⟨i, hi⟩ := List.getElem?_of_mem hu
        exact bigCost_ge (k := 17) ((hv (i + 1) u hi).2 (by omega))
      rw [List.length_map] at k2
      rw [List.length_cons] at s1
      rw [List.map_cons, List.sum_cons, Opts.maxBits]
      simp only [show ¬((2 : Nat) = 1) by omega, if_false]
      omega
  have hle : h * w * (2 * ch) < 2 ^ 64 := by
    calc h * w * (2 * ch) ≤ 2 ^ 30 * 2 ^ 30 * (2 * 4) := Nat.mul_le_mul (Nat.mul_le_mul hh.2.le hw.2.le) (by omega)
      _ < 2 ^ 64 := by decide
  rw [encode, if_neg (by simp only; omega), if_neg (by simp only; omega), if_neg (by rw [hexp]; omega), if_neg (by rw [hexp, hlen]; simp), hbody]

/-- A picture of 640 times 480 pixels. -/
example : encode ⟨640, 480, 2, 3, 4⟩ (board 640 480 [255, 255, 0, 0, 0, 0] [0, 0, 0, 0, 255, 255]) = .error .panic :=
  c75_red_blue_panics 640 480 4 [] (Or.inl rfl) (by decide) (by decide) (by decide)

end Zune.Jxl
