import Verif.Jpeg.McuBlock

/-!
# zune-jpeg: MCUs, rows of MCUs and restart intervals (lemmas)
-/

namespace Zune.Jpeg

open Zune.Canon Zune.Stream

/-- The decoder is set up for the scan: of each component of the scan the sampling factors, the tables, and a buffer
of the right size. -/
structure Plan (d0 : Hdr) (shapes : List (Nat × (Nat → I32) × Bool × Nat)) (comps : Nat → ScanComp) (F : Nat → Factor)
    (X : Nat) : Prop where
  comp : ∀ k ∈ d0.zorder.take d0.ns, ∃ c, d0.comps[k]? = some c ∧ c.h = (F k).h ∧ c.v = (F k).v ∧
    d0.dc (c.td % 4) = some (comps k).dt ∧ d0.ac (c.ta % 4) = some (comps k).t ∧
    (d0.sub = false → (F k).h = 1 ∧ (F k).v = 1)
  ok : ∀ k ∈ d0.zorder.take d0.ns, (comps k).Ok
  pos : ∀ k ∈ d0.zorder.take d0.ns, 0 < (F k).h ∧ 0 < (F k).v
  shape : ∀ k ∈ d0.zorder.take d0.ns, ∃ stride needed len, shapes[k]? = some (stride, (comps k).qt, needed, len) ∧
    (needed = true → len = stride * (F k).v * 8 ∧ X * (F k).h * 8 ≤ stride)
  ne : d0.zorder.take d0.ns ≠ []

theorem TilesOk.mono {S D D' ms} (h : TilesOk S D ms) (hs : ∀ t ∈ D', t ∈ D) : TilesOk S D' ms :=
  fun k v x hm => h k v x (hs _ hm)

theorem mul_add_lt_mul {j X H h : Nat} (hj : j < X) (hh : h < H) : j * H + h < X * H := by
  have := Nat.mul_le_mul_right H (show j + 1 ≤ X by omega)
  rw [Nat.add_mul] at this
  omega

/-- The samples of the blocks of row `i` of MCUs. -/
def tilesOf (comps : Nat → ScanComp) (F : Nat → Factor) (Z : Nat → Nat → Nat → List Int) (i k v x : Nat) :
    Fin 8 → Fin 8 → Int :=
  (idctFull (dequantised (comps k).qt (Z k (i * (F k).v + v) x))).rows

section
variable {cfg : Cfg} {avx2 : Bool} (hisa : cfg.isa = chooseIdct avx2) (hall : cfg.all = true)
  {d0 : Hdr} {shapes : List (Nat × (Nat → I32) × Bool × Nat)} {comps : Nat → ScanComp} {F : Nat → Factor}
  (plan : Plan d0 shapes comps F cfg.mcuX) {Z : Nat → Nat → Nat → List Int} {i : Nat}
  (hdc : ∀ k ∈ d0.zorder.take d0.ns, ∀ v < (F k).v, ∀ x < cfg.mcuX * (F k).h,
    DcSmall (comps k).qt (Z k (i * (F k).v + v) x))

/-- The places of the blocks `D` are within the row. -/
def Within (X : Nat) (F : Nat → Factor) (D : List (Nat × Nat × Nat)) : Prop := ∀ k v x, (k, v, x) ∈ D → x < X * (F k).h

include hisa hall plan hdc

theorem comp_ok {k : Nat} (hk : k ∈ d0.zorder.take d0.ns) {c : HComp} (hch : c.h = (F k).h) (hcv : c.v = (F k).v)
    {j : Nat} (hj : j < cfg.mcuX) {V : List Bool} {e} (rest : List (Nat × List Int)) (ps : List (Nat × Nat)) :
    ∀ (ms : MState) (prev : Nat → Int) (D : List (Nat × Nat × Nat)), Steady d0 shapes ms →
      (∀ p ∈ ps, p.1 < (F k).v ∧ p.2 < (F k).h) →
      Live ms.bs (scanBits comps prev (ps.map (fun p => (k, Z k (i * (F k).v + p.1) (j * (F k).h + p.2))) ++ rest) ++ V) e →
      ScanFits comps prev (ps.map (fun p => (k, Z k (i * (F k).v + p.1) (j * (F k).h + p.2))) ++ rest) →
      PredOk prev ms → TilesOk (tilesOf comps F Z i) D ms → Within cfg.mcuX F D →
      ∃ ms' prev', ps.foldlM (oneBlock cfg i j k c (comps k).dt (comps k).t) ms = .ok ms' ∧ Steady d0 shapes ms' ∧
        ms'.d = ms.d ∧ Live ms'.bs (scanBits comps prev' rest ++ V) e ∧ ScanFits comps prev' rest ∧ PredOk prev' ms' ∧
        TilesOk (tilesOf comps F Z i) (D ++ ps.map fun p => (k, p.1, j * (F k).h + p.2)) ms' := by
  induction ps with
  | nil =>
    intro ms prev D hst _ hl hf hp hD _
    exact ⟨ms, prev, rfl, hst, rfl, hl, hf, hp, by simpa using hD⟩
  | cons p ps ih =>
    intro ms prev D hst hps hl hf hp hD hW
    obtain ⟨v, h⟩ := p
    obtain ⟨hv, hh⟩ := hps (v, h) (by simp)
    simp only at hv hh
    obtain ⟨stride, needed, len, hsh, hneed⟩ := plan.shape k hk
    rw [← hst.work, List.getElem?_map, Option.map_eq_some_iff] at hsh
    obtain ⟨w, hw, hws⟩ := hsh
    unfold shapeOf at hws
    obtain ⟨rfl, hq, rfl, rfl⟩ : w.stride = stride ∧ w.qt = (comps k).qt ∧ w.needed = needed ∧ w.raw.length = len := by
      simpa using hws
    rw [List.map_cons, List.cons_append, scanBits, List.append_assoc] at hl
    rw [List.map_cons, List.cons_append] at hf
    obtain ⟨f1, f2⟩ := hf
    have hx := mul_add_lt_mul hj hh
    obtain ⟨ms1, a1, a2, a3, a4, a5, a6⟩ := block_ok (i := i) (j := j) (c := c) (v := v) (h := h) (S := tilesOf comps F Z i)
      (D := D) hisa hall hst (plan.ok k hk) hw hq f1 (hdc k hk v hv _ hx) hl hp
      (fun hn => ⟨by rw [hcv]; exact hv, by rw [hcv]; exact (hneed hn).1⟩)
      (fun hn => by have := (hneed hn).2; rw [hch]; omega) hD
      (fun hn v' x' hm => by have := (hneed hn).2; have := hW k v' x' hm; omega) (by rw [hch]; rfl)
    obtain ⟨ms2, prev2, b1, b2, b3, b4, b5, b6, b7⟩ := ih ms1 _ ((k, v, j * (F k).h + h) :: D) a2
      (fun p hp => hps p (by simp [hp])) a4 f2 a5 (by rw [← hch]; exact a6)
      (fun k' v' x' hm => by
        rcases List.mem_cons.1 hm with hm | hm
        · cases hm; exact hx
        · exact hW k' v' x' hm)
    refine ⟨ms2, prev2, ?_, b2, b3.trans a3, b4, b5, b6, b7.mono ?_⟩
    · rw [List.foldlM_cons, a1]
      exact b1
    · intro t ht
      simp only [List.map_cons, List.mem_append, List.mem_cons] at ht ⊢
      tauto

/-- The places of the blocks of an MCU. -/
def mcuPlaces (ord : List Nat) (F : Nat → Factor) (j : Nat) : List (Nat × Nat × Nat) :=
  ord.flatMap fun k => (List.range (F k).v).flatMap fun v => (List.range (F k).h).map fun h => (k, v, j * (F k).h + h)

omit hisa hall plan hdc in
theorem places_within {X : Nat} {ord : List Nat} {F : Nat → Factor} {j : Nat} (hj : j < X) : Within X F (mcuPlaces ord F j) := by
  intro k v x hm
  unfold mcuPlaces at hm
  simp only [List.mem_flatMap, List.mem_map, List.mem_range] at hm
  obtain ⟨k', _, v', _, h', hh', e⟩ := hm
  cases e
  exact mul_add_lt_mul hj hh'

theorem order_ok {j : Nat} (hj : j < cfg.mcuX) {V : List Bool} {e} (rest : List (Nat × List Int)) (ord : List Nat) :
    ∀ (ms : MState) (prev : Nat → Int) (D : List (Nat × Nat × Nat)), (∀ k ∈ ord, k ∈ d0.zorder.take d0.ns) →
      Steady d0 shapes ms →
      Live ms.bs (scanBits comps prev (mcuBlocks ord F Z i j ++ rest) ++ V) e →
      ScanFits comps prev (mcuBlocks ord F Z i j ++ rest) →
      PredOk prev ms → TilesOk (tilesOf comps F Z i) D ms → Within cfg.mcuX F D →
      ∃ ms' prev', ord.foldlM (oneComp cfg i j) ms = .ok ms' ∧ Steady d0 shapes ms' ∧
        ms'.d = ms.d ∧ Live ms'.bs (scanBits comps prev' rest ++ V) e ∧ ScanFits comps prev' rest ∧ PredOk prev' ms' ∧
        TilesOk (tilesOf comps F Z i) (D ++ mcuPlaces ord F j) ms' := by
  induction ord with
  | nil =>
    intro ms prev D _ hst hl hf hp hD _
    exact ⟨ms, prev, rfl, hst, rfl, hl, hf, hp, by simpa [mcuPlaces] using hD⟩
  | cons k ord ih =>
    intro ms prev D hord hst hl hf hp hD hW
    have hk := hord k (by simp)
    obtain ⟨c, c1, c2, c3, c4, c5, c6⟩ := plan.comp k hk
    have hpos : positions d0.sub c = (List.range (F k).v).flatMap fun v => (List.range (F k).h).map fun h => (v, h) := by
      unfold positions
      split
      · rw [c2, c3]
      · rename_i hs
        obtain ⟨h1, h2⟩ := c6 (by simpa using hs)
        rw [h1, h2]
        rfl
    have hb : mcuBlocks (k :: ord) F Z i j = (positions d0.sub c).map
        (fun p => (k, Z k (i * (F k).v + p.1) (j * (F k).h + p.2))) ++ mcuBlocks ord F Z i j := by
      rw [hpos, List.map_flatMap]
      simp only [List.map_map]
      rfl
    rw [hb, List.append_assoc] at hl hf
    obtain ⟨ms1, prev1, a1, a2, a3, a4, a5, a6, a7⟩ := comp_ok hisa hall plan hdc hk c2 c3 hj
      (mcuBlocks ord F Z i j ++ rest) (positions d0.sub c) ms prev D hst (by
        rw [hpos]
        intro p hp
        simp only [List.mem_flatMap, List.mem_map, List.mem_range] at hp
        obtain ⟨v, hv, h, hh, rfl⟩ := hp
        exact ⟨hv, hh⟩) hl hf hp hD hW
    have hpl : D ++ mcuPlaces (k :: ord) F j =
        (D ++ (positions d0.sub c).map fun p => (k, p.1, j * (F k).h + p.2)) ++ mcuPlaces ord F j := by
      rw [hpos, List.map_flatMap, List.append_assoc]
      simp only [List.map_map]
      rfl
    obtain ⟨ms2, prev2, b1, b2, b3, b4, b5, b6, b7⟩ := ih ms1 prev1 _ (fun k' h' => hord k' (by simp [h'])) a2 a4 a5 a6 a7
      (fun k' v' x' hm => by
        rcases List.mem_append.1 hm with hm | hm
        · exact hW k' v' x' hm
        · rw [hpos, List.map_flatMap] at hm
          simp only [List.mem_flatMap, List.mem_map, List.mem_range] at hm
          obtain ⟨v, hv, _, ⟨h, hh, rfl⟩, e⟩ := hm
          cases e
          exact mul_add_lt_mul hj hh)
    refine ⟨ms2, prev2, ?_, b2, b3.trans a3, b4, b5, b6, by rw [hpl]; exact b7⟩
    rw [List.foldlM_cons]
    have : oneComp cfg i j ms k = .ok ms1 := by
      unfold oneComp
      rw [hst.d]
      simp only [c1, c4, c5]
      exact a1
    rw [this]
    exact b1

omit hisa hall hdc in
theorem mcu_bits_pos {j : Nat} {prev : Nat → Int} {rest : List (Nat × List Int)}
    (hf : ScanFits comps prev (mcuBlocks (d0.zorder.take d0.ns) F Z i j ++ rest)) :
    0 < (scanBits comps prev (mcuBlocks (d0.zorder.take d0.ns) F Z i j ++ rest)).length := by
  obtain ⟨b, t, e⟩ : ∃ b t, mcuBlocks (d0.zorder.take d0.ns) F Z i j ++ rest = b :: t := by
    have hne := plan.ne
    obtain ⟨k, hk⟩ := List.exists_mem_of_ne_nil _ hne
    obtain ⟨h1, h2⟩ := plan.pos k hk
    have : (k, Z k (i * (F k).v + 0) (j * (F k).h + 0)) ∈ mcuBlocks (d0.zorder.take d0.ns) F Z i j := by
      unfold mcuBlocks
      simp only [List.mem_flatMap, List.mem_map, List.mem_range]
      exact ⟨k, hk, 0, h2, 0, h1, rfl⟩
    cases hm : mcuBlocks (d0.zorder.take d0.ns) F Z i j ++ rest with
    | nil => rw [(List.append_eq_nil_iff.1 hm).1] at this; cases this
    | cons b t => exact ⟨b, t, rfl⟩
  rw [e] at hf ⊢
  obtain ⟨k, z⟩ := b
  rw [scanBits, List.length_append]
  have := bits_ne_nil hf.1
  omega

end

/-! ### Restart intervals -/

/-- The scan is at the boundary before the MCUs `l`: those of the current interval, then the intervals to come. -/
def Ready (comps : Nat → ScanComp) (R : Nat) (tail : List UInt8) (l : List (List (Nat × List Int))) (ms : MState) : Prop :=
  (∃ l1 l2 prev pad, l = l1 ++ l2 ∧ ScanFits comps prev l1.flatten ∧ PredOk prev ms ∧
    ((l2 = [] ∧ Live ms.bs (scanBits comps prev l1.flatten ++ pad) (some (0xD9, tail)) ∧
        (R = 0 ∨ (l1.length ≤ ms.d.todo ∧ 0 < ms.d.todo ∧ ms.d.todo < 2 ^ 64))) ∨
      ∃ m r, l1 ≠ [] ∧ Str ms.bs (scanBits comps prev l1.flatten ++ pad) (some (rstMarker m, r)) ∧ ms.d.todo = l1.length ∧
        R ≠ 0 ∧ l1.length < 2 ^ 64 ∧ ScanData comps R tail (m + 1) l2 r)) ∨
  (l = [] ∧ ms.bs.over = 0 ∧ ms.bs.rest = tail ∧
    ((ms.bs.seenEoi = false ∧ ms.bs.marker = some 0xD9) ∨ (ms.bs.seenEoi = true ∧ ms.bs.marker = none)))

theorem rst_known (m : Nat) : knownMarker (rstMarker m) = true ∧ isRst (rstMarker m) = true ∧ rstMarker m ≠ 0xD9 := by
  have key : ∀ m : Fin 8, knownMarker (0xD0 + UInt8.ofNat m.val) = true ∧ isRst (0xD0 + UInt8.ofNat m.val) = true ∧
      (0xD0 + UInt8.ofNat m.val) ≠ 0xD9 := by decide +kernel
  exact key ⟨m % 8, Nat.mod_lt _ (by decide)⟩

/-- A new interval. -/
theorem ready_new {comps : Nat → ScanComp} {R : Nat} {tail : List UInt8} {m : Nat} {l : List (List (Nat × List Int))}
    {bytes : List UInt8} (h : ScanData comps R tail m l bytes) {ms : MState} (hb : ms.bs = Bs.new bytes)
    (hp : PredOk (fun _ => 0) ms) (ht : R ≠ 0 → ms.d.todo = R) (hR : R < 2 ^ 64) : Ready comps R tail l ms := by
  cases h with
  | last _ l data pad n hl hf hd =>
    refine .inl ⟨l, [], fun _ => 0, pad, by simp, hf, hp, .inl ⟨rfl, .inl ?_, ?_⟩⟩
    · rw [hb, ← hd]
      exact str_segment data n 0xD9 tail (by decide)
    · by_cases h0 : R = 0
      · exact .inl h0
      · right
        rw [ht h0]
        omega
  | rst _ l l' data pad n r hR' hl hl' hf hd hr =>
    refine .inl ⟨l, l', fun _ => 0, pad, rfl, hf, hp, .inr ⟨m, r, ?_, ?_, ?_, hR', by omega, hr⟩⟩
    · rintro rfl
      exact hR' hl.symm
    · rw [hb, ← hd]
      exact str_segment data n _ r (rst_known m).1
    · rw [ht hR', hl]

theorem live_str {s : Bs} {V : List Bool} {m : UInt8} {r : List UInt8} (h : Live s V (some (m, r))) (hm : m ≠ 0xD9) :
    Str s V (some (m, r)) := by
  rcases h with h | ⟨s0, h0, h, rfl⟩
  · exact h
  · exact absurd ((str_marker h).2.2.1 _ h0).1.symm hm

theorem seekRst_str {ms : MState} {V : List Bool} {m : UInt8} {r : List UInt8} (h : Str ms.bs V (some (m, r)))
    (hR : ms.d.restart ≠ 0) : ∃ bs, seekRst ms = { ms with bs := bs } ∧ bs.marker = some m ∧ bs.rest = r ∧ bs.over = 0 ∧
      bs.seenEoi = false := by
  obtain ⟨a, b, c, d⟩ := str_marker h
  unfold seekRst
  cases hm : ms.bs.marker with
  | some m' =>
    obtain ⟨rfl, e⟩ := c m' hm
    rw [if_neg (by simp)]
    exact ⟨ms.bs, rfl, hm, e, a, b⟩
  | none =>
    rw [if_pos ⟨hR, rfl, b⟩]
    unfold getMarker
    rw [hm, d hm]
    exact ⟨_, rfl, rfl, rfl, a, b⟩

theorem seekRst_live {ms : MState} {V : List Bool} {r : List UInt8} (h : Live ms.bs V (some (0xD9, r)))
    (h0 : ms.d.restart ≠ 0) : ∃ bs, seekRst ms = { ms with bs := bs } ∧
      bs.over = 0 ∧ bs.rest = r ∧ ((bs.seenEoi = false ∧ bs.marker = some 0xD9) ∨
        (bs.seenEoi = true ∧ bs.marker = none)) := by
  obtain ⟨a, b, c, d⟩ := live_marker h
  unfold seekRst
  cases hm : ms.bs.marker with
  | some m' =>
    obtain ⟨e1, rfl, e2⟩ := b m' hm
    rw [if_neg (by simp)]
    exact ⟨ms.bs, rfl, a, e2, .inl ⟨e1, hm⟩⟩
  | none =>
    cases he : ms.bs.seenEoi with
    | true =>
      rw [if_neg (by simp)]
      exact ⟨ms.bs, rfl, a, (d he).2, .inr ⟨he, hm⟩⟩
    | false =>
      rw [if_pos ⟨h0, rfl, rfl⟩]
      unfold getMarker
      rw [hm, c hm he]
      exact ⟨_, rfl, a, rfl, .inl ⟨he, rfl⟩⟩

theorem Steady.todo {d0 shapes ms} (h : Steady d0 shapes ms) (bs : Bs) (n : Nat) :
    Steady d0 shapes { ms with d := { ms.d with todo := n }, bs := bs } := by
  refine ⟨?_, h.work, h.clean⟩
  rw [h.d]

theorem Steady.restart {d0 shapes ms} (h : Steady d0 shapes ms) : ms.d.restart = d0.restart := by
  rw [h.d]

/-- The predictions set to zero. -/
theorem Steady.zero {d0 shapes ms} (h : Steady d0 shapes ms) (bs : Bs) (n : Nat) :
    Steady d0 shapes { ms with d := { ms.d with todo := n }, bs := bs, work := ms.work.map fun w => { w with pred := 0 } } := by
  refine ⟨?_, ?_, h.clean⟩
  · rw [h.d]
  · simp only [List.map_map]
    rw [← h.work]
    rfl

theorem pred_zero (ms : MState) (d : Hdr) (bs : Bs) :
    PredOk (fun _ => 0) { ms with d := d, bs := bs, work := ms.work.map fun w => { w with pred := 0 } } := by
  intro k w hw _
  simp only [List.getElem?_map, Option.map_eq_some_iff] at hw
  obtain ⟨w', _, rfl⟩ := hw
  rfl

theorem tiles_zero {S D ms} (h : TilesOk S D ms) (d : Hdr) (bs : Bs) :
    TilesOk S D { ms with d := d, bs := bs, work := ms.work.map fun w => { w with pred := 0 } } := by
  intro k v x hm w hw hn r c
  simp only [List.getElem?_map, Option.map_eq_some_iff] at hw
  obtain ⟨w', hw', rfl⟩ := hw
  exact h k v x hm w' hw' hn r c

theorem countDown_eq (ms : MState) : ∃ t, t = (ms.d.todo + 2 ^ 64 - 1) % 2 ^ 64 ∧
    countDown ms = { ms with d := { ms.d with todo := t } } := ⟨_, rfl, rfl⟩

section
variable {cfg : Cfg} {avx2 : Bool} (hisa : cfg.isa = chooseIdct avx2) (hall : cfg.all = true)
  {d0 : Hdr} {shapes : List (Nat × (Nat → I32) × Bool × Nat)} {comps : Nat → ScanComp} {F : Nat → Factor}
  (plan : Plan d0 shapes comps F cfg.mcuX) {Z : Nat → Nat → Nat → List Int} {i : Nat}
  (hdc : ∀ k ∈ d0.zorder.take d0.ns, ∀ v < (F k).v, ∀ x < cfg.mcuX * (F k).h,
    DcSmall (comps k).qt (Z k (i * (F k).v + v) x))
  {tail : List UInt8} (hR : d0.restart < 2 ^ 64)

include hisa hall plan hdc hR

/-- An MCU and what follows it. -/
theorem mcu_ok {j : Nat} (hj : j < cfg.mcuX) {L : List (List (Nat × List Int))} {ms : MState} {D}
    (hst : Steady d0 shapes ms)
    (hr : Ready comps d0.restart tail (mcuBlocks (d0.zorder.take d0.ns) F Z i j :: L) ms)
    (hD : TilesOk (tilesOf comps F Z i) D ms) (hW : Within cfg.mcuX F D) :
    ∃ ms1 cd, oneMcu cfg i j ms = .ok ms1 ∧ countDown ms1 = cd ∧
      if cd.d.todo = 0 then
        ∃ ms2, handleRstMain cd = .ok ms2 ∧ Steady d0 shapes ms2 ∧ Ready comps d0.restart tail L ms2 ∧
          TilesOk (tilesOf comps F Z i) (D ++ mcuPlaces (d0.zorder.take d0.ns) F j) ms2
      else
        Steady d0 shapes cd ∧ Ready comps d0.restart tail L cd ∧
          TilesOk (tilesOf comps F Z i) (D ++ mcuPlaces (d0.zorder.take d0.ns) F j) cd ∧
          (cd.bs.marker.isSome = true → cd.bs.left = 0 →
            ∀ i' j' L', L ≠ mcuBlocks (d0.zorder.take d0.ns) F Z i' j' :: L') := by
  rcases hr with ⟨l1, l2, prev, pad, hl, hf, hp, hr⟩ | ⟨hl, _⟩
  swap
  · cases hl
  obtain ⟨l1', rfl, rfl⟩ : ∃ l1', l1 = mcuBlocks (d0.zorder.take d0.ns) F Z i j :: l1' ∧ L = l1' ++ l2 := by
    cases l1 with
    | nil =>
      exfalso
      rcases hr with ⟨rfl, _⟩ | ⟨m, r, h, _⟩
      · cases hl
      · exact h rfl
    | cons a l1' =>
      rw [List.cons_append, List.cons.injEq] at hl
      exact ⟨l1', by rw [hl.1], hl.2⟩
  have hlive : ∃ e, Live ms.bs (scanBits comps prev (mcuBlocks (d0.zorder.take d0.ns) F Z i j ++ l1'.flatten) ++ pad) e ∧
      ((l2 = [] ∧ e = some (0xD9, tail) ∧ (d0.restart = 0 ∨ (l1'.length + 1 ≤ ms.d.todo ∧ ms.d.todo < 2 ^ 64))) ∨
        ∃ m r, e = some (rstMarker m, r) ∧ ms.d.todo = l1'.length + 1 ∧ d0.restart ≠ 0 ∧ l1'.length + 1 < 2 ^ 64 ∧
          ScanData comps d0.restart tail (m + 1) l2 r) := by
    rw [← List.flatten_cons]
    rcases hr with ⟨a, b, c⟩ | ⟨m, r, _, b, c, d, e, f⟩
    · refine ⟨_, b, .inl ⟨a, rfl, ?_⟩⟩
      rcases c with c | ⟨c1, _, c2⟩
      · exact .inl c
      · exact .inr ⟨by simpa using c1, c2⟩
    · exact ⟨_, .inl b, .inr ⟨m, r, rfl, by simpa using c, d, by simpa using e, f⟩⟩
  obtain ⟨e, hlive, hcase⟩ := hlive
  rw [List.flatten_cons] at hf
  obtain ⟨ms1, prev1, a1, a2, a3, a4, a5, a6, a7⟩ := order_ok hisa hall plan hdc hj l1'.flatten (d0.zorder.take d0.ns)
    ms prev D (fun k h => h) hst hlive hf hp hD hW
  have hord : ms.d.zorder.take ms.d.ns = d0.zorder.take d0.ns := by rw [hst.d]
  obtain ⟨t, htodo, hcd⟩ := countDown_eq ms1
  rw [a3] at htodo
  refine ⟨ms1, { ms1 with d := { ms1.d with todo := t } }, by unfold oneMcu; rw [hord]; exact a1, hcd, ?_⟩
  have hst1 : Steady d0 shapes { ms1 with d := { ms1.d with todo := t } } := a2.todo ms1.bs _
  have hrs : ms1.d.restart = d0.restart := a2.restart
  -- the next MCU still has bits
  have hpos : Live ms1.bs (scanBits comps prev1 l1'.flatten ++ pad) e → ms1.bs.marker.isSome = true →
      ms1.bs.left = 0 → ∀ i' j' L', l1' ≠ mcuBlocks (d0.zorder.take d0.ns) F Z i' j' :: L' := by
    rintro h1 h2 h3 i' j' L' rfl
    have := live_empty h1 h2 h3
    rw [List.flatten_cons] at this a5
    have h0 := mcu_bits_pos plan a5
    rw [(List.append_eq_nil_iff.1 this).1] at h0
    exact absurd h0 (by simp)
  by_cases ht : t = 0
  · rw [if_pos ht]
    obtain ⟨bs, b1, b2⟩ := live_refill a4
    have hmain : handleRstMain { ms1 with d := { ms1.d with todo := t } } = handleRst (seekRst { ms1 with d := { ms1.d with todo := t }, bs := bs }) := by
      unfold handleRstMain
      simp only [b1]
    rw [hmain]
    rcases hcase with ⟨rfl, rfl, hc⟩ | ⟨m, r, rfl, c1, c2, c3, c4⟩
    · by_cases h0 : d0.restart = 0
      · have hs : seekRst { ms1 with d := { ms1.d with todo := t }, bs := bs } = { ms1 with d := { ms1.d with todo := t }, bs := bs } := by
          unfold seekRst
          rw [if_neg]
          exact fun h => h.1 (hrs.trans h0)
        rw [hs]
        obtain ⟨_, m1, _⟩ := live_marker b2
        refine ⟨{ ms1 with d := { ms1.d with todo := ms1.d.restart }, bs := bs }, ?_, a2.todo bs _, ?_, a7⟩
        · unfold handleRst
          simp only
          cases hm : bs.marker with
          | none => rfl
          | some m' =>
            obtain ⟨_, rfl, _⟩ := m1 m' hm
            rfl
        · exact .inl ⟨l1', [], prev1, pad, by simp, a5, a6, .inl ⟨rfl, b2, .inl h0⟩⟩
      · have hc := hc.resolve_left h0
        have hl1 : l1' = [] := List.length_eq_zero_iff.1 (by omega)
        subst hl1
        obtain ⟨bs', e1, e2, e3, e4⟩ := seekRst_live (ms := { ms1 with d := { ms1.d with todo := t }, bs := bs }) b2 (by
          show ms1.d.restart ≠ 0
          rw [hrs]; exact h0)
        rw [e1]
        refine ⟨{ ms1 with d := { ms1.d with todo := ms1.d.restart }, bs := bs' }, ?_, a2.todo bs' _, ?_, a7⟩
        · unfold handleRst
          simp only
          rcases e4 with ⟨_, e4⟩ | ⟨_, e4⟩
          · rw [e4]; rfl
          · rw [e4]
        · exact .inr ⟨rfl, e2, e3, e4⟩
    · have hl1 : l1' = [] := List.length_eq_zero_iff.1 (by omega)
      subst hl1
      obtain ⟨bs', e1, e2, e3, e4, e5⟩ := seekRst_str (ms := { ms1 with d := { ms1.d with todo := t }, bs := bs })
        (live_str b2 (rst_known m).2.2) (by
          show ms1.d.restart ≠ 0
          rw [hrs]; exact c2)
      rw [e1]
      refine ⟨{ ms1 with
        d := { ms1.d with todo := ms1.d.restart }, bs := bs'.reset, work := ms1.work.map fun w => { w with pred := 0 } },
        ?_, a2.zero _ _, ?_, tiles_zero a7 _ _⟩
      · unfold handleRst
        simp only [e2, (rst_known m).2.1, if_true]
      · rw [List.nil_append]
        exact ready_new c4 (by rw [← e3]; exact reset_new e4 e5) (pred_zero _ _ _) (fun _ => hrs) hR
  · rw [if_neg ht]
    refine ⟨hst1, ?_, a7, ?_⟩
    · refine .inl ⟨l1', l2, prev1, pad, rfl, a5, a6, ?_⟩
      rcases hcase with ⟨rfl, rfl, hc⟩ | ⟨m, r, rfl, c1, c2, c3, c4⟩
      · refine .inl ⟨rfl, a4, hc.imp id fun hc => ?_⟩
        show l1'.length ≤ t ∧ 0 < t ∧ t < 2 ^ 64
        omega
      · refine .inr ⟨m, r, ?_, live_str a4 (rst_known m).2.2, ?_, c2, by omega, c4⟩
        · rintro rfl
          simp at c1
          omega
        · show t = l1'.length
          omega
    · intro h1 h2 i' j' L' hL
      cases l1' with
      | nil =>
        rcases hcase with ⟨rfl, _⟩ | ⟨m, r, rfl, c1, c2, c3, c4⟩
        · cases hL
        · simp at c1
          omega
      | cons a l =>
        rw [List.cons_append, List.cons.injEq] at hL
        exact hpos a4 h1 h2 i' j' l (by rw [hL.1])

/-- The MCUs of a row. -/
theorem row_ok {later : List (List (Nat × List Int))} (n : Nat) : ∀ (j : Nat) (ms : MState) (D : List (Nat × Nat × Nat)), j + n ≤ cfg.mcuX → Steady d0 shapes ms →
    Ready comps d0.restart tail ((List.range' j n).map (mcuBlocks (d0.zorder.take d0.ns) F Z i) ++ later) ms →
    TilesOk (tilesOf comps F Z i) D ms → Within cfg.mcuX F D →
    ∃ ms', rowLoop cfg i n j ms = .ok ms' ∧ Steady d0 shapes ms' ∧ Ready comps d0.restart tail later ms' ∧
      TilesOk (tilesOf comps F Z i) (D ++ (List.range' j n).flatMap (mcuPlaces (d0.zorder.take d0.ns) F)) ms' := by
  induction n with
  | zero =>
    intro j ms D _ hst hr hD _
    exact ⟨ms, rfl, hst, by simpa using hr, by simpa using hD⟩
  | succ n ih =>
    intro j ms D hj hst hr hD hW
    rw [List.range'_succ, List.map_cons, List.cons_append] at hr
    obtain ⟨ms1, cd, a1, a1', a2⟩ := mcu_ok hisa hall plan hdc hR (j := j) (by omega) hst hr hD hW
    have hW' : Within cfg.mcuX F (D ++ mcuPlaces (d0.zorder.take d0.ns) F j) := by
      intro k v x hm
      rcases List.mem_append.1 hm with hm | hm
      · exact hW k v x hm
      · exact places_within (by omega) k v x hm
    rw [rowLoop, a1]
    simp only [a1']
    rw [List.range'_succ, List.flatMap_cons, ← List.append_assoc]
    by_cases ht : cd.d.todo = 0
    · rw [if_pos ht] at a2
      obtain ⟨ms2, b1, b2, b3, b4⟩ := a2
      rw [if_pos ht, b1]
      exact ih (j + 1) ms2 _ (by omega) b2 b3 b4 hW'
    · rw [if_neg ht] at a2
      obtain ⟨b1, b2, b3, b4⟩ := a2
      rw [if_neg ht]
      by_cases hb : cd.bs.marker.isSome ∧ cd.bs.left = 0
      · rw [if_pos hb]
        have hn : n = 0 := by
          by_contra h0
          obtain ⟨n', rfl⟩ := Nat.exists_eq_succ_of_ne_zero h0
          rw [List.range'_succ, List.map_cons, List.cons_append] at b4
          exact b4 hb.1 hb.2 i (j + 1) _ rfl
        subst hn
        refine ⟨_, rfl, b1, ?_, ?_⟩
        · simpa using b2
        · simpa using b3
      · rw [if_neg hb]
        exact ih (j + 1) _ _ (by omega) b1 b2 b3 hW'

end

end Zune.Jpeg
