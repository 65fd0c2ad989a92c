import Verif.Jpeg.McuScan
import Verif.Jpeg.UpsampleProps

/-!
# zune-jpeg: the rows of a frame in one scan (lemmas)
-/

namespace Zune.Jpeg

open Zune.Canon Zune.Stream

theorem ready_over {comps R tail l ms} (h : Ready comps R tail l ms) : ms.bs.over = 0 := by
  rcases h with ⟨l1, l2, prev, pad, _, _, _, ⟨_, h, _⟩ | ⟨m, r, _, h, _⟩⟩ | ⟨_, h, _⟩
  · exact (live_marker h).1
  · exact (str_marker h).1
  · exact h

/-- At the end of a row. -/
theorem check_ok (o : HdrOpts) {comps R tail l ms} (h : Ready comps R tail l ms) :
    ∃ bs, checkMarker o ms = .ok (.ok, { ms with bs := bs }) ∧ Ready comps R tail l { ms with bs := bs } := by
  cases hm : ms.bs.marker with
  | none => exact ⟨ms.bs, by unfold checkMarker; rw [hm], h⟩
  | some m =>
    rcases h with ⟨l1, l2, prev, pad, e, f, p, ⟨rfl, h, q⟩ | ⟨m', r, h0, h, q1, q2⟩⟩ | ⟨rfl, h1, h2, h3⟩
    · obtain ⟨_, rfl, _⟩ := (live_marker h).2.1 m hm
      refine ⟨ms.bs.ack, by unfold checkMarker; rw [hm]; rfl, .inl ⟨l1, [], prev, pad, e, f, p, .inl ⟨rfl, ?_, q⟩⟩⟩
      rcases h with h | ⟨s0, _, _, e⟩
      · exact .inr ⟨ms.bs, hm, h, rfl⟩
      · rw [e] at hm
        simp [Bs.ack] at hm
    · obtain ⟨rfl, _⟩ := (str_marker h).2.2.1 m hm
      refine ⟨ms.bs, ?_, .inl ⟨l1, l2, prev, pad, e, f, p, .inr ⟨m', r, h0, h, q1, q2⟩⟩⟩
      have hl : 0 < l1.length := List.length_pos_iff.2 h0
      unfold checkMarker
      rw [hm]
      simp only
      rw [if_neg (rst_known m').2.2, if_pos (rst_known m').2.1, if_neg (by omega)]
    · rcases h3 with ⟨h3, h4⟩ | ⟨h3, h4⟩
      · rw [h4] at hm
        cases hm
        exact ⟨ms.bs.ack, by unfold checkMarker; rw [h4]; rfl, .inr ⟨rfl, h1, h2, .inr ⟨rfl, rfl⟩⟩⟩
      · rw [h4] at hm
        cases hm

/-- After the last row: what is left of the bytes. -/
theorem ready_end {comps R tail ms} (h : Ready comps R tail [] ms) :
    (if ms.bs.seenEoi then ms else { ms with bs := (getMarker ms.bs).2 }).bs.rest = tail := by
  have key : (ms.bs.seenEoi = true → ms.bs.rest = tail) ∧ (∀ m, ms.bs.marker = some m → ms.bs.rest = tail) ∧
      (ms.bs.marker = none → ms.bs.seenEoi = false → seekMarker false ms.bs.rest = some (0xD9, tail)) := by
    rcases h with ⟨l1, l2, prev, pad, e, f, p, ⟨rfl, h, q⟩ | ⟨m', r, h0, h, q1, q2⟩⟩ | ⟨_, h1, h2, h3⟩
    · obtain ⟨a, b, c, d⟩ := live_marker h
      exact ⟨fun x => (d x).2, fun m hm => (b m hm).2.2, c⟩
    · exact absurd (List.append_eq_nil_iff.1 e.symm).1 h0
    · refine ⟨fun _ => h2, fun _ _ => h2, fun a b => ?_⟩
      rcases h3 with ⟨_, h3⟩ | ⟨h3, _⟩
      · rw [a] at h3; cases h3
      · rw [b] at h3; cases h3
  obtain ⟨k1, k2, k3⟩ := key
  split
  · exact k1 ‹_›
  · rename_i hs
    unfold getMarker
    cases hm : ms.bs.marker with
    | some m => exact k2 m hm
    | none => simp only [k3 hm (by simpa using hs)]

theorem mcuRows_succ (ord : List Nat) (F : Nat → Factor) (Z : Nat → Nat → Nat → List Int) (X i n : Nat) :
    mcuRows ord F Z X i (n + 1) = (List.range' 0 X).map (mcuBlocks ord F Z i) ++ mcuRows ord F Z X (i + 1) n := by
  unfold mcuRows
  rw [List.range'_succ, List.flatMap_cons, List.range_eq_range']

section
variable {cfg : Cfg} {avx2 : Bool} (hisa : cfg.isa = chooseIdct avx2) (hall : cfg.all = true)
  {d0 : Hdr} {shapes : List (Nat × (Nat → I32) × Bool × Nat)} {comps : Nat → ScanComp} {F : Nat → Factor}
  (plan : Plan d0 shapes comps F cfg.mcuX) {Z : Nat → Nat → Nat → List Int}
  {tail : List UInt8} (hR : d0.restart < 2 ^ 64)

include hisa hall plan hR

theorem decodeRow_ok {i : Nat} (hdc : ∀ k ∈ d0.zorder.take d0.ns, ∀ v < (F k).v, ∀ x < cfg.mcuX * (F k).h,
      DcSmall (comps k).qt (Z k (i * (F k).v + v) x)) {later : List (List (Nat × List Int))} {ms : MState}
    (hst : Steady d0 shapes ms)
    (hr : Ready comps d0.restart tail ((List.range' 0 cfg.mcuX).map (mcuBlocks (d0.zorder.take d0.ns) F Z i) ++ later) ms) :
    ∃ ms', decodeRow cfg i ms = .ok (.ok, ms') ∧ Steady d0 shapes ms' ∧ Ready comps d0.restart tail later ms' ∧
      TilesOk (tilesOf comps F Z i) ((List.range' 0 cfg.mcuX).flatMap (mcuPlaces (d0.zorder.take d0.ns) F)) ms' := by
  obtain ⟨ms1, a1, a2, a3, a4⟩ := row_ok hisa hall plan hdc hR cfg.mcuX 0 { ms with more := true } [] (by omega)
    ⟨hst.d, hst.work, fun r c => by simp [clobber]⟩ hr (fun k v x hm => by cases hm) (fun k v x hm => by cases hm)
  obtain ⟨bs, b1, b2⟩ := check_ok cfg.o a3
  refine ⟨{ ms1 with bs := bs }, ?_, ⟨a2.d, a2.work, a2.clean⟩, b2, a4⟩
  unfold decodeRow
  rw [a1]
  exact b1

/-- The rows of the frame. -/
theorem rows_ok (p : Post) (raws : Nat → List (List Int)) (N : Nat)
    (hdc : ∀ k ∈ d0.zorder.take d0.ns, ∀ y < N * (F k).v, ∀ x < cfg.mcuX * (F k).h, DcSmall (comps k).qt (Z k y x))
    (hraw : ∀ i < N, ∀ ms, Steady d0 shapes ms →
      TilesOk (tilesOf comps F Z i) ((List.range' 0 cfg.mcuX).flatMap (mcuPlaces (d0.zorder.take d0.ns) F)) ms →
      ms.work.map (·.raw) = raws i) (n : Nat) : ∀ (i : Nat) (ms : MState) (ps ps' : PState), i + n ≤ N →
    Steady d0 shapes ms → Ready comps d0.restart tail (mcuRows (d0.zorder.take d0.ns) F Z cfg.mcuX i n) ms →
    postAll p raws n i ps = some ps' →
    ∃ ms', rowsLoop cfg p n i ms ps = .ok (.done, ms', ps') ∧ Steady d0 shapes ms' ∧ Ready comps d0.restart tail [] ms' := by
  induction n with
  | zero =>
    intro i ms ps ps' _ hst hr hp
    cases hp
    exact ⟨ms, rfl, hst, hr⟩
  | succ n ih =>
    intro i ms ps ps' hi hst hr hp
    rw [mcuRows_succ] at hr
    obtain ⟨ms1, a1, a2, a3, a4⟩ := decodeRow_ok hisa hall plan hR (i := i)
      (fun k hk v hv x hx => hdc k hk _ (mul_add_lt_mul (by omega) hv) x hx) hst hr
    rw [postAll] at hp
    cases hq : postProcess p i { ps with comps := List.zipWith (fun c r => { c with raw := r }) ps.comps (raws i) } with
    | none => rw [hq] at hp; cases hp
    | some ps1 =>
      rw [hq] at hp
      obtain ⟨ms2, b1, b2⟩ := ih (i + 1) ms1 ps1 ps' (by omega) a2 a3 hp
      refine ⟨ms2, ?_, b2⟩
      rw [rowsLoop, if_neg (by rw [ready_over hr]; omega), a1]
      simp only [hall, if_true]
      have : postWith p i ms1.work ps = .ok ps1 := by
        unfold postWith
        rw [hraw i (by omega) ms1 a2 a4, hq]
      rw [this]
      exact b1

end

/-! ### The samples of a row -/

theorem scanRows_getElem? {α} (f : Nat → Nat → α) (w : Nat) : ∀ (n s a b : Nat), a < n → b < w →
    ((List.range' s n).flatMap fun y => (List.range w).map (f y))[a * w + b]? = some (f (s + a) b)
  | 0, _, _, _, h, _ => absurd h (by omega)
  | n + 1, s, a, b, h, hb => by
    rw [List.range'_succ, List.flatMap_cons]
    cases a with
    | zero =>
      rw [Nat.zero_mul, Nat.zero_add, List.getElem?_append_left (by simpa using hb)]
      simp [hb]
    | succ a =>
      rw [List.getElem?_append_right (by simp; rw [Nat.add_mul]; omega)]
      rw [show (a + 1) * w + b - ((List.range w).map (f s)).length = a * w + b by simp [Nat.add_mul]; omega,
        scanRows_getElem? f w n (s + 1) a b (by omega) hb]
      congr 2
      omega

theorem scanRows_length {α} (f : Nat → Nat → α) (w n s : Nat) :
    ((List.range' s n).flatMap fun y => (List.range w).map (f y)).length = n * w := by
  rw [List.length_flatMap]
  simp

/-- The samples of a component in row `i` of MCUs. -/
def compRow (qt : Nat → I32) (f : Factor) (Z : Nat → Nat → List Int) (X i : Nat) : List Int :=
  (List.range' (8 * f.v * i) (8 * f.v)).flatMap fun y => (List.range (f.h * (X * 8))).map (sampleAt qt Z y)

theorem compRow_eq {comps : Nat → ScanComp} {F : Nat → Factor} {Z : Nat → Nat → Nat → List Int} {X i k : Nat}
    (raw : List Int) (hl : raw.length = (F k).h * (X * 8) * (F k).v * 8)
    (h : ∀ v < (F k).v, ∀ x < X * (F k).h, ∀ r c : Fin 8,
      raw[(v * 8 + r.val) * ((F k).h * (X * 8)) + (x * 8 + c.val)]? = some (tilesOf comps F Z i k v x r c)) :
    raw = compRow (comps k).qt (F k) (Z k) X i := by
  have hlen : (compRow (comps k).qt (F k) (Z k) X i).length = raw.length := by
    unfold compRow
    rw [scanRows_length, hl]
    ring
  refine List.ext_getElem? fun t => ?_
  by_cases ht : t < raw.length
  swap
  · rw [List.getElem?_eq_none (by omega), List.getElem?_eq_none (by omega)]
  have hw : 0 < (F k).h * (X * 8) := by
    rcases Nat.eq_zero_or_pos ((F k).h * (X * 8)) with h0 | h0
    · rw [h0] at hl; simp at hl; rw [hl] at ht; simp at ht
    · exact h0
  generalize hW : (F k).h * (X * 8) = W at *
  have hb := Nat.mod_lt t hw
  have ha : t / W < 8 * (F k).v := by
    rw [Nat.div_lt_iff_lt_mul hw]
    rw [hl] at ht
    calc t < W * (F k).v * 8 := ht
      _ = _ := by ring
  have et : t = (t / W) * W + t % W := by rw [Nat.mul_comm]; exact (Nat.div_add_mod t W).symm
  generalize t / W = a at *
  generalize t % W = b at *
  subst et
  have hx : b / 8 < X * (F k).h := by
    rw [Nat.div_lt_iff_lt_mul (by decide)]
    calc b < W := hb
      _ = _ := by rw [← hW]; ring
  have hv : a / 8 < (F k).v := by omega
  have := h (a / 8) hv (b / 8) hx ⟨a % 8, Nat.mod_lt _ (by decide)⟩ ⟨b % 8, Nat.mod_lt _ (by decide)⟩
  simp only at this
  rw [show a / 8 * 8 + a % 8 = a by omega, show b / 8 * 8 + b % 8 = b by omega] at this
  rw [this]
  unfold compRow
  rw [hW, scanRows_getElem? _ _ _ _ _ _ ha hb]
  unfold tilesOf sampleAt
  have e1 : (8 * (F k).v * i + a) / 8 = i * (F k).v + a / 8 := by
    rw [show 8 * (F k).v * i + a = 8 * (i * (F k).v) + a by ring]; omega
  have e2 : (8 * (F k).v * i + a) % 8 = a % 8 := by
    rw [show 8 * (F k).v * i + a = 8 * (i * (F k).v) + a by ring]; omega
  simp only [e1, e2]

end Zune.Jpeg
