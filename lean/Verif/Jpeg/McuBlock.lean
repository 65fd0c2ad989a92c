import Verif.Jpeg.McuBits
import Verif.Jpeg.McuSpec

/-!
# zune-jpeg: one MCU (lemmas)
-/

namespace Zune.Jpeg

open Zune.Canon Zune.Stream

/-! ### Blocks -/

theorem holds_grid {qt : Nat → I32} {z : List Int} {b : Nat → I32} (h : Holds qt z b) (hz : z.length = 64) :
    gridBlock b = dequantised qt z := by
  funext r c
  have key : ∀ r c : Fin 8, zigzagWalk[zigzagWalk.idxOf (r.val, c.val)]? = some (r.val, c.val) ∧
      zigzagWalk.idxOf (r.val, c.val) < 64 := by decide +kernel
  obtain ⟨k1, k2⟩ := key r c
  unfold gridBlock dequantised
  have hg : z[zigzagWalk.idxOf (r.val, c.val)]? = some (z.getD (zigzagWalk.idxOf (r.val, c.val)) 0) := by
    rw [List.getD_eq_getElem?_getD, List.getElem?_eq_getElem (by omega)]
    rfl
  exact h _ _ _ k1 hg

theorem flat_zero {v : Block} (h : ∀ r c, v r c = 0) : flatBlock v = fun _ => 0 := by
  funext i
  exact h _ _

/-- Storing one block: the buffer keeps its length, the tile is written, all else unchanged. -/
theorem storeAt_tile {chan : List Int} {pos stride : Nat} {S : Fin 8 → Fin 8 → Int} (hs : 8 ≤ stride)
    (hl : pos + 7 * stride + 8 ≤ chan.length) :
    ∃ o, storeAt chan 0 pos stride S = some o ∧ o.length = chan.length ∧
      (∀ r c : Fin 8, o[pos + r.val * stride + c.val]? = some (S r c)) ∧
      (∀ k, (∀ r c : Fin 8, k ≠ pos + r.val * stride + c.val) → o[k]? = chan[k]?) := by
  have hd : (chan.drop pos).length = chan.length - pos := List.length_drop
  obtain ⟨o, h1, h2, h3, h4⟩ := c45_tile stride hs S (chan.drop pos) (by rw [hd]; omega)
  have ht : (chan.take pos).length = pos := by rw [List.length_take]; omega
  refine ⟨chan.take pos ++ o, ?_, ?_, ?_, ?_⟩
  · unfold storeAt
    rw [if_pos (by omega), Nat.zero_add, h1]
    rfl
  · rw [List.length_append, ht, h2, hd]; omega
  · intro r c
    rw [List.getElem?_append_right (by omega), ht, show pos + r.val * stride + c.val - pos = r.val * stride + c.val by omega]
    exact h3 r c
  · intro k hk
    by_cases hp : k < pos
    · rw [List.getElem?_append_left (by omega), List.getElem?_take, if_pos hp]
    · rw [List.getElem?_append_right (by omega), ht, h4, List.getElem?_drop]
      · congr 1; omega
      · intro r c e
        exact hk r c (by omega)

/-! ### The state between blocks -/

/-- What stays the same about a component. -/
def shapeOf (w : Work) : Nat × (Nat → I32) × Bool × Nat := (w.stride, w.qt, w.needed, w.raw.length)

/-- The predictions. -/
def PredOk (prev : Nat → Int) (ms : MState) : Prop :=
  ∀ k w, ms.work[k]? = some w → w.needed = true → w.pred = BitVec.ofInt 32 (prev k)

/-- The samples of the blocks `D` (component, row within the MCU row, column) are those of `S`. -/
def TilesOk (S : Nat → Nat → Nat → Fin 8 → Fin 8 → Int) (D : List (Nat × Nat × Nat)) (ms : MState) : Prop :=
  ∀ k v x, (k, v, x) ∈ D → ∀ w, ms.work[k]? = some w → w.needed = true → ∀ r c : Fin 8,
    w.raw[(v * 8 + r.val) * w.stride + (x * 8 + c.val)]? = some (S k v x r c)

/-- What holds between blocks: the headers and the shapes of the components are as at the start, the next
block is decoded into zeros. -/
structure Steady (d0 : Hdr) (shapes : List (Nat × (Nat → I32) × Bool × Nat)) (ms : MState) : Prop where
  d : ms.d = { d0 with todo := ms.d.todo }
  work : ms.work.map shapeOf = shapes
  clean : ∀ r c, clobber ms.more ms.tmp r c = 0

theorem map_set_same {α β} (f : α → β) (l : List α) (k : Nat) (a b : α) (h : l[k]? = some a) (e : f b = f a) :
    (l.set k b).map f = l.map f := by
  rw [List.map_set, e, ← List.map_set]
  congr 1
  apply List.ext_getElem?
  intro i
  rw [List.getElem?_set]
  split
  · rename_i hk
    subst hk
    split
    · exact h.symm
    · rename_i hl
      rw [List.getElem?_eq_none (by omega)]
  · rfl

theorem tile_ne {stride v x v' x' : Nat} (hx : x * 8 + 8 ≤ stride) (hx' : x' * 8 + 8 ≤ stride) (h : (v, x) ≠ (v', x'))
    (r c r' c' : Fin 8) : (v * 8 + r.val) * stride + (x * 8 + c.val) ≠ (v' * 8 + r'.val) * stride + (x' * 8 + c'.val) := by
  intro e
  have hc : x * 8 + c.val < stride := by omega
  have hc' : x' * 8 + c'.val < stride := by omega
  have h1 : v * 8 + r.val = v' * 8 + r'.val := by
    have a := congrArg (· / stride) e
    rw [Nat.mul_comm, Nat.mul_add_div (by omega), Nat.div_eq_of_lt hc, Nat.mul_comm (v' * 8 + r'.val),
      Nat.mul_add_div (by omega), Nat.div_eq_of_lt hc'] at a
    omega
  have h2 : x * 8 + c.val = x' * 8 + c'.val := by
    rw [h1] at e
    omega
  exact h (by
    have : v = v' := by omega
    have : x = x' := by omega
    simp [*])

theorem block_ok {cfg : Cfg} {avx2 : Bool} (hisa : cfg.isa = chooseIdct avx2) (hall : cfg.all = true)
    {d0 : Hdr} {shapes : List (Nat × (Nat → I32) × Bool × Nat)} {ms : MState} (hst : Steady d0 shapes ms)
    {comps : Nat → ScanComp} {k : Nat} (ok : (comps k).Ok) {w : Work} (hw : ms.work[k]? = some w) (hq : w.qt = (comps k).qt)
    {prev : Nat → Int} {z : List Int} (fit : (comps k).Fits (prev k) z) (hdc : DcSmall (comps k).qt z)
    {V : List Bool} {e} (hlive : Live ms.bs ((comps k).bits (prev k) z ++ V) e) (hp : PredOk prev ms)
    {i j : Nat} {c : HComp} {v h : Nat} (hv : w.needed = true → v < c.v ∧ w.raw.length = w.stride * c.v * 8)
    (hs : w.needed = true → (j * c.h + h) * 8 + 8 ≤ w.stride)
    {S : Nat → Nat → Nat → Fin 8 → Fin 8 → Int} {D : List (Nat × Nat × Nat)} (hD : TilesOk S D ms)
    (hDx : w.needed = true → ∀ v' x', (k, v', x') ∈ D → x' * 8 + 8 ≤ w.stride)
    (hS : S k v (j * c.h + h) = (idctFull (dequantised (comps k).qt z)).rows) :
    ∃ ms', oneBlock cfg i j k c (comps k).dt (comps k).t ms (v, h) = .ok ms' ∧ Steady d0 shapes ms' ∧ ms'.d = ms.d ∧
      Live ms'.bs V e ∧ PredOk (Function.update prev k (z.headD 0)) ms' ∧ TilesOk S ((k, v, j * c.h + h) :: D) ms' := by
  obtain ⟨out, o1, o2, o3, o4⟩ := live_block ok fit hlive
  unfold oneBlock
  simp only [hw]
  by_cases hn : w.needed = true
  · rw [if_pos hn, flat_zero hst.clean, hp k w hw hn, hq, o1]
    simp only [hall, if_true]
    have hl := hv hn
    have hs' := hs hn
    have hlen : w.stride * (v * 8) + (j * c.h + h) * 8 + 7 * w.stride + 8 ≤ w.raw.length := by
      rw [hl.2]
      have : w.stride * ((v + 1) * 8) ≤ w.stride * (c.v * 8) := Nat.mul_le_mul_left _ (by omega)
      have e1 : w.stride * ((v + 1) * 8) = w.stride * (v * 8) + 8 * w.stride := by ring
      have e2 : w.stride * c.v * 8 = w.stride * (c.v * 8) := by ring
      omega
    obtain ⟨o, s1, s2, s3, s4⟩ := storeAt_tile (S := (select cfg.isa out.len (gridBlock out.block)).rows)
      (by omega : 8 ≤ w.stride) hlen
    rw [s1]
    simp only [Option.map_some]
    have hk : k < ms.work.length := (List.getElem?_eq_some_iff.1 hw).1
    have hshort := c49_short ms.bs _ _ _ _ out o1
    have hgrid := holds_grid o4 fit.len
    have hrows : (select cfg.isa out.len (gridBlock out.block)).rows = (idctFull (dequantised (comps k).qt z)).rows := by
      rw [hisa, c45_selected_partial avx2 out.len (gridBlock out.block) hshort (by rw [hgrid]; exact hdc), hgrid]
    have epos : ∀ r c' : Fin 8, w.stride * (v * 8) + (j * c.h + h) * 8 + r.val * w.stride + c'.val =
        (v * 8 + r.val) * w.stride + ((j * c.h + h) * 8 + c'.val) := by
      intro r c'; ring
    refine ⟨_, rfl, ⟨hst.d, ?_, ?_⟩, rfl, o2, ?_, ?_⟩
    · rw [← hst.work]
      refine map_set_same shapeOf ms.work k w _ hw ?_
      unfold shapeOf
      simp only [hq, s2]
    · have := clean_step avx2 (ms.more, ms.tmp) (some (out.len, fun u => if u = 0 then gridBlock out.block else u)) (by
        intro len dec hh u r c' hno
        cases hh
        simp only
        split
        · rename_i hu
          rw [hu]
          have hwr := c49_written ms.bs _ _ _ _ _ out o1
          by_cases hle : ∃ i', i' < 64 ∧ unZigzag[i']? = some (8 * r.val + c'.val)
          · obtain ⟨i', hi', hz'⟩ := hle
            have : out.len ≤ i' := by
              by_contra hh
              exact hno i' (.inl (by omega)) hi' hz'
            have := hwr.2.2.2 i' _ hz' this hi'
            exact this
          · exfalso
            have key : ∀ r c : Fin 8, ∃ i' : Fin 64, unZigzag[i'.val]? = some (8 * r.val + c.val) := by decide +kernel
            obtain ⟨i', hi'⟩ := key r c'
            exact hle ⟨i'.val, i'.isLt, hi'⟩
        · rfl) hst.clean
      have hz : clobber ms.more ms.tmp = 0 := funext fun r => funext fun c' => hst.clean r c'
      rw [hisa]
      unfold blockStep at this
      simp only [hz, if_true] at this
      exact this
    · intro k' w' hw' hn'
      rw [List.getElem?_set] at hw'
      by_cases hkk : k = k'
      · subst hkk
        rw [if_pos rfl, if_pos hk] at hw'
        cases hw'
        rw [Function.update_self]
        exact o3
      · rw [if_neg hkk] at hw'
        rw [Function.update_of_ne (Ne.symm hkk)]
        exact hp k' w' hw' hn'
    · intro k' v' x' hm w' hw' hn' r c'
      rw [List.getElem?_set] at hw'
      by_cases hkk : k = k'
      · subst hkk
        rw [if_pos rfl, if_pos hk] at hw'
        cases hw'
        simp only
        rcases List.mem_cons.1 hm with hm | hm
        · cases hm
          rw [← epos, s3, hrows, hS]
        · by_cases hvx : (v', x') = (v, j * c.h + h)
          · cases hvx
            rw [← epos, s3, hrows, hS]
          · rw [s4]
            · exact hD k v' x' hm w hw hn r c'
            · intro r2 c2
              rw [epos]
              exact tile_ne (hDx hn v' x' hm) hs' hvx r c' r2 c2
      · rw [if_neg hkk] at hw'
        rcases List.mem_cons.1 hm with hm | hm
        · exact absurd (congrArg (·.1) hm).symm hkk
        · exact hD k' v' x' hm w' hw' hn' r c'
  · rw [if_neg hn, discard_of_decode o1]
    refine ⟨_, rfl, ⟨hst.d, hst.work, hst.clean⟩, rfl, o2, ?_, ?_⟩
    · intro k' w' hw' hn'
      have hkk : k' ≠ k := by
        rintro rfl
        simp only at hw'
        rw [hw] at hw'
        cases hw'
        exact hn hn'
      rw [Function.update_of_ne hkk]
      exact hp k' w' hw' hn'
    · intro k' v' x' hm w' hw' hn' r c'
      rcases List.mem_cons.1 hm with hm | hm
      · cases hm
        simp only at hw'
        rw [hw] at hw'
        cases hw'
        exact absurd hn' hn
      · exact hD k' v' x' hm w' hw' hn' r c'

end Zune.Jpeg
