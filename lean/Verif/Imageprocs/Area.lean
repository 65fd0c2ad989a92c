/- Lemmas about padding and the neighbourhood loop (`AreaModel.lean`). -/
import Verif.Imageprocs.AreaModel
import Verif.Imageprocs.Pixel
import Verif.Imageprocs.Geometry

namespace Zune.Imageprocs
variable {α σ : Type}

/-! ### Lists of rows -/

theorem rows_length {w : Nat} : ∀ {rows : List (List α)}, (∀ r ∈ rows, r.length = w) → rows.flatten.length = rows.length * w
  | [], _ => by simp
  | r :: t, h => by
    rw [List.flatten_cons, List.length_append, rows_length (fun r hr => h r (by simp [hr])), h r (by simp), List.length_cons, Nat.add_mul]
    omega

theorem rows_get {w : Nat} : ∀ {rows : List (List α)}, (∀ r ∈ rows, r.length = w) → ∀ {y x : Nat}, x < w →
    rows.flatten[y * w + x]? = rows[y]?.bind (·[x]?)
  | [], _, y, x, _ => by simp
  | r :: t, h, 0, x, hx => by
    have hr := h r (by simp)
    rw [List.flatten_cons, Nat.zero_mul, Nat.zero_add, List.getElem?_append_left (by omega)]; rfl
  | r :: t, h, y + 1, x, hx => by
    have hr := h r (by simp)
    rw [List.flatten_cons, List.getElem?_append_right (by rw [hr, Nat.add_mul]; omega), hr,
      show (y + 1) * w + x - w = y * w + x by rw [Nat.add_mul]; omega, rows_get (fun r hr => h r (by simp [hr])) hx]
    rfl

theorem chunksOf_length (n : Nat) (l : List α) : (chunksOf n l).length = l.length / n := by simp [chunksOf]

theorem chunksOf_rows {w h : Nat} {l : List α} (hw : 0 < w) (hl : l.length = w * h) : (chunksOf w l).length = h := by
  rw [chunksOf_length, hl, Nat.mul_div_cancel_left _ hw]

theorem chunksOf_get {w h : Nat} {l : List α} (hw : 0 < w) (hl : l.length = w * h) {y : Nat} (hy : y < h) :
    (chunksOf w l)[y]? = some ((l.drop (y * w)).take w) := by
  have : y < (chunksOf w l).length := by rw [chunksOf_rows hw hl]; exact hy
  rw [List.getElem?_eq_getElem this]
  simp [chunksOf]

theorem row_bound {w h y : Nat} (hy : y < h) : y * w + w ≤ w * h := by
  have := Nat.mul_le_mul_right w (show y + 1 ≤ h from hy)
  rw [Nat.add_mul, Nat.one_mul] at this
  rw [Nat.mul_comm w h]; exact this

theorem row_length {w h : Nat} {l : List α} (hl : l.length = w * h) {y : Nat} (hy : y < h) : ((l.drop (y * w)).take w).length = w := by
  have := row_bound (w := w) hy
  rw [List.length_take, List.length_drop]; omega

theorem row_get (l : List α) {w y x : Nat} (hx : x < w) : ((l.drop (y * w)).take w)[x]? = l[y * w + x]? := by
  rw [List.getElem?_take_of_lt hx, List.getElem?_drop]

theorem chunksOf_mem {w h : Nat} {l : List α} (hw : 0 < w) (hl : l.length = w * h) {r : List α} (hr : r ∈ chunksOf w l) : r.length = w := by
  obtain ⟨y, hy, rfl⟩ := List.mem_map.1 hr
  refine row_length hl ?_
  rw [List.mem_range, hl, Nat.mul_div_cancel_left _ hw] at hy
  exact hy

/-! ### `pad` -/

theorem padRow_spec {row : List α} (h : 0 < row.length) (p : Nat) : ∃ out, padRow p row = some out ∧ out.length = row.length + p * 2 ∧
    ∀ x < row.length + p * 2, out[x]? = row[min (x - p) (row.length - 1)]? := by
  obtain ⟨a, ha⟩ : ∃ a, row[0]? = some a := ⟨row[0], List.getElem?_eq_getElem h⟩
  obtain ⟨z, hz⟩ : ∃ z, row[row.length - 1]? = some z := ⟨row[row.length - 1], List.getElem?_eq_getElem (by omega)⟩
  refine ⟨List.replicate p a ++ row ++ List.replicate p z, ?_, ?_, ?_⟩
  · unfold padRow
    rw [List.head?_eq_getElem?, ha, List.getLast?_eq_getElem?, hz]
  · simp; omega
  · intro x hx
    by_cases h1 : x < p
    · rw [List.append_assoc, List.getElem?_append_left (by simpa using h1), List.getElem?_replicate_of_lt h1,
        show min (x - p) (row.length - 1) = 0 by omega, ha]
    · by_cases h2 : x < p + row.length
      · rw [List.getElem?_append_left (by simp; omega), List.getElem?_append_right (by simp; omega), List.length_replicate,
          show min (x - p) (row.length - 1) = x - p by omega]
      · rw [List.getElem?_append_right (by simp; omega), List.length_append, List.length_replicate,
          List.getElem?_replicate_of_lt (by omega), show min (x - p) (row.length - 1) = row.length - 1 by omega, hz]

/-- The padded row `y` of the source, as a total function. -/
def paddedRow (l : List α) (w p y : Nat) : List α := (padRow p ((l.drop (y * w)).take w)).getD []

theorem paddedRow_some {w h : Nat} {l : List α} (hw : 0 < w) (hl : l.length = w * h) (p : Nat) {y : Nat} (hy : y < h) :
    padRow p ((l.drop (y * w)).take w) = some (paddedRow l w p y) := by
  obtain ⟨o, ho, _⟩ := padRow_spec (row := (l.drop (y * w)).take w) (by rw [row_length hl hy]; exact hw) p
  rw [paddedRow, ho]; rfl

theorem paddedRow_length {w h : Nat} {l : List α} (hw : 0 < w) (hl : l.length = w * h) (p : Nat) {y : Nat} (hy : y < h) :
    (paddedRow l w p y).length = w + p * 2 := by
  obtain ⟨o, ho, h1, _⟩ := padRow_spec (row := (l.drop (y * w)).take w) (by rw [row_length hl hy]; exact hw) p
  rw [paddedRow, ho, Option.getD_some, h1, row_length hl hy]

theorem paddedRow_get {w h : Nat} {l : List α} (hw : 0 < w) (hl : l.length = w * h) (p : Nat) {y x : Nat} (hy : y < h) (hx : x < w + p * 2) :
    (paddedRow l w p y)[x]? = l[y * w + min (x - p) (w - 1)]? := by
  have hr := row_length hl hy
  obtain ⟨o, ho, _, h2⟩ := padRow_spec (row := (l.drop (y * w)).take w) (by rw [hr]; exact hw) p
  rw [paddedRow, ho, Option.getD_some, h2 x (by rw [hr]; exact hx), hr, row_get _ (by omega)]

theorem replicate_mapIdx {β : Type} (n : Nat) (b : α) (f : Nat → α → β) : (List.replicate n b).mapIdx f = (List.range n).map fun i => f i b := by
  apply List.ext_getElem?
  intro i
  by_cases h : i < n
  · rw [List.getElem?_mapIdx, List.getElem?_replicate_of_lt h, List.getElem?_map, List.getElem?_range h]; rfl
  · rw [List.getElem?_eq_none (by simpa using h), List.getElem?_eq_none (by simpa using h)]

theorem map_mapIdx {β γ : Type} (n : Nat) (g : Nat → β) (f : Nat → β → γ) : ((List.range n).map g).mapIdx f = (List.range n).map fun i => f i (g i) := by
  apply List.ext_getElem?
  intro i
  by_cases h : i < n
  · rw [List.getElem?_mapIdx, List.getElem?_map, List.getElem?_map, List.getElem?_range h]; rfl
  · rw [List.getElem?_eq_none (by simpa using h), List.getElem?_eq_none (by simpa using h)]

theorem padReplicate_rows (d : α) {w h : Nat} {l : List α} (hw : 0 < w) (hh : 0 < h) (hl : l.length = w * h) (px py : Nat) :
    padReplicate d l w h px py = some (((List.range (h + py * 2)).map fun y => paddedRow l w px (min (y - py) (h - 1))).flatten) := by
  have h0 : sliceAt l 0 w = some ((l.drop (0 * w)).take w) := by
    rw [Nat.zero_mul]; unfold sliceAt; rw [if_pos (by have := row_bound (w := w) hh; omega)]
  have e : l.length - w = (h - 1) * w := by
    rw [hl, Nat.sub_mul, Nat.mul_comm w h]; omega
  have hrow : sliceAt l (l.length - w) w = some ((l.drop ((h - 1) * w)).take w) := by
    have := row_bound (w := w) (show h - 1 < h by omega)
    unfold sliceAt
    rw [e, if_pos (by omega)]
  have hm : (chunksOf w l).mapM (padRow px) = some ((List.range h).map (paddedRow l w px)) := by
    have e : chunksOf w l = (List.range h).map fun i => (l.drop (i * w)).take w := by
      unfold chunksOf; rw [hl, Nat.mul_div_cancel_left _ hw]
    rw [e, List.mapM_map]
    exact mapM_some _ _ _ (fun y hy => paddedRow_some hw hl px (List.mem_range.1 hy))
  unfold padReplicate padTop padMiddle padBottom
  rw [if_neg (by omega), h0, hm, hrow]
  simp only [Option.bind_eq_bind, Option.bind_some, Option.pure_def, pure_bind, paddedRow_some hw hl px hh,
    paddedRow_some hw hl px (show h - 1 < h by omega), replicate_mapIdx, map_mapIdx, List.length_map, List.length_range]
  congr 2
  apply List.map_congr_left
  intro y hy
  rw [List.mem_range] at hy
  by_cases h1 : h + py * 2 ≤ y + py
  · rw [if_pos h1, show min (y - py) (h - 1) = h - 1 by omega]
  · rw [if_neg h1]
    by_cases h2 : py ≤ y
    · rw [if_pos ⟨h2, by omega⟩, List.getElem?_map, List.getElem?_range (by omega), show min (y - py) (h - 1) = y - py by omega]; rfl
    · rw [if_neg (by omega), if_pos (by omega), show min (y - py) (h - 1) = 0 by omega]

theorem padReplicate_spec (d : α) {w h : Nat} {l : List α} (hw : 0 < w) (hh : 0 < h) (hl : l.length = w * h) (px py : Nat) :
    ∃ out, padReplicate d l w h px py = some out ∧ out.length = (h + py * 2) * (w + px * 2) ∧
      ∀ y < h + py * 2, ∀ x < w + px * 2, out[y * (w + px * 2) + x]? = l[min (y - py) (h - 1) * w + min (x - px) (w - 1)]? := by
  have hr : ∀ r ∈ (List.range (h + py * 2)).map (fun y => paddedRow l w px (min (y - py) (h - 1))), r.length = w + px * 2 := by
    intro r hr
    obtain ⟨y, _, rfl⟩ := List.mem_map.1 hr
    exact paddedRow_length hw hl px (by omega)
  refine ⟨_, padReplicate_rows d hw hh hl px py, ?_, ?_⟩
  · rw [rows_length hr, List.length_map, List.length_range]
  · intro y hy x hx
    rw [rows_get hr hx, List.getElem?_map, List.getElem?_range hy]
    exact paddedRow_get hw hl px (by omega) hx

/-! ### The loop -/

theorem grid_eq (h : Nat) {w : Nat} (hw : 0 < w) : grid h w = (List.range (h * w)).map fun k => (k / w, k % w) := by
  induction h with
  | zero => simp [grid]
  | succ h ih =>
    rw [grid, List.range_succ, List.flatMap_append, ← grid, ih, Nat.add_mul, Nat.one_mul, List.range_add, List.map_append]
    congr 1
    rw [List.flatMap_cons, List.flatMap_nil, List.append_nil, List.map_map]
    apply List.map_congr_left
    intro x hx
    rw [List.mem_range] at hx
    show (h, x) = ((h * w + x) / w, (h * w + x) % w)
    rw [Nat.add_comm, Nat.add_mul_div_right _ _ hw, Nat.div_eq_of_lt hx, Nat.add_mul_mod_self_right, Nat.mod_eq_of_lt hx, Nat.zero_add]

theorem foldlM_range {β : Type} {step : β → Nat → Option β} {I : Nat → β → Prop} : ∀ {n : Nat} {b : β},
    I 0 b → (∀ k < n, ∀ b, I k b → ∃ b', step b k = some b' ∧ I (k + 1) b') →
    ∃ b', (List.range n).foldlM step b = some b' ∧ I n b'
  | 0, b, h0, _ => ⟨b, rfl, h0⟩
  | n + 1, b, h0, hs => by
    obtain ⟨c, hc, hi⟩ := foldlM_range (n := n) h0 (fun k hk => hs k (by omega))
    obtain ⟨c', hc', hi'⟩ := hs n (by omega) c hi
    refine ⟨c', ?_, hi'⟩
    rw [List.range_succ, List.foldlM_append, hc]
    show [n].foldlM step c = _
    rw [List.foldlM_cons, hc']; rfl

/-- Samples around (y, x) as the loop collects them. -/
def around (l : List α) (w n y x : Nat) : List α := ((List.range n).map fun k => (l.drop ((y + k) * w + x)).take n).flatten

theorem window_eq {l : List α} {w n y x : Nat} (h : ∀ k < n, (y + k) * w + x + n ≤ l.length) : window l w n y x = some (around l w n y x) := by
  unfold window
  rw [mapM_some _ (fun k => (l.drop ((y + k) * w + x)).take n)]
  · rfl
  · intro k hk
    unfold sliceAt
    rw [if_pos (h k (List.mem_range.1 hk))]

theorem around_length {l : List α} {w n y x : Nat} (h : ∀ k < n, (y + k) * w + x + n ≤ l.length) : (around l w n y x).length = n * n := by
  unfold around
  rw [rows_length (w := n)]
  · simp
  · intro r hr
    obtain ⟨k, hk, rfl⟩ := List.mem_map.1 hr
    have := h k (List.mem_range.1 hk)
    rw [List.length_take, List.length_drop]; omega

theorem fits {w h r y x k : Nat} (hy : y < h) (hx : x < w) (hk : k < 2 * r + 1) :
    (y + k) * (r * 2 + w) + x + (2 * r + 1) ≤ (r * 2 + h) * (r * 2 + w) := by
  have h1 : y + k + 1 ≤ r * 2 + h := by omega
  have := Nat.mul_le_mul_right (r * 2 + w) h1
  rw [Nat.add_mul, Nat.one_mul] at this
  omega

/-- The loop with an invariant on the state that the function keeps. -/
theorem spatialLoop_spec {f : σ → List α → Option (α × σ)} {padded out : List α} {r w h : Nat} {st : σ} (hw : 0 < w)
    (hp : padded.length = (r * 2 + h) * (r * 2 + w)) (ho : out.length = w * h) {I : Nat → σ → Prop} {V : Nat → Nat → α} (h0 : I 0 st)
    (hs : ∀ y < h, ∀ x < w, ∀ s, I (y * w + x) s →
      ∃ s', f s (around padded (r * 2 + w) (2 * r + 1) y x) = some (V y x, s') ∧ I (y * w + x + 1) s') :
    ∃ res, spatialLoop f padded out r w h st = some res ∧ res.length = w * h ∧ ∀ y < h, ∀ x < w, res[y * w + x]? = some (V y x) := by
  unfold spatialLoop
  rw [if_neg (by omega), grid_eq h hw, List.foldlM_map]
  obtain ⟨b, hb, hlen, hI, hV⟩ := foldlM_range (n := h * w) (b := (out, st))
    (step := fun (acc : List α × σ) (k : Nat) => do
      let win ← window padded (r * 2 + w) (2 * r + 1) (k / w, k % w).1 (k / w, k % w).2
      let (v, st) ← f acc.2 win
      let out ← putAt acc.1 ((k / w, k % w).1 * w + (k / w, k % w).2) v
      return (out, st))
    (I := fun k (acc : List α × σ) => acc.1.length = w * h ∧ I k acc.2 ∧ ∀ y < h, ∀ x < w, y * w + x < k → acc.1[y * w + x]? = some (V y x))
    ⟨ho, h0, fun _ _ _ _ h => absurd h (by omega)⟩
    (by
      rintro k hk ⟨o, s⟩ ⟨hol, hi, hv⟩
      have hy : k / w < h := Nat.div_lt_of_lt_mul (by rw [Nat.mul_comm]; exact hk)
      have hx : k % w < w := Nat.mod_lt _ hw
      have hkk : k / w * w + k % w = k := by rw [Nat.mul_comm]; exact Nat.div_add_mod k w
      obtain ⟨s', h1, h2⟩ := hs _ hy _ hx s (by rw [hkk]; exact hi)
      have hkl : k < o.length := by rw [hol, Nat.mul_comm]; exact hk
      refine ⟨(o.set k (V (k / w) (k % w)), s'), ?_, ?_, ?_, ?_⟩
      · simp only
        rw [window_eq (fun j hj => by rw [hp]; exact fits hy hx hj)]
        simp only [Option.bind_eq_bind, Option.bind_some, h1, putAt, hkk, if_pos hkl]
        rfl
      · simpa using hol
      · rw [hkk] at h2; exact h2
      · intro y hy x hx hlt
        show (o.set k _)[y * w + x]? = _
        by_cases he : y * w + x = k
        · have e2 : y = k / w ∧ x = k % w := rowcol_inj hx (Nat.mod_lt _ hw) (by rw [hkk]; exact he)
          rw [he, List.getElem?_set_self hkl, e2.1, e2.2]
        · rw [List.getElem?_set_ne (by omega)]
          exact hv y hy x hx (by omega))
  refine ⟨b.1, by rw [hb]; rfl, hlen, fun y hy x hx => hV y hy x hx ?_⟩
  rw [Nat.mul_comm h w]; exact rowcol_lt hx hy

end Zune.Imageprocs
