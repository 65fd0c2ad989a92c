/- Lemmas for the running histogram of the median filter (`AreaModel.lean`) and for the statistics of `spatial_ops`. -/
import Verif.Imageprocs.Area
import Verif.Imageprocs.AreaSpec

namespace Zune.Imageprocs
variable {α : Type}

/-! ### Windows -/

theorem take_filterMap (l : List α) : ∀ (n s : Nat), s + n ≤ l.length → (l.drop s).take n = (List.range n).filterMap fun i => l[s + i]?
  | 0, _, _ => by simp
  | n + 1, s, h => by
    rw [List.range_succ, List.filterMap_append, ← take_filterMap l n s (by omega), List.take_add_one, List.getElem?_drop]
    simp [List.getElem?_eq_getElem (show s + n < l.length by omega)]

theorem flatMap_flatten {β γ : Type} (ks : List β) (f : β → List γ) : (ks.map f).flatten = ks.flatMap f := by
  induction ks with
  | nil => rfl
  | cons k t ih => simp [ih]

theorem filterMap_flatMap' {β γ δ : Type} (ks : List β) (f : β → List γ) (g : γ → Option δ) :
    (ks.flatMap f).filterMap g = ks.flatMap fun k => (f k).filterMap g := by
  induction ks with
  | nil => rfl
  | cons k t ih => simp [ih]

theorem flatMap_congr' {β γ : Type} {ks : List β} {f g : β → List γ} (h : ∀ k ∈ ks, f k = g k) : ks.flatMap f = ks.flatMap g := by
  induction ks with
  | nil => rfl
  | cons k t ih => rw [List.flatMap_cons, List.flatMap_cons, h k (by simp), ih (fun k hk => h k (by simp [hk]))]

theorem around_eq {l padded : List α} {w h r : Nat} (hw : 0 < w) (hh : 0 < h)
    (hp : padded.length = (r * 2 + h) * (r * 2 + w))
    (hg : ∀ y < h + r * 2, ∀ x < w + r * 2, padded[y * (w + r * 2) + x]? = l[min (y - r) (h - 1) * w + min (x - r) (w - 1)]?)
    {y x : Nat} (hy : y < h) (hx : x < w) : around padded (r * 2 + w) (2 * r + 1) y x = neighbours l w h r y x := by
  unfold around neighbours grid
  rw [flatMap_flatten, filterMap_flatMap']
  apply flatMap_congr'
  intro k hk
  rw [List.mem_range] at hk
  rw [take_filterMap _ _ _ (by rw [hp]; exact fits hy hx hk), List.filterMap_map]
  apply List.filterMap_congr
  intro i hi
  rw [List.mem_range] at hi
  have := hg (y + k) (by omega) (x + i) (by omega)
  rw [Nat.add_comm w, ← Nat.add_assoc] at this
  rw [this]
  show _ = ext l w h _ _
  unfold ext
  have e1 : (max 0 (min ((y : Int) + (k : Nat) - r) (h - 1))).toNat = min (y + k - r) (h - 1) := by omega
  have e2 : (max 0 (min ((x : Int) + (i : Nat) - r) (w - 1))).toNat = min (x + i - r) (w - 1) := by omega
  simp only [e1, e2]

theorem neighbours_length {l padded : List α} {w h r : Nat} (hw : 0 < w) (hh : 0 < h)
    (hp : padded.length = (r * 2 + h) * (r * 2 + w))
    (hg : ∀ y < h + r * 2, ∀ x < w + r * 2, padded[y * (w + r * 2) + x]? = l[min (y - r) (h - 1) * w + min (x - r) (w - 1)]?)
    {y x : Nat} (hy : y < h) (hx : x < w) : (neighbours l w h r y x).length = (2 * r + 1) * (2 * r + 1) := by
  rw [← around_eq hw hh hp hg hy hx, around_length (fun k hk => by rw [hp]; exact fits hy hx hk)]

theorem neighbours_mem {l : List α} {w h r y x : Nat} {v : α} (hv : v ∈ neighbours l w h r y x) : v ∈ l := by
  obtain ⟨p, _, hp⟩ := List.mem_filterMap.1 hv
  exact List.mem_of_getElem? hp

/-! ### Statistics -/

theorem foldMin_spec : ∀ (l : List Nat) (m : Nat),
    (l.foldl (fun m d => if d < m then d else m) m = m ∨ l.foldl (fun m d => if d < m then d else m) m ∈ l) ∧
      l.foldl (fun m d => if d < m then d else m) m ≤ m ∧ ∀ u ∈ l, l.foldl (fun m d => if d < m then d else m) m ≤ u
  | [], m => by simp
  | d :: t, m => by
    obtain ⟨h1, h2, h3⟩ := foldMin_spec t (if d < m then d else m)
    rw [List.foldl_cons]
    generalize List.foldl (fun m d => if d < m then d else m) (if d < m then d else m) t = v at *
    refine ⟨?_, ?_, ?_⟩
    · rcases h1 with h1 | h1
      · by_cases hd : d < m
        · rw [if_pos hd] at h1; right; simp [h1]
        · rw [if_neg hd] at h1; left; exact h1
      · right; simp [h1]
    · split at h2 <;> omega
    · intro u hu
      rcases List.mem_cons.1 hu with rfl | hu
      · split at h2 <;> omega
      · exact h3 u hu

theorem foldMax_spec : ∀ (l : List Nat) (m : Nat),
    (l.foldl (fun m d => if d > m then d else m) m = m ∨ l.foldl (fun m d => if d > m then d else m) m ∈ l) ∧
      m ≤ l.foldl (fun m d => if d > m then d else m) m ∧ ∀ u ∈ l, u ≤ l.foldl (fun m d => if d > m then d else m) m
  | [], m => by simp
  | d :: t, m => by
    obtain ⟨h1, h2, h3⟩ := foldMax_spec t (if d > m then d else m)
    rw [List.foldl_cons]
    generalize List.foldl (fun m d => if d > m then d else m) (if d > m then d else m) t = v at *
    refine ⟨?_, ?_, ?_⟩
    · rcases h1 with h1 | h1
      · by_cases hd : d > m
        · rw [if_pos hd] at h1; right; simp [h1]
        · rw [if_neg hd] at h1; left; exact h1
      · right; simp [h1]
    · split at h2 <;> omega
    · intro u hu
      rcases List.mem_cons.1 hu with rfl | hu
      · split at h2 <;> omega
      · exact h3 u hu

theorem findMin_isMin {bits : Nat} {l : List Nat} (hne : l ≠ []) (hb : ∀ v ∈ l, v < 2 ^ bits) : IsMin l (findMin bits l) := by
  obtain ⟨h1, h2, h3⟩ := foldMin_spec l (2 ^ bits - 1)
  refine ⟨?_, h3⟩
  rcases h1 with h1 | h1
  · obtain ⟨a, t, rfl⟩ := List.exists_cons_of_ne_nil hne
    have := h3 a (by simp)
    have h4 := hb a (by simp)
    unfold findMin
    rw [h1] at this ⊢
    rw [show 2 ^ bits - 1 = a by omega]; simp
  · exact h1

theorem findMax_isMax {l : List Nat} (hne : l ≠ []) : IsMax l (findMax l) := by
  obtain ⟨h1, h2, h3⟩ := foldMax_spec l 0
  refine ⟨?_, h3⟩
  rcases h1 with h1 | h1
  · obtain ⟨a, t, rfl⟩ := List.exists_cons_of_ne_nil hne
    have := h3 a (by simp)
    unfold findMax
    rw [h1] at this ⊢
    rw [show 0 = a by omega]; simp
  · exact h1

theorem IsMin.unique {l : List Nat} {a b : Nat} (ha : IsMin l a) (hb : IsMin l b) : a = b := by
  have := ha.2 b hb.1; have := hb.2 a ha.1; omega

theorem IsMax.unique {l : List Nat} {a b : Nat} (ha : IsMax l a) (hb : IsMax l b) : a = b := by
  have := ha.2 b hb.1; have := hb.2 a ha.1; omega

theorem sum_le_mul : ∀ (l : List Nat) (m : Nat), (∀ v ∈ l, v ≤ m) → l.sum ≤ l.length * m
  | [], _, _ => by simp
  | a :: t, m, h => by
    have := sum_le_mul t m (fun v hv => h v (by simp [hv]))
    have := h a (by simp)
    rw [List.sum_cons, List.length_cons, Nat.add_mul]; omega

/-! ### Ranks -/

theorem rank_count {l : List Nat} {k v : Nat} (h : IsRank l k v) : l.countP (· < v) ≤ k ∧ k < l.countP (· ≤ v) := by
  have hp : (l.mergeSort (· ≤ ·)).Perm l := List.mergeSort_perm l _
  have hs : (l.mergeSort (· ≤ ·)).Pairwise (· ≤ ·) := by
    have := List.pairwise_mergeSort (le := fun a b : Nat => decide (a ≤ b)) (by intro a b c; simp; omega) (by intro a b; simp; omega) l
    simpa using this
  rw [← hp.countP_eq, ← hp.countP_eq]
  unfold IsRank at h
  generalize l.mergeSort (· ≤ ·) = s at *
  obtain ⟨hk, hv⟩ := List.getElem?_eq_some_iff.1 h
  have hle : ∀ i j (hi : i < s.length) (hj : j < s.length), i ≤ j → s[i] ≤ s[j] := by
    intro i j hi hj hij
    rcases Nat.eq_or_lt_of_le hij with rfl | h
    · exact Nat.le_refl _
    · exact List.pairwise_iff_getElem.1 hs i j hi hj h
  constructor
  · have : (s.drop k).countP (· < v) = 0 := by
      rw [List.countP_eq_zero]
      intro a ha
      obtain ⟨i, hi, rfl⟩ := List.mem_iff_getElem.1 ha
      rw [List.length_drop] at hi
      rw [List.getElem_drop]
      have := hle k (k + i) hk (by omega) (by omega)
      simp; omega
    rw [← List.take_append_drop k s, List.countP_append, this]
    have := List.countP_le_length (p := fun a => decide (a < v)) (l := s.take k)
    rw [List.length_take] at this
    omega
  · have : (s.take (k + 1)).countP (· ≤ v) = k + 1 := by
      rw [List.countP_eq_length.2, List.length_take]; · omega
      intro a ha
      obtain ⟨i, hi, rfl⟩ := List.mem_iff_getElem.1 ha
      rw [List.length_take] at hi
      rw [List.getElem_take]
      have := hle i k (by omega) hk (by omega)
      simp; omega
    rw [← List.take_append_drop (k + 1) s, List.countP_append, this]
    omega

theorem rank_of_count {l : List Nat} {k v : Nat} (h1 : l.countP (· < v) ≤ k) (h2 : k < l.countP (· ≤ v)) : IsRank l k v := by
  have hl : k < (l.mergeSort (· ≤ ·)).length := by
    rw [List.length_mergeSort]
    have := List.countP_le_length (p := fun a => decide (a ≤ v)) (l := l); omega
  have hr : IsRank l k ((l.mergeSort (· ≤ ·))[k]) := List.getElem?_eq_getElem hl
  obtain ⟨h3, h4⟩ := rank_count hr
  generalize (l.mergeSort (· ≤ ·))[k] = u at *
  have : u = v := by
    rcases Nat.lt_trichotomy u v with h | h | h
    · have : l.countP (· ≤ u) ≤ l.countP (· < v) := List.countP_mono_left (fun a _ ha => by simp at *; omega)
      omega
    · exact h
    · have : l.countP (· ≤ v) ≤ l.countP (· < u) := List.countP_mono_left (fun a _ ha => by simp at *; omega)
      omega
  rw [← this]; exact hr

theorem IsRank.unique {l : List Nat} {k a b : Nat} (ha : IsRank l k a) (hb : IsRank l k b) : a = b := by
  unfold IsRank at *; rw [ha] at hb; exact Option.some.inj hb

/-! ### Histograms -/

/-- The histogram of a list of samples. -/
def Hist (bits : Nat) (hist N : List Nat) : Prop := hist.length = 2 ^ bits ∧ ∀ v < 2 ^ bits, hist[v]? = some (N.count v)

theorem hist_zero (bits : Nat) : Hist bits (List.replicate (2 ^ bits) 0) [] :=
  ⟨by simp, fun v hv => by rw [List.getElem?_replicate_of_lt hv]; rfl⟩

theorem Hist.congr {bits : Nat} {hist N M : List Nat} (h : Hist bits hist N) (he : ∀ v, N.count v = M.count v) : Hist bits hist M :=
  ⟨h.1, fun v hv => by rw [h.2 v hv, he]⟩

theorem histAdd_spec {bits : Nat} : ∀ (L : List Nat) {hist N : List Nat}, Hist bits hist N → (∀ v ∈ L, v < 2 ^ bits) →
    ∃ hist', L.foldlM histAdd hist = some hist' ∧ Hist bits hist' (N ++ L)
  | [], hist, N, h, _ => ⟨hist, rfl, by simpa using h⟩
  | a :: t, hist, N, h, hb => by
    have ha := hb a (by simp)
    have h1 : Hist bits (hist.set a (N.count a + 1)) (N ++ [a]) := by
      refine ⟨by simpa using h.1, fun v hv => ?_⟩
      by_cases e : a = v
      · subst e; rw [List.getElem?_set_self (by rw [h.1]; exact hv)]; simp
      · rw [List.getElem?_set_ne e, h.2 v hv]; simp [e]
    obtain ⟨hist', h2, h3⟩ := histAdd_spec t h1 (fun v hv => hb v (by simp [hv]))
    refine ⟨hist', ?_, by simpa using h3⟩
    rw [List.foldlM_cons, histAdd, h.2 a ha]
    exact h2

theorem histDrop_spec {bits : Nat} : ∀ (L : List Nat) {hist N : List Nat}, Hist bits hist (L ++ N) → (∀ v ∈ L, v < 2 ^ bits) →
    ∃ hist', L.foldlM histDrop hist = some hist' ∧ Hist bits hist' N
  | [], hist, N, h, _ => ⟨hist, rfl, by simpa using h⟩
  | a :: t, hist, N, h, hb => by
    have ha := hb a (by simp)
    have hc : hist[a]? = some ((t ++ N).count a + 1) := by rw [h.2 a ha]; simp
    have h1 : Hist bits (hist.set a ((t ++ N).count a)) (t ++ N) := by
      refine ⟨by simpa using h.1, fun v hv => ?_⟩
      by_cases e : a = v
      · subst e; rw [List.getElem?_set_self (by rw [h.1]; exact hv)]
      · rw [List.getElem?_set_ne e, h.2 v hv]; simp [e]
    obtain ⟨hist', h2, h3⟩ := histDrop_spec t h1 (fun v hv => hb v (by simp [hv]))
    refine ⟨hist', ?_, h3⟩
    rw [List.foldlM_cons, histDrop, hc]
    exact h2

theorem countP_succ (N : List Nat) (v : Nat) : N.countP (· < v + 1) = N.countP (· < v) + N.count v := by
  induction N with
  | nil => rfl
  | cons a t ih =>
    rw [List.countP_cons, List.countP_cons, List.count_cons, ih]
    by_cases h1 : a < v
    · simp [h1, show a < v + 1 by omega, show ¬ a = v by omega]; omega
    · by_cases h2 : a = v
      · simp [h2]; omega
      · simp [h1, h2, show ¬ a < v + 1 by omega]

theorem search_spec {bits : Nat} {hist N : List Nat} (hh : Hist bits hist N) {pos : Nat} (hb : ∀ v ∈ N, v < 2 ^ bits) (hp : pos ≤ N.length) :
    ∀ (d i : Nat), i + d = 2 ^ bits → (i = 0 ∨ N.countP (· < i) < pos) → 0 < pos →
      N.countP (· < searchMedian pos (hist.drop i) i (N.countP (· < i))) < pos ∧
        pos ≤ N.countP (· ≤ searchMedian pos (hist.drop i) i (N.countP (· < i)))
  | 0, i, hd, hi, h0 => by
    exfalso
    have : N.countP (· < i) = N.length := by
      rw [List.countP_eq_length]; intro a ha; have := hb a ha; simp; omega
    have : 0 < 2 ^ bits := Nat.two_pow_pos bits
    omega
  | d + 1, i, hd, hi, h0 => by
    have hl : i < hist.length := by rw [hh.1]; omega
    have hget := hh.2 i (by omega)
    rw [List.getElem?_eq_getElem hl] at hget
    rw [List.drop_eq_getElem_cons hl, Option.some.inj hget, searchMedian, ← countP_succ]
    have hi' : N.countP (· < i) < pos := by
      rcases hi with rfl | h
      · simpa using h0
      · exact h
    by_cases hc : N.countP (· < i + 1) ≥ pos
    · rw [if_pos hc]
      refine ⟨hi', ?_⟩
      have : N.countP (· ≤ i) = N.countP (· < i + 1) := by congr 1; funext a; simp [Nat.lt_succ_iff]
      omega
    · rw [if_neg hc]
      exact search_spec hh hb hp d (i + 1) (by omega) (Or.inr (by omega)) h0

theorem search_rank {bits : Nat} {hist N : List Nat} (hh : Hist bits hist N) {pos : Nat} (hb : ∀ v ∈ N, v < 2 ^ bits) (hp : pos ≤ N.length)
    (h0 : 0 < pos) : IsRank N (pos - 1) (searchMedian pos hist 0 0) := by
  have := search_spec hh hb hp (2 ^ bits) 0 (by omega) (Or.inl rfl) h0
  rw [List.drop_zero, show N.countP (· < 0) = 0 by simp] at this
  exact rank_of_count (by omega) (by omega)

/-! ### The sliding window -/

theorem chunksOf_flatten {n : Nat} (hn : 0 < n) {rows : List (List α)} (h : ∀ r ∈ rows, r.length = n) : chunksOf n rows.flatten = rows := by
  have hl := rows_length h
  rw [Nat.mul_comm] at hl
  apply List.ext_getElem?
  intro y
  by_cases hy : y < rows.length
  · rw [chunksOf_get hn hl hy, List.getElem?_eq_getElem hy]
    congr 1
    apply List.ext_getElem?
    intro x
    have hr := h rows[y] (List.getElem_mem hy)
    by_cases hx : x < n
    · rw [row_get _ hx, rows_get h hx, List.getElem?_eq_getElem hy]; rfl
    · rw [List.getElem?_eq_none (by rw [row_length hl hy]; omega), List.getElem?_eq_none (by omega)]
  · rw [List.getElem?_eq_none (by rw [chunksOf_rows hn hl]; omega), List.getElem?_eq_none (by omega)]

/-- The first column of a window. -/
def firstCol (l : List Nat) (W n y x : Nat) : List Nat := (List.range n).map fun k => l[(y + k) * W + x]?.getD 0

theorem chunks_around {l : List α} {W n y x : Nat} (hn : 0 < n) (h : ∀ k < n, (y + k) * W + x + n ≤ l.length) :
    chunksOf n (around l W n y x) = (List.range n).map fun k => (l.drop ((y + k) * W + x)).take n := by
  unfold around
  apply chunksOf_flatten hn
  intro r hr
  obtain ⟨k, hk, rfl⟩ := List.mem_map.1 hr
  have := h k (List.mem_range.1 hk)
  rw [List.length_take, List.length_drop]; omega

theorem firsts_eq {l : List Nat} {W n y x : Nat} (hn : 0 < n) (h : ∀ k < n, (y + k) * W + x + n ≤ l.length) :
    (chunksOf n (around l W n y x)).mapM (·.head?) = some (firstCol l W n y x) := by
  rw [chunks_around hn h, List.mapM_map]
  apply mapM_some
  intro k hk
  have := h k (List.mem_range.1 hk)
  show List.head? (List.take n (List.drop ((y + k) * W + x) l)) = _
  rw [List.head?_eq_getElem?, List.getElem?_take_of_lt hn, List.getElem?_drop, Nat.add_zero, List.getElem?_eq_getElem (by omega)]
  rfl

theorem lasts_eq {l : List Nat} {W n y x : Nat} (hn : 0 < n) (h : ∀ k < n, (y + k) * W + x + n ≤ l.length) :
    (chunksOf n (around l W n y x)).mapM (·.getLast?) = some (firstCol l W n y (x + n - 1)) := by
  rw [chunks_around hn h, List.mapM_map]
  apply mapM_some
  intro k hk
  have := h k (List.mem_range.1 hk)
  show List.getLast? (List.take n (List.drop ((y + k) * W + x) l)) = _
  rw [List.getLast?_eq_getElem?, List.length_take, List.length_drop, show min n (l.length - ((y + k) * W + x)) - 1 = n - 1 by omega,
    List.getElem?_take_of_lt (by omega), List.getElem?_drop, show (y + k) * W + x + (n - 1) = (y + k) * W + (x + n - 1) by omega,
    List.getElem?_eq_getElem (by omega)]
  rfl

theorem slide_count (l : List Nat) (n v : Nat) (s : Nat → Nat) : ∀ (ks : List Nat), (∀ k ∈ ks, s k + n < l.length) →
    ((ks.map fun k => (l.drop (s k)).take n).flatten ++ ks.map fun k => l[s k + n]?.getD 0).count v =
      ((ks.map fun k => l[s k]?.getD 0) ++ (ks.map fun k => (l.drop (s k + 1)).take n).flatten).count v
  | [], _ => rfl
  | k :: t, h => by
    have hk := h k (by simp)
    have ih := slide_count l n v s t (fun k hk => h k (by simp [hk]))
    have e : (l.drop (s k)).take n ++ [l[s k + n]?.getD 0] = l[s k]?.getD 0 :: (l.drop (s k + 1)).take n := by
      have e1 : (l.drop (s k)).take (n + 1) = (l.drop (s k)).take n ++ [l[s k + n]?.getD 0] := by
        rw [List.take_add_one, List.getElem?_drop, List.getElem?_eq_getElem hk]; rfl
      rw [← e1, List.drop_eq_getElem_cons (show s k < l.length by omega), List.take_succ_cons, List.getElem?_eq_getElem (show s k < l.length by omega)]
      rfl
    have e2 := congrArg (List.count v) e
    simp only [List.count_append, List.count_cons, List.count_nil, List.map_cons, List.flatten_cons] at ih e2 ⊢
    omega

theorem slide {l : List Nat} {W n y x : Nat} (h : ∀ k < n, (y + k) * W + x + n < l.length) (v : Nat) :
    (around l W n y x ++ firstCol l W n y (x + n)).count v = (firstCol l W n y x ++ around l W n y (x + 1)).count v := by
  have := slide_count l n v (fun k => (y + k) * W + x) (List.range n) (fun k hk => h k (List.mem_range.1 hk))
  simpa [around, firstCol, Nat.add_assoc] using this

theorem around_mem {l : List α} {W n y x : Nat} {v : α} (h : v ∈ around l W n y x) : v ∈ l := by
  obtain ⟨r, hr, hv⟩ := List.mem_flatten.1 h
  obtain ⟨k, _, rfl⟩ := List.mem_map.1 hr
  exact List.mem_of_mem_drop (List.mem_of_mem_take hv)

theorem firstCol_mem {l : List Nat} {W n y x v : Nat} (hb : ∀ k < n, (y + k) * W + x < l.length) (h : v ∈ firstCol l W n y x) : v ∈ l := by
  obtain ⟨k, hk, rfl⟩ := List.mem_map.1 h
  rw [List.getElem?_eq_getElem (hb k (List.mem_range.1 hk))]
  exact List.getElem_mem _

/-- One call of the function of the median filter: the rank below the middle. -/
theorem medianStep_spec {bits n w W y x : Nat} {l : List Nat} {st : MedianState} (hn : 2 ≤ n) (hx : x < w)
    (hf : ∀ k < n, (y + k) * W + x + n ≤ l.length) (hb : ∀ v ∈ l, v < 2 ^ bits) (hc : st.counter = y * w + x) (hd : st.dropped.length = n)
    (hs : x ≠ 0 → Hist bits st.hist (around l W n y (x - 1)) ∧ st.dropped = firstCol l W n y (x - 1)) :
    ∃ v st', medianStep bits n w st (around l W n y x) = some (v, st') ∧ IsRank (around l W n y x) (n * n / 2 - 1) v ∧
      st'.counter = y * w + x + 1 ∧ Hist bits st'.hist (around l W n y x) ∧ st'.dropped = firstCol l W n y x := by
  have hlen := around_length hf
  have hfl : (firstCol l W n y x).length = n := by simp [firstCol]
  have hmod : st.counter % w = x := by rw [hc, Nat.mul_comm, Nat.mul_add_mod, Nat.mod_eq_of_lt hx]
  obtain ⟨hist, h1, h2⟩ : ∃ hist, (if st.counter % w = 0 then (around l W n y x).foldlM histAdd (List.replicate (2 ^ bits) 0)
      else (st.dropped.foldlM histDrop st.hist).bind fun hist =>
        ((chunksOf n (around l W n y x)).mapM List.getLast?).bind fun last => last.foldlM histAdd hist) = some hist ∧
      Hist bits hist (around l W n y x) := by
    by_cases h0 : x = 0
    · rw [if_pos (by omega)]
      exact histAdd_spec _ (hist_zero bits) (fun v hv => hb v (around_mem hv))
    · rw [if_neg (by omega)]
      obtain ⟨hh, hdr⟩ := hs h0
      have hf' : ∀ k < n, (y + k) * W + (x - 1) + n < l.length := fun k hk => by have := hf k hk; omega
      have hsl := slide hf'
      rw [show x - 1 + n = x + n - 1 by omega, show x - 1 + 1 = x by omega] at hsl
      rw [lasts_eq (by omega) hf]
      -- drop first, then add: the counts of the window without its first column
      obtain ⟨M, hM⟩ : ∃ M : List Nat, ∀ v, (around l W n y (x - 1)).count v = (firstCol l W n y (x - 1) ++ M).count v := by
        have : ∀ ks : List Nat, (∀ k ∈ ks, (y + k) * W + (x - 1) < l.length) →
            ∃ M : List Nat, ∀ v, ((ks.map fun k => (l.drop ((y + k) * W + (x - 1))).take n).flatten).count v =
              ((ks.map fun k => l[(y + k) * W + (x - 1)]?.getD 0) ++ M).count v := by
          intro ks
          induction ks with
          | nil => intro _; exact ⟨[], fun v => rfl⟩
          | cons k t ih =>
            intro hk
            have h1 := hk k (by simp)
            obtain ⟨M, hM⟩ := ih (fun k hk' => hk k (by simp [hk']))
            refine ⟨(l.drop ((y + k) * W + (x - 1) + 1)).take (n - 1) ++ M, fun v => ?_⟩
            obtain ⟨m, rfl⟩ : ∃ m, n = m + 1 := ⟨n - 1, by omega⟩
            have := hM v
            rw [List.map_cons, List.map_cons, List.flatten_cons, List.count_append, List.drop_eq_getElem_cons h1, List.take_succ_cons,
              List.cons_append, List.count_cons, List.count_cons, List.getElem?_eq_getElem h1]
            simp only [Option.getD_some, Nat.add_sub_cancel, List.count_append] at this ⊢
            omega
        exact this _ (fun k hk => by have := hf' k (List.mem_range.1 hk); omega)
      obtain ⟨hi1, e1, g1⟩ := histDrop_spec (firstCol l W n y (x - 1)) (N := M)
        (hh.congr hM)
        (fun v hv => hb v (firstCol_mem (fun k hk => by have := hf' k hk; omega) hv))
      obtain ⟨hi2, e2, g2⟩ := histAdd_spec (firstCol l W n y (x + n - 1)) g1
        (fun v hv => hb v (firstCol_mem (fun k hk => by have := hf k hk; omega) hv))
      refine ⟨hi2, ?_, g2.congr ?_⟩
      · rw [hdr, e1]; exact e2
      · intro v
        have a1 := hsl v
        have a2 := hM v
        simp only [List.count_append] at a1 a2 ⊢
        omega
  refine ⟨searchMedian ((around l W n y x).length / 2) hist 0 0, ⟨hist, firstCol l W n y x, st.counter + 1⟩, ?_, ?_, by rw [hc], h2, rfl⟩
  · have : medianStep bits n w st (around l W n y x) = ((if st.counter % w = 0 then (around l W n y x).foldlM histAdd (List.replicate (2 ^ bits) 0)
        else (st.dropped.foldlM histDrop st.hist).bind fun hist =>
          ((chunksOf n (around l W n y x)).mapM List.getLast?).bind fun last => last.foldlM histAdd hist)).bind fun hist =>
        ((chunksOf n (around l W n y x)).mapM List.head?).bind fun firsts =>
          some (searchMedian ((around l W n y x).length / 2) hist 0 0,
            ⟨hist, firsts.take st.dropped.length ++ st.dropped.drop firsts.length, st.counter + 1⟩) := by
      unfold medianStep
      by_cases h0 : st.counter % w = 0
      · simp only [if_pos h0]; rfl
      · simp only [if_neg h0, Option.bind_eq_bind, Option.bind_assoc]; rfl
    rw [this, h1, firsts_eq (by omega) hf, Option.bind_some, Option.bind_some, hd, hfl, List.take_of_length_le (by omega), List.drop_eq_nil_of_le (by omega),
      List.append_nil]
  · have hnn : 4 ≤ n * n := Nat.mul_le_mul hn hn
    have := search_rank h2 (pos := (around l W n y x).length / 2) (fun v hv => hb v (around_mem hv)) (by omega) (by rw [hlen]; omega)
    rw [hlen] at this ⊢
    exact this

end Zune.Imageprocs
