/-
Pictures made from pixels, from a function or from a constant show them (C124).
-/
import Verif.Image.MakeModel
import Verif.Image.Split

namespace Zune.Make

open Zune.Split (deinterleave gather flatten split3 three)

variable {α : Type}

/-! ### Lemmas -/

theorem raster_eq (w h : Nat) : raster w h = (List.range (w * h)).map fun k => (k / w, k % w) := by
  induction h with
  | zero => rfl
  | succ h ih =>
    have e : raster w (h + 1) = raster w h ++ (List.range w).map fun x => (h, x) := by
      unfold raster
      rw [List.range_succ, List.flatMap_append]
      simp
    rw [e, ih, Nat.mul_succ, List.range_add, List.map_append, List.map_map]
    congr 1
    apply List.map_congr_left
    intro x hx
    have hx := List.mem_range.1 hx
    show (h, x) = ((w * h + x) / w, (w * h + x) % w)
    rw [Nat.mul_add_div (by omega), Nat.div_eq_of_lt hx, Nat.mul_add_mod, Nat.mod_eq_of_lt hx, Nat.add_zero]

/-- The first `k` samples of the first `m` channels are new. -/
def done (m k : Nat) (new : Nat → Fin 4 → α) (cs : List (List α)) : List (List α) :=
  cs.mapIdx fun i c => if h : i < m ∧ i < 4 then (List.range k).map (fun j => new j ⟨i, h.2⟩) ++ c.drop k else c

theorem done_zero (m : Nat) (new : Nat → Fin 4 → α) (cs : List (List α)) : done m 0 new cs = cs := by
  unfold done
  apply List.ext_getElem?
  intro i
  rw [List.getElem?_mapIdx]
  cases cs[i]? with
  | none => rfl
  | some c => simp

theorem done_succ (m k : Nat) (new : Nat → Fin 4 → α) (cs : List (List α)) (hc : ∀ c ∈ cs.take (min m 4), k < c.length) :
    storePixel m k (new k) (done m k new cs) = done m (k + 1) new cs := by
  unfold storePixel done
  rw [List.mapIdx_mapIdx]
  apply List.ext_getElem?
  intro i
  rw [List.getElem?_mapIdx, List.getElem?_mapIdx]
  cases hi : cs[i]? with
  | none => rfl
  | some c =>
    simp only [Option.map_some, Function.comp, Option.some.injEq]
    by_cases h : i < m ∧ i < 4
    · rw [dif_pos h, dif_pos h, dif_pos h]
      have hk : k < c.length := hc c (List.mem_of_getElem? (i := i) (by rw [List.getElem?_take_of_lt (by omega)]; exact hi))
      rw [List.set_append_right _ _ (by simp), List.length_map, List.length_range, Nat.sub_self, List.drop_eq_getElem_cons hk,
        List.set_cons_zero, List.range_succ, List.map_append, List.append_assoc]
      rfl
    · rw [dif_neg h, dif_neg h, dif_neg h]

theorem done_length (m k : Nat) (new : Nat → Fin 4 → α) (cs : List (List α)) (n : Nat) (hk : k ≤ n) (hc : ∀ c ∈ cs.take m, c.length = n) :
    ∀ c ∈ (done m k new cs).take m, c.length = n := by
  intro c hm
  obtain ⟨i, hi⟩ := List.mem_iff_getElem?.1 hm
  by_cases him : i < m
  · rw [List.getElem?_take_of_lt him, done, List.getElem?_mapIdx] at hi
    cases hci : cs[i]? with
    | none => rw [hci] at hi; simp at hi
    | some d =>
      rw [hci] at hi
      have hd : d.length = n := hc d (List.mem_of_getElem? (i := i) (by rw [List.getElem?_take_of_lt him]; exact hci))
      simp only [Option.map_some, Option.some.injEq] at hi
      subst hi
      split
      · rw [List.length_append, List.length_map, List.length_range, List.length_drop, hd]; omega
      · exact hd
  · rw [List.getElem?_take_eq_none (by omega)] at hi
    simp at hi

/-- The array after `k` calls in raster order. -/
def after (func : Nat → Nat → (Fin 4 → α) → Fin 4 → α) (w : Nat) (px : Fin 4 → α) : Nat → Fin 4 → α
  | 0 => px
  | k + 1 => func (k / w) (k % w) (after func w px k)

theorem fnLoop_eq (func : Nat → Nat → (Fin 4 → α) → Fin 4 → α) (w n : Nat) (px : Fin 4 → α) (cs : List (List α)) (hc : ∀ c ∈ cs, c.length = n) :
    ∀ (j k : Nat), k + j = n →
      fnLoop func w ((List.range' k j).map fun k => (k / w, k % w)) (after func w px k) (done cs.length k (fun k => after func w px (k + 1)) cs) =
        some (done cs.length n (fun k => after func w px (k + 1)) cs) := by
  intro j
  induction j with
  | zero => intro k hk; rw [show k = n by omega]; rfl
  | succ j ih =>
    intro k hk
    have hlen : (done cs.length k (fun k => after func w px (k + 1)) cs).length = cs.length := by simp [done]
    have hdl := done_length cs.length k (fun k => after func w px (k + 1)) cs n (by omega) (by rwa [List.take_length])
    rw [List.take_of_length_le (by omega)] at hdl
    rw [List.range'_succ, List.map_cons, fnLoop]
    rw [show k / w * w + k % w = k by rw [Nat.mul_comm]; exact Nat.div_add_mod k w, if_pos (by
      rw [List.all_eq_true]
      intro c hm
      rw [hdl c hm]
      simp only [decide_eq_true_eq]
      omega), hlen]
    have e := done_succ cs.length k (fun k => after func w px (k + 1)) cs (fun c hm => by rw [hc c (List.mem_of_mem_take hm)]; omega)
    rw [show func (k / w) (k % w) (after func w px k) = after func w px (k + 1) from rfl, e]
    exact ih (k + 1) (by omega)

theorem modifyLoop_eq (z : α) (func : Nat → Nat → (Fin 4 → α) → Fin 4 → α) (comps w n : Nat) (cs : List (List α))
    (hc : ∀ c ∈ cs.take (min comps 4), c.length = n) (old : Nat → Fin 4 → α)
    (ho : ∀ j < n, ∀ i : Fin 4, old j i = if i.val < min comps 4 then ((cs[i.val]?).bind fun c => c[j]?).getD z else z) :
    ∀ (j k : Nat), k + j = n →
      modifyLoop z func comps w ((List.range' k j).map fun k => (k / w, k % w)) (done (min comps 4) k (fun k => func (k / w) (k % w) (old k)) cs) =
        some (done (min comps 4) n (fun k => func (k / w) (k % w) (old k)) cs) := by
  intro j
  induction j with
  | zero => intro k hk; rw [show k = n by omega]; rfl
  | succ j ih =>
    intro k hk
    have hdl := done_length (min comps 4) k (fun k => func (k / w) (k % w) (old k)) cs n (by omega) hc
    rw [List.range'_succ, List.map_cons, modifyLoop]
    unfold modifyPixel
    dsimp only
    rw [show k / w * w + k % w = k by rw [Nat.mul_comm]; exact Nat.div_add_mod k w, if_pos (by
      rw [List.all_eq_true]
      intro c hm
      rw [hdl c hm]
      simp only [decide_eq_true_eq]
      omega), Option.bind_some]
    have hpx : (fun i : Fin 4 => if i.val < min comps 4 then
        (((done (min comps 4) k (fun k => func (k / w) (k % w) (old k)) cs)[i.val]?).bind fun c => c[k]?).getD z else z) = old k := by
      funext i
      rw [ho k (by omega) i]
      by_cases hi : i.val < min comps 4
      · rw [if_pos hi, if_pos hi, done, List.getElem?_mapIdx]
        cases hci : cs[i.val]? with
        | none => rfl
        | some c =>
          rw [Option.map_some, dif_pos ⟨hi, by omega⟩, Option.bind_some, Option.bind_some, List.getElem?_append_right (by simp), List.length_map,
            List.length_range, Nat.sub_self, List.getElem?_drop, Nat.add_zero]
      · rw [if_neg hi, if_neg hi]
    rw [hpx]
    have e := done_succ (min comps 4) k (fun k => func (k / w) (k % w) (old k)) cs (fun c hm => by
      rw [Nat.min_assoc, Nat.min_self] at hm
      rw [hc c hm]; omega)
    rw [e]
    exact ih (k + 1) (by omega)

/-! ### Specification -/

namespace Spec

/-- The sample in row `y` and column `x` of component `c` of frame `k`. -/
def sample (im : Image α) (k y x c : Nat) : Option α :=
  (im.frames[k]?).bind fun fr => (fr.channels[c]?).bind fun ch => ch[y * im.width + x]?

/-- The picture has one frame of `w` by `h` pixels with `n` components, and sample `c` of the pixel in row `y` and column `x` is `g y x c`. -/
structure Shows (im : Image α) (w h n : Nat) (g : Nat → Nat → Nat → Option α) : Prop where
  dims : im.width = w ∧ im.height = h ∧ im.comps = n
  one : im.frames.length = 1
  count : ∀ fr ∈ im.frames, fr.channels.length = n ∧ ∀ c ∈ fr.channels, c.length = w * h
  samples : ∀ y < h, ∀ x < w, ∀ c < n, ∃ v, g y x c = some v ∧ sample im 0 y x c = some v

end Spec
open Spec

theorem pos_lt {w h y x : Nat} (hy : y < h) (hx : x < w) : y * w + x < w * h := by
  have : (y + 1) * w ≤ h * w := Nat.mul_le_mul_right w hy
  rw [Nat.add_mul, Nat.one_mul] at this
  rw [Nat.mul_comm w h]
  omega

theorem div_mod_pos {w x : Nat} (y : Nat) (hx : x < w) : (y * w + x) / w = y ∧ (y * w + x) % w = x := by
  rw [Nat.mul_comm y w]
  constructor
  · rw [Nat.mul_add_div (by omega), Nat.div_eq_of_lt hx, Nat.add_zero]
  · rw [Nat.mul_add_mod, Nat.mod_eq_of_lt hx]

theorem flat_get {n : Nat} {ps : List (List α)} (h : ∀ p ∈ ps, p.length = n) (i c : Nat) (hc : c < n) :
    ps.flatten[i * n + c]? = ps[i]?.bind fun p => p[c]? := by
  rw [← List.getElem?_drop, Nat.mul_comm, Split.flatten_drop h]
  rcases Nat.lt_or_ge i ps.length with hi | hi
  · rw [List.drop_eq_getElem_cons hi, List.flatten_cons, List.getElem?_append_left (by rw [h _ (List.getElem_mem hi)]; exact hc),
      List.getElem?_eq_getElem hi, Option.bind_some]
  · rw [List.drop_eq_nil_of_le hi, List.getElem?_eq_none hi]; rfl

theorem fromPixels_aux (z : α) (three : List α → List α → List α → List α → Except Split.Err (List α × List α × List α))
    (hd : ∀ n, 0 < n → ∀ ps : List (List α), ps ≠ [] → (∀ p ∈ ps, p.length = n) → deinterleave z three n ps.flatten = .ok (Split.Spec.planes n ps))
    (px : List α) (w h n : Nat) :
    (0 < w * h * n ∧ w * h * n < 2 ^ 64 ∧ px.length = w * h * n →
      ∃ im fr, fromPixels z three px w h n = some im ∧ Shows im w h n (fun y x c => px[(y * w + x) * n + c]?) ∧ im.frames = [fr] ∧
        flatten fr.channels = .ok px) ∧
    (¬ (0 < w * h * n ∧ w * h * n < 2 ^ 64 ∧ px.length = w * h * n) → fromPixels z three px w h n = none) := by
  constructor
  · rintro ⟨h0, h1, h2⟩
    have hn : 0 < n := Nat.pos_of_mul_pos_left h0
    have hwh : 0 < w * h := Nat.pos_of_mul_pos_right h0
    have hle : w * h ≤ w * h * n := Nat.le_mul_of_pos_right _ hn
    obtain ⟨ps, hp1, hp2, rfl⟩ := Split.exists_pixels hn (w * h) px (by rw [h2, Nat.mul_comm])
    have hne : ps ≠ [] := by
      intro he
      rw [he] at hp2
      rw [← hp2] at hwh
      exact absurd hwh (by simp)
    refine ⟨newImage (Split.Spec.planes n ps) w h n, ⟨Split.Spec.planes n ps, 1, 1⟩, ?_, ⟨⟨rfl, rfl, rfl⟩, rfl, ?_, ?_⟩, rfl,
      Split.flatten_planes hn ps hp1⟩
    · unfold fromPixels checkedMul
      rw [if_pos ⟨by omega, h1⟩]
      dsimp only
      rw [if_pos h2, hd n hn ps hne hp1]
    · intro fr hfr
      rw [List.mem_singleton.1 hfr]
      refine ⟨by simp [Split.Spec.planes], fun c hc => ?_⟩
      obtain ⟨k, hk, rfl⟩ := List.mem_map.1 hc
      rw [Split.plane_length hp1 (List.mem_range.1 hk), hp2]
    · intro y hy x hx c hc
      have hi := pos_lt hy hx
      have hlt : y * w + x < ps.length := by omega
      have e1 : (ps[y * w + x]?.bind fun p => p[c]?) = some ((ps[y * w + x]'hlt)[c]'(by rw [hp1 _ (List.getElem_mem hlt)]; exact hc)) := by
        rw [List.getElem?_eq_getElem hlt, Option.bind_some, List.getElem?_eq_getElem]
      refine ⟨_, (flat_get hp1 _ c hc).trans e1, ?_⟩
      unfold sample newImage
      simp only [List.getElem?_cons_zero, Option.bind_some]
      rw [Split.Spec.planes, List.getElem?_map, List.getElem?_range hc, Option.map_some, Option.bind_some, Split.plane_get hp1 hc, e1]
  · intro hno
    unfold fromPixels checkedMul
    split
    · rfl
    · next e he =>
      split at he
      · next hlt =>
        have he : w * h * n = e := by simpa using he
        split
        · next hl =>
          have h0 : w * h * n = 0 := by
            by_contra hc
            exact hno ⟨by omega, hlt.2, by omega⟩
          have hd0 : px = [] := List.length_eq_zero_iff.1 (by omega)
          subst hd0
          have : deinterleave z three n [] = .error .panic ∨ deinterleave z three n [] = .error .tooSmall := by
            unfold deinterleave
            by_cases hn : n = 0
            · left; rw [if_pos hn]
            · right; rw [if_neg hn, if_neg (by simp)]; simp
          rcases this with e | e <;> rw [e]
        · rfl
      · simp at he

/-! ### Theorems -/

/-- **C124** (`from_u16`, `from_f32`). With as many samples as pixels and components, and at least one, the picture shows them and flattening gives
them back; otherwise the call panics. -/
theorem c124_from_pixels (z : α) (px : List α) (w h n : Nat) :
    (0 < w * h * n ∧ w * h * n < 2 ^ 64 ∧ px.length = w * h * n →
      ∃ im fr, fromPixels z (fun l a b c => .ok (split3 l a b c)) px w h n = some im ∧ Shows im w h n (fun y x c => px[(y * w + x) * n + c]?) ∧
        im.frames = [fr] ∧ flatten fr.channels = .ok px) ∧
    (¬ (0 < w * h * n ∧ w * h * n < 2 ^ 64 ∧ px.length = w * h * n) → fromPixels z (fun l a b c => .ok (split3 l a b c)) px w h n = none) :=
  fromPixels_aux z _ (fun n hn ps => Split.c29_planes z n hn ps) px w h n

/-- **C124** (`from_u8`, whatever the processor offers). -/
theorem c124_from_bytes (isa : Split.Isa) (px : List UInt8) (w h n : Nat) :
    (0 < w * h * n ∧ w * h * n < 2 ^ 64 ∧ px.length = w * h * n →
      ∃ im fr, fromPixels 0 (three isa) px w h n = some im ∧ Shows im w h n (fun y x c => px[(y * w + x) * n + c]?) ∧
        im.frames = [fr] ∧ flatten fr.channels = .ok px) ∧
    (¬ (0 < w * h * n ∧ w * h * n < 2 ^ 64 ∧ px.length = w * h * n) → fromPixels 0 (three isa) px w h n = none) :=
  fromPixels_aux 0 _ (fun n hn ps => Split.c29_planes_u8 isa n hn ps) px w h n

example : (0 < 2 * 1 * 3 ∧ 2 * 1 * 3 < 2 ^ 64 ∧ ([1, 2, 3, 4, 5, 6] : List UInt8).length = 2 * 1 * 3) ∧
    fromPixels 0 (three .scalar) [1, 2, 3, 4, 5, 6] 2 1 3 = some ⟨[⟨[[1, 4], [2, 5], [3, 6]], 1, 1⟩], 2, 1, 3⟩ := by decide +kernel

/-- **C124** (`fill`). Each sample is the given one. -/
theorem c124_fill (v : α) (n w h : Nat) (hlt : w * h < 2 ^ 64) : ∃ im, fill v n w h = some im ∧ Shows im w h n (fun _ _ _ => some v) := by
  refine ⟨newImage (List.replicate n (List.replicate (w * h) v)) w h n, by unfold fill; rw [if_pos hlt], ⟨rfl, rfl, rfl⟩, rfl, ?_, ?_⟩
  · intro fr hfr
    rw [List.mem_singleton.1 hfr]
    refine ⟨by simp, fun c hc => ?_⟩
    rw [List.eq_of_mem_replicate hc, List.length_replicate]
  · intro y hy x hx c hc
    refine ⟨v, rfl, ?_⟩
    unfold sample newImage
    simp only [List.getElem?_cons_zero, Option.bind_some]
    rw [List.getElem?_replicate, if_pos hc, Option.bind_some, List.getElem?_replicate, if_pos (pos_lt hy hx)]

example : fill (7 : UInt8) 2 3 1 = some ⟨[⟨[[7, 7, 7], [7, 7, 7]], 1, 1⟩], 3, 1, 2⟩ := by decide +kernel

/-- **C124** (`from_fn`, in general). The function is called once for each pixel, row by row, with its row and column and with the array as the last
call left it; the pixel is what is in the array afterwards. -/
theorem c124_from_fn (z : α) (w h n : Nat) (hn : 1 ≤ n ∧ n ≤ 4) (func : Nat → Nat → (Fin 4 → α) → Fin 4 → α) (state : Nat → Fin 4 → α)
    (h0 : state 0 = fun _ => z) (hs : ∀ y < h, ∀ x < w, state (y * w + x + 1) = func y x (state (y * w + x))) :
    ∃ im, fromFn z w h n func = some im ∧
      Shows im w h n (fun y x c => if hc : c < 4 then some (state (y * w + x + 1) ⟨c, hc⟩) else none) := by
  have hst : ∀ k ≤ w * h, after func w (fun _ => z) k = state k := by
    intro k
    induction k with
    | zero => intro _; exact h0.symm
    | succ k ih =>
      intro hk
      have hw : 0 < w := Nat.pos_of_mul_pos_right (show 0 < w * h by omega)
      have hdm : k / w * w + k % w = k := by rw [Nat.mul_comm]; exact Nat.div_add_mod k w
      have := hs (k / w) (Nat.div_lt_of_lt_mul (by omega)) (k % w) (Nat.mod_lt _ hw)
      rw [hdm] at this
      rw [after, ih (by omega), this]
  have e := fnLoop_eq func w (w * h) (fun _ => z) (List.replicate n (List.replicate (w * h) z))
    (fun c hc => by rw [List.eq_of_mem_replicate hc, List.length_replicate]) (w * h) 0 (by omega)
  rw [done_zero, ← List.range_eq_range', ← raster_eq, List.length_replicate] at e
  refine ⟨newImage (done n (w * h) (fun k => after func w (fun _ => z) (k + 1)) (List.replicate n (List.replicate (w * h) z))) w h n, ?_,
    ⟨rfl, rfl, rfl⟩, rfl, ?_, ?_⟩
  · unfold fromFn
    rw [if_pos (by omega)]
    show Option.map _ (fnLoop func w (raster w h) (after func w (fun _ => z) 0) _) = _
    rw [e]
    rfl
  · intro fr hfr
    rw [List.mem_singleton.1 hfr]
    have hlen : (done n (w * h) (fun k => after func w (fun _ => z) (k + 1)) (List.replicate n (List.replicate (w * h) z))).length = n := by
      simp [done]
    refine ⟨hlen, ?_⟩
    have := done_length n (w * h) (fun k => after func w (fun _ => z) (k + 1)) (List.replicate n (List.replicate (w * h) z)) (w * h) (Nat.le_refl _)
      (fun c hc => by rw [List.eq_of_mem_replicate (List.mem_of_mem_take hc), List.length_replicate])
    rwa [List.take_of_length_le (by omega)] at this
  · intro y hy x hx c hc
    have hp := pos_lt hy hx
    have hc4 : c < 4 := by omega
    refine ⟨state (y * w + x + 1) ⟨c, hc4⟩, by rw [dif_pos hc4], ?_⟩
    unfold sample newImage
    simp only [List.getElem?_cons_zero, Option.bind_some]
    rw [done, List.getElem?_mapIdx, List.getElem?_replicate, if_pos hc, Option.map_some, Option.bind_some, dif_pos ⟨hc, hc4⟩,
      List.getElem?_append_left (by simpa using hp), List.getElem?_map, List.getElem?_range hp, Option.map_some, hst _ (by omega)]

/-- **C124** (`from_fn`). A function which sets all components makes the picture that shows it. -/
theorem c124_from_fn_set (z : α) (w h n : Nat) (hn : 1 ≤ n ∧ n ≤ 4) (g : Nat → Nat → Fin 4 → α) (func : Nat → Nat → (Fin 4 → α) → Fin 4 → α)
    (hf : ∀ y x px c, c.val < n → func y x px c = g y x c) :
    ∃ im, fromFn z w h n func = some im ∧ Shows im w h n (fun y x c => if hc : c < 4 then some (g y x ⟨c, hc⟩) else none) := by
  obtain ⟨im, h1, h2⟩ := c124_from_fn z w h n hn func (after func w fun _ => z) rfl (fun y hy x hx => by
    rw [after, (div_mod_pos y hx).1, (div_mod_pos y hx).2])
  refine ⟨im, h1, h2.dims, h2.one, h2.count, fun y hy x hx c hc => ?_⟩
  obtain ⟨v, hv, hs⟩ := h2.samples y hy x hx c hc
  have hc4 : c < 4 := by omega
  refine ⟨v, ?_, hs⟩
  rw [dif_pos hc4] at hv ⊢
  rw [← hv, after, (div_mod_pos y hx).1, (div_mod_pos y hx).2, hf _ _ _ _ hc]

/-- A function for the examples: the first component is ten times the row plus the column, the second one. -/
def exFn (y x : Nat) (px : Fin 4 → Nat) (i : Fin 4) : Nat := if i.val = 0 then 10 * y + x else if i.val = 1 then 1 else px i

example : (∀ y x px (c : Fin 4), c.val < 2 → exFn y x px c = if c.val = 0 then 10 * y + x else 1) ∧
    fromFn 0 3 2 2 exFn = some ⟨[⟨[[0, 1, 2, 10, 11, 12], [1, 1, 1, 1, 1, 1]], 1, 1⟩], 3, 2, 2⟩ := by
  refine ⟨?_, by decide +kernel⟩
  intro y x px c hc
  unfold exFn
  split
  · rfl
  · rw [if_pos (by omega)]

/-- A function that writes the pixel in column 0 only. -/
def exFirst (_y x : Nat) (px : Fin 4 → Nat) : Fin 4 → Nat := if x = 0 then fun _ => 9 else px

/-- **C124** (disagreement). A function that leaves a pixel alone does not get the default pixel there, but that of the pixel before. -/
theorem c124_from_fn_carry_wrong : (∀ px, exFirst 0 1 px = px) ∧ fromFn 0 2 1 1 exFirst = some ⟨[⟨[[9, 9]], 1, 1⟩], 2, 1, 1⟩ :=
  ⟨fun _ => rfl, by decide +kernel⟩

/-- **C124** (`modify_pixels_mut`). In each frame each pixel, that is its first four components, is replaced by what the function makes of it, and nothing
else changes. -/
theorem c124_modify (z : α) (func : Nat → Nat → (Fin 4 → α) → Fin 4 → α) (im : Image α)
    (hl : ∀ fr ∈ im.frames, im.comps ≤ fr.channels.length ∧ ∀ c ∈ fr.channels, c.length = im.width * im.height) :
    ∃ out, modifyPixels z func im = some out ∧ out.width = im.width ∧ out.height = im.height ∧ out.comps = im.comps ∧
      out.frames.length = im.frames.length ∧
      ∀ (k : Nat) (fr : Frame α), im.frames[k]? = some fr → ∃ fo, out.frames[k]? = some fo ∧ fo.numerator = fr.numerator ∧
        fo.denominator = fr.denominator ∧ fo.channels.length = fr.channels.length ∧
        (∀ c ∈ fo.channels, c.length = im.width * im.height) ∧
        (∀ i, im.comps ≤ i ∨ 4 ≤ i → fo.channels[i]? = fr.channels[i]?) ∧
        ∀ y < im.height, ∀ x < im.width, ∀ px : Fin 4 → α,
          (∀ c : Fin 4, if c.val < im.comps then sample im k y x c = some (px c) else px c = z) →
          ∀ c : Fin 4, c.val < im.comps → sample out k y x c = some (func y x px c) := by
  have hfr : ∀ fr ∈ im.frames, ∃ fo, modifyFrame z func im fr = some fo ∧ fo.numerator = fr.numerator ∧
        fo.denominator = fr.denominator ∧ fo.channels.length = fr.channels.length ∧
        (∀ c ∈ fo.channels, c.length = im.width * im.height) ∧
        (∀ i, im.comps ≤ i ∨ 4 ≤ i → fo.channels[i]? = fr.channels[i]?) ∧
        ∀ y < im.height, ∀ x < im.width, ∀ px : Fin 4 → α,
          (∀ c : Fin 4, if c.val < im.comps then ((fr.channels[c.val]?).bind fun ch => ch[y * im.width + x]?) = some (px c) else px c = z) →
          ∀ c : Fin 4, c.val < im.comps → ((fo.channels[c.val]?).bind fun ch => ch[y * im.width + x]?) = some (func y x px c) := by
    intro fr hm
    obtain ⟨h1, h2⟩ := hl fr hm
    obtain ⟨old, ho⟩ : ∃ old : Nat → Fin 4 → α, ∀ j i, old j i = if i.val < min im.comps 4 then
        ((fr.channels[i.val]?).bind fun c => c[j]?).getD z else z := ⟨_, fun _ _ => rfl⟩
    have e := modifyLoop_eq z func im.comps im.width (im.width * im.height) fr.channels
      (fun c hc => h2 c (List.mem_of_mem_take hc)) old (fun j _ i => ho j i) (im.width * im.height) 0 (by omega)
    rw [done_zero, ← List.range_eq_range', ← raster_eq] at e
    refine ⟨{ fr with channels := done (min im.comps 4) (im.width * im.height) (fun k => func (k / im.width) (k % im.width) (old k)) fr.channels },
      ?_, rfl, rfl, by simp [done], ?_, ?_, ?_⟩
    · unfold modifyFrame
      rw [if_pos h1, e]
      rfl
    · intro c hc
      have := done_length fr.channels.length (im.width * im.height) (fun k => func (k / im.width) (k % im.width) (old k)) fr.channels
        (im.width * im.height) (Nat.le_refl _) (by rwa [List.take_length])
      obtain ⟨i, hi⟩ := List.mem_iff_getElem?.1 hc
      simp only [done, List.getElem?_mapIdx] at hi
      cases hci : fr.channels[i]? with
      | none => rw [hci] at hi; simp at hi
      | some d =>
        rw [hci] at hi
        have hd := h2 d (List.mem_of_getElem? hci)
        simp only [Option.map_some, Option.some.injEq] at hi
        subst hi
        split
        · rw [List.length_append, List.length_map, List.length_range, List.length_drop, hd]; omega
        · exact hd
    · intro i hi
      simp only [done, List.getElem?_mapIdx]
      cases fr.channels[i]? with
      | none => rfl
      | some d => rw [Option.map_some, dif_neg (by omega)]
    · intro y hy x hx px hpx c hc
      have hp := pos_lt hy hx
      have hold : old (y * im.width + x) = px := by
        funext i
        rw [ho]
        have := hpx i
        by_cases hi : i.val < im.comps
        · rw [if_pos (by omega)]
          rw [if_pos hi] at this
          rw [this, Option.getD_some]
        · rw [if_neg (by omega)]
          rw [if_neg hi] at this
          exact this.symm
      have hci : fr.channels[c.val]? = some (fr.channels[c.val]'(by omega)) := List.getElem?_eq_getElem _
      simp only [done, List.getElem?_mapIdx]
      rw [hci, Option.map_some, Option.bind_some, dif_pos ⟨by omega, c.isLt⟩, List.getElem?_append_left (by simpa using hp), List.getElem?_map,
        List.getElem?_range hp, Option.map_some, (div_mod_pos y hx).1, (div_mod_pos y hx).2, hold]
  choose! F hF using hfr
  have hmap : im.frames.mapM (modifyFrame z func im) = some (im.frames.map F) := by
    have : ∀ l : List (Frame α), (∀ fr ∈ l, modifyFrame z func im fr = some (F fr)) → l.mapM (modifyFrame z func im) = some (l.map F) := by
      intro l
      induction l with
      | nil => intro _; rfl
      | cons a l ih =>
        intro hl
        rw [List.mapM_cons, hl a (by simp), ih fun fr hm => hl fr (by simp [hm])]
        rfl
    exact this _ fun fr hm => (hF fr hm).1
  refine ⟨{ im with frames := im.frames.map F }, ?_, rfl, rfl, rfl, by simp, ?_⟩
  · unfold modifyPixels
    rw [hmap]
    rfl
  · intro k fr hk
    have hm := List.mem_of_getElem? hk
    obtain ⟨_, f2, f3, f4, f5, f6, f7⟩ := hF fr hm
    refine ⟨F fr, by simp [hk], f2, f3, f4, f5, f6, ?_⟩
    intro y hy x hx px hpx c hc
    have hs : ∀ c, sample { im with frames := im.frames.map F } k y x c = ((F fr).channels[c]?).bind fun ch => ch[y * im.width + x]? := by
      intro c
      simp [sample, hk]
    rw [hs]
    refine f7 y hy x hx px (fun c => ?_) c hc
    have := hpx c
    simpa [sample, hk] using this

/-- The first two components change places, the row is added to the third. -/
def exSwap (y _x : Nat) (px : Fin 4 → Nat) (i : Fin 4) : Nat := if i.val = 0 then px 1 else if i.val = 1 then px 0 else px i + y

/-- A picture of two frames for the example. -/
def exPicture : Image Nat := ⟨[⟨[[1, 2], [3, 4], [5, 6]], 1, 1⟩, ⟨[[7, 8], [9, 10], [0, 0]], 2, 1⟩], 1, 2, 3⟩

example : (∀ fr ∈ exPicture.frames, exPicture.comps ≤ fr.channels.length ∧ ∀ c ∈ fr.channels, c.length = exPicture.width * exPicture.height) ∧
    modifyPixels 0 exSwap exPicture =
      some ⟨[⟨[[3, 4], [1, 2], [5, 7]], 1, 1⟩, ⟨[[9, 10], [7, 8], [0, 1]], 2, 1⟩], 1, 2, 3⟩ := by decide +kernel

theorem low_byte (v : UInt16) : v.toUInt8 = UInt8.ofNat (v.toNat % 256) := by
  apply UInt8.toNat_inj.1
  simp

theorem over_full (n : Nat) (l : List UInt8) (h : n = l.length) : over n l = l := by
  unfold over
  rw [h, Nat.sub_self]
  simp

theorem flatMap_length (enc : UInt16 → List UInt8) (he : ∀ v, (enc v).length = 2) (l : List UInt16) : (l.flatMap enc).length = 2 * l.length := by
  induction l with
  | nil => rfl
  | cons a l ih => rw [List.flatMap_cons, List.length_append, he, ih, List.length_cons]; omega

theorem u16Bytes_eq (enc : UInt16 → List UInt8) (he : ∀ v, (enc v).length = 2) (m : Nat) (cs : List (List UInt16)) (hne : cs ≠ [])
    (h : ∀ c ∈ cs, c.length = m) (l : List UInt16) (hl : flatten cs = .ok l) : u16Bytes enc cs.length cs = some (l.flatMap enc) := by
  have hlen : l.length = m * cs.length := by
    obtain ⟨ps, h1, h2, h3⟩ := Split.exists_transpose m cs h
    have := Split.flatten_planes (List.length_pos_iff.2 hne) ps h1
    rw [h3, hl] at this
    injection this with this
    rw [this, Split.flatten_length h1, h2, Nat.mul_comm]
  have hfin : ∀ k : List UInt8, k = l.flatMap enc → over (2 * m * cs.length) k = l.flatMap enc := by
    rintro k rfl
    exact over_full _ _ (by rw [flatMap_length enc he, hlen]; ring)
  rcases cs with _ | ⟨a, rest⟩
  · exact absurd rfl hne
  have ha : a.length = m := h a (by simp)
  rcases rest with _ | ⟨b, _ | ⟨c, _ | ⟨d, _ | ⟨e, rest⟩⟩⟩⟩
  · simp only [flatten, Except.ok.injEq] at hl
    subst hl
    show some (over (2 * a.length * 1) _) = _
    rw [ha]
    exact congrArg some (hfin _ rfl)
  · simp only [flatten, Except.ok.injEq] at hl
    show some (over (2 * a.length * 2) _) = _
    rw [ha]
    exact congrArg some (hfin _ (by rw [← hl, List.flatMap_assoc]; simp))
  · simp only [flatten, Except.ok.injEq] at hl
    show some (over (2 * a.length * 3) _) = _
    rw [ha]
    exact congrArg some (hfin _ (by rw [← hl, List.flatMap_assoc]; simp))
  · simp only [flatten, Except.ok.injEq] at hl
    show some (over (2 * a.length * 4) _) = _
    rw [ha]
    exact congrArg some (hfin _ (by rw [← hl, List.flatMap_assoc]; simp))
  · simp only [flatten] at hl
    have hg : gather (a :: b :: c :: d :: e :: rest) a.length = some l := by
      revert hl
      cases gather (a :: b :: c :: d :: e :: rest) a.length with
      | none => intro hl; simp at hl
      | some o => intro hl; simp at hl; rw [hl]
    show (if 4 < rest.length + 5 ∧ rest.length + 1 + 1 + 1 + 1 + 1 = rest.length + 5 then
      (gather (a :: b :: c :: d :: e :: rest) a.length).map fun l => over (2 * a.length * (rest.length + 5)) (l.flatMap enc) else none) = _
    rw [if_pos (by omega), hg, Option.map_some, ha]
    exact congrArg some (hfin _ rfl)

/-- **C124** (bytes of 16-bit pictures). The two functions give the interleaved samples, each as two bytes: the more significant one first, or last. -/
theorem c124_bytes (m : Nat) (cs : List (List UInt16)) (hne : cs ≠ []) (h : ∀ c ∈ cs, c.length = m) :
    ∃ l, flatten cs = .ok l ∧
      u16Bytes be16 cs.length cs = some (l.flatMap fun v => [UInt8.ofNat (v.toNat / 256), UInt8.ofNat (v.toNat % 256)]) ∧
      u16Bytes ne16 cs.length cs = some (l.flatMap fun v => [UInt8.ofNat (v.toNat % 256), UInt8.ofNat (v.toNat / 256)]) := by
  obtain ⟨ps, h1, h2, h3⟩ := Split.exists_transpose m cs h
  have hl := Split.flatten_planes (List.length_pos_iff.2 hne) ps h1
  rw [h3] at hl
  have e1 : be16 = fun v => [UInt8.ofNat (v.toNat / 256), UInt8.ofNat (v.toNat % 256)] := by
    funext v
    simp [be16, beBytes, low_byte]
  have e2 : ne16 = fun v => [UInt8.ofNat (v.toNat % 256), UInt8.ofNat (v.toNat / 256)] := by
    funext v
    simp [ne16, leBytes, beBytes, low_byte]
  refine ⟨ps.flatten, hl, ?_, ?_⟩
  · rw [u16Bytes_eq be16 (fun v => by rw [e1]; rfl) m cs hne h _ hl, e1]
  · rw [u16Bytes_eq ne16 (fun v => by rw [e2]; rfl) m cs hne h _ hl, e2]

example : u16Bytes be16 2 [[0x102, 3], [0x405, 0xFFFF]] = some [1, 2, 4, 5, 0, 3, 255, 255] := by decide +kernel

/-- **C124** (disagreement). Pictures of different shapes can be equal: `==` does not look at the dimensions. -/
theorem c124_equal_shape_wrong :
    let a : Option (Image UInt8) := fromPixels 0 (three .scalar) [1, 2, 3, 4, 5, 6] 2 3 1
    let b : Option (Image UInt8) := fromPixels 0 (three .scalar) [1, 2, 3, 4, 5, 6] 3 2 1
    ∃ x y, a = some x ∧ b = some y ∧ imageEq x y = true ∧ x.width ≠ y.width ∧ sample x 0 1 0 0 ≠ sample y 0 1 0 0 :=
  ⟨⟨[⟨[[1, 2, 3, 4, 5, 6]], 1, 1⟩], 2, 3, 1⟩, ⟨[⟨[[1, 2, 3, 4, 5, 6]], 1, 1⟩], 3, 2, 1⟩, by decide +kernel, by decide +kernel, by decide +kernel,
    by decide +kernel, by decide +kernel⟩

end Zune.Make
