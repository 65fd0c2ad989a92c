/-
**C131**: the unsharp mask as a whole.
-/
import Verif.Imageprocs.UnsharpModel
import Verif.Imageprocs.GaussProps
import Verif.Imageprocs.MixProps

namespace Zune.Imageprocs
open Zune.Float

/-! ### Lemmas -/

/-- `c114_blur_partial` for any scratch space. -/
theorem blur_any (checks : Bool) {bits w h a b c : Nat} {img scratch : List Nat} (hw : 8 ≤ w) (hh : 8 ≤ h) (hi : img.length = w * h) (hs : scratch.length = w * h)
    (hb : ∀ v ∈ img, v < 2 ^ bits) (hf : ∀ R ∈ [a, b, c], BoxFits bits w R ∧ BoxFits bits h R) :
    ∃ res s, gaussianBlurS checks bits [a, b, c] img scratch w h = some (res, s) ∧ res.length = w * h ∧ s.length = w * h ∧
      ∀ y < h, ∀ x < w, ∃ v, res[y * w + x]? = some v ∧ (blurLine [a, b, c] (gaussColumn [a, b, c] img w h x))[y]? = some v := by
  obtain ⟨i1, s1, a1, a2, a3, a4, a5⟩ := pass_rows (by omega) (fun R hR => (hf R hR).1) hi hs hb
  obtain ⟨t, b1, b2, b3⟩ := c33_transpose_partial checks 0 s1 i1 w h hw hh a3 a2
  have ht : ∀ v ∈ t, v < 2 ^ bits := by
    intro v hv
    obtain ⟨k, hk, rfl⟩ := List.mem_iff_getElem.1 hv
    rw [b2] at hk
    have := b3 _ (Nat.div_lt_of_lt_mul hk) _ (Nat.mod_lt k (by omega : 0 < h))
    rw [show k / h * h + k % h = k by rw [Nat.mul_comm]; exact Nat.div_add_mod k h, List.getElem?_eq_getElem (by rw [b2]; exact hk)] at this
    exact a4 _ (List.mem_of_getElem? this.symm)
  obtain ⟨i2, s2, c1, c2, c3, c4, c5⟩ := pass_rows (h := w) (by omega) (fun R hR => (hf R hR).2) b2 (by rw [a3, Nat.mul_comm] : s1.length = h * w) ht
  obtain ⟨res, d1, d2, d3⟩ := c33_transpose_partial checks 0 s2 i2 h w hh hw c3 c2
  have hcol : ∀ x < w, rowOf t h x = gaussColumn [a, b, c] img w h x := by
    intro x hx
    apply List.ext_getElem?
    intro y
    by_cases hy : y < h
    · have e1 : (rowOf t h x)[y]? = t[x * h + y]? := by unfold rowOf; exact row_get _ hy
      have e2 : (rowOf s1 w y)[x]? = s1[y * w + x]? := by unfold rowOf; exact row_get _ hx
      rw [e1, b3 x hx y hy, ← e2, a5 y hy]
      unfold gaussColumn
      rw [List.getElem?_map, List.getElem?_range hy]
      have hl : x < (blurLine [a, b, c] (rowOf img w y)).length := by rw [blurLine_length, show (rowOf img w y).length = w from row_length hi hy]; exact hx
      rw [List.getElem?_eq_getElem hl]
      simp [List.getD, List.getElem?_eq_getElem hl]
    · rw [List.getElem?_eq_none (by rw [show (rowOf t h x).length = h from row_length b2 hx]; omega), List.getElem?_eq_none (by simp [gaussColumn]; omega)]
  refine ⟨res, s2, ?_, d2, by rw [c3, Nat.mul_comm], fun y hy x hx => ?_⟩
  · unfold gaussianBlurS
    simp only [a1, b1, c1, d1, Option.bind_some, Option.map_some]
  · have hk : y * w + x < res.length := by rw [d2]; exact rowcol_lt hx hy
    refine ⟨res[y * w + x], List.getElem?_eq_getElem hk, ?_⟩
    rw [← List.getElem?_eq_getElem hk, d3 y hy x hx, ← hcol x hx, ← c5 x hx]
    unfold rowOf
    exact row_get _ hy

theorem blurS_fst (checks : Bool) (bits : Nat) (radii img scratch : List Nat) (w h : Nat) :
    (gaussianBlurS checks bits radii img scratch w h).map Prod.fst = gaussianBlur checks bits radii img scratch w h := by
  unfold gaussianBlurS gaussianBlur
  cases gaussPass bits img scratch w radii with
  | none => rfl
  | some p =>
    simp only [Option.bind_some]
    cases transposeScalar checks 0 p.2 p.1 w h with
    | none => rfl
    | some t =>
      simp only [Option.bind_some]
      cases gaussPass bits t p.2 h radii with
      | none => rfl
      | some q =>
        simp only [Option.bind_some]
        cases transposeScalar checks 0 q.2 q.1 h w <;> rfl

/-- The conditions of C114 on a picture and the radii. -/
structure Blurs (bits w h a b c : Nat) : Prop where
  wide : 8 ≤ w
  high : 8 ≤ h
  fits : ∀ R ∈ [a, b, c], BoxFits bits w R ∧ BoxFits bits h R

/-- A channel of that size with samples of that many bits. -/
structure IsChannel (bits w h : Nat) (ch : List Nat) : Prop where
  size : ch.length = w * h
  bound : ∀ v ∈ ch, v < 2 ^ bits

/-- The blur does not depend on what is in the scratch space. -/
theorem blur_unique (checks : Bool) {bits w h a b c : Nat} (hB : Blurs bits w h a b c) {img : List Nat} (hi : IsChannel bits w h img) :
    ∃ res, res.length = w * h ∧ gaussianBlur checks bits [a, b, c] img (List.replicate (w * h) 0) w h = some res ∧
      ∀ scratch : List Nat, scratch.length = w * h → ∃ s, s.length = w * h ∧ gaussianBlurS checks bits [a, b, c] img scratch w h = some (res, s) := by
  obtain ⟨res, s0, e1, e2, -, e3⟩ := blur_any checks (scratch := List.replicate (w * h) 0) hB.wide hB.high hi.size List.length_replicate hi.bound hB.fits
  refine ⟨res, e2, by rw [← blurS_fst, e1]; rfl, fun scratch hs => ?_⟩
  obtain ⟨res', s, f1, f2, f4, f3⟩ := blur_any checks hB.wide hB.high hi.size hs hi.bound hB.fits
  have : res' = res := by
    refine image_ext f2 e2 fun x hx y hy => ?_
    obtain ⟨v, h1, h2⟩ := e3 y hy x hx
    obtain ⟨u, g1, g2⟩ := f3 y hy x hx
    rw [h1, g1, ← h2, ← g2]
  subst this
  exact ⟨s, f4, f1⟩

/-- What happens to a channel, whatever is in the buffers. -/
theorem channel_any (checks : Bool) {bits w h a b c : Nat} (hB : Blurs bits w h a b c) {ch : List Nat} (hi : IsChannel bits w h ch) :
    ∃ res, res.length = w * h ∧ gaussianBlur checks bits [a, b, c] ch (List.replicate (w * h) 0) w h = some res ∧
      ∀ (thr : Nat) (blur scratch : List Nat), blur.length = w * h → scratch.length = w * h →
        ∃ s, s.length = w * h ∧ unsharpenChannel checks bits thr [a, b, c] w h ch blur scratch = some (List.zipWith (unsharpStep bits thr) ch res, res, s) := by
  obtain ⟨res, h1, h2, h3⟩ := blur_unique checks hB hi
  refine ⟨res, h1, h2, fun thr blur scratch hb hs => ?_⟩
  obtain ⟨s, h4, h5⟩ := h3 scratch hs
  refine ⟨s, h4, ?_⟩
  unfold unsharpenChannel
  rw [if_neg (by rw [hb, hi.size]; simp), h5]
  rfl

/-- The loop with buffers that are used again does to each channel what new buffers do. -/
theorem loop_eq (checks : Bool) {bits w h a b c : Nat} (hB : Blurs bits w h a b c) (thr : Nat) : ∀ (chs : List (List Nat)) (blur scratch : List Nat),
    (∀ ch ∈ chs, IsChannel bits w h ch) → blur.length = w * h → scratch.length = w * h →
    unsharpLoop checks bits thr [a, b, c] w h chs blur scratch = chs.mapM fun ch =>
      (unsharpenChannel checks bits thr [a, b, c] w h ch (List.replicate (w * h) 0) (List.replicate (w * h) 0)).map fun r => r.1
  | [], _, _, _, _, _ => rfl
  | ch :: chs, blur, scratch, hc, hb, hs => by
    obtain ⟨res, h1, -, h3⟩ := channel_any checks hB (hc ch (by simp))
    obtain ⟨s, h4, h5⟩ := h3 thr blur scratch hb hs
    obtain ⟨s', -, h6⟩ := h3 thr (List.replicate (w * h) 0) (List.replicate (w * h) 0) List.length_replicate List.length_replicate
    unfold unsharpLoop
    rw [h5, List.mapM_cons, h6]
    simp only
    rw [loop_eq checks hB thr chs res s (fun c hc' => hc c (by simp [hc'])) h1 h4]
    simp only [Option.map_some]
    cases chs.mapM fun ch =>
      (unsharpenChannel checks bits thr [a, b, c] w h ch (List.replicate (w * h) 0) (List.replicate (w * h) 0)).map fun r => r.1 <;> rfl

theorem zipWith_left {α β : Type} (f : α → β → α) : ∀ (l : List α) (r : List β), r.length = l.length → (∀ x ∈ l, ∀ y ∈ r, f x y = x) → List.zipWith f l r = l
  | [], _, _, _ => by simp
  | x :: l, [], h, _ => by simp at h
  | x :: l, y :: r, h, hf => by
    rw [List.zipWith_cons_cons, hf x (by simp) y (by simp), zipWith_left f l r (by simpa using h) fun a ha b hb => hf a (by simp [ha]) b (by simp [hb])]

theorem mapM_id {α : Type} (f : α → Option α) : ∀ l : List α, (∀ x ∈ l, f x = some x) → l.mapM f = some l
  | [], _ => rfl
  | x :: l, h => by rw [List.mapM_cons, h x (by simp), mapM_id f l fun y hy => h y (by simp [hy])]; rfl

theorem step8_high {thr o b : Nat} (ht : thr = 255) (ho : o < 256) : unsharpStep 8 thr o b = o := by
  subst ht
  unfold unsharpStep
  rw [if_pos rfl]
  unfold unsharpen8
  dsimp only
  rw [mask8, if_neg]
  · simp; omega
  · have := (UInt8.ofNat o - UInt8.ofNat b).toNat_lt
    rw [gt_iff_lt, UInt8.lt_iff_toNat_lt]
    simp only [UInt8.toNat_ofNat']
    omega

/-- All the channels with threads. -/
theorem threads_any (checks : Bool) {bits w h a b c : Nat} (hB : Blurs bits w h a b c) (thr : Nat) : ∀ (chs : List (List Nat)), (∀ ch ∈ chs, IsChannel bits w h ch) →
    ∃ out, unsharpThreads checks bits thr [a, b, c] w h chs = some out ∧ out.length = chs.length ∧
      ∀ k (hk : k < chs.length) (hk' : k < out.length), ∃ blurred : List Nat, blurred.length = w * h ∧
        gaussianBlur checks bits [a, b, c] chs[k] (List.replicate (w * h) 0) w h = some blurred ∧
        out[k] = List.zipWith (unsharpStep bits (threadThreshold bits thr)) chs[k] blurred
  | [], _ => ⟨[], rfl, rfl, fun k hk => by simp at hk⟩
  | ch :: chs, hc => by
    obtain ⟨bl, h1, h2, h3⟩ := channel_any checks hB (hc ch (by simp))
    obtain ⟨s, -, h6⟩ := h3 (threadThreshold bits thr) (List.replicate (w * h) 0) (List.replicate (w * h) 0) List.length_replicate List.length_replicate
    obtain ⟨out, f1, f2, f3⟩ := threads_any checks hB thr chs fun x hx => hc x (by simp [hx])
    refine ⟨List.zipWith (unsharpStep bits (threadThreshold bits thr)) ch bl :: out, ?_, by simp [f2], fun k hk hk' => ?_⟩
    · unfold unsharpThreads at f1 ⊢
      rw [List.mapM_cons, h6, f1]
      rfl
    · cases k with
      | zero => exact ⟨bl, h1, h2, rfl⟩
      | succ k => exact f3 k (by simpa using hk) (by simpa using hk')

/-! ### Theorems -/

/-- **C131** (threads). The picture is the same with and without threads, for 16 bits with any threshold and for 8 bits with thresholds of 8 bits: that the buffers are used
again for the next channel is never seen. -/
theorem c131_threads_partial (checks : Bool) {bits w h a b c : Nat} (hB : Blurs bits w h a b c) (thr : Nat) (ht : bits = 8 → thr < 256) (chs : List (List Nat))
    (hc : ∀ ch ∈ chs, IsChannel bits w h ch) : unsharpSeq checks bits thr [a, b, c] w h chs = unsharpThreads checks bits thr [a, b, c] w h chs := by
  unfold unsharpSeq unsharpThreads
  rw [loop_eq checks hB _ chs _ _ hc List.length_replicate List.length_replicate]
  have : seqThreshold bits thr = threadThreshold bits thr := by
    unfold seqThreshold threadThreshold
    split
    · have := ht (by assumption)
      omega
    · rfl
  rw [this]

/-- **C131, disagreement IP43** A threshold above 255 leaves every picture of 8 bits as it is with threads, which is what it should do, since no difference is that large; without threads only
its low eight bits count. -/
theorem c131_threshold_wrong (checks : Bool) {w h a b c : Nat} (hB : Blurs 8 w h a b c) (thr : Nat) (ht : 255 < thr) (chs : List (List Nat))
    (hc : ∀ ch ∈ chs, IsChannel 8 w h ch) :
    unsharpThreads checks 8 thr [a, b, c] w h chs = some chs ∧
    unsharpSeq checks 8 thr [a, b, c] w h chs = unsharpThreads checks 8 (thr % 256) [a, b, c] w h chs := by
  constructor
  · refine mapM_id _ chs fun ch hch => ?_
    obtain ⟨res, h1, -, h3⟩ := channel_any checks hB (hc ch hch)
    obtain ⟨s, -, h6⟩ := h3 (threadThreshold 8 thr) (List.replicate (w * h) 0) (List.replicate (w * h) 0) List.length_replicate List.length_replicate
    rw [h6]
    simp only [Option.map_some, Option.some.injEq]
    refine zipWith_left _ _ _ (by rw [h1, (hc ch hch).size]) fun x hx y _ => step8_high ?_ ((hc ch hch).bound x hx)
    unfold threadThreshold
    rw [if_pos rfl]
    omega
  · unfold unsharpSeq unsharpThreads
    rw [loop_eq checks hB _ chs _ _ hc List.length_replicate List.length_replicate]
    have : seqThreshold 8 thr = threadThreshold 8 (thr % 256) := by
      unfold seqThreshold threadThreshold
      rw [if_pos rfl, if_pos rfl]
      omega
    rw [this]

/-- A bright sample in the middle of a dark picture. -/
def exSharp : List Nat := List.replicate 40 10 ++ [200] ++ List.replicate 40 10

example : Blurs 8 9 9 1 1 1 ∧ IsChannel 8 9 9 exSharp ∧ unsharpThreads false 8 256 [1, 1, 1] 9 9 [exSharp] = some [exSharp] ∧
    unsharpSeq false 8 256 [1, 1, 1] 9 9 [exSharp] ≠ some [exSharp] :=
  ⟨⟨by decide, by decide, by unfold BoxFits; decide⟩, ⟨by decide, by decide⟩, by decide +kernel, by decide +kernel⟩

/-- **C131** (8 bits). A sample at least as bright as the gaussian blur at its place (C114) gets the difference added when that exceeds the threshold, up to 255; otherwise it stays.

Missing: samples darker than the blur (refuted, `c108_darker_wrong`), and what C114 leaves out. -/
theorem c131_u8_partial (checks : Bool) {w h a b c : Nat} (hB : Blurs 8 w h a b c) (thr : Nat) (chs : List (List Nat)) (hc : ∀ ch ∈ chs, IsChannel 8 w h ch) :
    ∃ out, unsharpThreads checks 8 thr [a, b, c] w h chs = some out ∧ out.length = chs.length ∧
      ∀ k (hk : k < chs.length) (hk' : k < out.length), (out[k]).length = w * h ∧ ∃ blurred,
        gaussianBlur checks 8 [a, b, c] chs[k] (List.replicate (w * h) 0) w h = some blurred ∧
        ∀ (i o v : Nat), (chs[k])[i]? = some o → blurred[i]? = some v → v ≤ o →
          (out[k])[i]? = some (if thr < o - v then min 255 (2 * o - v) else o) := by
  obtain ⟨out, f1, f2, f3⟩ := threads_any checks hB thr chs hc
  refine ⟨out, f1, f2, fun k hk hk' => ?_⟩
  obtain ⟨bl, g1, g2, g3⟩ := f3 k hk hk'
  have hch := hc _ (List.getElem_mem hk)
  refine ⟨by rw [g3, List.length_zipWith, g1, hch.size, Nat.min_self], bl, g2, fun i o v ho hv hle => ?_⟩
  rw [g3, List.getElem?_zipWith, ho, hv]
  simp only [Option.some.injEq]
  have hob : o < 256 := hch.bound o (List.mem_of_getElem? ho)
  unfold unsharpStep
  rw [if_pos rfl, c108_u8_partial (by rw [UInt8.le_iff_toNat_le]; simp; omega)]
  have e : threadThreshold 8 thr = min thr 255 := by
    unfold threadThreshold; rw [if_pos rfl]
  simp only [UInt8.toNat_ofNat', Nat.mod_eq_of_lt hob, Nat.mod_eq_of_lt (show v < 256 by omega), e]
  split <;> split <;> omega

example : (unsharpThreads false 8 5 [1, 1, 1] 9 9 [exSharp]).map (fun l => l.map fun c => c[40]?) = some [some 255] := by decide +kernel

/-- **C131** (16 bits). The same, and samples darker than the blur stay.

Missing: sums beyond 16 bits (refuted, `c108_wrap_wrong`), and what C114 leaves out. -/
theorem c131_u16_partial (checks : Bool) {w h a b c : Nat} (hB : Blurs 16 w h a b c) (thr : Nat) (ht : thr < 65536) (chs : List (List Nat))
    (hc : ∀ ch ∈ chs, IsChannel 16 w h ch) :
    ∃ out, unsharpThreads checks 16 thr [a, b, c] w h chs = some out ∧ out.length = chs.length ∧
      ∀ k (hk : k < chs.length) (hk' : k < out.length), (out[k]).length = w * h ∧ ∃ blurred,
        gaussianBlur checks 16 [a, b, c] chs[k] (List.replicate (w * h) 0) w h = some blurred ∧
        ∀ (i o v : Nat), (chs[k])[i]? = some o → blurred[i]? = some v → v < 65536 → 2 * o - v < 65536 →
          (out[k])[i]? = some (if thr < o - v then 2 * o - v else o) := by
  obtain ⟨out, f1, f2, f3⟩ := threads_any checks hB thr chs hc
  refine ⟨out, f1, f2, fun k hk hk' => ?_⟩
  obtain ⟨bl, g1, g2, g3⟩ := f3 k hk hk'
  have hch := hc _ (List.getElem_mem hk)
  refine ⟨by rw [g3, List.length_zipWith, g1, hch.size, Nat.min_self], bl, g2, fun i o v ho hv hvb hle => ?_⟩
  rw [g3, List.getElem?_zipWith, ho, hv]
  simp only [Option.some.injEq]
  have hob : o < 65536 := hch.bound o (List.mem_of_getElem? ho)
  have e : threadThreshold 16 thr = thr := rfl
  have eo : (UInt16.ofNat o).toNat = o := by simp; omega
  have ev : (UInt16.ofNat v).toNat = v := by simp; omega
  have et : (UInt16.ofNat thr).toNat = thr := by simp; omega
  unfold unsharpStep
  rw [if_neg (by decide), e, c108_u16_partial (by rw [eo, ev]; exact hle), eo, ev, et]

example : Blurs 16 9 9 1 1 1 ∧ IsChannel 16 9 9 exSharp ∧
    (unsharpThreads false 16 5 [1, 1, 1] 9 9 [exSharp]).map (fun l => l.map fun c => (c[40]?, c[0]?)) = some [(some 390, some 10)] :=
  ⟨⟨by decide, by decide, by unfold BoxFits; decide⟩, ⟨by decide, by decide⟩, by decide +kernel⟩

/-- **C131** (pictures of one colour). They are not changed, whatever the threshold and with or without threads. -/
theorem c131_constant (checks : Bool) {bits w h a b c : Nat} (hbits : bits = 8 ∨ bits = 16) (hB : Blurs bits w h a b c) (thr : Nat) (chs : List (List Nat))
    (hc : ∀ ch ∈ chs, IsChannel bits w h ch) (hk : ∀ ch ∈ chs, ∃ k, ∀ v ∈ ch, v = k) :
    unsharpThreads checks bits thr [a, b, c] w h chs = some chs ∧ unsharpSeq checks bits thr [a, b, c] w h chs = some chs := by
  have step : ∀ t o, o < 2 ^ bits → unsharpStep bits t o o = o := by
    intro t o ho
    unfold unsharpStep
    rcases hbits with rfl | rfl
    · rw [if_pos rfl, c108_u8_partial (by rw [UInt8.le_iff_toNat_le])]
      simp
      omega
    · rw [if_neg (by decide)]
      unfold unsharpen16
      dsimp only
      rw [mask16, if_neg]
      · simp; omega
      · rw [if_pos (by rw [UInt16.le_iff_toNat_le]), gt_iff_lt, UInt16.lt_iff_toNat_lt]
        simp
  have chan : ∀ t, ∀ ch ∈ chs,
      (unsharpenChannel checks bits t [a, b, c] w h ch (List.replicate (w * h) 0) (List.replicate (w * h) 0)).map (fun r => r.1) = some ch := by
    intro t ch hch
    obtain ⟨k, hk⟩ := hk ch hch
    have hi := hc ch hch
    obtain ⟨res, h1, h2, h3⟩ := channel_any checks hB hi
    obtain ⟨s, -, h6⟩ := h3 t (List.replicate (w * h) 0) (List.replicate (w * h) 0) List.length_replicate List.length_replicate
    have hpos : 0 < ch.length := by rw [hi.size]; exact Nat.mul_pos (by have := hB.wide; omega) (by have := hB.high; omega)
    have hkb : k < 2 ^ bits := by rw [← hk _ (List.getElem_mem hpos)]; exact hi.bound _ (List.getElem_mem hpos)
    rw [c114_constant checks hB.wide hB.high hi.size hk hkb hB.fits] at h2
    simp only [Option.some.injEq] at h2
    subst h2
    rw [h6]
    simp only [Option.map_some, Option.some.injEq]
    refine zipWith_left _ _ _ rfl fun x hx y hy => ?_
    rw [hk x hx, hk y hy]
    exact step t k hkb
  constructor
  · exact mapM_id _ chs fun ch hch => chan _ ch hch
  · unfold unsharpSeq
    rw [loop_eq checks hB _ chs _ _ hc List.length_replicate List.length_replicate]
    exact mapM_id _ chs fun ch hch => chan _ ch hch

example : Blurs 16 9 12 3 3 5 ∧ IsChannel 16 9 12 (List.replicate 108 40000) :=
  ⟨⟨by decide, by decide, by unfold BoxFits; decide⟩, ⟨by decide, by simp⟩⟩

end Zune.Imageprocs
