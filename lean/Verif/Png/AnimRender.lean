import Verif.Png.AnimFrames

/-! # PNG: rendering the frames of an animation -/

namespace Zune.Png

open Zune.Stream

namespace Spec

/-- A canvas: the bytes of the pixel in row `y` and column `x`. -/
abbrev Canvas := Nat → Nat → List UInt8

/-- The operation OVER (alpha compositing) for a pixel `s` on a pixel `d`; alpha is the last sample of each.  `mix` gives the colours:
    alpha of `s`, alpha of `d`, sample of `s`, sample of `d`. -/
def over (mix : UInt8 → UInt8 → UInt8 → UInt8 → UInt8) (s d : List UInt8) : List UInt8 :=
  if s.getLastD 0 = 0 then d
  else List.zipWith (mix (s.getLastD 0) (d.getLastD 0)) s.dropLast d.dropLast ++
    [UInt8.ofNat (255 - (255 - (s.getLastD 0).toNat) * (255 - (d.getLastD 0).toNat) / 255)]

/-- The region of a frame. -/
def inside (i : FrameInfo) (y x : Nat) : Prop := i.y ≤ y ∧ y < i.y + i.height ∧ i.x ≤ x ∧ x < i.x + i.width

instance (i : FrameInfo) (y x : Nat) : Decidable (inside i y x) := by unfold inside; infer_instance

/-- The canvas after a frame is drawn. -/
def draw (mix : UInt8 → UInt8 → UInt8 → UInt8 → UInt8) (i : FrameInfo) (p cv : Canvas) : Canvas := fun y x =>
  if inside i y x then
    match i.blend with
    | .source => p (y - i.y) (x - i.x)
    | .over => over mix (p (y - i.y) (x - i.x)) (cv y x)
  else cv y x

/-- The canvas the next frame is drawn on. -/
def disposed (nc : Nat) (i : FrameInfo) (before after : Canvas) : Canvas :=
  match i.dispose with
  | .none => after
  | .background => fun y x => if inside i y x then List.replicate nc 0 else after y x
  | .previous => before

/-- What is shown, frame by frame. -/
def render (mix : UInt8 → UInt8 → UInt8 → UInt8 → UInt8) (nc : Nat) : List (FrameInfo × Canvas) → Canvas → List (FrameInfo × Canvas)
  | [], _ => []
  | (i, p) :: t, cv => (i, draw mix i p cv) :: render mix nc t (disposed nc i cv (draw mix i p cv))

/-- The bytes of a canvas, or of a frame. -/
def canvasBytes (w h : Nat) (cv : Canvas) : List UInt8 := (List.range h).flatMap fun y => (List.range w).flatMap fun x => cv y x

/-- The animations drawn as they should be: nothing is disposed of (but possibly after the last frame), and pixels that are not
    fully transparent are laid over opaque ones only. -/
def Plain (mix : UInt8 → UInt8 → UInt8 → UInt8 → UInt8) (nc : Nat) : List (FrameInfo × Canvas) → Canvas → Prop
  | [], _ => True
  | (i, p) :: t, cv =>
    (i.dispose = .none ∨ (i.dispose = .previous ∧ t = [])) ∧
    (i.blend = .over → (nc = 2 ∨ nc = 4) ∧
      ∀ y x, inside i y x → (p (y - i.y) (x - i.x)).getLastD 0 = 0 ∨ (cv y x).getLastD 0 = 255) ∧
    Plain mix nc t (draw mix i p cv)

/-- The pixels of a picture as bytes, after expansion (as in `picture`). -/
def canvasOf (c : Ctx) (pix : Nat → Nat → List Nat) : Canvas := fun y x =>
  pixel c.color c.depth (c.plte.getD []) c.trns (c.wantAlpha || c.trns.isSome) (pix y x)

/-- `f` holds (in compressed form) the pixels of `g`, and lies on the canvas. -/
structure Packs (zlib : Zlib) (o : DecOpts) (st : St) (f : List UInt8 × FrameInfo) (g : FrameInfo × (Nat → Nat → List Nat)) : Prop where
  info : f.2 = g.1
  width : 0 < g.1.width
  height : 0 < g.1.height
  right : g.1.x + g.1.width ≤ st.width
  bottom : g.1.y + g.1.height ≤ st.height
  narrow : st.adam7 = true → g.1.width = st.width
  comps : ∀ y x, (g.2 y x).length = st.color.comps
  data : ∃ data extra, Spec.scanlines (st.ctx o) g.1.width g.1.height st.adam7 g.2 data ∧ zlib (st.zopts o) f.1 = .ok (data ++ extra)

end Spec

/-! ### Lists of rows -/

theorem flatMap_range_add {α : Type} (a b : Nat) (f : Nat → List α) :
    (List.range (a + b)).flatMap f = (List.range a).flatMap f ++ (List.range b).flatMap fun k => f (a + k) := by
  rw [List.range_add, List.flatMap_append, List.flatMap_map]

theorem flatMap_range_succ {α : Type} (n : Nat) (f : Nat → List α) :
    (List.range (n + 1)).flatMap f = f 0 ++ (List.range n).flatMap fun k => f (k + 1) := by
  rw [List.range_succ_eq_map, List.flatMap_cons, List.flatMap_map]

theorem flatMap_range_length {α : Type} (nc : Nat) (f : Nat → List α) (hf : ∀ k, (f k).length = nc) :
    ∀ n : Nat, ((List.range n).flatMap f).length = n * nc
  | 0 => by simp
  | n + 1 => by
    rw [List.range_succ, List.flatMap_append, List.length_append, flatMap_range_length nc f hf n, List.flatMap_singleton, hf]; ring

theorem flatMap_range_congr {α : Type} (n : Nat) (f g : Nat → List α) (h : ∀ k < n, f k = g k) :
    (List.range n).flatMap f = (List.range n).flatMap g :=
  flatMap_congr' _ _ _ fun k hk => h k (List.mem_range.mp hk)

theorem over_row (mix : UInt8 → UInt8 → UInt8 → UInt8) (nc : Nat) : ∀ (n : Nat) (p f : Nat → List UInt8),
    (∀ k, (p k).length = nc) → (∀ k, (f k).length = nc) →
    overRow mix nc n ((List.range n).flatMap p) ((List.range n).flatMap f) = (List.range n).flatMap fun k => overPixel mix (p k) (f k)
  | 0, _, _, _, _ => rfl
  | n + 1, p, f, hp, hf => by
    rw [flatMap_range_succ, flatMap_range_succ, flatMap_range_succ, overRow, List.take_left' (hp 0), List.take_left' (hf 0),
      List.drop_left' (hp 0), List.drop_left' (hf 0), over_row mix nc n _ _ (fun k => hp _) fun k => hf _]

/-- A row between two others of a longer one. -/
theorem row_split (w x fw nc : Nat) (hx : x + fw ≤ w) (f : Nat → List UInt8) (hf : ∀ k, (f k).length = nc) :
    ((List.range w).flatMap f).take (x * nc) = (List.range x).flatMap f ∧
    (((List.range w).flatMap f).drop (x * nc)).take (fw * nc) = (List.range fw).flatMap (fun k => f (x + k)) ∧
    ((List.range w).flatMap f).drop ((x + fw) * nc) = (List.range (w - x - fw)).flatMap fun k => f (x + (fw + k)) := by
  have e : (List.range w).flatMap f = (List.range x).flatMap f ++ ((List.range fw).flatMap (fun k => f (x + k)) ++
      (List.range (w - x - fw)).flatMap fun k => f (x + (fw + k))) := by
    have : w = x + (fw + (w - x - fw)) := by omega
    conv_lhs => rw [this]
    rw [flatMap_range_add, flatMap_range_add]
  have l1 := flatMap_range_length nc f hf x
  have l2 := flatMap_range_length nc (fun k => f (x + k)) (fun k => hf _) fw
  rw [e]
  refine ⟨List.take_left' l1, ?_, ?_⟩
  · rw [List.drop_left' l1, List.take_left' l2]
  · rw [Nat.add_mul, ← List.drop_drop, List.drop_left' l1, List.drop_left' l2]

theorem row_join (w x fw : Nat) (hx : x + fw ≤ w) (f g : Nat → List UInt8) :
    (List.range x).flatMap f ++ (List.range fw).flatMap g ++ (List.range (w - x - fw)).flatMap (fun k => f (x + (fw + k))) =
      (List.range w).flatMap fun k => if x ≤ k ∧ k < x + fw then g (k - x) else f k := by
  have : w = x + (fw + (w - x - fw)) := by omega
  conv_rhs => rw [this]
  rw [flatMap_range_add, flatMap_range_add, List.append_assoc]
  congr 1
  · apply flatMap_range_congr
    intro k hk
    rw [if_neg (by omega)]
  congr 1
  · apply flatMap_range_congr
    intro k hk
    rw [if_pos (by omega), Nat.add_sub_cancel_left]
  · apply flatMap_range_congr
    intro k hk
    rw [if_neg (by omega)]

/-! ### One frame -/

theorem over_spec (mix : UInt8 → UInt8 → UInt8 → UInt8 → UInt8) (s d : List UInt8) (hd : d ≠ [])
    (h : s.getLastD 0 = 0 ∨ d.getLastD 0 = 255) : overPixel (fun a x y => mix a 255 x y) s d = Spec.over mix s d := by
  unfold overPixel Spec.over
  by_cases h0 : s.getLastD 0 = 0
  · simp only [h0, if_true]
  · simp only [h0, if_false]
    rcases h with h | h
    · exact absurd h h0
    · rw [h]
      have e : d.drop (d.length - 1) = [255] := by
        have hl : d.getLast hd = 255 := by rw [← h, List.getLastD_eq_getLast?, List.getLast?_eq_some_getLast hd]; rfl
        conv_lhs => rw [← List.dropLast_append_getLast hd]
        rw [List.drop_left' (by simp), hl]
      rw [e, show 255 - (255 : UInt8).toNat = 0 from rfl, Nat.mul_zero]
      rfl

theorem post_row (mix : UInt8 → UInt8 → UInt8 → UInt8 → UInt8) (w nc : Nat) (h0 : 0 < nc) (i : FrameInfo) (hx : i.x + i.width ≤ w)
    (p f : Nat → List UInt8) (hp : ∀ k, (p k).length = nc) (hf : ∀ k, (f k).length = nc)
    (ho : i.blend = .over → (nc = 2 ∨ nc = 4) ∧ ∀ x, i.x ≤ x → x < i.x + i.width → (p (x - i.x)).getLastD 0 = 0 ∨ (f x).getLastD 0 = 255) :
    postRow (fun a x y => mix a 255 x y) nc (nc = 2 ∨ nc = 4) i ((List.range i.width).flatMap p) ((List.range w).flatMap f) =
      .ok ((List.range w).flatMap fun x => if i.x ≤ x ∧ x < i.x + i.width then
        (match i.blend with | .source => p (x - i.x) | .over => Spec.over mix (p (x - i.x)) (f x)) else f x) := by
  obtain ⟨e1, e2, e3⟩ := row_split w i.x i.width nc hx f hf
  unfold postRow
  cases hb : i.blend with
  | source =>
    simp only
    rw [e1, e3, row_join w i.x i.width hx]
  | over =>
    obtain ⟨ha, ho⟩ := ho hb
    simp only [ha, decide_true, not_true_eq_false, if_false]
    rw [e1, e2, e3, over_row _ nc i.width p _ hp fun k => hf _, row_join w i.x i.width hx]
    congr 1
    apply flatMap_range_congr
    intro k _
    split
    · rename_i hk
      rw [show i.x + (k - i.x) = k by omega]
      exact over_spec mix _ _ (by intro e; have := hf k; rw [e] at this; simp at this; omega) (ho k hk.1 hk.2)
    · rfl

theorem post_rows (mix : UInt8 → UInt8 → UInt8 → UInt8) (w nc : Nat) (al : Bool) (i : FrameInfo) : ∀ (n : Nat) (p f g : Nat → List UInt8)
    (ct ot : List UInt8), (∀ k, (p k).length = i.width * nc) → (∀ k, (f k).length = w * nc) →
    (∀ k < n, postRow mix nc al i (p k) (f k) = .ok (g k)) →
    postRows mix w nc al i n ((List.range n).flatMap p ++ ct) ((List.range n).flatMap f ++ ot) = .ok ((List.range n).flatMap g ++ ot)
  | 0, _, _, _, _, _, _, _, _ => by simp [postRows]
  | n + 1, p, f, g, ct, ot, hp, hf, h => by
    rw [flatMap_range_succ, flatMap_range_succ, flatMap_range_succ, postRows, List.append_assoc, List.append_assoc, List.append_assoc,
      if_pos (by simp only [List.length_append, hp, hf]; omega), List.take_left' (hp 0), List.take_left' (hf 0), h 0 (by omega),
      List.drop_left' (hp 0), List.drop_left' (hf 0)]
    simp only
    rw [post_rows mix w nc al i n _ _ _ ct ot (fun k => hp _) (fun k => hf _) fun k hk => h (k + 1) (by omega)]

theorem draw_length (mix : UInt8 → UInt8 → UInt8 → UInt8 → UInt8) (nc : Nat) (h0 : 0 < nc) (i : FrameInfo) (p cv : Spec.Canvas)
    (hp : ∀ y x, (p y x).length = nc) (hc : ∀ y x, (cv y x).length = nc) (y x : Nat) : (Spec.draw mix i p cv y x).length = nc := by
  unfold Spec.draw
  split
  · split
    · exact hp _ _
    · unfold Spec.over
      split
      · exact hc _ _
      · simp [hp, hc]; omega
  · exact hc _ _

theorem post_image (mix : UInt8 → UInt8 → UInt8 → UInt8 → UInt8) (w h nc : Nat) (h0 : 0 < nc) (i : FrameInfo) (hw : 0 < i.width)
    (hx : i.x + i.width ≤ w) (hy : i.y + i.height ≤ h) (p cv : Spec.Canvas) (hp : ∀ y x, (p y x).length = nc)
    (hc : ∀ y x, (cv y x).length = nc) (hd : i.dispose = .none)
    (ho : i.blend = .over → (nc = 2 ∨ nc = 4) ∧
      ∀ y x, Spec.inside i y x → (p (y - i.y) (x - i.x)).getLastD 0 = 0 ∨ (cv y x).getLastD 0 = 255) (ct : List UInt8) :
    postImage (fun a x y => mix a 255 x y) w h nc (nc = 2 ∨ nc = 4) i (Spec.canvasBytes i.width i.height p ++ ct) none (Spec.canvasBytes w h cv) =
      .ok (Spec.canvasBytes w h (Spec.draw mix i p cv)) := by
  have lp : ∀ y, ((List.range i.width).flatMap fun x => p y x).length = i.width * nc := fun y => flatMap_range_length nc _ (hp y) _
  have lc : ∀ y, ((List.range w).flatMap fun x => cv y x).length = w * nc := fun y => flatMap_range_length nc _ (hc y) _
  have l2 : (Spec.canvasBytes i.width i.height p).length = i.height * (i.width * nc) := flatMap_range_length _ _ lp _
  unfold postImage
  rw [if_neg (by omega), if_neg (by omega), if_neg (by rw [List.length_append, l2, Nat.mul_assoc]; omega), hd]
  simp only [bind, Except.bind]
  have hnz : ¬ (i.width * nc = 0 ∨ w * nc = 0) := by
    have h1 := Nat.mul_pos hw h0
    have h2 : 0 < w * nc := Nat.mul_pos (by omega) h0
    omega
  rw [if_neg hnz]
  have e : Spec.canvasBytes w h cv = (List.range i.y).flatMap (fun y => (List.range w).flatMap fun x => cv y x) ++
      ((List.range i.height).flatMap (fun k => (List.range w).flatMap fun x => cv (i.y + k) x) ++
       (List.range (h - i.y - i.height)).flatMap (fun k => (List.range w).flatMap fun x => cv (i.y + (i.height + k)) x)) := by
    unfold Spec.canvasBytes
    have : h = i.y + (i.height + (h - i.y - i.height)) := by omega
    conv_lhs => rw [this]
    rw [flatMap_range_add, flatMap_range_add]
  have l3 := flatMap_range_length (w * nc) _ lc i.y
  rw [e, List.drop_left' l3, List.take_left' l3]
  have key := post_rows (fun a x y => mix a 255 x y) w nc (nc = 2 ∨ nc = 4) i i.height (fun y => (List.range i.width).flatMap fun x => p y x)
    (fun k => (List.range w).flatMap fun x => cv (i.y + k) x)
    (fun k => (List.range w).flatMap fun x => if i.x ≤ x ∧ x < i.x + i.width then
        (match i.blend with | .source => p k (x - i.x) | .over => Spec.over mix (p k (x - i.x)) (cv (i.y + k) x)) else cv (i.y + k) x)
    ct ((List.range (h - i.y - i.height)).flatMap (fun k => (List.range w).flatMap fun x => cv (i.y + (i.height + k)) x))
    lp (fun k => lc _) (by
      intro k hk
      refine post_row mix w nc h0 i hx (p k) (cv (i.y + k)) (hp k) (hc _) fun hb => ⟨(ho hb).1, fun x h1 h2 => ?_⟩
      have := (ho hb).2 (i.y + k) x ⟨by omega, by omega, h1, h2⟩
      rwa [Nat.add_sub_cancel_left] at this)
  unfold Spec.canvasBytes
  rw [key]
  simp only [Except.ok.injEq]
  rw [← List.append_assoc, row_join h i.y i.height hy (fun y => (List.range w).flatMap fun x => cv y x)]
  apply flatMap_range_congr
  intro y _
  unfold Spec.draw
  split
  · rename_i hk
    apply flatMap_range_congr
    intro x _
    rw [show i.y + (y - i.y) = y by omega]
    by_cases hxx : i.x ≤ x ∧ x < i.x + i.width
    · rw [if_pos hxx, if_pos ⟨hk.1, hk.2, hxx.1, hxx.2⟩]
    · rw [if_neg hxx, if_neg (fun q => hxx ⟨q.2.2.1, q.2.2.2⟩)]
  · rename_i hk
    apply flatMap_range_congr
    intro x _
    rw [if_neg (fun q => hk ⟨q.1, q.2.1⟩)]

/-! ### The pixels of a frame -/

theorem frame_passes (c : Ctx) (w h : Nat) : ∀ (ps : List Pass) (data scratch fin out out' : List UInt8),
    passLoop c w h ps data scratch fin out = .ok out' → ∃ s', framePasses c w w h ps data scratch fin out = .ok (out', s')
  | [], _, scratch, _, _, _, e => by cases e; exact ⟨scratch, rfl⟩
  | p :: ps, data, scratch, fin, out, out', e => by
    unfold passLoop at e
    unfold framePasses
    simp only at e ⊢
    split at e
    · rename_i h1
      rw [if_pos h1]
      split at e
      · cases e
      · rename_i h2
        rw [if_neg h2]
        split at e
        · cases e
        · rename_i fin' scratch' h3
          rw [h3]
          exact frame_passes c w h ps _ _ _ _ _ e
    · rename_i h1
      rw [if_neg h1]
      exact frame_passes c w h ps _ _ _ _ _ e

theorem frame_pixels (c : Ctx) (hw : c.Wf) (hk : c.KeyOk) (ha : c.AlphaFine) (w : Nat) (adam7 : Bool) (i : FrameInfo)
    (h0 : 0 < i.width) (hn : adam7 = true → i.width = w) (pix : Nat → Nat → List Nat) (hpix : ∀ y x, (pix y x).length = c.color.comps)
    (data extra scratch out : List UInt8) (hdata : Spec.scanlines c i.width i.height adam7 pix data)
    (ho : out.length = i.width * i.height * c.outComps * c.bytes) :
    ∃ s', framePixels c w adam7 i (data ++ extra) scratch out = .ok (Spec.picture c i.width i.height pix, s') := by
  unfold Spec.scanlines at hdata
  unfold framePixels
  split at hdata
  · rename_i h7
    obtain ⟨rows, hrows, rfl⟩ := hdata
    have := interlaced_spec c hw hk ha i.width i.height pix hpix rows hrows extra scratch out ho
    rw [if_pos h7, ← hn h7]
    exact frame_passes c _ _ _ _ _ _ _ _ this
  · rename_i h7
    obtain ⟨rows, hrows, rfl⟩ := hdata
    rw [if_neg h7]
    exact plain_spec c hw hk ha i.width i.height h0 pix rows hrows extra scratch out ho

/-! ### The decoder, frame by frame -/

theorem holds_set {zlib : Zlib} {tail : List UInt8} {all : List (List UInt8 × FrameInfo)} {d : Dec} {gs : List Spec.Group}
    (h : Holds zlib tail all d gs) (f : List UInt8 × FrameInfo) (scratch : List UInt8) :
    Holds zlib tail all { d with frames := d.frames.set d.current f, scratch := scratch, current := d.current + 1 } gs := by
  refine ⟨h.inv, h.seen, h.iend, h.str, h.gok, by simpa using h.len, ?_, by simpa using h.will⟩
  intro k hk hk'
  have hk2 : d.current + 1 ≤ k := hk
  have hk3 : k < d.frames.length := by simpa using hk'
  show (d.frames.set d.current f)[k]? = _
  rw [List.getElem?_set_ne (by omega)]
  exact h.kept k (by omega) hk3

theorem decode_frame (zlib : Zlib) (o : DecOpts) (tail : List UInt8) (all : List (List UInt8 × FrameInfo)) (d : Dec) (gs : List Spec.Group)
    (h : Holds zlib tail all d gs) (st : St) (hst : d.info.st = st) (hw : (st.ctx o).Wf) (ha : (st.ctx o).AlphaFine) (hd : st.depth ≠ 16)
    (hsize : st.width * st.height * (st.ctx o).outComps < 2 ^ 64)
    (hcur : d.current < d.frames.length) (f : List UInt8 × FrameInfo) (hf : all[d.current]? = some f)
    (g : FrameInfo × (Nat → Nat → List Nat)) (hp : Spec.Packs zlib o st f g) :
    ∃ d' gs' ct, d.decode8 zlib o = .ok (d', Spec.canvasBytes g.1.width g.1.height (Spec.canvasOf (st.ctx o) g.2) ++ ct) ∧
      Holds zlib tail all d' gs' ∧ Same d d' ∧ d'.current = d.current + 1 ∧ d.frames.length ≤ d'.frames.length := by
  obtain ⟨d0, gs0, e0, h0, s0, c0, l0⟩ : ∃ d0 gs0, (if d.seenHeaders && d.seenIend then .ok d else d.headers zlib o) = .ok d0 ∧
      Holds zlib tail all d0 gs0 ∧ Same d d0 ∧ d0.current = d.current ∧ d.frames.length ≤ d0.frames.length := by
    by_cases hc : (d.seenHeaders && d.seenIend) = true
    · exact ⟨d, gs, if_pos hc, h, ⟨rfl, rfl⟩, rfl, le_refl _⟩
    · obtain ⟨d', e, h', s', c', l'⟩ := headers_step zlib o tail all d gs h
      have := h.len
      exact ⟨d', gs.tail, by rw [if_neg hc, e], h', s', c', by omega⟩
  obtain ⟨d1, e1, h1, s1, c1, l1⟩ := headers_step zlib { o with toLE := o.le } tail all d0 gs0 h0
  obtain ⟨d2, e2, h2, s2, c2, l2⟩ := headers_step zlib { o with toLE := o.le } tail all d1 _ h1
  have hlen0 := h0.len
  have hlen1 := h1.len
  have hst2 : d2.info.st = st := by rw [s2.st, s1.st, s0.st, hst]
  have hst0 : d0.info.st = st := by rw [s0.st, hst]
  have hget : d2.frames[d2.current]? = some f := by
    rw [h2.kept _ (le_refl _) (by omega), c2, c1, c0, hf]
  obtain ⟨hinfo, hw0, hh0, hr, hb, hnar, hcomp, data, extra, hdata, hz⟩ := hp
  obtain ⟨fd, i⟩ := f
  simp only at hinfo hz
  subst hinfo
  have hk : (st.ctx o).KeyOk := fun e => absurd e hd
  have hbytes : (st.ctx o).bytes = 1 := if_neg hd
  have hn : g.1.width * g.1.height * (st.ctx o).outComps ≤ st.width * st.height * (st.ctx o).outComps :=
    Nat.mul_le_mul_right _ (Nat.mul_le_mul (by omega) (by omega))
  obtain ⟨s', ep⟩ := frame_pixels (st.ctx o) hw hk ha st.width st.adam7 g.1 hw0 hnar g.2 hcomp data extra d2.scratch
    ((List.replicate (st.width * st.height * (st.ctx o).outComps) (0 : UInt8)).take (g.1.width * g.1.height * (st.ctx o).outComps * (st.ctx o).bytes)) hdata
    (by rw [List.length_take, List.length_replicate, hbytes]; omega)
  refine ⟨{ d2 with frames := d2.frames.set d2.current ([], g.1), scratch := s', current := d2.current + 1 }, gs0.tail.tail,
    (List.replicate (st.width * st.height * (st.ctx o).outComps) (0 : UInt8)).drop (g.1.width * g.1.height * (st.ctx o).outComps * (st.ctx o).bytes),
    ?_, holds_set h2 _ _, ⟨by show d2.info.st = _; rw [hst2, hst], by show d2.info.actl = _; rw [s2.actl, s1.actl, s0.actl]⟩,
    by show d2.current + 1 = _; rw [c2, c1, c0], by show _ ≤ (d2.frames.set _ _).length; rw [List.length_set]; omega⟩
  have hdec : d.decode8 zlib o = (if o.strip ∧ d0.info.st.depth = 16 then d0.raw zlib o else d0.into zlib { o with toLE := o.le }
      (List.replicate (d0.info.st.width * d0.info.st.height * (d0.info.st.ctx o).outComps) 0)) := by
    unfold Dec.decode8
    split at e0
    · rename_i hc; rw [if_pos hc]; cases e0; rfl
    · rename_i hc; rw [if_neg hc, e0]; rfl
  rw [hdec, if_neg (by rw [hst0]; tauto)]
  unfold Dec.into
  simp only [e1, e2, bind, Except.bind]
  unfold Dec.intoInner
  rw [hget]
  simp only
  have hctx : d2.info.st.ctx { o with toLE := o.le } = st.ctx o := by rw [hst2]; rfl
  have hzo : d2.info.st.zopts { o with toLE := o.le } = st.zopts o := by rw [hst2]; rfl
  have hzo' : d0.info.st.ctx o = st.ctx o := by rw [hst0]
  rw [hctx, hzo, hst2, hst0, hbytes, Nat.mul_one]
  rw [if_neg (by omega), if_neg (by rw [List.length_replicate]; omega), hz]
  simp only
  rw [hbytes, Nat.mul_one] at ep
  rw [ep]
  simp only
  rw [if_neg (by rintro ⟨e, -⟩; exact hd e)]
  rfl

theorem forall₂_get_length {α β : Type} {R : α → β → Prop} {l : List α} {m : List β} (h : List.Forall₂ R l m) : l.length = m.length := h.length_eq

/-- The loop over the frames. -/
theorem anim_loop (zlib : Zlib) (mix : UInt8 → UInt8 → UInt8 → UInt8 → UInt8) (o : DecOpts) (tail : List UInt8)
    (all : List (List UInt8 × FrameInfo)) (st : St) (hw : (st.ctx o).Wf) (ha : (st.ctx o).AlphaFine) (hd : st.depth ≠ 16)
    (hsize : st.width * st.height * (st.ctx o).outComps < 2 ^ 64) :
    ∀ (rest : List (FrameInfo × (Nat → Nat → List Nat))) (d : Dec) (gs : List Spec.Group) (cv : Spec.Canvas) (fuel : Nat),
    Holds zlib tail all d gs → d.info.st = st → d.info.actl.isSome = true → List.Forall₂ (Spec.Packs zlib o st) (all.drop d.current) rest →
    (d.current < all.length → d.current < d.frames.length) → rest.length < fuel → (∀ y x, (cv y x).length = (st.ctx o).outComps) →
    Spec.Plain mix (st.ctx o).outComps (rest.map fun g => (g.1, Spec.canvasOf (st.ctx o) g.2)) cv →
    animLoop zlib (fun a x y => mix a 255 x y) o st.width st.height (st.ctx o).outComps ((st.ctx o).outComps = 2 ∨ (st.ctx o).outComps = 4) fuel d
        (Spec.canvasBytes st.width st.height cv) =
      .ok ((Spec.render mix (st.ctx o).outComps (rest.map fun g => (g.1, Spec.canvasOf (st.ctx o) g.2)) cv).map fun r =>
        ((r.1.delayNum, r.1.delayDen), Spec.canvasBytes st.width st.height r.2)) := by
  intro rest
  induction rest with
  | nil =>
    intro d gs cv fuel h hst hac hall hcur hfu hcv hpl
    obtain ⟨fuel, rfl⟩ : ∃ k, fuel = k + 1 := ⟨fuel - 1, by simp at hfu; omega⟩
    have hl := hall.length_eq
    rw [List.length_drop, List.length_nil] at hl
    have hm : d.more = false := by
      have := h.len
      unfold Dec.more
      rw [hac, Bool.true_and, decide_eq_false_iff_not]; omega
    rw [animLoop, hm]
    rfl
  | cons g rest ih =>
    intro d gs cv fuel h hst hac hall hcur hfu hcv hpl
    obtain ⟨fuel, rfl⟩ : ∃ k, fuel = k + 1 := ⟨fuel - 1, by simp at hfu; omega⟩
    have hl := hall.length_eq
    rw [List.length_drop, List.length_cons] at hl
    have hlt : d.current < all.length := by omega
    have hlf := hcur hlt
    have hm : d.more = true := by
      unfold Dec.more
      rw [hac, Bool.true_and, decide_eq_true_eq]; exact hlf
    obtain ⟨d1, e1, h1, s1, c1, l1⟩ := headers_step zlib o tail all d gs h
    have hdrop : all.drop d.current = all[d.current] :: all.drop (d.current + 1) := List.drop_eq_getElem_cons hlt
    rw [hdrop] at hall
    cases hall with
    | cons hp hrest =>
    have hlen1 := h1.len
    have hst1 : d1.info.st = st := by rw [s1.st, hst]
    have hf1 : all[d1.current]? = some all[d.current] := by rw [c1]; exact List.getElem?_eq_getElem hlt
    obtain ⟨d2, gs2, ct, e2, h2, s2, c2, l2⟩ := decode_frame zlib o tail all d1 _ h1 st hst1 hw ha hd hsize (by omega) _ hf1 g hp
    have hfi : d1.frameInfo = some g.1 := by
      unfold Dec.frameInfo
      rw [h1.kept _ (le_refl _) (by omega), hf1, Option.map_some, hp.info]
    rw [animLoop, if_pos hm]
    simp only [e1, bind, Except.bind, hfi]
    rw [if_neg (by rw [hst1]; tauto), e2]
    simp only
    rw [List.map_cons] at hpl
    obtain ⟨hdis, hover, hpl'⟩ := hpl
    have hnc : 0 < (st.ctx o).outComps := by
      unfold Ctx.outComps
      cases (st.ctx o).wantAlpha <;> cases (st.ctx o).trns <;> cases (st.ctx o).color <;> simp
    have hpc : ∀ y x, (Spec.canvasOf (st.ctx o) g.2 y x).length = (st.ctx o).outComps := by
      intro y x
      have := pixel_length (st.ctx o) hw (g.2 y x) (hp.comps y x)
      rw [show (st.ctx o).bytes = 1 from if_neg hd, Nat.mul_one] at this
      exact this
    generalize hi : (if g.1.dispose = .previous then { g.1 with dispose := .none } else g.1) = i
    have hi' : i.dispose = .none ∧ i.x = g.1.x ∧ i.y = g.1.y ∧ i.width = g.1.width ∧ i.height = g.1.height ∧ i.blend = g.1.blend ∧
        i.delayNum = g.1.delayNum ∧ i.delayDen = g.1.delayDen := by
      rw [← hi]
      rcases hdis with hdis | ⟨hdis, -⟩
      · rw [if_neg (by rw [hdis]; decide)]; exact ⟨hdis, rfl, rfl, rfl, rfl, rfl, rfl, rfl⟩
      · rw [if_pos hdis]; exact ⟨rfl, rfl, rfl, rfl, rfl, rfl, rfl, rfl⟩
    obtain ⟨i1, i2, i3, i4, i5, i6, i7, i8⟩ := hi'
    have hins : ∀ y x, Spec.inside i y x ↔ Spec.inside g.1 y x := by
      intro y x; unfold Spec.inside; rw [i2, i3, i4, i5]
    have hdraw : Spec.draw mix i (Spec.canvasOf (st.ctx o) g.2) cv = Spec.draw mix g.1 (Spec.canvasOf (st.ctx o) g.2) cv := by
      funext y x
      unfold Spec.draw
      simp only [hins, i2, i3, i6]
    have epost := post_image mix st.width st.height (st.ctx o).outComps hnc i (by rw [i4]; exact hp.width) (by rw [i2, i4]; exact hp.right)
      (by rw [i3, i5]; exact hp.bottom) (Spec.canvasOf (st.ctx o) g.2) cv hpc hcv i1
      (by unfold Spec.inside; rw [i6, i2, i3, i4, i5]; exact hover) ct
    rw [i4, i5] at epost
    rw [epost, hdraw]
    simp only
    have hdisp : rest ≠ [] → Spec.disposed (st.ctx o).outComps g.1 cv (Spec.draw mix g.1 (Spec.canvasOf (st.ctx o) g.2) cv) =
        Spec.draw mix g.1 (Spec.canvasOf (st.ctx o) g.2) cv := by
      intro hne
      unfold Spec.disposed
      rcases hdis with hdis | ⟨-, hn⟩
      · rw [hdis]
      · exact absurd (List.map_eq_nil_iff.mp hn) hne
    have := ih d2 gs2 (Spec.draw mix g.1 (Spec.canvasOf (st.ctx o) g.2) cv) fuel h2 (by rw [s2.st, hst1]) (by rw [s2.actl, s1.actl, hac])
      (by rw [c2, c1]; exact hrest) (by rw [c2]; have := h2.len; intro _; omega) (by simp at hfu; omega)
      (draw_length mix _ hnc g.1 _ _ hpc hcv) hpl'
    rw [this]
    simp only [List.map_cons, Spec.render, i7, i8]
    by_cases hne : rest = []
    · subst hne; rfl
    · rw [hdisp hne]

end Zune.Png
