import Verif.Jpeg.PostLemmas

/-!
# The loop over the MCU rows

What `post_process` gives for each MCU row, put together to the whole picture.
-/

namespace Zune.Jpeg

theorem allSome_forall₂ {α β γ : Type} {R : α → β → Prop} {S : α → γ → Prop} (f : β → Option γ)
    (h : ∀ a b, R a b → ∃ c, f b = some c ∧ S a c) : ∀ (as : List α) (bs : List β), List.Forall₂ R as bs →
      ∃ cs, allSome (bs.map f) = some cs ∧ List.Forall₂ S as cs
  | [], _, hr => by cases hr; exact ⟨[], rfl, .nil⟩
  | a :: as, _, hr => by
    cases hr with
    | cons h1 h2 =>
      obtain ⟨c, e, hs⟩ := h _ _ h1
      obtain ⟨cs, e', hs'⟩ := allSome_forall₂ f h as _ h2
      refine ⟨c :: cs, ?_, .cons hs hs'⟩
      rw [List.map_cons]
      simp only [allSome, e, e', Option.map_some]

theorem forall₂_eq {α β : Type} {g : α → β} : ∀ (as : List α) (bs : List β),
    List.Forall₂ (fun a b => b = g a) as bs → bs = as.map g
  | [], _, h => by cases h; rfl
  | a :: as, _, h => by
    cases h with
    | cons h1 h2 => rw [h1, forall₂_eq as _ h2, List.map_cons]

/-- The conversion of one line of the samples of `k` components fills the line. -/
structure Converts (p : Post) (k : Nat) (F : List (Nat → Int) → List UInt8) : Prop where
  pos : 0 < p.line
  conv : ∀ (us : List (Nat → Int)) (buf : List UInt8), us.length = k → (∀ u ∈ us, ∀ x, Sample (u x)) →
    buf.length = p.line → p.conv (us.map (plane · 0 p.padded)) buf = some (F us)

/-- Line `y` of the output: the conversion of row `y` of the components. -/
def outLine (F : List (Nat → Int) → List UInt8) (us : List (Nat → Nat → Int)) (y : Nat) : List UInt8 :=
  F (us.map (· y))

theorem convLoop_eq (p : Post) (k : Nat) (F) (hF : Converts p k F) (us : List (Nat → Nat → Int))
    (hk : us.length = k) (hu : ∀ u ∈ us, ∀ y x, Sample (u y x)) (samples : List (List Int))
    (s m : Nat) (hs : List.Forall₂ (fun u l => ∃ t, l = rows u s m p.padded ++ t) us samples) :
    ∀ (n pos : Nat) (done rest : List UInt8), pos + n ≤ m →
      convLoop p samples n pos done rest =
        some (done ++ (List.range' (s + pos) (min n (rest.length / p.line))).flatMap (outLine F us),
          rest.drop (min n (rest.length / p.line) * p.line))
  | 0, pos, done, rest, _ => by
    rw [convLoop, Nat.zero_min, Nat.zero_mul, List.range'_zero, List.flatMap_nil, List.append_nil, List.drop_zero]
  | n + 1, pos, done, rest, hn => by
    have hl := hF.pos
    rw [convLoop]
    by_cases h : p.line ≤ rest.length
    · obtain ⟨raw, e, hraw⟩ := allSome_forall₂ (S := fun u l => l = plane (u (s + pos)) 0 p.padded)
        (fun l => slice l (pos * p.padded) ((pos + 1) * p.padded)) (by
          rintro u _ ⟨t, rfl⟩
          exact ⟨_, slice_row u s m p.padded pos t (by omega), rfl⟩) us samples hs
      have hraw' := forall₂_eq us raw hraw
      have hraw'' : raw = (us.map (· (s + pos))).map (plane · 0 p.padded) := by
        rw [hraw', List.map_map]
        rfl
      have hc := hF.conv (us.map (· (s + pos))) (rest.take p.line) (by rw [List.length_map, hk]) (by
        intro l hl
        obtain ⟨u, hu', rfl⟩ := List.mem_map.1 hl
        exact hu u hu' _) (by rw [List.length_take]; omega)
      rw [← hraw''] at hc
      have hdiv : rest.length / p.line = (rest.drop p.line).length / p.line + 1 := by
        rw [List.length_drop]
        exact (Nat.div_eq_sub_div hl h)
      simp only [h, if_true, e, hc]
      rw [convLoop_eq p k F hF us hk hu samples s m hs n (pos + 1) _ _ (by omega), hdiv]
      have hmin : min (n + 1) ((rest.drop p.line).length / p.line + 1) =
          min n ((rest.drop p.line).length / p.line) + 1 := by omega
      rw [hmin]
      generalize min n ((rest.drop p.line).length / p.line) = q
      rw [List.range'_succ, List.flatMap_cons, List.drop_drop, Nat.add_mul, Nat.one_mul, Nat.add_comm p.line,
        List.append_assoc]
      rfl
    · have h0 : rest.length / p.line = 0 := Nat.div_eq_of_lt (by omega)
      simp only [h, if_false]
      rw [h0, Nat.min_zero, Nat.zero_mul, List.range'_zero, List.flatMap_nil, List.append_nil, List.drop_zero]

/-- The first `K` lines, as far as there is room, have been written. -/
def Emitted (p : Post) (L : Nat → List UInt8) (out : List UInt8) (K : Nat) (done rest : List UInt8) : Prop :=
  done = (List.range (min K (out.length / p.line))).flatMap L ∧
    rest = out.drop (min K (out.length / p.line) * p.line)

theorem emit (p : Post) (hl : 0 < p.line) (L : Nat → List UInt8) (out : List UInt8) (K n : Nat)
    (done rest : List UInt8) (h : Emitted p L out K done rest) :
    Emitted p L out (K + n) (done ++ (List.range' K (min n (rest.length / p.line))).flatMap L)
      (rest.drop (min n (rest.length / p.line) * p.line)) := by
  obtain ⟨h1, h2⟩ := h
  have hlen : rest.length / p.line = out.length / p.line - min K (out.length / p.line) := by
    rw [h2, List.length_drop, Nat.mul_comm, Nat.sub_mul_div]
  rw [hlen]
  generalize hM : out.length / p.line = M at *
  by_cases hK : K ≤ M
  · have e1 : min K M = K := by omega
    have e2 : min (K + n) M = K + min n (M - K) := by omega
    rw [e1] at h1 h2
    rw [e1]
    constructor
    · rw [hM, e2, h1, List.range_eq_range', List.range_eq_range', ← List.flatMap_append, ← List.range'_append,
        Nat.zero_add, Nat.one_mul]
    · rw [hM, e2, h2, List.drop_drop, Nat.add_mul]
  · have e1 : min K M = M := by omega
    have e2 : min (K + n) M = M := by omega
    have e3 : min n (M - min K M) = 0 := by omega
    rw [e1] at h1 h2
    rw [e3]
    constructor
    · rw [hM, e2, List.range'_zero, List.flatMap_nil, List.append_nil, h1]
    · rw [hM, e2, h2, Nat.zero_mul, List.drop_zero]

/-- A component between two MCU rows. -/
def Between (a : Chan) (H i : Nat) (vertical : Bool) (c : Comp) : Prop :=
  Rel a c ∧ Room a c ∧ (vertical → 0 < i → i < H → Kept a H i c)

/-- The samples that the entropy decoder leaves for MCU row `i`. -/
def rawsOf (as : List Chan) (i : Nat) : List (List Int) :=
  as.map fun a => rows a.P (8 * a.vs * i) (8 * a.vs) a.w

theorem isVertical_eq : ∀ (as : List Chan) (cs : List Comp), List.Forall₂ (fun a c => c.ratio = a.ratio) as cs →
    (isVertical cs = true ↔ ∃ a ∈ as, a.ratio.vert)
  | [], _, h => by cases h; simp [isVertical]
  | a :: as, _, h => by
    cases h with
    | @cons _ c _ cs h1 h2 =>
      have ih := isVertical_eq as _ h2
      unfold isVertical at ih ⊢
      rw [List.any_cons, Bool.or_eq_true, ih]
      simp only [List.mem_cons, exists_eq_or_imp, decide_eq_true_eq, h1, Ratio.vert]
      rw [or_comm (a := a.ratio = Ratio.hv)]

theorem between_zip (H i : Nat) (v : Bool) : ∀ (as : List Chan) (cs : List Comp),
    List.Forall₂ (fun a c => Between a H i v c) as cs →
    List.Forall₂ (fun a c => Between a H i v c ∧ c.raw = rows a.P (8 * a.vs * i) (8 * a.vs) a.w) as
      (List.zipWith (fun c r => { c with raw := r }) cs (rawsOf as i))
  | [], _, h => by cases h; exact .nil
  | a :: as, _, h => by
    cases h with
    | @cons _ c _ cs h1 h2 =>
      refine .cons ⟨⟨⟨h1.1.ratio, h1.1.vs, h1.1.stride, h1.1.first, h1.1.row, h1.1.rowUp⟩, h1.2.1, ?_⟩, rfl⟩
        (between_zip H i v as _ h2)
      intro hv h0 hH
      have := h1.2.2 hv h0 hH
      unfold Kept at *
      exact this

theorem forall₂_maps {α β γ δ : Type} {R : α → β → Prop} (S : γ → δ → Prop) (g : α → γ) (f : β → δ)
    (h : ∀ a b, R a b → S (g a) (f b)) : ∀ (as : List α) (bs : List β), List.Forall₂ R as bs →
      List.Forall₂ S (as.map g) (bs.map f)
  | [], _, hr => by cases hr; exact .nil
  | a :: as, _, hr => by
    cases hr with
    | cons h1 h2 => exact .cons (h _ _ h1) (forall₂_maps S g f h as _ h2)

theorem forall₂_mem {α β : Type} {R S : α → β → Prop} : ∀ (as : List α) (bs : List β)
    (_ : ∀ a ∈ as, ∀ b, R a b → S a b), List.Forall₂ R as bs → List.Forall₂ S as bs
  | [], _, _, hr => by cases hr; exact .nil
  | a :: as, _, h, hr => by
    cases hr with
    | cons h1 h2 =>
      exact .cons (h a List.mem_cons_self _ h1)
        (forall₂_mem as _ (fun a ha => h a (List.mem_cons_of_mem _ ha)) h2)

/-- The frame: all components fit, upsampling runs, and with a vertical ratio the frame is one that the code
treats fully: vertical maximum 2, `coeff` 1, no generic ratio. -/
structure Frame (p : Post) (as : List Chan) (vertical : Bool) : Prop where
  fits : ∀ a ∈ as, a.Fits p
  inter : p.interleaved = true
  luma : p.outLuma = false
  coeff : p.coeff = 1
  vert : vertical = true ↔ ∃ a ∈ as, a.ratio.vert
  two : vertical = true → p.vMax = 2 ∧ ∀ a ∈ as, ∀ x y, a.ratio ≠ .generic x y

/-- The lines written before MCU row `i`. -/
def before (p : Post) (H : Nat) (vertical : Bool) (i : Nat) : Nat :=
  if vertical then (if i = 0 then 0 else if i < H then 16 * i - 2 else 16 * i) else 8 * p.vMax * i

theorem hSpec_sample (g : Nat → Int) (n : Nat) (h : ∀ i, Sample (g i)) (x : Nat) : Sample (hSpec g n x) := by
  unfold hSpec two
  split
  · exact tri_sample _ _ (h _) (h _)
  · exact tri_sample _ _ (h _) (h _)

theorem U_sample (p : Post) (a : Chan) (ha : a.Fits p) (H y x : Nat) : Sample (a.U H y x) := by
  have hs := ha.smp
  have hv : ∀ r, Sample (vSpec r a.w a.P (8 * H - 1) y x) := by
    intro r
    unfold vSpec mixRow
    split <;> split
    · exact hSpec_sample _ _ (fun i => tri_sample _ _ (hs _ _) (hs _ _)) _
    · exact hSpec_sample _ _ (fun i => tri_sample _ _ (hs _ _) (hs _ _)) _
    · exact tri_sample _ _ (hs _ _) (hs _ _)
    · exact tri_sample _ _ (hs _ _) (hs _ _)
  unfold Chan.U
  cases a.ratio with
  | none => exact hs _ _
  | h => exact hSpec_sample _ _ (hs _) _
  | v => exact hv _
  | hv => exact hv _
  | generic _ _ => exact hs _ _

theorem postRow (p : Post) (k : Nat) (F) (hF : Converts p k F) (as : List Chan) (hk : as.length = k)
    (vertical : Bool) (hf : Frame p as vertical) (H i : Nat) (hH : p.mcuHeight = H) (hi : i < H) (out : List UInt8)
    (s : PState)
    (hs : List.Forall₂ (fun a c => Between a H i vertical c ∧ c.raw = rows a.P (8 * a.vs * i) (8 * a.vs) a.w) as s.comps)
    (he : Emitted p (outLine F (as.map (·.U H))) out (before p H vertical i) s.done s.rest) :
    ∃ s', postProcess p i s = some s' ∧
      List.Forall₂ (fun a c => Between a H (i + 1) vertical c) as s'.comps ∧
      Emitted p (outLine F (as.map (·.U H))) out (before p H vertical (i + 1)) s'.done s'.rest := by
  subst hH
  have hl := hF.pos
  have hk' : (as.map (·.U p.mcuHeight)).length = k := by rw [List.length_map, hk]
  have hu : ∀ u ∈ as.map (·.U p.mcuHeight), ∀ y x, Sample (u y x) := by
    intro u hu y x
    obtain ⟨a, ha, rfl⟩ := List.mem_map.1 hu
    exact U_sample p a (hf.fits a ha) _ y x
  have hver : isVertical s.comps = vertical := by
    have h1 := isVertical_eq as s.comps (forall₂_mem as _ (fun a _ c h => h.1.1.ratio) hs)
    rw [← hf.vert] at h1
    cases h : isVertical s.comps <;> cases h' : vertical <;> rw [h, h'] at h1 <;> simp at h1 <;> rfl
  have hmem := forall₂_mem (S := fun a c => a ∈ as ∧ Between a p.mcuHeight i vertical c ∧
    c.raw = rows a.P (8 * a.vs * i) (8 * a.vs) a.w) as _ (fun a ha c h => ⟨ha, h⟩) hs
  unfold postProcess
  rw [if_pos ⟨hf.inter, by rw [hf.luma]; decide⟩]
  simp only [hver]
  cases hv : vertical with
  | false =>
    have hnv : ∀ a ∈ as, ¬a.ratio.vert := fun a ha h => by
      have := hf.vert.2 ⟨a, ha, h⟩
      rw [hv] at this
      simp at this
    obtain ⟨cs, e, hcs⟩ := allSome_forall₂ (S := fun a c => Rel a c ∧ Room a c ∧
        ∃ t, c.samples = rows (a.U p.mcuHeight) (8 * p.vMax * i) (8 * p.vMax) p.padded ++ t)
      (upsample p.avx2 p.mcuHeight i p.scratch false) (by
        rintro a c ⟨ha, hb, hr⟩
        exact upsample_flat p a (hf.fits a ha) i p.mcuHeight c hb.1 hb.2.1 (hnv a ha) hr) as _ hmem
    rw [e]
    simp only [Bool.false_eq_true, if_false]
    unfold postRest
    simp only [Bool.false_and, Bool.false_eq_true, if_false, Nat.sub_zero, hf.coeff, Nat.mul_one]
    rw [convLoop_eq p k F hF (as.map (·.U p.mcuHeight)) hk' hu (cs.map (·.samples)) (8 * p.vMax * i) (8 * p.vMax)
      (forall₂_maps _ _ _ (fun a c h => h.2.2) as cs hcs) _ 0 _ _ (by omega)]
    refine ⟨_, rfl, forall₂_mem as _ (fun a ha c h => ⟨h.1, h.2.1, fun h => by simp at h⟩) hcs, ?_⟩
    have hK : before p p.mcuHeight false i = 8 * p.vMax * i := rfl
    have := emit p hl _ out _ (8 * p.vMax) _ _ he
    rw [hv, hK] at this
    have hK' : before p p.mcuHeight false (i + 1) = 8 * p.vMax * i + 8 * p.vMax := rfl
    rw [hK', Nat.add_zero]
    exact this
  | true =>
    obtain ⟨h2, hng⟩ := hf.two hv
    obtain ⟨cs, e, hcs⟩ := allSome_forall₂ (S := fun a c => a ∈ as ∧ Rel a c ∧ Room a c ∧
        c.raw = rows a.P (8 * a.vs * i) (8 * a.vs) a.w ∧
        (0 < i → c.first = rows (a.U p.mcuHeight) (16 * i - 2) 2 p.padded) ∧
        (∃ t, c.samples = rows (a.U p.mcuHeight) (16 * i) (if i ≠ p.mcuHeight - 1 then 14 else 16) p.padded ++ t) ∧
        Half a p.mcuHeight i c)
      (upsample p.avx2 p.mcuHeight i p.scratch true) (by
        rintro a c ⟨ha, hb, hr⟩
        obtain ⟨c', e, k1, k2, k3, k4, k5, k6⟩ := upsample_vert p a (hf.fits a ha) i p.mcuHeight hi rfl h2 (hng a ha) c
          hb.1 hb.2.1 (fun h0 => hb.2.2 hv h0 hi) hr
        exact ⟨c', e, ha, k1, k2, k3.trans hr, k4, k5, k6⟩) as _ hmem
    obtain ⟨cs', e', hcs'⟩ := allSome_forall₂ (S := fun a c => Rel a c ∧ Room a c ∧
        (∃ t, c.samples = rows (a.U p.mcuHeight) (16 * i) (if i ≠ p.mcuHeight - 1 then 14 else 16) p.padded ++ t) ∧
        (i ≠ p.mcuHeight - 1 → Kept a p.mcuHeight (i + 1) c))
      keepLast (by
        rintro a c ⟨ha, k1, k2, k3, k4, k5, k6⟩
        obtain ⟨c', e, m1, m2, m3, m4⟩ := keepLast_eq p a (hf.fits a ha) i p.mcuHeight h2 (hng a ha) c k1 k2 k6 k3
        exact ⟨c', e, m1, m2, by rw [m3]; exact k5, m4⟩) as _ hcs
    have hfirst : ∃ done rest, (if 0 < i then convLoop p (cs.map (·.first)) (p.coeff * p.vMax) 0 s.done s.rest
        else some (s.done, s.rest)) = some (done, rest) ∧
        Emitted p (outLine F (as.map (·.U p.mcuHeight))) out (16 * i) done rest := by
      by_cases h0 : 0 < i
      · rw [if_pos h0, hf.coeff, h2, convLoop_eq p k F hF (as.map (·.U p.mcuHeight)) hk' hu (cs.map (·.first)) (16 * i - 2) 2
          (forall₂_maps _ _ _ (fun a c h => ⟨[], by rw [List.append_nil]; exact h.2.2.2.2.1 h0⟩) as cs hcs) _ 0 _ _ (by omega)]
        refine ⟨_, _, rfl, ?_⟩
        have hK : before p p.mcuHeight vertical i = 16 * i - 2 := by
          unfold before
          rw [hv, if_pos rfl, if_neg (by omega), if_pos hi]
        rw [hK] at he
        have := emit p hl _ out _ 2 _ _ he
        rw [show 16 * i - 2 + 2 = 16 * i by omega] at this
        exact this
      · have : i = 0 := by omega
        subst this
        refine ⟨s.done, s.rest, rfl, ?_⟩
        have hK : before p p.mcuHeight vertical 0 = 16 * 0 := by unfold before; rw [hv]; rfl
        rw [hK] at he
        exact he
    obtain ⟨done, rest, ef, hem⟩ := hfirst
    have hpv : postVertical p i ⟨cs, s.done, s.rest⟩ = some ⟨cs', done, rest⟩ := by
      unfold postVertical
      simp only
      rw [ef]
      simp only
      rw [e']
    rw [e]
    simp only [if_true]
    rw [hpv]
    simp only
    unfold postRest
    have hcount : (8 - (if (true && decide (i ≠ p.mcuHeight - 1)) = true then 1 else 0)) * p.coeff * p.vMax =
        if i ≠ p.mcuHeight - 1 then 14 else 16 := by
      rw [hf.coeff, h2, Bool.true_and]
      by_cases hl : i ≠ p.mcuHeight - 1
      · rw [if_pos (by simpa using hl), if_pos hl]
      · rw [if_neg (by simpa using hl), if_neg hl]
    simp only
    rw [hcount, convLoop_eq p k F hF (as.map (·.U p.mcuHeight)) hk' hu (cs'.map (·.samples)) (16 * i) (if i ≠ p.mcuHeight - 1 then 14 else 16)
      (forall₂_maps _ _ _ (fun a c h => h.2.2.1) as cs' hcs') _ 0 _ _ (by omega)]
    refine ⟨_, rfl, forall₂_mem as _ (fun a ha c h => ⟨h.1, h.2.1, fun _ _ hlt => h.2.2.2 (by omega)⟩) hcs', ?_⟩
    have := emit p hl _ out _ (if i ≠ p.mcuHeight - 1 then 14 else 16) _ _ hem
    have hK : before p p.mcuHeight true (i + 1) = 16 * i + if i ≠ p.mcuHeight - 1 then 14 else 16 := by
      unfold before
      rw [if_pos rfl, if_neg (by omega)]
      by_cases hl : i ≠ p.mcuHeight - 1
      · rw [if_pos hl, if_pos (by omega)]
        omega
      · rw [if_neg hl, if_neg (by omega)]
        omega
    rw [hK]
    exact this

theorem postAll_rows (p : Post) (k : Nat) (F) (hF : Converts p k F) (as : List Chan) (hk : as.length = k)
    (vertical : Bool) (hf : Frame p as vertical) (H : Nat) (hH : p.mcuHeight = H) (out : List UInt8) :
    ∀ (n i : Nat) (s : PState), i + n = H →
      List.Forall₂ (fun a c => Between a H i vertical c) as s.comps →
      Emitted p (outLine F (as.map (·.U H))) out (before p H vertical i) s.done s.rest →
      ∃ s', postAll p (rawsOf as) n i s = some s' ∧
        Emitted p (outLine F (as.map (·.U H))) out (before p H vertical H) s'.done s'.rest
  | 0, i, s, hn, _, he => by
    have : i = H := by omega
    subst this
    exact ⟨s, rfl, he⟩
  | n + 1, i, s, hn, hc, he => by
    obtain ⟨s', e, h1, h2⟩ := postRow p k F hF as hk vertical hf H i hH (by omega) out
      { s with comps := List.zipWith (fun c r => { c with raw := r }) s.comps (rawsOf as i) }
      (between_zip H i vertical as s.comps hc) he
    rw [postAll, e]
    exact postAll_rows p k F hF as hk vertical hf H hH out n (i + 1) s' (by omega) h1 h2

theorem zip_raw : ∀ (cs : List Comp) (rs : List (List Int)), rs.length = cs.length →
    (List.zipWith (fun (c : Comp) r => { c with raw := r }) cs rs).map (·.raw) = rs
  | [], rs, h => by rw [List.length_eq_zero_iff.1 h]; rfl
  | c :: cs, rs, h => by
    cases rs with
    | nil => simp at h
    | cons r rs =>
      rw [List.zipWith_cons_cons, List.map_cons, zip_raw cs rs (by simpa using h)]

/-- The number of lines for each MCU row without upsampling. -/
def plainLines (p : Post) : Nat :=
  match p.subSample with
  | .generic _ v => 8 * v * p.coeff
  | _ => 8 * p.coeff

theorem postPlain_rows (p : Post) (us : List (Nat → Nat → Int)) (hu : ∀ u ∈ us, ∀ y x, Sample (u y x)) (F)
    (hF : Converts p us.length F) (hp : ¬(p.interleaved = true ∧ ¬p.outLuma = true)) (raws : Nat → List (List Int)) (N : Nat)
    (hr : ∀ j, j < N → (if p.outLuma = true then (raws j).take 1 else raws j) =
      us.map fun u => rows u (plainLines p * j) (plainLines p) p.padded)
    (out : List UInt8) :
    ∀ (n i : Nat) (s : PState), i + n = N → (∀ j, j < N → (raws j).length = s.comps.length) →
      Emitted p (outLine F us) out (plainLines p * i) s.done s.rest →
      ∃ s', postAll p raws n i s = some s' ∧ Emitted p (outLine F us) out (plainLines p * N) s'.done s'.rest ∧
        s'.comps.length = s.comps.length
  | 0, i, s, hn, _, he => by
    have : i = N := by omega
    subst this
    exact ⟨s, rfl, he, rfl⟩
  | n + 1, i, s, hn, hlen, he => by
    have hl := hlen i (by omega)
    have hlen' : (List.zipWith (fun (c : Comp) r => { c with raw := r }) s.comps (raws i)).length = s.comps.length := by
      rw [List.length_zipWith, hl, Nat.min_self]
    have hraw := zip_raw s.comps (raws i) hl
    generalize hcs : List.zipWith (fun (c : Comp) r => { c with raw := r }) s.comps (raws i) = cs at *
    have hsamp : (if p.outLuma = true then cs.take 1 else cs).map (·.raw) =
        us.map fun u => rows u (plainLines p * i) (plainLines p) p.padded := by
      rw [← hr i (by omega)]
      split
      · rw [List.map_take, hraw]
      · exact hraw
    have hc := convLoop_eq p us.length F hF us rfl hu
      ((if p.outLuma = true then cs.take 1 else cs).map (·.raw)) (plainLines p * i) (plainLines p)
      (by
        rw [hsamp]
        have : ∀ vs : List (Nat → Nat → Int), List.Forall₂ (fun u l => ∃ t, l = rows u (plainLines p * i) (plainLines p) p.padded ++ t) vs
            (vs.map fun u => rows u (plainLines p * i) (plainLines p) p.padded) := by
          intro vs
          induction vs with
          | nil => exact .nil
          | cons v vs ih => exact .cons ⟨[], (List.append_nil _).symm⟩ ih
        exact this us) (plainLines p) 0 s.done s.rest (by omega)
    have hpp : postProcess p i { s with comps := cs } = some ⟨cs,
        s.done ++ (List.range' (plainLines p * i + 0) (min (plainLines p) (s.rest.length / p.line))).flatMap (outLine F us),
        s.rest.drop (min (plainLines p) (s.rest.length / p.line) * p.line)⟩ := by
      unfold postProcess
      rw [if_neg hp]
      have hq : postPlain p { s with comps := cs } =
          (match convLoop p ((if p.outLuma = true then cs.take 1 else cs).map (·.raw)) (plainLines p) 0 s.done s.rest with
          | none => none
          | some (done, rest) => some ⟨cs, done, rest⟩) := rfl
      rw [hq, hc]
    rw [postAll, hcs, hpp]
    have hem := emit p hF.pos _ out _ (plainLines p) _ _ he
    rw [show plainLines p * i + plainLines p = plainLines p * (i + 1) from (Nat.mul_succ _ _).symm] at hem
    obtain ⟨s', e1, e2, e3⟩ := postPlain_rows p us hu F hF hp raws N hr out n (i + 1) ⟨cs, _, _⟩ (by omega)
      (fun j hj => (hlen j hj).trans hlen'.symm) hem
    exact ⟨s', e1, e2, by rw [e3]; exact hlen'⟩

end Zune.Jpeg
