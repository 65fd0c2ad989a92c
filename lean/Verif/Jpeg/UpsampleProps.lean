import Verif.Jpeg.FrameLemmas

/-!
# Upsampling and the MCU row loop of the JPEG decoder (C47, C67)

Specification: the triangle filter.  Each output sample lies between two input samples, three quarters
of the way to the nearer; the edge sample is repeated outside.
-/

namespace Zune.Jpeg

/-- Specification: output `k` of the triangle filter over the samples `f 0 … f last`. -/
def tent (f : Nat → Int) (last k : Nat) : Int :=
  (3 * f (k / 2) + f (if k % 2 = 0 then k / 2 - 1 else min (k / 2 + 1) last) + 2) / 4

theorem hSpec_tent (g : Nat → Int) (n k : Nat) (h : ∀ i, Sample (g i)) : hSpec g n k = tent g (n - 1) k := by
  unfold hSpec two tent
  split
  · exact tri_exact _ _ (h _) (h _)
  · exact tri_exact _ _ (h _) (h _)

/-! ## C47 -/

/-- **C47.** Horizontal upsampling of a row of at least three samples: the triangle filter, with
and without AVX2. -/
theorem c47_horizontal (avx2 : Bool) (g : Nat → Int) (n : Nat) (hn : 2 < n) (hg : ∀ i, Sample (g i))
    (out : List Int) (ho : out.length = 2 * n) :
    upH avx2 (plane g 0 n) out = some (plane (tent g (n - 1)) 0 (2 * n)) := by
  rw [upH_eq avx2 g n hn hg out ho]
  congr 1
  exact plane_congr _ _ _ _ fun k _ _ => hSpec_tent g n k hg

/-- **C47.** Vertical upsampling of a row: two rows, the nearer input row weighted three, with and
without AVX2. -/
theorem c47_vertical (avx2 : Bool) (g near far : Nat → Int) (n : Nat) (hn : 2 < n) (hg : ∀ i, Sample (g i))
    (h1 : ∀ i, Sample (near i)) (h2 : ∀ i, Sample (far i)) (out : List Int) (ho : out.length = 2 * n) :
    upV avx2 (plane g 0 n) (plane near 0 n) (plane far 0 n) out =
      some (plane (fun i => (3 * g i + near i + 2) / 4) 0 n ++ plane (fun i => (3 * g i + far i + 2) / 4) 0 n) := by
  have := vertKernel_eq avx2 .v (.inl rfl) n hn g near far hg h1 h2 [] out (by simp) (by
    simp only [Ratio.hf]; omega)
  simp only [vertKernel, Ratio.hf, Nat.mul_one] at this
  rw [this]
  congr 2
  · exact plane_congr _ _ _ _ fun k _ _ => tri_exact _ _ (hg k) (h1 k)
  · exact plane_congr _ _ _ _ fun k _ _ => tri_exact _ _ (hg k) (h2 k)

/-- **C47.** Upsampling in both directions is vertical upsampling followed by horizontal upsampling of the
two rows. -/
theorem c47_both (avx2 : Bool) (g near far : Nat → Int) (n : Nat) (hn : 2 < n) (hg : ∀ i, Sample (g i))
    (h1 : ∀ i, Sample (near i)) (h2 : ∀ i, Sample (far i)) (scratch out : List Int)
    (hs : scratch.length = 2 * n) (ho : out.length = 4 * n) :
    upHV avx2 (plane g 0 n) (plane near 0 n) (plane far 0 n) scratch out =
      some (plane (tent (fun i => (3 * g i + near i + 2) / 4) (n - 1)) 0 (2 * n) ++
        plane (tent (fun i => (3 * g i + far i + 2) / 4) (n - 1)) 0 (2 * n)) := by
  have := vertKernel_eq avx2 .hv (.inr rfl) n hn g near far hg h1 h2 scratch out (fun _ => hs) (by
    simp only [Ratio.hf]; omega)
  simp only [vertKernel, Ratio.hf] at this
  rw [this, Nat.mul_comm n 2]
  have e : ∀ u : Nat → Int, (∀ i, Sample (u i)) →
      plane (mixRow .hv n g u) 0 (2 * n) = plane (tent (fun i => (3 * g i + u i + 2) / 4) (n - 1)) 0 (2 * n) := by
    intro u hu
    refine plane_congr _ _ _ _ fun k _ _ => ?_
    unfold mixRow
    rw [if_pos rfl, hSpec_tent _ _ _ fun i => tri_sample _ _ (hg i) (hu i)]
    congr 1
    funext i
    exact tri_exact _ _ (hg i) (hu i)
  rw [e near h1, e far h2]

/-- **C47.** A value of the triangle filter lies between the two samples it is made from, so it is a
sample again. -/
theorem c47_between (f : Nat → Int) (last k : Nat) (hf : ∀ i, Sample (f i)) :
    let other := if k % 2 = 0 then k / 2 - 1 else min (k / 2 + 1) last
    min (f (k / 2)) (f other) ≤ tent f last k ∧ tent f last k ≤ max (f (k / 2)) (f other) ∧
      Sample (tent f last k) := by
  intro other
  obtain ⟨a0, a1⟩ := hf (k / 2)
  obtain ⟨b0, b1⟩ := hf other
  have e : tent f last k = (3 * f (k / 2) + f other + 2) / 4 := rfl
  rw [e]
  refine ⟨by omega, by omega, ?_, ?_⟩ <;> omega

/-- **C47.** With any other ratio the nearest sample is repeated. -/
theorem c47_generic (g : Nat → Int) (n h : Nat) (hh : 0 < h) (out : List Int) (ho : out.length = n * h) (hn : 0 < n) :
    upGeneric (plane g 0 n) out = some (plane (fun k => g (k / h)) 0 (n * h)) := by
  rw [upGeneric_eq g n h hn hh out ho]

/-- Rows used in the examples. -/
def ramp (k : Nat) : Nat → Int := fun i => ((i * i * 7 + k * 31) % 256 : Nat)

theorem ramp_sample (k i : Nat) : Sample (ramp k i) := by
  unfold ramp Sample
  omega

example : (2 < 20 ∧ ∀ i, Sample (ramp 1 i)) ∧ upH true (plane (ramp 1) 0 20) (List.replicate 40 9) =
    upH false (plane (ramp 1) 0 20) (List.replicate 40 9) ∧
    (upH false (plane (ramp 1) 0 20) (List.replicate 40 9)).map (·.take 5) = some [31, 33, 36, 43, 54] :=
  ⟨⟨by decide, fun i => ramp_sample 1 i⟩, by decide +kernel, by decide +kernel⟩

example : (upV true (plane (ramp 1) 0 18) (plane (ramp 2) 0 18) (plane (ramp 3) 0 18) (List.replicate 36 0)).map
    (·.take 3) = some [39, 46, 67] := by decide +kernel

example : (upHV true (plane (ramp 1) 0 18) (plane (ramp 2) 0 18) (plane (ramp 3) 0 18) (List.replicate 36 0)
    (List.replicate 72 0)).map (·.take 4) = some [39, 41, 44, 51] := by decide +kernel

example : upGeneric (plane (ramp 1) 0 2) (List.replicate 8 0) = some [31, 31, 31, 31, 38, 38, 38, 38] := by decide +kernel

/-! ## C67 -/

/-- Specification: sample (`y`, `x`) of a component with samples `P`, enlarged `hr` times across and `vr`
times down: interpolated with the triangle filter for factors of two, repeated for any others.  The
component has columns up to `lastX` and rows up to `lastY`. -/
def enlarged (hr vr lastX lastY : Nat) (P : Nat → Nat → Int) (y x : Nat) : Int :=
  if hr ≤ 2 ∧ vr ≤ 2 then
    let down := fun c => if vr = 2 then tent (fun r => P r c) lastY y else P y c
    if hr = 2 then tent down lastX x else down x
  else P (y / vr) (x / hr)

theorem U_enlarged (width H : Nat) (f0 : Factor) (c : Factor × (Nat → Nat → Int))
    (hh : 0 < f0.h / c.1.h) (hv : 0 < f0.v / c.1.v) (hs : ∀ y x, Sample (c.2 y x)) (y x : Nat) :
    (chanOf width f0 c).U H y x = enlarged (f0.h / c.1.h) (f0.v / c.1.v)
      (c.1.h * (divCeil width (f0.h * 8) * 8) - 1) (8 * H - 1) c.2 y x := by
  have hvs : ∀ r z, vSpec r (c.1.h * (divCeil width (f0.h * 8) * 8)) c.2 (8 * H - 1) y z =
      mixRow r (c.1.h * (divCeil width (f0.h * 8) * 8)) (c.2 (y / 2))
        (fun x => c.2 (if y % 2 = 0 then y / 2 - 1 else min (y / 2 + 1) (8 * H - 1)) x) z := by
    intro r z
    unfold vSpec
    split <;> rfl
  have ht : ∀ z, tri (c.2 (y / 2) z) (c.2 (if y % 2 = 0 then y / 2 - 1 else min (y / 2 + 1) (8 * H - 1)) z) =
      tent (fun r => c.2 r z) (8 * H - 1) y := fun z => tri_exact _ _ (hs _ _) (hs _ _)
  have hn1 : (chanOf width f0 c).ratio = ratioOf f0.h f0.v c.1 := rfl
  have hw : (chanOf width f0 c).w = c.1.h * (divCeil width (f0.h * 8) * 8) := rfl
  have hP : (chanOf width f0 c).P = c.2 := rfl
  unfold Chan.U
  rw [hn1, hw, hP]
  generalize hW : c.1.h * (divCeil width (f0.h * 8) * 8) = W at *
  unfold enlarged
  by_cases hle : f0.h / c.1.h ≤ 2 ∧ f0.v / c.1.v ≤ 2
  · rw [if_pos hle]
    obtain ⟨h1, h2⟩ := hle
    have e1 : f0.h / c.1.h = 1 ∨ f0.h / c.1.h = 2 := by omega
    have e2 : f0.v / c.1.v = 1 ∨ f0.v / c.1.v = 2 := by omega
    unfold ratioOf
    rcases e1 with e1 | e1 <;> rcases e2 with e2 | e2 <;> rw [e1, e2] <;> simp only
    · simp
    · rw [hvs]
      simp only [mixRow, reduceCtorEq, if_false, if_true]
      rw [if_neg (show ¬(1 = 2) by decide)]
      exact ht x
    · rw [hSpec_tent _ _ _ (hs y)]
      simp
    · rw [hvs]
      simp only [mixRow, if_true]
      rw [hSpec_tent _ _ _ fun i => tri_sample _ _ (hs _ _) (hs _ _)]
      simp only [ht]
  · rw [if_neg hle]
    cases hr : ratioOf f0.h f0.v c.1 with
    | generic p q =>
      have e1 := hf_ratioOf f0.h f0.v c.1
      have e2 := vf_ratioOf f0.h f0.v c.1
      rw [hr] at e1 e2
      simp only [Ratio.hf, Ratio.vf] at e1 e2
      simp only [e1, e2]
    | _ =>
      exfalso
      have e1 := hf_ratioOf f0.h f0.v c.1
      have e2 := vf_ratioOf f0.h f0.v c.1
      rw [hr] at e1 e2
      simp only [Ratio.hf, Ratio.vf] at e1 e2
      omega

/-- Specification: the samples of all components at (`y`, `x`) of the picture. -/
def samplesAt (width H : Nat) (f0 : Factor) (cs : List (Factor × (Nat → Nat → Int))) (y x : Nat) : List Int :=
  cs.map fun c => enlarged (f0.h / c.1.h) (f0.v / c.1.v) (c.1.h * (divCeil width (f0.h * 8) * 8) - 1) (8 * H - 1) c.2 y x

/-- Specification: what the entropy decoder leaves for MCU row `i`: of each component the next `8 * v` rows, one after
the other, each of all blocks of the row. -/
def mcuRow (width : Nat) (f0 : Factor) (cs : List (Factor × (Nat → Nat → Int))) (i : Nat) : List (List Int) :=
  cs.map fun c => (List.range' (8 * c.1.v * i) (8 * c.1.v)).flatMap fun y =>
    (List.range (c.1.h * (divCeil width (f0.h * 8) * 8))).map (c.2 y)

/-- Specification: the pixels of the picture, row by row. -/
def picture (width height : Nat) (pixel : Nat → Nat → List UInt8) : List UInt8 :=
  (List.range height).flatMap fun y => (List.range width).flatMap fun x => pixel y x

theorem mcuRow_eq (width : Nat) (f0 : Factor) (cs : List (Factor × (Nat → Nat → Int))) (i : Nat) :
    mcuRow width f0 cs i = rawsOf (cs.map (chanOf width f0)) i := by
  unfold mcuRow rawsOf rows plane
  rw [List.map_map]
  simp only [List.range_eq_range']
  rfl

theorem frame_of (avx2 : Bool) (i : InSpace) (o : OutSpace) (width height : Nat) (hw : 0 < width) (f0 : Factor)
    (cs : List (Factor × (Nat → Nat → Int))) (fs : List Factor) (hfs : cs.map (·.1) = f0 :: fs) (hd : Shape f0 fs)
    (hint : f0.h ≠ 1 ∨ f0.v ≠ 1) (hs : ∀ c ∈ cs, ∀ y x, Sample (c.2 y x)) (ho : o ≠ .luma) :
    ∃ vertical, Frame (framePost avx2 i o width height (f0 :: fs)) (cs.map (chanOf width f0)) vertical := by
  have hdiv := hd.toDivides.cons
  have hmem : ∀ c ∈ cs, c.1 ∈ f0 :: fs := fun c hc => hfs ▸ List.mem_map_of_mem hc
  have hc : ∀ c ∈ cs, c.1.h ∣ f0.h ∧ c.1.v ∣ f0.v := fun c h => ⟨hdiv.hd _ (hmem c h), hdiv.vd _ (hmem c h)⟩
  have hpos : ∀ c ∈ cs, 0 < f0.h / c.1.h := fun c h =>
    Nat.div_pos (Nat.le_of_dvd hd.h0 (hc c h).1) (Nat.pos_of_dvd_of_pos (hc c h).1 hd.h0)
  have hvpos : ∀ c ∈ cs, 0 < f0.v / c.1.v := fun c h =>
    Nat.div_pos (Nat.le_of_dvd hd.v0 (hc c h).2) (Nat.pos_of_dvd_of_pos (hc c h).2 hd.v0)
  have hself : ∀ f ∈ f0 :: fs, f = f0 ∨ f ∈ fs := fun f h => List.mem_cons.1 h
  have hv0 : ¬(f0.v / f0.v = 2 ∧ f0.h / f0.h ≤ 2) := by rw [Nat.div_self hd.v0]; omega
  have hcoeff : (framePost avx2 i o width height (f0 :: fs)).coeff = 1 := by
    unfold framePost
    simp only
    have : ¬o.comps = 1 := by
      cases o with
      | luma => exact absurd rfl ho
      | layout l => cases l <;> simp [OutSpace.comps, Layout.n]
      | _ => simp [OutSpace.comps]
    simp [this]
  have hinter : (framePost avx2 i o width height (f0 :: fs)).interleaved = true := by
    show decide (hMax (f0 :: fs) ≠ 1 ∨ vMax (f0 :: fs) ≠ 1) = true
    rw [hd.toDivides.hMax, hd.toDivides.vMax]
    simpa using hint
  have hluma : (framePost avx2 i o width height (f0 :: fs)).outLuma = false := by
    show decide (o = .luma) = false
    simpa using ho
  have hvm : (framePost avx2 i o width height (f0 :: fs)).vMax = f0.v := hd.toDivides.vMax
  by_cases hvert : ∃ c ∈ cs, (ratioOf f0.h f0.v c.1).vert
  · have htall : ∀ f ∈ fs, TallShape f0 f := by
      rcases hd.kind with h | h
      · obtain ⟨c, h1, h2⟩ := hvert
        rw [vert_ratioOf _ _ _ (hpos c h1)] at h2
        rcases hself _ (hmem c h1) with e | e
        · rw [e] at h2; exact absurd h2 hv0
        · exact absurd h2 (h _ e).1
      · exact h
    have hv2 : f0.v = 2 := by
      obtain ⟨c, h1, h2⟩ := hvert
      rw [vert_ratioOf _ _ _ (hpos c h1)] at h2
      rcases hself _ (hmem c h1) with e | e
      · rw [e] at h2; exact absurd h2 hv0
      · exact (htall _ e).1
    refine ⟨true, ⟨?_, hinter, hluma, hcoeff, ?_, ?_⟩⟩
    · intro a ha
      obtain ⟨c, hcm, rfl⟩ := List.mem_map.1 ha
      exact fits_of avx2 i o width height hw f0 fs hd.toDivides hint c (hc c hcm) (hs c hcm) fun _ => hv2
    · refine ⟨fun _ => ?_, fun _ => rfl⟩
      obtain ⟨c, h1, h2⟩ := hvert
      exact ⟨chanOf width f0 c, List.mem_map_of_mem h1, h2⟩
    · intro _
      refine ⟨hvm.trans hv2, ?_⟩
      intro a ha x y he
      obtain ⟨c, hcm, rfl⟩ := List.mem_map.1 ha
      have := generic_ratioOf f0.h f0.v c.1 (hpos c hcm) (hvpos c hcm) x y he
      apply this
      have hvle : f0.v / c.1.v ≤ 2 := hv2 ▸ Nat.div_le_self _ _
      refine ⟨?_, hvle⟩
      rcases hself _ (hmem c hcm) with e | e
      · rw [e, Nat.div_self hd.h0]; omega
      · exact (htall _ e).2
  · refine ⟨false, ⟨?_, hinter, hluma, hcoeff, ?_, by simp⟩⟩
    · intro a ha
      obtain ⟨c, hcm, rfl⟩ := List.mem_map.1 ha
      exact fits_of avx2 i o width height hw f0 fs hd.toDivides hint c (hc c hcm) (hs c hcm)
        fun h => absurd ⟨c, hcm, h⟩ hvert
    · refine ⟨by simp, fun h => ?_⟩
      obtain ⟨a, ha, h2⟩ := h
      obtain ⟨c, hcm, rfl⟩ := List.mem_map.1 ha
      exact absurd ⟨c, hcm, h2⟩ hvert

theorem width_le_padded (width : Nat) (f0 : Factor) (fs : List Factor) (hd : Divides f0 fs) :
    width ≤ paddedWidth width (subSampleOf (hMax (f0 :: fs)) (vMax (f0 :: fs))) := by
  rw [hd.hMax, hd.vMax, paddedWidth_eq _ _ _ hd.h0, Nat.mul_comm]
  exact le_divCeil _ _ (by have := hd.h0; omega)

/-- **C67 (part).** A frame with sampling factors of a supported shape, all components in one scan: from
the samples of the MCU rows, one row after the other, the decoder writes exactly the picture whose pixels are
the conversion of the components enlarged as a whole.  The boundaries between the MCU rows leave no
trace, no sample is missing, nothing is written twice, and there is no panic.  With and without AVX2, for any
width, height and former contents of the output.

Not covered because the code does not do it: a first component with a factor that is not the largest (`c67_first`,
`c67_stride`), generic ratios beside V or HV (`c67_generic_beside`), generic ratios of components with several
rows of blocks (`c67_generic_tall`); and the conversions outside `c66_line_partial`. -/
theorem c67_picture_partial (avx2 : Bool) (i : InSpace) (o : OutSpace) (width height : Nat)
    (hw : 0 < width) (f0 : Factor) (fs : List Factor) (hd : Shape f0 fs)
    (hint : f0.h ≠ 1 ∨ f0.v ≠ 1) (cs : List (Factor × (Nat → Nat → Int))) (hfs : cs.map (·.1) = f0 :: fs)
    (hs : ∀ c ∈ cs, ∀ y x, Sample (c.2 y x)) (hi : cs.length = i.planes) (ho : o ≠ .luma)
    (hF : ∀ vs, vs.length = i.planes → (pixelAt i o vs).isSome)
    (hbr : ¬((i = .cmyk ∨ i = .ycck) ∧ o = .layout .rgba))
    (out : List UInt8) (hout : out.length = height * (width * o.comps)) :
    let p := framePost avx2 i o width height (f0 :: fs)
    ∃ s, postAll p (mcuRow width f0 cs) p.mcuHeight 0 ⟨setupComps width (f0 :: fs), [], out⟩ = some s ∧
      s.rest = [] ∧
      s.done = picture width height fun y x =>
        (pixelAt i o (samplesAt width (divCeil height (f0.v * 8)) f0 cs y x)).getD [] := by
  intro p
  obtain ⟨vertical, hfr⟩ := frame_of avx2 i o width height hw f0 cs fs hfs hd hint hs ho
  have hdiv := hd.toDivides.cons
  have hmem : ∀ c ∈ cs, c.1 ∈ f0 :: fs := fun c hc => hfs ▸ List.mem_map_of_mem hc
  have hc : ∀ c ∈ cs, c.1.h ∣ f0.h ∧ c.1.v ∣ f0.v := fun c h => ⟨hdiv.hd _ (hmem c h), hdiv.vd _ (hmem c h)⟩
  have hcomps : 0 < o.comps := by
    cases o with
    | layout l => cases l <;> decide
    | _ => decide
  have hline : p.line = width * o.comps := rfl
  have hlp : 0 < p.line := Nat.mul_pos hw hcomps
  have hcoeff : p.coeff = 1 := hfr.coeff
  have hH : p.mcuHeight = divCeil height (f0.v * 8) := by
    have hinter : decide (hMax (f0 :: fs) ≠ 1 ∨ vMax (f0 :: fs) ≠ 1) = true := hfr.inter
    have hne : ¬o.comps = 1 := by
      cases o with
      | luma => exact absurd rfl ho
      | layout l => cases l <;> simp [OutSpace.comps, Layout.n]
      | _ => simp [OutSpace.comps]
    show (framePost avx2 i o width height (f0 :: fs)).mcuHeight = _
    unfold framePost
    simp only [hinter, hne, false_and, and_false, decide_false, Bool.and_false, Bool.false_eq_true, if_false, if_true]
    rw [hd.toDivides.vMax]
  have hvm : p.vMax = f0.v := hd.toDivides.vMax
  have hconv : Converts p cs.length (fun us => (List.range width).flatMap fun x => (pixelAt i o (us.map (· x))).getD []) :=
    ⟨hlp, fun us buf hk hu hb => conv_line avx2 i o width p.padded hw (width_le_padded width f0 fs hd.toDivides) us
      (hk.trans hi) hu hF hbr buf hb⟩
  have hrel : List.Forall₂ (fun a c => Between a p.mcuHeight 0 vertical c) (cs.map (chanOf width f0))
      (setupComps width (f0 :: fs)) := by
    have hcons : ∃ c t, cs = c :: t ∧ c.1 = f0 := by
      cases cs with
      | nil => simp at hfs
      | cons c t => exact ⟨c, t, rfl, (List.cons.inj hfs).1⟩
    have := compsLoop_rel width hw f0 f0 rfl hd.h0 hd.v0 p.mcuHeight vertical cs true 1 (by have := hd.h0; omega)
      (.inr hcons) hc (fun _ => hcons) (by simp) (fun c h => by
        rcases List.mem_cons.1 (hmem c h) with e | e
        · exact .inl e
        · rcases hd.kind with k | k
          · exact .inr (.inl (k _ e))
          · exact .inr (.inr (k _ e)))
    rw [hfs] at this
    unfold setupComps
    simp only
    rw [hd.toDivides.hMax, hd.toDivides.vMax]
    exact this
  have hemit : Emitted p (outLine (fun us => (List.range width).flatMap fun x => (pixelAt i o (us.map (· x))).getD [])
      ((cs.map (chanOf width f0)).map (·.U p.mcuHeight))) out (before p p.mcuHeight vertical 0) [] out := by
    have : before p p.mcuHeight vertical 0 = 0 := by unfold before; cases vertical <;> rfl
    rw [this]
    constructor
    · rw [Nat.zero_min]; rfl
    · rw [Nat.zero_min, Nat.zero_mul, List.drop_zero]
  obtain ⟨s, e, h1, h2⟩ := postAll_rows p cs.length _ hconv (cs.map (chanOf width f0)) (List.length_map _) vertical hfr
    p.mcuHeight rfl out p.mcuHeight 0 ⟨setupComps width (f0 :: fs), [], out⟩ (by omega) hrel hemit
  have hK : before p p.mcuHeight vertical p.mcuHeight = 8 * f0.v * p.mcuHeight := by
    unfold before
    cases hv : vertical with
    | false => rw [if_neg (by simp), hvm]
    | true =>
      have h2 := (hfr.two hv).1
      rw [hvm] at h2
      rw [if_pos rfl, h2]
      split
      · omega
      · rw [if_neg (by omega)]
  have hM : out.length / p.line = height := by
    rw [hout, ← hline, Nat.mul_div_cancel _ hlp]
  have hle : height ≤ 8 * f0.v * p.mcuHeight := by
    rw [hH, Nat.mul_comm 8]
    exact le_divCeil _ _ (by have := hd.v0; omega)
  rw [hK, hM, Nat.min_eq_right hle] at h1 h2
  have hraws : mcuRow width f0 cs = rawsOf (cs.map (chanOf width f0)) := by
    funext j; exact mcuRow_eq width f0 cs j
  refine ⟨s, by rw [hraws]; exact e, ?_, ?_⟩
  · rw [h2, hline, List.drop_eq_nil_of_le (by omega)]
  · rw [h1]
    unfold picture
    refine List.flatMap_congr fun y hy => ?_
    unfold outLine
    refine List.flatMap_congr fun x hx => ?_
    congr 2
    unfold samplesAt
    rw [List.map_map, List.map_map, List.map_map]
    refine List.map_congr_left fun c hcm => ?_
    simp only [Function.comp]
    rw [U_enlarged width p.mcuHeight f0 c
      (Nat.div_pos (Nat.le_of_dvd hd.h0 (hc c hcm).1) (Nat.pos_of_dvd_of_pos (hc c hcm).1 hd.h0))
      (Nat.div_pos (Nat.le_of_dvd hd.v0 (hc c hcm).2) (Nat.pos_of_dvd_of_pos (hc c hcm).2 hd.v0)) (hs c hcm), hH]

/-- **C67.** A frame without sampling factors: the picture is the conversion of the samples themselves. -/
theorem c67_plain (avx2 : Bool) (i : InSpace) (o : OutSpace) (width height : Nat) (hw : 0 < width)
    (Ps : List (Nat → Nat → Int)) (hs : ∀ P ∈ Ps, ∀ y x, Sample (P y x)) (hi : Ps.length = i.planes) (h0 : Ps ≠ [])
    (ho : o ≠ .luma) (hF : ∀ vs, vs.length = i.planes → (pixelAt i o vs).isSome)
    (hbr : ¬((i = .cmyk ∨ i = .ycck) ∧ o = .layout .rgba))
    (out : List UInt8) (hout : out.length = height * (width * o.comps)) :
    let fs := Ps.map fun _ => Factor.mk 1 1
    let p := framePost avx2 i o width height fs
    ∃ s, postAll p (mcuRow width ⟨1, 1⟩ (Ps.map fun P => (⟨1, 1⟩, P))) p.mcuHeight 0 ⟨setupComps width fs, [], out⟩ = some s ∧
      s.rest = [] ∧
      s.done = picture width height fun y x => (pixelAt i o (Ps.map fun P => P y x)).getD [] := by
  intro fs p
  obtain ⟨fs', hfs⟩ : ∃ fs', fs = ⟨1, 1⟩ :: fs' ∧ ∀ f ∈ fs', f = ⟨1, 1⟩ := by
    cases hP : Ps with
    | nil => exact absurd hP h0
    | cons P t =>
      refine ⟨t.map fun _ => ⟨1, 1⟩, by rw [show fs = Ps.map fun _ => Factor.mk 1 1 from rfl, hP]; rfl, ?_⟩
      intro f hf
      obtain ⟨_, _, rfl⟩ := List.mem_map.1 hf
      rfl
  obtain ⟨hfs, hall⟩ := hfs
  have hd : Divides ⟨1, 1⟩ fs' := ⟨by decide, by decide, fun f hf => by rw [hall f hf], fun f hf => by rw [hall f hf]⟩
  have hm : hMax fs = 1 := by rw [hfs]; exact hd.hMax
  have vm : vMax fs = 1 := by rw [hfs]; exact hd.vMax
  have hcomps : 0 < o.comps := by
    cases o with
    | layout l => cases l <;> decide
    | _ => decide
  have hline : p.line = width * o.comps := rfl
  have hlp : 0 < p.line := Nat.mul_pos hw hcomps
  have hint : p.interleaved = false := by
    show decide (hMax fs ≠ 1 ∨ vMax fs ≠ 1) = false
    rw [hm, vm]; rfl
  have hsub : p.subSample = .none := by
    show subSampleOf (hMax fs) (vMax fs) = .none
    rw [hm, vm]; rfl
  have hpad : p.padded = divCeil width 8 * 8 := by
    show paddedWidth width (subSampleOf (hMax fs) (vMax fs)) = _
    rw [hm, vm]; rfl
  have hco : p.coeff = 1 := by
    show (if (decide (hMax fs ≠ 1 ∨ vMax fs ≠ 1) && _) = true then 2 else 1) = 1
    rw [hm, vm]; rfl
  have hH : p.mcuHeight = divCeil height 8 := by
    show (if (decide (hMax fs ≠ 1 ∨ vMax fs ≠ 1) && _) = true then _ else
      if decide (hMax fs ≠ 1 ∨ vMax fs ≠ 1) = true then _ else _) = _
    rw [hm, vm]; rfl
  have hpl : plainLines p = 8 := by
    unfold plainLines
    rw [hsub, hco]
  have hlu : p.outLuma = false := by
    show decide (o = .luma) = false
    simpa using ho
  have hlen : ∀ t : List (Nat → Nat → Int), ∀ y b m, (compsLoop width 1 1 y b m (t.map fun _ => Factor.mk 1 1)).length = t.length := by
    intro t
    induction t with
    | nil => intros; rfl
    | cons a t ih => intro y b m; rw [List.map_cons, compsLoop, List.length_cons, ih, List.length_cons]
  have hconv : Converts p Ps.length (fun us => (List.range width).flatMap fun x => (pixelAt i o (us.map (· x))).getD []) :=
    ⟨hlp, fun us buf hk hu hb => conv_line avx2 i o width p.padded hw (by
      rw [hpad, Nat.mul_comm]; exact le_divCeil _ _ (by decide)) us (hk.trans hi) hu hF hbr buf hb⟩
  obtain ⟨s, e, ⟨h1, h2⟩, _⟩ := postPlain_rows p Ps hs _ hconv (by rw [hint]; simp)
    (mcuRow width ⟨1, 1⟩ (Ps.map fun P => (⟨1, 1⟩, P))) p.mcuHeight (by
      intro j _
      rw [hlu, if_neg (by simp)]
      unfold mcuRow rows plane
      rw [List.map_map, hpl, hpad]
      refine List.map_congr_left fun P _ => ?_
      simp only [Function.comp, List.range_eq_range', Nat.mul_one, Nat.one_mul]) out p.mcuHeight 0
    ⟨setupComps width fs, [], out⟩ (by omega) (by
      intro j _
      unfold mcuRow
      rw [List.length_map, List.length_map]
      simp only
      rw [hfs, setupComps, ← hfs, hm, vm]
      exact (hlen Ps _ _ _).symm) (by
      constructor
      · rw [Nat.mul_zero, Nat.zero_min]; rfl
      · rw [Nat.mul_zero, Nat.zero_min, Nat.zero_mul, List.drop_zero])
  have hM : out.length / p.line = height := by
    rw [hout, ← hline, Nat.mul_div_cancel _ hlp]
  have hle : height ≤ plainLines p * p.mcuHeight := by
    rw [hH, hpl]
    exact le_divCeil _ _ (by decide)
  rw [hM, Nat.min_eq_right hle] at h1 h2
  refine ⟨s, e, ?_, ?_⟩
  · rw [h2, hline, List.drop_eq_nil_of_le (by omega)]
  · rw [h1]
    unfold picture outLine
    refine List.flatMap_congr fun y hy => List.flatMap_congr fun x hx => ?_
    rw [List.map_map]
    rfl

theorem sub_cases (h v : Nat) : (subSampleOf h v = .none ∧ h = 1 ∧ v = 1) ∨ (subSampleOf h v = .v ∧ h = 1 ∧ v = 2) ∨
    (subSampleOf h v = .h ∧ h = 2 ∧ v = 1) ∨ (subSampleOf h v = .hv ∧ h = 2 ∧ v = 2) ∨
    (subSampleOf h v = .generic h v ∧ (h ≠ 1 ∨ v ≠ 1)) := by
  unfold subSampleOf
  split
  · simp
  · simp
  · simp
  · simp
  · rename_i h1 _ _ _
    refine .inr (.inr (.inr (.inr ⟨rfl, ?_⟩)))
    by_contra hn
    exact h1 (by omega) (by omega)

/-- **C67.** Output in grey from YCbCr: the picture is the first component, whatever the sampling factors and samples
of the others (`rest`), provided the first has the largest factors. -/
theorem c67_luma (avx2 : Bool) (width height : Nat) (hw : 0 < width) (f0 : Factor) (fs : List Factor)
    (hd : Divides f0 fs) (hl : fs.length = 2) (P : Nat → Nat → Int) (hs : ∀ y x, Sample (P y x))
    (rest : Nat → List (List Int)) (hr : ∀ j, (rest j).length = 2)
    (out : List UInt8) (hout : out.length = height * width) :
    let p := framePost avx2 .ycbcr .luma width height (f0 :: fs)
    ∃ s, postAll p (fun j => mcuRow width f0 [(f0, P)] j ++ rest j) p.mcuHeight 0
        ⟨setupComps width (f0 :: fs), [], out⟩ = some s ∧
      s.rest = [] ∧ s.done = picture width height fun y x => [byte (P y x)] := by
  intro p
  have hm : hMax (f0 :: fs) = f0.h := hd.hMax
  have vm : vMax (f0 :: fs) = f0.v := hd.vMax
  have h0 := hd.h0
  have v0 := hd.v0
  have hline : p.line = width := Nat.mul_one _
  have hlu : p.outLuma = true := rfl
  have hpad : p.padded = f0.h * (divCeil width (f0.h * 8) * 8) := by
    show paddedWidth width (subSampleOf (hMax (f0 :: fs)) (vMax (f0 :: fs))) = _
    rw [hm, vm, paddedWidth_eq _ _ _ h0]
    ring
  have hsub : p.subSample = subSampleOf f0.h f0.v := by
    show subSampleOf (hMax (f0 :: fs)) (vMax (f0 :: fs)) = _
    rw [hm, vm]
  have key : plainLines p = 8 * f0.v ∧ divCeil height (f0.v * 8) ≤ p.mcuHeight := by
    have hco : p.coeff = if (decide (f0.h ≠ 1 ∨ f0.v ≠ 1) && decide (1 < (f0 :: fs).length ∧ OutSpace.luma.comps = 1 ∧
        (subSampleOf f0.h f0.v = .v ∨ subSampleOf f0.h f0.v = .hv))) = true then 2 else 1 := by
      rw [← hm, ← vm]; rfl
    have hH : p.mcuHeight = if (decide (f0.h ≠ 1 ∨ f0.v ≠ 1) && decide (1 < (f0 :: fs).length ∧ OutSpace.luma.comps = 1 ∧
        (subSampleOf f0.h f0.v = .v ∨ subSampleOf f0.h f0.v = .hv))) = true then
          (if decide (f0.h ≠ 1 ∨ f0.v ≠ 1) = true then divCeil height (f0.v * 8) else (height + 7) / 8) * f0.v / f0.h
          else (if decide (f0.h ≠ 1 ∨ f0.v ≠ 1) = true then divCeil height (f0.v * 8) else (height + 7) / 8) := by
      rw [← hm, ← vm]; rfl
    unfold plainLines
    rw [hsub, hH, hco, List.length_cons, hl]
    rcases sub_cases f0.h f0.v with ⟨e, h1, h2⟩ | ⟨e, h1, h2⟩ | ⟨e, h1, h2⟩ | ⟨e, h1, h2⟩ | ⟨e, h1⟩
    · rw [e, h1, h2]
      refine ⟨rfl, ?_⟩
      simp [divCeil]
    · rw [e, h1, h2]
      refine ⟨rfl, ?_⟩
      simp [OutSpace.comps]
      omega
    · rw [e, h1, h2]
      refine ⟨rfl, ?_⟩
      simp
    · rw [e, h1, h2]
      refine ⟨rfl, ?_⟩
      simp [OutSpace.comps]
    · rw [e]
      simp [h1]
  obtain ⟨hpl, hH⟩ := key
  have hlen : ∀ t : List Factor, ∀ a b y c m, (compsLoop width a b y c m t).length = t.length := by
    intro t
    induction t with
    | nil => intros; rfl
    | cons a t ih => intros; rw [compsLoop, List.length_cons, ih, List.length_cons]
  have hconv : Converts p [P].length (fun us => (List.range width).flatMap fun x => (pixelAt .luma .luma (us.map (· x))).getD []) :=
    ⟨by rw [hline]; exact hw, fun us buf hk hu hb => conv_line avx2 .luma .luma width p.padded hw (by
      have := le_divCeil width (f0.h * 8) (by omega)
      rw [hpad]
      calc width ≤ f0.h * 8 * divCeil width (f0.h * 8) := this
        _ = _ := by ring) us hk hu (fun _ _ => rfl) (by simp) buf hb⟩
  obtain ⟨s, e, ⟨h1, h2⟩, _⟩ := postPlain_rows p [P] (by simpa using hs) _ hconv (by rw [hlu]; simp)
    (fun j => mcuRow width f0 [(f0, P)] j ++ rest j) p.mcuHeight (by
      intro j _
      rw [hlu, if_pos rfl]
      unfold mcuRow rows plane
      rw [hpl, hpad]
      simp only [List.map_cons, List.map_nil, List.cons_append, List.take_succ_cons, List.take_zero,
        List.range_eq_range']) out p.mcuHeight 0
    ⟨setupComps width (f0 :: fs), [], out⟩ (by omega) (by
      intro j _
      unfold mcuRow
      simp only
      rw [List.length_append, List.length_map, hr, setupComps, hlen]
      simp [hl]) (by
      constructor
      · rw [Nat.mul_zero, Nat.zero_min]; rfl
      · rw [Nat.mul_zero, Nat.zero_min, Nat.zero_mul, List.drop_zero])
  have hM : out.length / p.line = height := by
    rw [hout, hline, Nat.mul_div_cancel _ hw]
  have hle : height ≤ plainLines p * p.mcuHeight := by
    rw [hpl]
    calc height ≤ f0.v * 8 * divCeil height (f0.v * 8) := le_divCeil _ _ (by omega)
      _ ≤ f0.v * 8 * p.mcuHeight := Nat.mul_le_mul_left _ hH
      _ = _ := by ring
  rw [hM, Nat.min_eq_right hle] at h1 h2
  refine ⟨s, e, ?_, ?_⟩
  · rw [h2, hline, List.drop_eq_nil_of_le (by omega)]
  · rw [h1]
    rfl

/-- **C67.** Output in grey from grey: the picture is the component. -/
theorem c67_grey (avx2 : Bool) (width height : Nat) (hw : 0 < width) (P : Nat → Nat → Int) (hs : ∀ y x, Sample (P y x))
    (out : List UInt8) (hout : out.length = height * width) :
    let p := framePost avx2 .luma .luma width height [⟨1, 1⟩]
    ∃ s, postAll p (mcuRow width ⟨1, 1⟩ [(⟨1, 1⟩, P)]) p.mcuHeight 0 ⟨setupComps width [⟨1, 1⟩], [], out⟩ = some s ∧
      s.rest = [] ∧ s.done = picture width height fun y x => [byte (P y x)] := by
  intro p
  have hline : p.line = width := Nat.mul_one _
  have hlu : p.outLuma = true := rfl
  have hpad : p.padded = 1 * (divCeil width (1 * 8) * 8) := by
    show paddedWidth width (subSampleOf 1 1) = _
    rw [paddedWidth_eq _ _ _ (by decide)]
    ring
  have hpl : plainLines p = 8 * 1 := rfl
  have hH : p.mcuHeight = (height + 7) / 8 := rfl
  have hconv : Converts p [P].length (fun us => (List.range width).flatMap fun x => (pixelAt .luma .luma (us.map (· x))).getD []) :=
    ⟨by rw [hline]; exact hw, fun us buf hk hu hb => conv_line avx2 .luma .luma width p.padded hw (by
      have := le_divCeil width 8 (by omega)
      rw [hpad, Nat.one_mul, Nat.one_mul, Nat.mul_comm]
      exact this) us hk hu (fun _ _ => rfl) (by simp) buf hb⟩
  obtain ⟨s, e, ⟨h1, h2⟩, _⟩ := postPlain_rows p [P] (by simpa using hs) _ hconv (by rw [hlu]; simp)
    (mcuRow width ⟨1, 1⟩ [(⟨1, 1⟩, P)]) p.mcuHeight (by
      intro j _
      rw [hlu, if_pos rfl]
      unfold mcuRow rows plane
      rw [hpl, hpad]
      simp only [List.map_cons, List.map_nil, List.take_succ_cons, List.take_zero, List.range_eq_range']) out p.mcuHeight 0
    ⟨setupComps width [⟨1, 1⟩], [], out⟩ (by omega) (by
      intro j _
      rfl) (by
      constructor
      · rw [Nat.mul_zero, Nat.zero_min]; rfl
      · rw [Nat.mul_zero, Nat.zero_min, Nat.zero_mul, List.drop_zero])
  have hM : out.length / p.line = height := by
    rw [hout, hline, Nat.mul_div_cancel _ hw]
  have hle : height ≤ plainLines p * p.mcuHeight := by
    rw [hpl, hH]
    omega
  rw [hM, Nat.min_eq_right hle] at h1 h2
  refine ⟨s, e, ?_, ?_⟩
  · rw [h2, hline, List.drop_eq_nil_of_le (by omega)]
  · rw [h1]
    rfl

/-- Samples used in the examples. -/
def bumps (k y x : Nat) : Int := ((y * y * 5 + x * 11 + k * 77) % 256 : Nat)

theorem bumps_sample (k y x : Nat) : Sample (bumps k y x) := by
  unfold bumps Sample
  omega

/-- The components of the examples. -/
def example420 : List (Factor × (Nat → Nat → Int)) := [(⟨2, 2⟩, bumps 0), (⟨1, 1⟩, bumps 1), (⟨1, 1⟩, bumps 2)]

example : Shape ⟨2, 2⟩ [⟨1, 1⟩, ⟨1, 1⟩] ∧ (∀ c ∈ example420, ∀ y x, Sample (c.2 y x)) ∧
    (∀ vs, vs.length = InSpace.ycbcr.planes → (pixelAt .ycbcr (.layout .rgb) vs).isSome) :=
  ⟨⟨⟨by decide, by decide, by decide, by decide⟩, .inr (by unfold TallShape; decide)⟩, by
    intro c hc y x
    simp only [example420, List.mem_cons, List.not_mem_nil, or_false] at hc
    rcases hc with rfl | rfl | rfl <;> exact bumps_sample _ _ _, fun _ _ => rfl⟩

example : Shape ⟨2, 1⟩ [⟨1, 1⟩, ⟨1, 1⟩] ∧ Shape ⟨4, 1⟩ [⟨1, 1⟩, ⟨1, 1⟩] ∧ Shape ⟨4, 2⟩ [⟨2, 1⟩, ⟨4, 2⟩, ⟨4, 1⟩] ∧
    Shape ⟨4, 2⟩ [⟨1, 2⟩, ⟨1, 1⟩] ∧ Shape ⟨1, 2⟩ [⟨1, 1⟩, ⟨1, 1⟩] := by
  refine ⟨⟨⟨?_, ?_, ?_, ?_⟩, .inl ?_⟩, ⟨⟨?_, ?_, ?_, ?_⟩, .inl ?_⟩, ⟨⟨?_, ?_, ?_, ?_⟩, .inr ?_⟩,
    ⟨⟨?_, ?_, ?_, ?_⟩, .inl ?_⟩, ⟨⟨?_, ?_, ?_, ?_⟩, .inr ?_⟩⟩ <;> first | decide | (unfold FlatShape; decide) | (unfold TallShape; decide)

/-- Run of the decoder on the given components, all with `width` 17 and `height` 35, and the specification. -/
def runFrame (i : InSpace) (o : OutSpace) (f0 : Factor) (cs : List (Factor × (Nat → Nat → Int))) :
    Option (List UInt8) × List UInt8 :=
  let p := framePost false i o 17 35 (cs.map (·.1))
  ((postAll p (mcuRow 17 f0 cs) p.mcuHeight 0 ⟨setupComps 17 (cs.map (·.1)), [], List.replicate (35 * (17 * o.comps)) 0⟩).map
    fun s => s.done ++ s.rest,
  picture 17 35 fun y x => (pixelAt i o (samplesAt 17 (divCeil 35 (f0.v * 8)) f0 cs y x)).getD [])

example : (runFrame .ycbcr (.layout .rgb) ⟨2, 2⟩ example420).1 = some (runFrame .ycbcr (.layout .rgb) ⟨2, 2⟩ example420).2 := by
  decide +kernel

example : [bumps 0, bumps 1, bumps 2].length = InSpace.ycbcr.planes ∧ [bumps 0, bumps 1, bumps 2] ≠ [] ∧
    (runFrame .ycbcr (.layout .bgra) ⟨1, 1⟩ [(⟨1, 1⟩, bumps 0), (⟨1, 1⟩, bumps 1), (⟨1, 1⟩, bumps 2)]).1 =
      some (runFrame .ycbcr (.layout .bgra) ⟨1, 1⟩ [(⟨1, 1⟩, bumps 0), (⟨1, 1⟩, bumps 1), (⟨1, 1⟩, bumps 2)]).2 :=
  ⟨rfl, by simp, by decide +kernel⟩

example : Divides ⟨1, 2⟩ [⟨1, 1⟩, ⟨1, 1⟩] ∧
    (runFrame .ycbcr .luma ⟨1, 2⟩ [(⟨1, 2⟩, bumps 0), (⟨1, 1⟩, bumps 1), (⟨1, 1⟩, bumps 2)]).1 =
      some (picture 17 35 fun y x => [byte (bumps 0 y x)]) :=
  ⟨⟨by decide, by decide, by decide, by decide⟩, by decide +kernel⟩

/-- A generic ratio beside the ratio V: two lines at each boundary of MCU rows are not those of the picture. -/
theorem c67_generic_beside :
    let r := runFrame .ycbcr .ycbcr ⟨4, 2⟩ [(⟨4, 2⟩, bumps 0), (⟨4, 1⟩, bumps 1), (⟨1, 2⟩, bumps 2)]
    r.1.isSome ∧ r.1 ≠ some r.2 ∧ r.1.map (·.take (14 * 51)) = some (r.2.take (14 * 51)) ∧
      r.1.map (·.drop (32 * 51)) = some (r.2.drop (32 * 51)) := by
  decide +kernel

/-- A first component whose factors are not the largest, enlarged in both directions: panic. -/
theorem c67_first : (runFrame .ycbcr .ycbcr ⟨2, 2⟩ [(⟨1, 1⟩, bumps 0), (⟨2, 2⟩, bumps 1), (⟨2, 2⟩, bumps 2)]).1 = none := by
  decide +kernel

/-- The width of a component that comes before the largest is computed with the maximum so far: enlarged it is not
the width of the frame. -/
theorem c67_stride : (setupComps 17 [⟨1, 1⟩, ⟨2, 1⟩, ⟨2, 1⟩]).map (fun c => c.stride * c.ratio.hf) = [48, 32, 32] ∧
    (framePost false .ycbcr .ycbcr 17 35 [⟨1, 1⟩, ⟨2, 1⟩, ⟨2, 1⟩]).padded = 32 := by
  decide +kernel

/-- A generic ratio for a component with two rows of blocks in each MCU: the buffer is too short, decoding fails. -/
theorem c67_generic_tall : (runFrame .ycbcr .ycbcr ⟨4, 4⟩ [(⟨4, 4⟩, bumps 0), (⟨1, 2⟩, bumps 1), (⟨1, 2⟩, bumps 2)]).1 = none := by
  decide +kernel

end Zune.Jpeg
