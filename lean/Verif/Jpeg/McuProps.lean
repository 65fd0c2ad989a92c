import Verif.Jpeg.McuFile

/-!
# C91, C92: sequential JPEG files are decoded as in T.81
-/

namespace Zune.Jpeg

open Zune.Canon Seg

/-- A sequential file whose components are all in one scan: the segments `a`, the frame header, the segments
`b`, the scan header.  The decoder wants more: see `File`, and Adobe's segment, if there is one, stands before the frame
header (J17, J18).  `sp` is the colour space. -/
structure Sequential (o : HdrOpts) (a b : List (Gap × Segment)) (gf g : Gap) (c : Scan) (m : Nat) (f : Seg.Frame) (sp : InSpace)
    (cod : Nat → Coding) : Prop where
  file : File o (a ++ (gf, .frame m f) :: b) g c m f
  marker : m = 0xC0 ∨ m = 0xC1
  late : (b.map (·.2)).flatMap Segment.adobe = []
  rgb : f.comps.map (·.id) = [82, 71, 66] → (a.map (·.2)).flatMap Segment.adobe = []
  space : colours (f.comps.map (·.id)) ((a.map (·.2)).flatMap Segment.adobe).getLast? = some sp
  mjpeg : ((a ++ (gf, .frame m f) :: b).map (·.2)).any Segment.avi = false
  coded : Coded ((a ++ (gf, .frame m f) :: b).map (·.2)) c f cod

/-- The components of a frame with quantisers `qt`: blocks in an MCU and samples. -/
def planesWith (f : Seg.Frame) (qt : Nat → Nat → I32) (Z : Nat → Nat → Nat → List Int) : List (Factor × (Nat → Nat → Int)) :=
  (List.range f.comps.length).map fun k => (f.factor k, sampleAt (qt k) (Z k))

/-- The components of a frame: blocks in an MCU and samples. -/
def planesOf (f : Seg.Frame) (cod : Nat → Coding) (Z : Nat → Nat → Nat → List Int) : List (Factor × (Nat → Nat → Int)) :=
  (List.range f.comps.length).map fun k => (f.factor k, sampleAt (quantAt (cod k).tq) (Z k))

theorem sampleAt_range (qt : Nat → I32) (Z : Nat → Nat → List Int) (y x : Nat) : Sample (sampleAt qt Z y x) := by
  unfold sampleAt Sample
  rw [idctFull_rows]
  exact hrow_range _ _

theorem planesWith_factors (f : Seg.Frame) (qt : Nat → Nat → I32) (Z : Nat → Nat → Nat → List Int) :
    (planesWith f qt Z).map (·.1) = f.factors := by
  unfold planesWith Seg.Frame.factors
  rw [List.map_map]
  rfl

theorem pixelAt_needed {i : InSpace} {o : OutSpace} (h : ∀ vs, vs.length = i.planes → (pixelAt i o vs).isSome) (ho : o ≠ .luma)
    (hi : i = .luma ∨ i = .ycbcr ∨ i = .rgb ∨ i = .cmyk ∨ i = .ycck) (k : Nat) (hk : k < i.planes) :
    isNeeded o i.planes k = true := by
  have key : i.planes ≤ o.comps ∨ i.planes = 4 := by
    have := h (List.replicate i.planes 0) (by simp)
    rcases hi with rfl | rfl | rfl | rfl | rfl
    · left
      cases o <;> simp [InSpace.planes, OutSpace.comps]
      rename_i l
      cases l <;> decide
    · left
      cases o <;> first | exact absurd rfl ho | (simp [pixelAt, pixelOf, InSpace.planes, OutSpace.comps] at this ⊢)
      rename_i l
      cases l <;> decide
    · left
      cases o <;> first | exact absurd rfl ho | (simp [pixelAt, pixelOf, InSpace.planes, OutSpace.comps] at this ⊢)
      rename_i l
      cases l <;> decide
    · exact .inr rfl
    · exact .inr rfl
  unfold isNeeded
  rw [decide_eq_true_eq]
  rcases key with key | key
  · left; omega
  · exact .inr key

/-- The pixels from the samples of the MCU rows, for output in colours. -/
theorem colour_post (avx2 : Bool) (out : OutSpace) {f : Seg.Frame} {sp : InSpace} (hw : 0 < f.width) (hpl : f.comps.length = sp.planes)
    (hcases : sp = .luma ∨ sp = .ycbcr ∨ sp = .rgb ∨ sp = .cmyk ∨ sp = .ycck)
    {f0 : Factor} {fs : List Factor} (hfs : f.factors = f0 :: fs) (hd : Shape f0 fs) (ho : out ≠ .luma)
    (hF : ∀ vs, vs.length = sp.planes → (pixelAt sp out vs).isSome) (hbr : ¬((sp = .cmyk ∨ sp = .ycck) ∧ out = .layout .rgba))
    (qt : Nat → Nat → I32) (Z : Nat → Nat → Nat → List Int) {p : Post} (hp : framePost avx2 sp out f.width f.height (f0 :: fs) = p) :
    p.mcuHeight = divCeil f.height (f0.v * 8) ∧
    ∃ s, postAll p (fun i => (List.range f.comps.length).map fun k => if isNeeded out f.comps.length k then
        compRow (qt k) (f.factor k) (Z k) (divCeil f.width (f0.h * 8)) i else []) p.mcuHeight 0
      ⟨setupComps f.width (f0 :: fs), [], List.replicate (f.width * f.height * out.comps) 0⟩ = some s ∧ s.rest = [] ∧
      s.done = picture f.width f.height fun y x =>
        (pixelAt sp out (samplesAt f.width (divCeil f.height (f0.v * 8)) f0 (planesWith f qt Z) y x)).getD [] := by
  have hH : p.mcuHeight = divCeil f.height (f0.v * 8) := by
    rw [← hp]
    have ho1 : ¬(out.comps = 1) := by
      cases out <;> simp [OutSpace.comps] at ho ⊢
      rename_i l
      cases l <;> decide
    simp only [framePost]
    rw [if_neg (by simp [ho1]), hd.hMax, hd.vMax]
    split
    · rfl
    · rename_i q
      have : f0.v = 1 := by simp at q; omega
      rw [this]
      unfold divCeil
      congr 1
  have hraws : (fun i => (List.range f.comps.length).map fun k => if isNeeded out f.comps.length k then
        compRow (qt k) (f.factor k) (Z k) (divCeil f.width (f0.h * 8)) i else []) = mcuRow f.width f0 (planesWith f qt Z) := by
    funext i
    unfold mcuRow planesWith
    rw [List.map_map]
    refine List.map_congr_left fun k hk => ?_
    rw [List.mem_range] at hk
    have := pixelAt_needed hF ho hcases k (by omega)
    rw [hpl, this, if_pos rfl]
    rfl
  have hout : (List.replicate (f.width * f.height * out.comps) (0 : UInt8)).length = f.height * (f.width * out.comps) := by
    rw [List.length_replicate]
    ring
  have hsam : ∀ x ∈ planesWith f qt Z, ∀ y z, Sample (x.2 y z) := by
    intro x hx
    obtain ⟨k, _, rfl⟩ := List.mem_map.1 hx
    exact fun y z => sampleAt_range _ _ y z
  have key : ∃ s, postAll p (mcuRow f.width f0 (planesWith f qt Z)) p.mcuHeight 0
      ⟨setupComps f.width (f0 :: fs), [], List.replicate (f.width * f.height * out.comps) 0⟩ = some s ∧ s.rest = [] ∧
      s.done = picture f.width f.height fun y x =>
        (pixelAt sp out (samplesAt f.width (divCeil f.height (f0.v * 8)) f0 (planesWith f qt Z) y x)).getD [] := by
    by_cases hint : f0.h ≠ 1 ∨ f0.v ≠ 1
    · rw [← hp]
      exact c67_picture_partial avx2 sp out f.width f.height hw f0 fs hd hint (planesWith f qt Z)
        (by rw [planesWith_factors, hfs]) hsam (by unfold planesWith; rw [List.length_map, List.length_range, hpl]) ho hF hbr _ hout
    · obtain rfl : f0 = ⟨1, 1⟩ := by
        obtain ⟨x, y⟩ := f0
        simp only [ne_eq, not_or, not_not] at hint
        rw [hint.1, hint.2]
      have hone : ∀ k < f.comps.length, f.factor k = ⟨1, 1⟩ := by
        intro k hk
        have : f.factor k ∈ f.factors := List.mem_map_of_mem (List.mem_range.2 hk)
        rw [hfs] at this
        have h1 := hd.toDivides.cons.hd _ this
        have h2 := hd.toDivides.cons.vd _ this
        generalize f.factor k = x at h1 h2
        obtain ⟨x, y⟩ := x
        simp only [Nat.dvd_one] at h1 h2
        rw [h1, h2]
      have e1 : planesWith f qt Z = ((List.range f.comps.length).map fun k => sampleAt (qt k) (Z k)).map fun P => (⟨1, 1⟩, P) := by
        unfold planesWith
        rw [List.map_map]
        refine List.map_congr_left fun k hk => ?_
        rw [hone k (List.mem_range.1 hk)]
        rfl
      have e2 : (⟨1, 1⟩ : Factor) :: fs = ((List.range f.comps.length).map fun k => sampleAt (qt k) (Z k)).map fun _ => Factor.mk 1 1 := by
        rw [← hfs]
        unfold Seg.Frame.factors
        rw [List.map_map]
        exact List.map_congr_left fun k hk => hone k (List.mem_range.1 hk)
      have e3 : ∀ y x, samplesAt f.width (divCeil f.height (1 * 8)) ⟨1, 1⟩ (planesWith f qt Z) y x =
          ((List.range f.comps.length).map fun k => sampleAt (qt k) (Z k)).map fun P => P y x := by
        intro y x
        rw [e1]
        unfold samplesAt
        rw [List.map_map]
        refine List.map_congr_left fun P _ => ?_
        simp [enlarged]
      simp only [e3]
      have := c67_plain avx2 sp out f.width f.height hw ((List.range f.comps.length).map fun k => sampleAt (qt k) (Z k))
        (by
          intro P hP
          obtain ⟨k, _, rfl⟩ := List.mem_map.1 hP
          exact fun y z => sampleAt_range _ _ y z) (by rw [List.length_map, List.length_range, hpl]) (by
          intro q
          rw [q] at e2
          cases e2) ho hF hbr _ hout
      rw [← e1, ← e2] at this
      rw [← hp]
      exact this
  rw [hraws]
  exact ⟨hH, key⟩

/-- The pixels from the samples of the MCU rows, for grey output. -/
theorem grey_post (avx2 : Bool) {f : Seg.Frame} {sp : InSpace} (hw : 0 < f.width) (hpl : f.comps.length = sp.planes)
    (hsp : sp = .luma ∨ sp = .ycbcr)
    {f0 : Factor} {fs : List Factor} (hfs : f.factors = f0 :: fs) (hd : Divides f0 fs) (h12 : f0 ≠ ⟨1, 2⟩)
    (qt : Nat → Nat → I32) (Z : Nat → Nat → Nat → List Int) {p : Post} (hp : framePost avx2 sp .luma f.width f.height (f0 :: fs) = p) :
    p.mcuHeight = divCeil f.height (f0.v * 8) ∧
    ∃ s, postAll p (fun i => (List.range f.comps.length).map fun k => if isNeeded .luma f.comps.length k then
        compRow (qt k) (f.factor k) (Z k) (divCeil f.width (f0.h * 8)) i else []) p.mcuHeight 0
      ⟨setupComps f.width (f0 :: fs), [], List.replicate (f.width * f.height * OutSpace.luma.comps) 0⟩ = some s ∧ s.rest = [] ∧
      s.done = picture f.width f.height fun y x => [byte (sampleAt (qt 0) (Z 0) y x)] := by
  have hn0 : 0 < f.comps.length := by
    rw [hpl]
    rcases hsp with rfl | rfl <;> decide
  have hf0 : f.factor 0 = f0 := by
    have : f.factors[0]? = some f0 := by rw [hfs]; rfl
    unfold Seg.Frame.factors at this
    rw [List.getElem?_map, List.getElem?_range hn0] at this
    simpa using this
  have hlen : fs.length + 1 = sp.planes := by
    have := congrArg List.length hfs
    unfold Seg.Frame.factors at this
    rw [List.length_map, List.length_range, List.length_cons] at this
    omega
  have hH : p.mcuHeight = divCeil f.height (f0.v * 8) := by
    rw [← hp]
    simp only [framePost]
    rw [hd.hMax, hd.vMax]
    have e : (if decide (f0.h ≠ 1 ∨ f0.v ≠ 1) = true then divCeil f.height (f0.v * 8) else (f.height + 7) / 8) = divCeil f.height (f0.v * 8) := by
      split
      · rfl
      · rename_i q
        have : f0.v = 1 := by simp at q; omega
        rw [this]
        unfold divCeil
        congr 1
    rw [e]
    split
    · rename_i q
      have hv : f0.h = 2 ∧ f0.v = 2 := by
        rcases sub_cases f0.h f0.v with ⟨e, h1, h2⟩ | ⟨e, h1, h2⟩ | ⟨e, h1, h2⟩ | ⟨e, h1, h2⟩ | ⟨e, h1⟩
        · rw [e] at q; simp at q
        · exact absurd (by obtain ⟨x, y⟩ := f0; simp only at h1 h2; rw [h1, h2]) h12
        · rw [e] at q; simp at q
        · exact ⟨h1, h2⟩
        · rw [e] at q; simp at q
      rw [hv.1, hv.2]
      omega
    · rfl
  have hneed : ∀ k < f.comps.length, isNeeded .luma f.comps.length k = decide (k = 0) := by
    intro k hk
    unfold isNeeded
    rw [hpl] at hk ⊢
    rcases hsp with rfl | rfl <;> simp [InSpace.planes, OutSpace.comps] <;> omega
  have hrow : compRow (qt 0) (f.factor 0) (Z 0) (divCeil f.width (f0.h * 8)) =
      fun i => ((mcuRow f.width f0 [(f0, sampleAt (qt 0) (Z 0))] i).headD []) := by
    funext i
    rw [hf0]
    rfl
  have hout : (List.replicate (f.width * f.height * OutSpace.luma.comps) (0 : UInt8)).length = f.height * f.width := by
    rw [List.length_replicate]
    show f.width * f.height * 1 = _
    ring
  have key : ∃ s, postAll p (fun i => (List.range f.comps.length).map fun k => if isNeeded .luma f.comps.length k then
        compRow (qt k) (f.factor k) (Z k) (divCeil f.width (f0.h * 8)) i else []) p.mcuHeight 0
      ⟨setupComps f.width (f0 :: fs), [], List.replicate (f.width * f.height * OutSpace.luma.comps) 0⟩ = some s ∧ s.rest = [] ∧
      s.done = picture f.width f.height fun y x => [byte (sampleAt (qt 0) (Z 0) y x)] := by
    rcases hsp with rfl | rfl
    · have hn : f.comps.length = 1 := hpl
      have hnil : fs = [] := by
        rw [← List.length_eq_zero_iff]
        simpa [InSpace.planes] using hlen
      have hf1 : f0 = ⟨1, 1⟩ := by
        rw [← hf0]
        unfold Seg.Frame.factor
        rw [if_pos hn]
      have e : (fun i => (List.range f.comps.length).map fun k => if isNeeded .luma f.comps.length k then
        compRow (qt k) (f.factor k) (Z k) (divCeil f.width (f0.h * 8)) i else []) =
          mcuRow f.width f0 [(f0, sampleAt (qt 0) (Z 0))] := by
        funext i
        rw [hn]
        have : isNeeded .luma 1 0 = true := rfl
        simp only [List.range_one, List.map_cons, List.map_nil, this, if_true, hrow]
        rfl
      rw [e]
      subst hnil hf1
      rw [← hp]
      exact c67_grey avx2 f.width f.height hw _ (fun y x => sampleAt_range _ _ y x) _ hout
    · have hn : f.comps.length = 3 := hpl
      have e : (fun i => (List.range f.comps.length).map fun k => if isNeeded .luma f.comps.length k then
        compRow (qt k) (f.factor k) (Z k) (divCeil f.width (f0.h * 8)) i else []) =
          fun i => mcuRow f.width f0 [(f0, sampleAt (qt 0) (Z 0))] i ++ [[], []] := by
        funext i
        rw [hn]
        have n0 : isNeeded .luma 3 0 = true := rfl
        have n1 : isNeeded .luma 3 1 = false := rfl
        have n2 : isNeeded .luma 3 2 = false := rfl
        rw [show List.range 3 = [0, 1, 2] from rfl]
        simp only [List.map_cons, List.map_nil, n0, n1, n2, if_true, hrow]
        rfl
      rw [e, ← hp]
      exact c67_luma avx2 f.width f.height hw f0 fs hd (by simpa [InSpace.planes] using hlen) _ (fun y x => sampleAt_range _ _ y x)
        (fun _ => [[], []]) (fun _ => rfl) _ hout
  exact ⟨hH, key⟩

/-- **C91** A sequential JPEG file with all components in one scan: its segments in any order the decoder takes (`File`), with
any number of restart intervals (`ScanData`, T.81, B.2.1 and F.1.2).  The bytes of the scan code the blocks `Z` of all
components in the order of A.2.3, by the Huffman tables given last before the scan, and behind them a marker EOI.  The picture
is then, pixel for pixel, the blocks dequantised by the tables given last, inverse transformed (A.3.3 in the integer
arithmetic of the code, `idctFull`), upsampled (`samplesAt`) and brought to the output colours (`pixelAt`), cut to the size of
the frame header; the stream is just behind the EOI.

Partial: one scan (for several see `c91_rows_lost` and the other theorems of `McuLimits`); the factors of the components
of `Shape` (C67 with disagreements J5 to J8), the files of `File` (disagreements J13 to J18), no block of a DC coefficient only
whose DC overflows (`DcSmall`, J1), CMYK not to RGBA.  Colours other than grey here; grey is C92. -/
theorem c91_sequential_partial (avx2 : Bool) (o : HdrOpts) (out : OutSpace) {a b : List (Gap × Segment)} {gf g : Gap} {c : Scan} {m : Nat}
    {f : Seg.Frame} {sp : InSpace} {cod : Nat → Coding} (h : Sequential o a b gf g c m f sp cod)
    {f0 : Factor} {fs : List Factor} (hfs : f.factors = f0 :: fs) (hd : Shape f0 fs) (ho : out ≠ .luma)
    (hF : ∀ vs, vs.length = sp.planes → (pixelAt sp out vs).isSome) (hbr : ¬((sp = .cmyk ∨ sp = .ycck) ∧ out = .layout .rgba))
    (Z : Nat → Nat → Nat → List Int)
    (hdc : ∀ k < f.comps.length, ∀ y < divCeil f.height (f0.v * 8) * (f.factor k).v,
      ∀ x < divCeil f.width (f0.h * 8) * (f.factor k).h, DcSmall (quantAt (cod k).tq) (Z k y x))
    (rest tail : Bytes) (hscan : ScanData (fun k => (cod k).comp) (restartOf ((a ++ (gf, .frame m f) :: b).map (·.2))) tail 0
      (mcuRows (scanOrder f c) f.factor Z (divCeil f.width (f0.h * 8)) 0 (divCeil f.height (f0.v * 8))) rest) :
    decodeJpeg avx2 o out (fileBytes (a ++ (gf, .frame m f) :: b) g c rest) =
      .ok (picture f.width f.height fun y x =>
        (pixelAt sp out (samplesAt f.width (divCeil f.height (f0.v * 8)) f0 (planesOf f cod Z) y x)).getD [], tail) := by
  obtain ⟨hpl, hcases⟩ := colours_planes h.space
  rw [List.length_map] at hpl
  have hw : 0 < f.width := by
    have : (gf, Segment.frame m f) ∈ a ++ (gf, Segment.frame m f) :: b := by simp
    exact (h.file.segs _ this).2.1.2.2.2.1
  generalize hp : framePost avx2 sp out f.width f.height (f0 :: fs) = p
  obtain ⟨hH, s, k1, k2, k3⟩ := colour_post avx2 out hw hpl hcases hfs hd ho hF hbr (fun k => quantAt (cod k).tq) Z hp
  rw [file_ok avx2 o out a b gf g c m f rest tail h.file (by have := h.marker; omega) h.late h.rgb sp h.space rfl h.mjpeg cod h.coded hfs
    hd.toDivides (Z := Z) hp.symm (by rw [hH]; exact hdc) (by rw [hH]; exact hscan) (ps' := s) k1, k2, k3,
    List.append_nil]
  rfl

/-- **C92** The same for grey output: of a grey or YCbCr file the picture is the first component, as it is, whatever the factors
of the others; their blocks are skipped, coefficient by coefficient, but never transformed.

Partial: the components divide the first (`Divides`), whose factors are not 1 and 2 (there the decoder reads twice the rows of
MCUs); otherwise as C91. -/
theorem c92_grey_partial (avx2 : Bool) (o : HdrOpts) {a b : List (Gap × Segment)} {gf g : Gap} {c : Scan} {m : Nat}
    {f : Seg.Frame} {sp : InSpace} {cod : Nat → Coding} (h : Sequential o a b gf g c m f sp cod) (hsp : sp = .luma ∨ sp = .ycbcr)
    {f0 : Factor} {fs : List Factor} (hfs : f.factors = f0 :: fs) (hd : Divides f0 fs) (h12 : f0 ≠ ⟨1, 2⟩)
    (Z : Nat → Nat → Nat → List Int)
    (hdc : ∀ k < f.comps.length, ∀ y < divCeil f.height (f0.v * 8) * (f.factor k).v,
      ∀ x < divCeil f.width (f0.h * 8) * (f.factor k).h, DcSmall (quantAt (cod k).tq) (Z k y x))
    (rest tail : Bytes) (hscan : ScanData (fun k => (cod k).comp) (restartOf ((a ++ (gf, .frame m f) :: b).map (·.2))) tail 0
      (mcuRows (scanOrder f c) f.factor Z (divCeil f.width (f0.h * 8)) 0 (divCeil f.height (f0.v * 8))) rest) :
    decodeJpeg avx2 o .luma (fileBytes (a ++ (gf, .frame m f) :: b) g c rest) =
      .ok (picture f.width f.height fun y x => [byte (sampleAt (quantAt (cod 0).tq) (Z 0) y x)], tail) := by
  obtain ⟨hpl, -⟩ := colours_planes h.space
  rw [List.length_map] at hpl
  have hw : 0 < f.width := by
    have : (gf, Segment.frame m f) ∈ a ++ (gf, Segment.frame m f) :: b := by simp
    exact (h.file.segs _ this).2.1.2.2.2.1
  generalize hp : framePost avx2 sp .luma f.width f.height (f0 :: fs) = p
  obtain ⟨hH, s, k1, k2, k3⟩ := grey_post avx2 hw hpl hsp hfs hd h12 (fun k => quantAt (cod k).tq) Z hp
  rw [file_ok avx2 o .luma a b gf g c m f rest tail h.file (by have := h.marker; omega) h.late h.rgb sp h.space rfl h.mjpeg cod h.coded hfs
    hd (Z := Z) hp.symm (by rw [hH]; exact hdc) (by rw [hH]; exact hscan) (ps' := s) k1, k2, k3,
    List.append_nil]

/-! ### A file that meets the hypotheses -/

/-- A quantisation table. -/
def exTq : QTab := ⟨false, 0, List.replicate 64 2⟩

/-- The DC table of luminance in the standard. -/
def exTd : HTab := ⟨false, 0, [0, 1, 5, 1, 1, 1, 1, 1, 1, 0, 0, 0, 0, 0, 0, 0], [0, 1, 2, 3, 4, 5, 6, 7, 8, 9, 10, 11]⟩

/-- A small AC table. -/
def exTa : HTab := ⟨true, 1, [0, 3, 1, 0, 0, 0, 0, 0, 0, 0, 0, 0, 0, 0, 0, 0], [0x00, 0x01, 0xF0, 0x12]⟩

/-- The coding of a component. -/
def exCoding : Coding :=
  { tq := exTq, td := exTd, ta := exTa
    dcode := fun s => if s = 2 then [false, true, true] else [false, false]
    acode := fun s => if s = 0 then [false, false] else if s = 1 then [false, true] else
      if s = 0xF0 then [true, false] else [true, true, false] }

/-- A frame of 27 columns and 8 rows, the chrominance at half the resolution across. -/
def exFrame2 : Seg.Frame := ⟨8, 27, [⟨1, 2, 1, 0⟩, ⟨2, 1, 1, 0⟩, ⟨3, 1, 1, 0⟩]⟩

/-- The segments before the frame header. -/
def exSegs2 : List (Gap × Segment) := [(⟨[], 0⟩, .dqt [exTq]), (⟨[], 1⟩, .dht [exTd, exTa]), (⟨[], 0⟩, .dri 1)]

/-- The scan header. -/
def exSos2 : Scan := ⟨[⟨1, 0, 1⟩, ⟨2, 0, 1⟩, ⟨3, 0, 1⟩], 0, 63, 0, 0⟩

/-- The bytes of one MCU, of four blocks `exZ`. -/
def exMcu : List UInt8 := [0x7B, 0xB2, 0x0E, 0xC8, 0xF7, 0x64, 0x7B, 0xB2, 0x7F]

theorem exSequential : Sequential ⟨16384, 16384, true⟩ exSegs2 [] ⟨[], 0⟩ ⟨[], 0⟩ exSos2 0xC0 exFrame2 .ycbcr (fun _ => exCoding) := by
  have hg : ∀ k, GapOk ⟨16384, 16384, true⟩ ⟨[], k⟩ := fun k => ⟨fun b hb => by simp at hb, fun _ => rfl⟩
  have hq : exTq.Ok := ⟨by decide, by decide +kernel, by decide +kernel⟩
  have hd : exTd.Ok := ⟨by decide, by decide, by decide, by decide, by decide, by decide, by
    intro l h1 h2
    have key : ∀ l : Fin 17, 1 ≤ l.val → Zune.Canon.first exTd.count l.val + exTd.count l.val < 2 ^ l.val := by decide +kernel
    exact key ⟨l, by omega⟩ h1, by decide⟩
  have ha : exTa.Ok := ⟨by decide, by decide, by decide, by decide, by decide, by decide, by
    intro l h1 h2
    have key : ∀ l : Fin 17, 1 ≤ l.val → Zune.Canon.first exTa.count l.val + exTa.count l.val < 2 ^ l.val := by decide +kernel
    exact key ⟨l, by omega⟩ h1, by decide⟩
  refine ⟨⟨?_, hg 0, rfl, by unfold exFrame2; decide, by unfold exSos2 exFrame2 Scan.Ok; decide⟩, .inl rfl, rfl, fun _ => rfl, rfl, rfl, ?_⟩
  · intro x hx
    fin_cases hx
    · exact ⟨hg 0, by intro t ht; simp at ht; rw [ht]; exact hq, trivial, by decide +kernel⟩
    · exact ⟨hg 1, by intro t ht; simp at ht; rcases ht with rfl | rfl <;> assumption, trivial, by decide +kernel⟩
    · exact ⟨hg 0, by show 1 < 65536; decide, trivial, by decide⟩
    · exact ⟨hg 0, ⟨by decide, by unfold exFrame2 Frame.Ok; decide⟩, by show exFrame2.comps.length ≤ 4 ∧ (∀ c ∈ exFrame2.comps, c.h ≠ 3) ∧ exFrame2.width ≤ 16384 ∧ exFrame2.height ≤ 16384; decide, by decide⟩
  · intro k fc hk
    have hk3 : k < 3 := (List.getElem?_eq_some_iff.1 hk).1
    obtain rfl | rfl | rfl : k = 0 ∨ k = 1 ∨ k = 2 := by omega
    · cases hk; exact ⟨⟨1, 0, 1⟩, by decide, rfl, rfl, rfl, rfl⟩
    · cases hk; exact ⟨⟨2, 0, 1⟩, by decide, rfl, rfl, rfl, rfl⟩
    · cases hk; exact ⟨⟨3, 0, 1⟩, by decide, rfl, rfl, rfl, rfl⟩

theorem exFits (p : Int) (hp : p = 0 ∨ p = 3) : exCoding.comp.Fits p exZ := by
  have e : acTokens 0 exZ.tail = [(1, 1, 1), (0xF0, 0, 0), (0x12, 2, 1), (0, 0, 0)] := by decide +kernel
  have c1 : ∀ tk ∈ acTokens 0 exZ.tail, IsCode exTa.count (fun p => exTa.syms[p]?.getD 0) tk.1 (exCoding.acode tk.1) := by
    rw [e]
    intro tk h
    simp only [List.mem_cons, List.not_mem_nil, or_false] at h
    rcases h with rfl | rfl | rfl | rfl
    · exact ⟨2, 1, by decide, by decide, by decide, by decide, rfl⟩
    · exact ⟨2, 2, by decide, by decide, by decide, by decide, rfl⟩
    · exact ⟨3, 0, by decide, by decide, by decide, by decide, rfl⟩
    · exact ⟨2, 0, by decide, by decide, by decide, by decide, rfl⟩
  have c2 : IsCode exTd.count (fun p => exTd.syms[p]?.getD 0) (category (exZ.headD 0 - p)) (exCoding.dcode (category (exZ.headD 0 - p))) := by
    rcases hp with rfl | rfl
    · have : category (exZ.headD 0 - 0) = 2 := by decide +kernel
      rw [this]
      exact ⟨3, 1, by decide, by decide, by decide, by decide, rfl⟩
    · have : category (exZ.headD 0 - 3) = 0 := by decide +kernel
      rw [this]
      exact ⟨2, 0, by decide, by decide, by decide, by decide, rfl⟩
  exact ⟨by decide +kernel, by rcases hp with rfl | rfl <;> decide +kernel, by decide +kernel, c2, c1⟩

theorem exScanFits : ScanFits (fun _ => exCoding.comp) (fun _ => 0) [(0, exZ), (0, exZ), (1, exZ), (2, exZ)] := by
  have h3 : exZ.head? = some 3 := rfl
  refine ⟨exFits _ (.inl rfl), exFits _ ?_, exFits _ ?_, exFits _ ?_, trivial⟩ <;> simp [h3]

-- two MCUs, each of a restart interval of its own, the picture cutting the second
example (avx2 : Bool) : ∃ rest f0 fs, exFrame2.factors = f0 :: fs ∧ Shape f0 fs ∧
    (∀ vs, vs.length = InSpace.ycbcr.planes → (pixelAt .ycbcr (.layout .rgb) vs).isSome) ∧
    ScanData (fun _ => exCoding.comp) (restartOf ((exSegs2 ++ ((⟨[], 0⟩, .frame 0xC0 exFrame2) : Gap × Segment) :: []).map (·.2))) [1, 2] 0
      (mcuRows (scanOrder exFrame2 exSos2) exFrame2.factor (fun _ _ _ => exZ) (divCeil exFrame2.width (f0.h * 8)) 0
        (divCeil exFrame2.height (f0.v * 8))) rest ∧
    ∃ px, px.length = 8 * 27 * 3 ∧ decodeJpeg avx2 ⟨16384, 16384, true⟩ (.layout .rgb)
      (fileBytes (exSegs2 ++ ((⟨[], 0⟩, .frame 0xC0 exFrame2) : Gap × Segment) :: []) ⟨[], 0⟩ exSos2 rest) = .ok (px, [1, 2]) := by
  have hfs : exFrame2.factors = ⟨2, 1⟩ :: [⟨1, 1⟩, ⟨1, 1⟩] := by decide
  have hd : Shape ⟨2, 1⟩ [⟨1, 1⟩, ⟨1, 1⟩] := ⟨⟨by decide, by decide, by decide, by decide⟩, .inl (by unfold FlatShape; decide)⟩
  have hrows : mcuRows (scanOrder exFrame2 exSos2) exFrame2.factor (fun _ _ _ => exZ) (divCeil exFrame2.width (2 * 8)) 0
        (divCeil exFrame2.height (1 * 8)) = [[(0, exZ), (0, exZ), (1, exZ), (2, exZ)]] ++ [[(0, exZ), (0, exZ), (1, exZ), (2, exZ)]] := by
    decide +kernel
  have hbits : bytesBits exMcu = scanBits (fun _ => exCoding.comp) (fun _ => 0) [(0, exZ), (0, exZ), (1, exZ), (2, exZ)] ++ List.replicate 7 true := by
    decide +kernel
  have hscan : ScanData (fun _ => exCoding.comp) 1 [1, 2] 0 ([[(0, exZ), (0, exZ), (1, exZ), (2, exZ)]] ++ [[(0, exZ), (0, exZ), (1, exZ), (2, exZ)]])
      (stuff exMcu ++ 0xFF :: List.replicate 0 0xFF ++ rstMarker 0 :: (stuff exMcu ++ 0xFF :: List.replicate 0 0xFF ++ 0xD9 :: [1, 2])) :=
    .rst 0 _ _ exMcu _ 0 _ (by decide) rfl (by simp) exScanFits hbits (.last 1 _ exMcu _ 0 (.inr (by decide)) exScanFits hbits)
  have key := c91_sequential_partial avx2 ⟨16384, 16384, true⟩ (.layout .rgb) exSequential hfs hd (by simp) (fun _ _ => rfl) (by simp)
    (fun _ _ _ => exZ) (by
      intro k _ y _ x _ q
      exact absurd q (by decide +kernel)) _ [1, 2] (by rw [hrows]; exact hscan)
  refine ⟨_, _, _, hfs, hd, fun _ _ => rfl, by rw [hrows]; exact hscan, _, ?_, key⟩
  unfold picture
  simp only [List.length_flatMap]
  rfl

-- the same file, wanted in grey
example (avx2 : Bool) : ∃ rest, decodeJpeg avx2 ⟨16384, 16384, true⟩ .luma
      (fileBytes (exSegs2 ++ ((⟨[], 0⟩, .frame 0xC0 exFrame2) : Gap × Segment) :: []) ⟨[], 0⟩ exSos2 rest) =
        .ok (picture 27 8 fun y x => [byte (sampleAt (quantAt exTq) (fun _ _ => exZ) y x)], []) := by
  have hfs : exFrame2.factors = ⟨2, 1⟩ :: [⟨1, 1⟩, ⟨1, 1⟩] := by decide
  have hrows : mcuRows (scanOrder exFrame2 exSos2) exFrame2.factor (fun _ _ _ => exZ) (divCeil exFrame2.width (2 * 8)) 0
        (divCeil exFrame2.height (1 * 8)) = [[(0, exZ), (0, exZ), (1, exZ), (2, exZ)]] ++ [[(0, exZ), (0, exZ), (1, exZ), (2, exZ)]] := by
    decide +kernel
  have hbits : bytesBits exMcu = scanBits (fun _ => exCoding.comp) (fun _ => 0) [(0, exZ), (0, exZ), (1, exZ), (2, exZ)] ++ List.replicate 7 true := by
    decide +kernel
  have hscan : ScanData (fun _ => exCoding.comp) 1 [] 0 ([[(0, exZ), (0, exZ), (1, exZ), (2, exZ)]] ++ [[(0, exZ), (0, exZ), (1, exZ), (2, exZ)]])
      (stuff exMcu ++ 0xFF :: List.replicate 1 0xFF ++ rstMarker 0 :: (stuff exMcu ++ 0xFF :: List.replicate 0 0xFF ++ 0xD9 :: [])) :=
    .rst 0 _ _ exMcu _ 1 _ (by decide) rfl (by simp) exScanFits hbits (.last 1 _ exMcu _ 0 (.inr (by decide)) exScanFits hbits)
  exact ⟨_, c92_grey_partial avx2 ⟨16384, 16384, true⟩ exSequential (.inr rfl) hfs ⟨by decide, by decide, by decide, by decide⟩ (by decide)
    (fun _ _ _ => exZ) (by
      intro k _ y _ x _ q
      exact absurd q (by decide +kernel)) _ [] (by rw [hrows]; exact hscan)⟩

end Zune.Jpeg
