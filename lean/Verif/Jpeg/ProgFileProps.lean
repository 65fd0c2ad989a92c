import Verif.Jpeg.ProgFile

/-!
# C97: progressive files are decoded as in T.81, annex G
-/

namespace Zune.Jpeg

open Zune.Canon Seg

/-- **C97** A progressive JPEG file with any number of scans (`Progressive`): segments in any order the decoder takes, the first
scan of DC coefficients, then scans of bands of AC coefficients and refinements, in any order that G.1.1.1 allows, each with its
own tables and restart interval and its bytes carrying, with stuffing, padding and restart markers, the bits that G.1.2 gives
for the coefficients `z`.  The picture is then, pixel for pixel, that of the coefficients as far as the scans sent them
(`sentBlock`: what was never sent is zero, what was sent down to bit `al` has the bits above it), dequantised, inverse
transformed, upsampled and brought to the output colours just as in C91; the stream is just behind EOI.

Partial: not more than `maxScans` scans; in scans of one component the factors are the largest or 1 by 1 (`c70_too_wide`); the
last block of the first scan has fewer than 32 bits with the padding (J26); restart intervals do not end just at the end of a
scan, unless EOI follows (J27); directly behind the data of a scan comes a marker that the decoder knows (J28); refinement scans of
DC coefficients name a table (J29); no quantisation tables (J31) or Adobe segments behind the first scan; and as for C91. -/
theorem c97_progressive_partial (avx2 : Bool) (o : HdrOpts) (maxScans : Nat) (out : OutSpace) {a b : List (Gap × Segment)} {gf : Gap}
    {q : PScan} {qs : List PScan} {f : Seg.Frame} {sp : InSpace} {tq : Nat → QTab} {z : Addr → Nat → Int}
    (h : Progressive o a b gf q qs f sp tq z) (hmax : 1 + qs.length ≤ maxScans)
    {f0 : Factor} {fs : List Factor} (hfs : f.factors = f0 :: fs) (hd : Shape f0 fs) (ho : out ≠ .luma)
    (hF : ∀ vs, vs.length = sp.planes → (pixelAt sp out vs).isSome) (hbr : ¬((sp = .cmyk ∨ sp = .ycck) ∧ out = .layout .rgba))
    {Z : Nat → Nat → Nat → List Int} (hZ : Z = sentBlock f (sentAfter f (fun _ _ => none) (q :: qs)) z)
    (hdc : ∀ k < f.comps.length, ∀ y < divCeil f.height (f0.v * 8) * (f.factor k).v,
      ∀ x < divCeil f.width (f0.h * 8) * (f.factor k).h, DcSmall (quantAt (tq k)) (Z k y x)) (n : Nat) (tail : Bytes) :
    decodeAny avx2 o maxScans out (fileBytes q.segs q.gap q.hdr (q.data ++ scansBytes n tail qs)) =
      .ok (picture f.width f.height fun y x =>
        (pixelAt sp out (samplesAt f.width (divCeil f.height (f0.v * 8)) f0 (planesWith f (fun k => quantAt (tq k)) Z) y x)).getD [],
        tail) := by
  obtain ⟨hpl, hcases⟩ := colours_planes h.space
  rw [List.length_map] at hpl
  have hw : 0 < f.width := by
    have : (gf, Segment.frame 0xC2 f) ∈ q.segs := by rw [h.first]; simp
    exact (h.file.segs _ this).2.1.2.2.2.1
  generalize hp : framePost avx2 sp out f.width f.height (f0 :: fs) = p
  obtain ⟨hH, s, k1, k2, k3⟩ := colour_post avx2 out hw hpl hcases hfs hd ho hF hbr (fun k => quantAt (tq k)) Z hp
  rw [prog_file avx2 maxScans out h hmax n tail hfs hd.toDivides hp hH hZ hdc k1, k2, k3, List.append_nil]

/-- **C97** The same for grey output of a grey or YCbCr file (as C92).

Partial: the factors of the first component are not 1 and 2 (J30); otherwise as `c97_progressive_partial`. -/
theorem c97_grey_partial (avx2 : Bool) (o : HdrOpts) (maxScans : Nat) {a b : List (Gap × Segment)} {gf : Gap}
    {q : PScan} {qs : List PScan} {f : Seg.Frame} {sp : InSpace} {tq : Nat → QTab} {z : Addr → Nat → Int}
    (h : Progressive o a b gf q qs f sp tq z) (hmax : 1 + qs.length ≤ maxScans) (hsp : sp = .luma ∨ sp = .ycbcr)
    {f0 : Factor} {fs : List Factor} (hfs : f.factors = f0 :: fs) (hd : Divides f0 fs) (h12 : f0 ≠ ⟨1, 2⟩)
    {Z : Nat → Nat → Nat → List Int} (hZ : Z = sentBlock f (sentAfter f (fun _ _ => none) (q :: qs)) z)
    (hdc : ∀ k < f.comps.length, ∀ y < divCeil f.height (f0.v * 8) * (f.factor k).v,
      ∀ x < divCeil f.width (f0.h * 8) * (f.factor k).h, DcSmall (quantAt (tq k)) (Z k y x)) (n : Nat) (tail : Bytes) :
    decodeAny avx2 o maxScans .luma (fileBytes q.segs q.gap q.hdr (q.data ++ scansBytes n tail qs)) =
      .ok (picture f.width f.height fun y x => [byte (sampleAt (quantAt (tq 0)) (Z 0) y x)], tail) := by
  obtain ⟨hpl, -⟩ := colours_planes h.space
  rw [List.length_map] at hpl
  have hw : 0 < f.width := by
    have : (gf, Segment.frame 0xC2 f) ∈ q.segs := by rw [h.first]; simp
    exact (h.file.segs _ this).2.1.2.2.2.1
  generalize hp : framePost avx2 sp .luma f.width f.height (f0 :: fs) = p
  obtain ⟨hH, s, k1, k2, k3⟩ := grey_post avx2 hw hpl hsp hfs hd h12 (fun k => quantAt (tq k)) Z hp
  rw [prog_file avx2 maxScans .luma h hmax n tail hfs hd hp hH hZ hdc k1, k2, k3, List.append_nil]

/-! ### A file that meets the hypotheses -/

/-- All DC coefficients are 3; the first AC coefficient of the first block of luminance is 3 too. -/
def exPz : Addr → Nat → Int := fun a k => if k = 0 then 3 else if a = (0, 0) ∧ k = 1 then 3 else 0

/-- An AC table of the symbols 01, 10, 00. -/
def exTp : HTab := ⟨true, 1, [1, 1, 1, 0, 0, 0, 0, 0, 0, 0, 0, 0, 0, 0, 0, 0], [0x01, 0x10, 0x00]⟩

/-- The segments of the file before the first scan. -/
def exPsegs : List (Gap × Segment) := [(⟨[], 0⟩, .dqt [exTq]), (⟨[], 1⟩, .dht [exTd]), (⟨[], 0⟩, .frame 0xC2 exFrame2)]

/-- The first scan: the DC coefficients without their last bit. -/
def exP1 : PScan := ⟨exPsegs, ⟨[], 0⟩, ⟨[⟨1, 0, 1⟩, ⟨2, 0, 1⟩, ⟨3, 0, 1⟩], 0, 0, 0, 1⟩, fun _ => exTd, stuff [0x51, 0x54, 0x03]⟩

/-- A scan of five AC coefficients of luminance without the last bit, in restart intervals of three blocks. -/
def exP2 : PScan := ⟨[(⟨[], 0⟩, .dht [exTp]), (⟨[], 2⟩, .dri 3)], ⟨[], 0⟩, ⟨[⟨1, 0, 1⟩], 1, 5, 0, 1⟩, fun _ => exTp,
  stuff [0x6F] ++ 0xFF :: List.replicate 0 0xFF ++ rstMarker 0 :: stuff [0xDF]⟩

/-- The last bit of the five AC coefficients. -/
def exP3 : PScan := ⟨[], ⟨[], 1⟩, ⟨[⟨1, 0, 1⟩], 1, 5, 1, 0⟩, fun _ => exTp,
  stuff [0xBF] ++ 0xFF :: List.replicate 0 0xFF ++ rstMarker 0 :: stuff [0xDF]⟩

/-- The last bit of the DC coefficients. -/
def exP4 : PScan := ⟨[], ⟨[], 0⟩, ⟨[⟨1, 0, 1⟩, ⟨2, 0, 1⟩, ⟨3, 0, 1⟩], 0, 0, 1, 0⟩, fun _ => exTd, stuff [0xFF]⟩

theorem exTp_codes : IsCode exTp.count (fun p => exTp.syms[p]?.getD 0) 0x01 [false] ∧
    IsCode exTp.count (fun p => exTp.syms[p]?.getD 0) 0x10 [true, false] ∧
    IsCode exTp.count (fun p => exTp.syms[p]?.getD 0) 0x00 [true, true, false] :=
  ⟨⟨1, 0, by decide, by decide, by decide, by decide, rfl⟩, ⟨2, 0, by decide, by decide, by decide, by decide, rfl⟩,
    ⟨3, 0, by decide, by decide, by decide, by decide, rfl⟩⟩

theorem exTd_codes : IsCode exTd.count (fun p => exTd.syms[p]?.getD 0) 1 [false, true, false] ∧
    IsCode exTd.count (fun p => exTd.syms[p]?.getD 0) 0 [false, false] :=
  ⟨⟨3, 0, by decide, by decide, by decide, by decide, rfl⟩, ⟨2, 0, by decide, by decide, by decide, by decide, rfl⟩⟩

theorem exMcus3 : exFrame2.mcus exP1.hdr = [[(0, 0), (0, 1), (1, 0), (2, 0)], [(0, 2), (0, 3), (1, 1), (2, 1)]] := by decide +kernel

theorem exMcus1 : exFrame2.mcus exP2.hdr = [[(0, 0)], [(0, 1)], [(0, 2)]] ++ [[(0, 3)]] := by decide +kernel

theorem exDc : DcSends (fun _ => exTd.count) (fun _ p => exTd.syms[p]?.getD 0) (fun a => level 0 1 (exPz a 0)) (fun _ => 0)
    [(0, 0), (0, 1), (1, 0), (2, 0), (0, 2), (0, 3), (1, 1), (2, 1)]
    [false, true, false, true, false, false, false, true, false, true, false, true, false, true, false, false, false, false,
      false, false, false, false] := by
  have one : ∀ (prev : Nat → Int) (a : Addr) (l : List Addr) (bits : List Bool), prev a.1 = 0 →
      DcSends (fun _ => exTd.count) (fun _ p => exTd.syms[p]?.getD 0) (fun a => level 0 1 (exPz a 0))
        (fun c => if c = a.1 then 1 else prev c) l bits →
      DcSends (fun _ => exTd.count) (fun _ p => exTd.syms[p]?.getD 0) (fun a => level 0 1 (exPz a 0)) prev (a :: l)
        ([false, true, false] ++ [true] ++ bits) := by
    intro prev a l bits h0 h
    have e : level 0 1 (exPz a 0) - prev a.1 = 1 := by rw [h0]; rfl
    have := DcSends.cons (cnt := fun _ => exTd.count) (vals := fun _ p => exTd.syms[p]?.getD 0)
      (q := fun a => level 0 1 (exPz a 0)) prev a l [false, true, false] bits (by simp only [e]; decide)
      (by simp only [e]; exact exTd_codes.1) h
    simp only [e] at this
    exact this
  have nul : ∀ (prev : Nat → Int) (a : Addr) (l : List Addr) (bits : List Bool), prev a.1 = 1 →
      DcSends (fun _ => exTd.count) (fun _ p => exTd.syms[p]?.getD 0) (fun a => level 0 1 (exPz a 0))
        (fun c => if c = a.1 then 1 else prev c) l bits →
      DcSends (fun _ => exTd.count) (fun _ p => exTd.syms[p]?.getD 0) (fun a => level 0 1 (exPz a 0)) prev (a :: l)
        ([false, false] ++ [] ++ bits) := by
    intro prev a l bits h0 h
    have e : level 0 1 (exPz a 0) - prev a.1 = 0 := by rw [h0]; rfl
    have := DcSends.cons (cnt := fun _ => exTd.count) (vals := fun _ p => exTd.syms[p]?.getD 0)
      (q := fun a => level 0 1 (exPz a 0)) prev a l [false, false] bits (by simp only [e]; decide)
      (by simp only [e]; exact exTd_codes.2) h
    simp only [e] at this
    exact this
  exact one _ (0, 0) _ _ rfl (nul _ (0, 1) _ _ rfl (one _ (1, 0) _ _ rfl (one _ (2, 0) _ _ rfl (nul _ (0, 2) _ _ rfl
    (nul _ (0, 3) _ _ rfl (nul _ (1, 1) _ _ rfl (nul _ (2, 1) _ _ rfl (.nil _))))))))

theorem exPart0 (p : ScanSpec) (hs : p.ss = 1) (he : p.se = 5) (a : Addr) (ha : a ≠ (0, 0)) : p.part (exPz a) = List.replicate 5 0 := by
  unfold ScanSpec.part
  rw [hs, he]
  have : ∀ i, level (1 + i) p.al (exPz a (1 + i)) = 0 := by
    intro i
    unfold exPz
    rw [if_neg (by omega), if_neg (fun h => ha h.1)]
    unfold level
    rw [if_neg (by omega), Int.zero_tdiv]
  simp only [this]
  rfl

theorem exDht : exTd.Ok ∧ exTp.Ok := by
  refine ⟨⟨by decide, by decide, by decide, by decide, by decide, by decide, ?_, by decide⟩,
    ⟨by decide, by decide, by decide, by decide, by decide, by decide, ?_, by decide⟩⟩
  · intro l h1 h2
    have key : ∀ l : Fin 17, 1 ≤ l.val → Zune.Canon.first exTd.count l.val + exTd.count l.val < 2 ^ l.val := by decide +kernel
    exact key ⟨l, by omega⟩ h1
  · intro l h1 h2
    have key : ∀ l : Fin 17, 1 ≤ l.val → Zune.Canon.first exTp.count l.val + exTp.count l.val < 2 ^ l.val := by decide +kernel
    exact key ⟨l, by omega⟩ h1

theorem exGap (k : Nat) : GapOk ⟨16384, 16384, true⟩ ⟨[], k⟩ := ⟨fun b hb => by simp at hb, fun _ => rfl⟩

/-- The header of a scan of all components. -/
theorem exHeader3 (q : PScan) (l : List Segment) (hc : q.hdr.comps = [⟨1, 0, 1⟩, ⟨2, 0, 1⟩, ⟨3, 0, 1⟩]) (hs : q.hdr.ss = 0)
    (ht : q.tab = fun _ => exTd) (hok : q.hdr.Ok (exFrame2.comps.map (·.id)))
    (hl : last? (fun t : HTab => t.ac == false && t.id == 0) (l.flatMap Segment.htabs) = some exTd) : q.Header exFrame2 l where
  ok := hok
  tables := by
    intro k fc e hk he hid
    rw [hs, ht]
    have : e.td = 0 := by
      rw [hc] at he
      fin_cases he <;> rfl
    simpa [this] using hl
  any := by intro k; rw [ht]; show ∀ v ∈ exTd.syms, v < 256; decide
  size := by
    intro k hk
    have : scanOrder exFrame2 q.hdr = [0, 1, 2] := by
      unfold scanOrder
      rw [hc]
      decide +kernel
    rw [this] at hk
    simp at hk

/-- The header of a scan of luminance. -/
theorem exHeader1 (q : PScan) (l : List Segment) (hc : q.hdr.comps = [⟨1, 0, 1⟩]) (hs : q.hdr.ss = 1)
    (ht : q.tab = fun _ => exTp) (hok : q.hdr.Ok (exFrame2.comps.map (·.id)))
    (hl : last? (fun t : HTab => t.ac == true && t.id == 1) (l.flatMap Segment.htabs) = some exTp) : q.Header exFrame2 l where
  ok := hok
  tables := by
    intro k fc e hk he hid
    rw [hs, ht]
    have : e.ta = 1 := by
      rw [hc] at he
      fin_cases he; rfl
    simpa [this] using hl
  any := by intro k; rw [ht]; show ∀ v ∈ exTp.syms, v < 256; decide
  size := by
    intro k hk
    have : scanOrder exFrame2 q.hdr = [0] := by
      unfold scanOrder
      rw [hc]
      decide +kernel
    rw [this] at hk
    simp at hk
    subst hk
    exact .inl (by decide)

theorem exScans : Scans ⟨16384, 16384, true⟩ exFrame2 exPz true [] (fun _ _ => none) [exP1, exP2, exP3, exP4] := by
  have m4 : exFrame2.mcus exP4.hdr = [[(0, 0), (0, 1), (1, 0), (2, 0)], [(0, 2), (0, 3), (1, 1), (2, 1)]] := exMcus3
  have m3 : exFrame2.mcus exP3.hdr = [[(0, 0)], [(0, 1)], [(0, 2)]] ++ [[(0, 3)]] := exMcus1
  have s1 : (exP1.spec exFrame2).order = [(0, 0), (0, 1), (1, 0), (2, 0), (0, 2), (0, 3), (1, 1), (2, 1)] := by
    show (exFrame2.mcus exP1.hdr).flatten = _
    rw [exMcus3]; rfl
  have s2 : (exP2.spec exFrame2).order = [(0, 0), (0, 1), (0, 2), (0, 3)] := by
    show (exFrame2.mcus exP2.hdr).flatten = _
    rw [exMcus1]; rfl
  have s3 : (exP3.spec exFrame2).order = [(0, 0), (0, 1), (0, 2), (0, 3)] := s2
  have s4 : (exP4.spec exFrame2).order = [(0, 0), (0, 1), (1, 0), (2, 0), (0, 2), (0, 3), (1, 1), (2, 1)] := s1
  obtain ⟨c1, c2, c3⟩ := exTp_codes
  obtain ⟨okd, okp⟩ := exDht
  have a1 : ∀ k, 1 ≤ k → ∀ a, (exP1.spec exFrame2).after (fun _ _ => none) a k = none := by
    intro k hk a
    unfold ScanSpec.after
    rw [if_neg (fun h => absurd h.2.2 (by show ¬k ≤ 0; omega))]
  have q0 : ∀ i, i ≠ 0 → (exP2.spec exFrame2).part (exPz (0, i)) = List.replicate 5 0 :=
    fun i hi => exPart0 _ rfl rfl _ (fun h => hi (congrArg Prod.snd h))
  have q0' : ∀ i, i ≠ 0 → (exP3.spec exFrame2).part (exPz (0, i)) = List.replicate 5 0 :=
    fun i hi => exPart0 _ rfl rfl _ (fun h => hi (congrArg Prod.snd h))
  have quiet : Quiet (List.replicate 5 0) := fun q hq => by rw [List.eq_of_mem_replicate hq]; decide
  refine ⟨rfl, exHeader3 _ _ rfl rfl rfl (by unfold Scan.Ok; decide) rfl, ?_, ?_, ⟨?_, exGap 0, rfl, by decide⟩,
    exHeader1 _ _ rfl rfl rfl (by unfold Scan.Ok; decide) rfl, ?_, ?_,
    ⟨?_, exGap 1, rfl, by decide⟩, exHeader1 _ _ rfl rfl rfl (by unfold Scan.Ok; decide) rfl, ?_, ?_, ⟨?_, exGap 0, rfl, by decide⟩,
    exHeader3 _ _ rfl rfl rfl (by unfold Scan.Ok; decide) rfl, ?_, ?_, trivial⟩
  · exact ⟨by decide, by decide, fun _ => rfl, fun h => absurd rfl h, by decide, by rw [s1]; decide, fun _ _ _ _ _ => rfl⟩
  · rw [exMcus3]
    refine .last 0 _ [0x51, 0x54, 0x03] _ [true, true] (.inl rfl) ⟨exDc, ?_⟩ (by decide)
    intro _ _ l1 a b1 b2 _ hb _
    have := congrArg List.length hb
    simp only [List.length_append, List.length_cons, List.length_nil] at this ⊢
    omega
  · intro x hx
    change x ∈ [_, _] at hx
    simp only [List.mem_cons, List.not_mem_nil, or_false] at hx
    rcases hx with rfl | rfl
    · exact ⟨exGap 0, by intro t ht; simp at ht; rw [ht]; exact okp, trivial, by decide +kernel, trivial⟩
    · exact ⟨exGap 2, by show 3 < 65536; decide, trivial, by decide, trivial⟩
  · refine ⟨by decide, by decide, (fun h => by cases h), fun _ => rfl, by decide, by rw [s2]; decide, fun a _ k h1 _ => ?_⟩
    exact a1 k h1 a
  · rw [exMcus1]
    refine .rst 0 [[(0, 0)], [(0, 1)], [(0, 2)]] [[(0, 3)]] [0x6F] [false, true, true, false, true] [true, true, true] 0 _ (by decide) rfl (by simp) ⟨?_, fun h => by cases h⟩
      (by decide) (.last 1 [[(0, 3)]] [0xDF] [true, true, false] [true, true, true, true, true] (.inr (.inl (by decide))) ⟨?_, fun h => by cases h⟩ (by decide))
    · show FirstSends (exP2.spec exFrame2).cnt (exP2.spec exFrame2).vals (fun a => (exP2.spec exFrame2).part (exPz a)) 0 _ _
      refine FirstSends.block 2 (0, 0) [(0, 1), (0, 2)] [false, true, true, false, true] [] ?_
        (.skip 1 (0, 1) [(0, 2)] [] (by rw [q0 1 (by decide)]; decide)
          (.skip 0 (0, 2) [] [] (by rw [q0 2 (by decide)]; decide) .nil))
      have e : (exP2.spec exFrame2).part (exPz (0, 0)) = List.replicate 0 0 ++ 1 :: List.replicate 4 0 := by decide +kernel
      rw [e]
      exact FirstBits.coef 0 1 _ [false] [true, false, true] 2 (by decide) (by decide) (by decide) c1
        (FirstBits.eob 4 1 1 [true, false] (by decide) (by decide) (by decide) c2)
    · show FirstSends (exP2.spec exFrame2).cnt (exP2.spec exFrame2).vals (fun a => (exP2.spec exFrame2).part (exPz a)) 0 _ _
      refine FirstSends.block 0 (0, 3) [] [true, true, false] [] ?_ .nil
      rw [q0 3 (by decide)]
      exact FirstBits.eob 5 0 0 [true, true, false] (by decide) (by decide) (by decide) c3
  · intro x hx; cases hx
  · refine ⟨by decide, by decide, (fun h => by cases h), fun _ => rfl, by decide, by rw [s3]; decide, fun a ha k h1 h2 => ?_⟩
    show (exP2.spec exFrame2).after _ a k = some 1
    unfold ScanSpec.after
    rw [if_pos ⟨ha, h1, h2⟩]
    rfl
  · rw [m3]
    refine .rst 0 [[(0, 0)], [(0, 1)], [(0, 2)]] [[(0, 3)]] [0xBF] [true, false, true, true] [true, true, true, true] 0 _ (by decide) rfl (by simp) ⟨?_, fun h => by cases h⟩
      (by decide) (.last 1 [[(0, 3)]] [0xDF] [true, true, false] [true, true, true, true, true] (.inr (.inl (by decide))) ⟨?_, fun h => by cases h⟩ (by decide))
    · show RefineSends (exP3.spec exFrame2).cnt (exP3.spec exFrame2).vals (fun a => (exP3.spec exFrame2).part (exPz a)) 0 _ _
      have k2 := RefineSends.skip (cnt := (exP3.spec exFrame2).cnt) (vals := (exP3.spec exFrame2).vals)
        (q := fun a => (exP3.spec exFrame2).part (exPz a)) 0 (0, 2) [] [] (by simp only [q0' 2 (by decide)]; exact quiet) .nil
      have k1 := RefineSends.skip (cnt := (exP3.spec exFrame2).cnt) (vals := (exP3.spec exFrame2).vals)
        (q := fun a => (exP3.spec exFrame2).part (exPz a)) 1 (0, 1) _ _ (by simp only [q0' 1 (by decide)]; exact quiet) k2
      simp only [q0' 1 (by decide), q0' 2 (by decide)] at k1
      refine RefineSends.block 2 (0, 0) [(0, 1), (0, 2)] [true, false, true, true] [] ?_ k1
      have e : (exP3.spec exFrame2).part (exPz (0, 0)) = [3, 0, 0, 0, 0] := by decide +kernel
      rw [e]
      exact RefBits.eob [3, 0, 0, 0, 0] 1 1 [true, false] (by decide) (by unfold Quiet; decide) (by decide) (by decide) c2
    · show RefineSends (exP3.spec exFrame2).cnt (exP3.spec exFrame2).vals (fun a => (exP3.spec exFrame2).part (exPz a)) 0 _ _
      refine RefineSends.block 0 (0, 3) [] [true, true, false] [] ?_ .nil
      rw [q0' 3 (by decide)]
      exact RefBits.eob (List.replicate 5 0) 0 0 [true, true, false] (by decide) quiet (by decide) (by decide) c3
  · intro x hx; cases hx
  · refine ⟨by decide, by decide, fun _ => rfl, fun h => absurd rfl h, by decide, by rw [s4]; decide, fun a ha k h1 h2 => ?_⟩
    obtain rfl : k = 0 := Nat.le_zero.1 h2
    show (exP3.spec exFrame2).after ((exP2.spec exFrame2).after ((exP1.spec exFrame2).after _)) a 0 = some 1
    unfold ScanSpec.after
    rw [if_neg (fun h => absurd h.2.1 (by decide)), if_neg (fun h => absurd h.2.1 (by decide)), if_pos ⟨ha, h1, h2⟩]
    rfl
  · rw [m4]
    refine .last 0 _ [0xFF] (List.replicate 8 true) [] (.inr (.inl (by decide))) ⟨?_, fun h => by cases h⟩ (by decide)
    show List.replicate 8 true = [[((0 : Nat), (0 : Nat)), (0, 1), (1, 0), (2, 0)], [(0, 2), (0, 3), (1, 1), (2, 1)]].flatten.map
      fun a => decide (exPz a 0 / 2 ^ 0 % 2 = 1)
    decide +kernel

theorem exProgressive : Progressive ⟨16384, 16384, true⟩ [(⟨[], 0⟩, .dqt [exTq]), (⟨[], 1⟩, .dht [exTd])] [] ⟨[], 0⟩ exP1 [exP2, exP3, exP4]
    exFrame2 .ycbcr (fun _ => exTq) exPz := by
  refine ⟨rfl, ⟨?_, exGap 0, rfl, by unfold exFrame2; decide, by unfold Scan.Ok; decide⟩, rfl, fun _ => rfl, rfl, rfl, ?_, ?_, exScans⟩
  · intro x hx
    change x ∈ [_, _, _] at hx
    simp only [List.mem_cons, List.not_mem_nil, or_false] at hx
    rcases hx with rfl | rfl | rfl
    · exact ⟨exGap 0, by intro t ht; simp at ht; rw [ht]; exact ⟨by decide, by decide +kernel, by decide +kernel⟩, trivial, by decide +kernel⟩
    · exact ⟨exGap 1, by intro t ht; simp at ht; rw [ht]; exact exDht.1, trivial, by decide +kernel⟩
    · exact ⟨exGap 0, ⟨by decide, by unfold exFrame2 Frame.Ok; decide⟩, by show exFrame2.comps.length ≤ 4 ∧ (∀ c ∈ exFrame2.comps, c.h ≠ 3) ∧ exFrame2.width ≤ 16384 ∧ exFrame2.height ≤ 16384; decide, by decide⟩
  · intro k fc hk
    have hk3 : k < 3 := (List.getElem?_eq_some_iff.1 hk).1
    obtain rfl | rfl | rfl : k = 0 ∨ k = 1 ∨ k = 2 := by omega
    all_goals cases hk; rfl
  · intro a k
    unfold exPz
    split
    · decide
    · split <;> decide

/-- The DC coefficients are small. -/
theorem exSmall : ∀ k < 3, ∀ y < 1, ∀ x < 4,
    DcSmall (quantAt exTq) (sentBlock exFrame2 (sentAfter exFrame2 (fun _ _ => none) [exP1, exP2, exP3, exP4]) exPz k y x) := by
  unfold DcSmall DcFits
  decide +kernel

-- four scans: DC, AC, refinement of AC, refinement of DC
example (avx2 : Bool) : ∃ px, px.length = 8 * 27 * 3 ∧ decodeAny avx2 ⟨16384, 16384, true⟩ 4 (.layout .rgb)
    (fileBytes exP1.segs exP1.gap exP1.hdr (exP1.data ++ scansBytes 1 [7] [exP2, exP3, exP4])) = .ok (px, [7]) := by
  have hfs : exFrame2.factors = ⟨2, 1⟩ :: [⟨1, 1⟩, ⟨1, 1⟩] := by decide
  have hd : Shape ⟨2, 1⟩ [⟨1, 1⟩, ⟨1, 1⟩] := ⟨⟨by decide, by decide, by decide, by decide⟩, .inl (by unfold FlatShape; decide)⟩
  have key := c97_progressive_partial avx2 ⟨16384, 16384, true⟩ 4 (.layout .rgb) exProgressive (by decide) hfs hd (by simp) (fun _ _ => rfl)
    (by simp) rfl (by
      intro k hk y hy x hx
      have hk : k < 3 := hk
      obtain rfl | rfl | rfl : k = 0 ∨ k = 1 ∨ k = 2 := by omega
      all_goals exact exSmall _ (by decide) y hy x (lt_of_lt_of_le hx (by decide))) 1 [7]
  refine ⟨_, ?_, key⟩
  unfold picture
  simp only [List.length_flatMap]
  rfl

-- the coefficients of its first block: all bits were sent
example : sentBlock exFrame2 (sentAfter exFrame2 (fun _ _ => none) [exP1, exP2, exP3, exP4]) exPz 0 0 0 = 3 :: 3 :: List.replicate 62 0 := by
  decide +kernel

-- the same file, wanted in grey
example (avx2 : Bool) : ∃ Z : Nat → Nat → List Int, Z 0 0 = 3 :: 3 :: List.replicate 62 0 ∧ decodeAny avx2 ⟨16384, 16384, true⟩ 4 .luma
    (fileBytes exP1.segs exP1.gap exP1.hdr (exP1.data ++ scansBytes 0 [] [exP2, exP3, exP4])) =
      .ok (picture 27 8 fun y x => [byte (sampleAt (quantAt exTq) Z y x)], []) := by
  have hfs : exFrame2.factors = ⟨2, 1⟩ :: [⟨1, 1⟩, ⟨1, 1⟩] := by decide
  exact ⟨_, by decide +kernel, c97_grey_partial avx2 ⟨16384, 16384, true⟩ 4 exProgressive (by decide) (.inr rfl) hfs
    ⟨by decide, by decide, by decide, by decide⟩ (by decide) rfl (by
      intro k hk y hy x hx
      have hk : k < 3 := hk
      obtain rfl | rfl | rfl : k = 0 ∨ k = 1 ∨ k = 2 := by omega
      all_goals exact exSmall _ (by decide) y hy x (lt_of_lt_of_le hx (by decide))) 0 []⟩

end Zune.Jpeg
