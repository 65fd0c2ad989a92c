import Verif.Jpeg.ProgFinish

/-!
# zune-jpeg: progressive files (lemmas)
-/

namespace Zune.Jpeg

open Zune.Canon Seg

theorem known_none (k : Nat) (v : Int) : known none k v = 0 := rfl

/-- The components once the colour space is settled. -/
theorem settled_comps {f : Seg.Frame} (hfok : f.Ok) {sp : InSpace} (hones : sp = .luma ↔ f.comps.length = 1) {d : Hdr}
    (hlen : d.comps.length = f.comps.length)
    (hget : ∀ (k : Nat) (x : HComp), d.comps[k]? = some x → ∃ fc, f.comps[k]? = some fc ∧ x.id = fc.id ∧ x.h = fc.h ∧ x.v = fc.v) :
    (resetLuma sp d).comps = d.comps.mapIdx fun k x => { x with h := (f.factor k).h, v := (f.factor k).v } := by
  apply List.ext_getElem?
  intro k
  have hx : ∀ x : HComp, d.comps[k]? = some x → f.comps.length ≠ 1 → x = { x with h := (f.factor k).h, v := (f.factor k).v } := by
    intro x hx hn1
    obtain ⟨fc, hfc, hid, h1, h2⟩ := hget k x hx
    have : f.factor k = ⟨fc.h, fc.v⟩ := by
      unfold Seg.Frame.factor
      rw [if_neg hn1, hfc]
    rw [this]
    simp only
    rw [← h1, ← h2]
  rw [List.getElem?_mapIdx]
  unfold resetLuma
  cases hk : d.comps[k]? with
  | none =>
    split
    · rw [List.getElem?_mapIdx, hk]
      rfl
    · exact hk
  | some x =>
    by_cases hn1 : f.comps.length = 1
    · have hfac : f.factor k = ⟨1, 1⟩ := by
        unfold Seg.Frame.factor
        rw [if_pos hn1]
      have hk0 : k = 0 := by
        have := (List.getElem?_eq_some_iff.1 hk).1
        omega
      subst hk0
      split
      · rw [List.getElem?_mapIdx, hk, hfac]
        rfl
      · rename_i hno
        rw [hk, hfac]
        rw [Option.map_some, Option.some.injEq]
        have hfs1 : factors d = [⟨x.h, x.v⟩] := by
          obtain ⟨y, hy⟩ := List.length_eq_one_iff.1 (hlen.trans hn1)
          rw [hy] at hk
          cases hk
          unfold factors
          rw [hy]
          rfl
        obtain ⟨fc, hfc, hid, e1, e2⟩ := hget 0 x hk
        obtain ⟨_, v1, _, v2, _⟩ := hfok.2.2.2.2.2.2 fc (List.mem_of_getElem? hfc)
        rw [hfs1] at hno
        simp only [hMax, vMax, List.foldl_cons, List.foldl_nil] at hno
        have hh : x.h = 1 ∧ x.v = 1 := by
          have := hones.2 hn1
          simp only [this, true_and, not_or, not_not] at hno
          omega
        cases x
        simp only at hh
        simp only [hh.1, hh.2]
    · rw [if_neg (fun q => hn1 (hones.1 q.1)), hk, Option.map_some]
      exact congrArg some (hx x hk hn1)

theorem quant_length {d : Hdr} {qts : List (List Nat)} (hq : quantOf d = some qts) : qts.length = d.comps.length := by
  unfold quantOf at hq
  have key : ∀ {α} (l : List (Option α)) r, allSome l = some r → r.length = l.length := by
    intro α l
    induction l with
    | nil => intro r h; cases h; rfl
    | cons a l ih =>
      intro r h
      cases a with
      | none => cases h
      | some a =>
        rw [allSome, Option.map_eq_some_iff] at h
        obtain ⟨r', h1, rfl⟩ := h
        simp [ih r' h1]
  rw [key _ _ hq, List.length_map]

/-- The headers of a progressive file. -/
theorem prog_headers {o : HdrOpts} {a b gf q qs f sp tq z} (h : Progressive o a b gf q qs f sp tq z) (rest : Bytes) :
    ∃ d qts d1, decodeHeaders o (fileBytes q.segs q.gap q.hdr rest) = .ok (d, rest) ∧ d.prog = true ∧ d.width = f.width ∧ d.height = f.height ∧
      settleSpace o.strict d.comps.length d.space = some sp ∧ quantOf d = some qts ∧ d.mjpeg = false ∧
      d1 = { resetLuma sp d with space := sp } ∧ HoldsFrame f sp (q.segs.map (·.2)) d1 ∧ HoldsScan f q.hdr d1 ∧
      qts.length = f.comps.length ∧ ∀ k, k < f.comps.length → ∃ t, qts[k]? = some t ∧ (fun i => BitVec.ofNat 32 (t.getD i 0)) = quantAt (tq k) := by
  have hfile := h.file
  have hfirst := h.first
  generalize hsegs : q.segs = segs at hfile hfirst
  subst hfirst
  obtain ⟨d, e1, h1, hsp, hdct, hact, -, hzo⟩ := file_all o a b gf q.gap q.hdr 0xC2 f rest hfile h.late h.rgb sp h.space rfl
  obtain ⟨hpl, hcases⟩ := colours_planes h.space
  rw [List.length_map] at hpl
  obtain ⟨r1, r2, r3, r4, r5, r6⟩ := h1.frame 0xC2 f hfile.frame
  have hfok : f.Ok := (hfile.segs (gf, .frame 0xC2 f) (by simp)).2.1.2
  have hlen : d.comps.length = f.comps.length := by rw [r5, List.length_map]
  have hones : sp = .luma ↔ f.comps.length = 1 := by
    rw [hpl]
    rcases hcases with rfl | rfl | rfl | rfl | rfl <;> simp [InSpace.planes]
  have hget : ∀ (k : Nat) (x : HComp), d.comps[k]? = some x → ∃ fc, f.comps[k]? = some fc ∧ x.id = fc.id ∧ x.h = fc.h ∧ x.v = fc.v := by
    intro k x hx
    rw [r5, List.getElem?_map, Option.map_eq_some_iff] at hx
    obtain ⟨fc, hfc, rfl⟩ := hx
    exact ⟨fc, hfc, rfl, rfl, rfl⟩
  have hgq : ∀ (k : Nat) (x : HComp), d.comps[k]? = some x →
      d.qt x.tq = some ((List.range 64).map fun j => (tq k).vals.getD (zigzagWalk.idxOf (j / 8, j % 8)) 0) := by
    intro k x hx
    rw [r5, List.getElem?_map, Option.map_eq_some_iff] at hx
    obtain ⟨fc, hfc, rfl⟩ := hx
    simp only
    have := h.quant k fc hfc
    rw [hsegs] at this
    rw [h1.qt, this]
    rfl
  obtain ⟨qts, hq, hqk⟩ := allSome_map (fun x : HComp => d.qt x.tq) d.comps (by
    intro x hx
    obtain ⟨k, hk⟩ := List.mem_iff_getElem?.1 hx
    rw [hgq k x hk]
    rfl)
  have hc1 := settled_comps hfok hones hlen hget
  refine ⟨d, qts, _, e1, by rw [r1]; rfl, r2, r3, hsp, hq, ?_, rfl, ?_, ?_, (quant_length hq).trans hlen, ?_⟩
  · have := h.mjpeg
    rw [hsegs] at this
    rw [h1.mjpeg, this]
  · have hoth : (resetLuma sp d).width = d.width ∧ (resetLuma sp d).height = d.height ∧ (resetLuma sp d).ncomp = d.ncomp ∧
        (resetLuma sp d).zorder = d.zorder ∧ (resetLuma sp d).dc = d.dc ∧ (resetLuma sp d).ac = d.ac ∧ (resetLuma sp d).restart = d.restart := by
      unfold resetLuma
      split <;> exact ⟨rfl, rfl, rfl, rfl, rfl, rfl, rfl⟩
    obtain ⟨t1, t2, t3, t4, t5, t6, t7⟩ := hoth
    refine ⟨t1.trans r2, t2.trans r3, ?_, ?_, ?_, ?_, rfl, ?_, ?_, ?_⟩
    · show (resetLuma sp d).ncomp = (resetLuma sp d).comps.length
      rw [t3, r4, hc1, List.length_mapIdx, hlen]
    · show (resetLuma sp d).comps.map (·.id) = _
      rw [hc1]
      apply List.ext_getElem?
      intro k
      rw [List.getElem?_map, List.getElem?_mapIdx, r5, List.getElem?_map, List.getElem?_map]
      cases f.comps[k]? <;> rfl
    · show (resetLuma sp d).comps.map _ = _
      rw [hc1]
      unfold Seg.Frame.factors
      apply List.ext_getElem?
      intro k
      rw [List.getElem?_map, List.getElem?_mapIdx, List.getElem?_map]
      by_cases hk : k < f.comps.length
      · rw [List.getElem?_eq_getElem (by omega), List.getElem?_range hk]
        rfl
      · rw [List.getElem?_eq_none (by omega), List.getElem?_eq_none (by simpa using Nat.le_of_not_lt hk)]
        rfl
    · show (resetLuma sp d).zorder.length = 4
      rw [t4, hzo]
    · show AfterH false _ (resetLuma sp d).dc _
      rw [t5]
      exact hdct
    · show AfterH true _ (resetLuma sp d).ac _
      rw [t6]
      exact hact
    · show (resetLuma sp d).restart = _
      rw [t7, h1.restart]
      rfl
  · have hoth : (resetLuma sp d).ns = d.ns ∧ (resetLuma sp d).zorder = d.zorder ∧ (resetLuma sp d).ss = d.ss ∧
        (resetLuma sp d).se = d.se ∧ (resetLuma sp d).ah = d.ah ∧ (resetLuma sp d).al = d.al := by
      unfold resetLuma
      split <;> exact ⟨rfl, rfl, rfl, rfl, rfl, rfl⟩
    obtain ⟨t1, t2, t3, t4, t5, t6⟩ := hoth
    obtain ⟨b1, b2, b3, b4⟩ := h1.band
    refine ⟨t1.trans h1.ns, ?_, t3.trans b1, t4.trans b2, t5.trans b3, t6.trans b4, ?_⟩
    · show (resetLuma sp d).zorder.take (resetLuma sp d).ns = _
      rw [t1, t2, h1.ns, r6]
      rfl
    · intro k x e hx he hid
      have hx : (resetLuma sp d).comps[k]? = some x := hx
      rw [hc1, List.getElem?_mapIdx, r5, List.getElem?_map, Option.map_eq_some_iff] at hx
      obtain ⟨y, hy, rfl⟩ := hx
      rw [Option.map_eq_some_iff] at hy
      obtain ⟨fc, hfc, rfl⟩ := hy
      simp only at hid ⊢
      have := find_eq q.hdr hfile.scan.2.2.1 e he
      rw [hid] at this
      rw [this]
      exact ⟨rfl, rfl⟩
  · intro k hk
    have hdk : d.comps[k]? = some (d.comps[k]'(by omega)) := List.getElem?_eq_getElem _
    refine ⟨_, by rw [hqk, hdk, Option.bind_some, hgq k _ hdk], rfl⟩

/-- A progressive file is decoded, and `postAll` is run on the samples. -/
theorem prog_file (avx2 : Bool) {o : HdrOpts} (maxScans : Nat) (out : OutSpace) {a b gf q qs f sp tq z} (h : Progressive o a b gf q qs f sp tq z)
    (hmax : 1 + qs.length ≤ maxScans) (n : Nat) (tail : Bytes) {f0 : Factor} {fs : List Factor} (hfs : f.factors = f0 :: fs) (hd : Divides f0 fs)
    {p : Post} (hp : framePost avx2 sp out f.width f.height (f0 :: fs) = p) (hH : p.mcuHeight = divCeil f.height (f0.v * 8))
    {Z : Nat → Nat → Nat → List Int} (hZ : Z = sentBlock f (sentAfter f (fun _ _ => none) (q :: qs)) z)
    (hdc : ∀ k < f.comps.length, ∀ y < divCeil f.height (f0.v * 8) * (f.factor k).v, ∀ x < divCeil f.width (f0.h * 8) * (f.factor k).h,
      DcSmall (quantAt (tq k)) (Z k y x)) {ps' : PState}
    (hpost : postAll p (fun i => (List.range f.comps.length).map fun k => if isNeeded out f.comps.length k then
        compRow (quantAt (tq k)) (f.factor k) (Z k) (divCeil f.width (f0.h * 8)) i else []) p.mcuHeight 0
      ⟨setupComps f.width (f0 :: fs), [], List.replicate (f.width * f.height * out.comps) 0⟩ = some ps') :
    decodeAny avx2 o maxScans out (fileBytes q.segs q.gap q.hdr (q.data ++ scansBytes n tail qs)) = .ok (ps'.done ++ ps'.rest, tail) := by
  obtain ⟨d, qts, d1, e1, e2, e3, e4, e5, e6, e7, e8, hF, hS, e9, e10⟩ := prog_headers h (q.data ++ scansBytes n tail qs)
  obtain ⟨hpl, hcases⟩ := colours_planes h.space
  rw [List.length_map] at hpl
  have hsegs : ∀ s ∈ q.segs.map (·.2), s.Ok := by
    intro s hs
    obtain ⟨x, hx, rfl⟩ := List.mem_map.1 hs
    exact (h.file.segs x hx).2.1
  have hfok : f.Ok := by
    have : Segment.frame 0xC2 f ∈ q.segs.map (·.2) := by rw [h.first]; simp
    exact (hsegs _ this).2
  have hnum : sp.num = f.comps.length := by
    rw [hpl]
    rcases hcases with rfl | rfl | rfl | rfl | rfl <;> rfl
  have hX : f.mcusAcross = divCeil f.width (f0.h * 8) := by unfold Seg.Frame.mcusAcross; rw [hfs, hd.hMax]
  have hY : f.mcusDown = divCeil f.height (f0.v * 8) := by unfold Seg.Frame.mcusDown; rw [hfs, hd.vMax]
  have hX1 : mcuAcross d1.width (factors d1) = f.mcusAcross := by rw [hF.fac, hfs, mcuAcross_eq d1.width hd, hF.width, hX]
  have hfl : (f0 :: fs).length = f.comps.length := by rw [← hfs]; simp [Seg.Frame.factors]
  have hfk : ∀ k, k < f.comps.length → (f0 :: fs)[k]? = some (f.factor k) := by
    intro k hk
    rw [← hfs]
    unfold Seg.Frame.factors
    rw [List.getElem?_map, List.getElem?_range hk]
    rfl
  have hrows : 0 < f.mcusDown := divCeil_pos _ _ hfok.1 (by have := vMax_pos f.factors; omega)
  set len := progLen sp (factors d1) (mcuAcross d1.width (factors d1)) p.mcuHeight with hlen
  have hlenk : ∀ k, k < f.comps.length → len k = f.mcusAcross * 64 * (f.factor k).v * (f.factor k).h * f.mcusDown := by
    intro k hk
    rw [hlen]
    unfold progLen
    rw [if_pos (by rw [hnum]; exact hk), hX1, hF.fac, hfs, hfk k hk, hH, ← hY]
    rfl
  obtain ⟨w1, w2⟩ := work_get d1.width out hd qts (by rw [e9, hfl]) (mcuAcross d1.width (factors d1)) p.mcuHeight
  set work := setupWork d1.width out (f0 :: fs) qts true (mcuAcross d1.width (factors d1)) p.mcuHeight with hwork
  rw [hfl] at w1
  have hw : ∀ (k : Nat) (w : Work), work[k]? = some w → k < f.comps.length ∧ w.stride = 8 * (f.mcusAcross * (f.factor k).h) ∧
      w.qt = quantAt (tq k) ∧ (isNeeded out f.comps.length k = false → w.raw = []) := by
    intro k w hk
    have hkn : k < f.comps.length := by rw [← w1]; exact (List.getElem?_eq_some_iff.1 hk).1
    obtain ⟨t, t1, t2⟩ := e10 k hkn
    obtain ⟨w', a1, a2, a3, a4, a5, a6⟩ := w2 k _ t (hfk k hkn) t1
    rw [hk] at a1
    cases a1
    refine ⟨hkn, ?_, a3.trans t2, ?_⟩
    · rw [a2, hF.width, hX]; ring
    · intro hne
      rw [hfl] at a4
      rw [a4, hne] at a6
      exact List.length_eq_zero_iff.1 (by simpa using a6)
  have hlaid : Laid f len work := by
    refine ⟨w1, fun k w hk => (hw k w hk).2.1, fun k hk => ?_⟩
    rw [hlenk k hk]
    exact le_of_eq (by ring)
  -- the first scan
  obtain ⟨s1, s2, s3, s4, s5⟩ := h.scans
  rw [List.nil_append] at s2 s4 s5
  have s1 : q.hdr.ss = 0 := by simpa using s1
  obtain ⟨g1, g2, g3⟩ := firstMarker_eq (o := o) n tail (scans_next qs s5)
  set ms0 : MState := { d := d1, bs := Bs.new (q.data ++ scansBytes n tail qs), work := work, more := true, tmp := fun _ _ => 0 } with hms0
  obtain ⟨st1, c1, c2, c3, c4, c5, c6, c7⟩ := data_step (len := len) hfok hnum h.fits (n := (firstMarker n tail qs).1) (tail := (firstMarker n tail qs).2.2) g2 g3
    (st := ⟨ms0, fun _ _ => 0⟩) (sent := fun _ _ => none) hF hS s2 (htabs_ok hsegs) (restart_lt hsegs) s3
    (by
      intro a k rc _
      rw [known_none]
      rfl) hlaid s4 ⟨rfl, rfl, by rw [← g1]; rfl⟩
  have hah : q.hdr.ah = 0 := by
    obtain ⟨m1, m2, -⟩ := mcus_some hfok s2.ok
    obtain ⟨x, l', hx⟩ := List.exists_cons_of_ne_nil m2
    obtain ⟨y, l'', hy⟩ := List.exists_cons_of_ne_nil (m1 x (by rw [hx]; simp))
    have hm : y ∈ (q.spec f).order := by
      show y ∈ (f.mcus q.hdr).flatten
      rw [hx, hy]
      simp
    have h1 : (q.spec f).ss ≤ 0 := le_of_eq s1
    have := s3.next y hm 0 h1 (by omega)
    by_contra hne
    have hr : (q.spec f).refine = true := by
      show decide (q.hdr.ah ≠ 0) = true
      simpa using hne
    rw [hr] at this
    simp at this
  have hmk := c7 rfl s1 hah
  have hnx : st1.ms.bs.marker = some (firstMarker n tail qs).2.1 ∧ st1.ms.bs.rest = (firstMarker n tail qs).2.2 := by
    rcases c6.next with hh | hh
    · exact hh
    · rw [hh.1] at hmk
      cases hmk
  -- the other scans
  obtain ⟨st2, l2, f1, f2, f3, f4, f5⟩ := scans_loop o maxScans (len := len) hfok h.file.ids hnum h.fits n tail qs (q.segs.map (·.2))
    ((q.spec f).after fun _ _ => none) { st1 with ms := { st1.ms with bs := { st1.ms.bs with marker := none } } } 1 (st1.ms.bs.rest.length + 1)
    hsegs c2 c3 c5 s5 ⟨c6.over, c6.eoi, rfl, hnx.2⟩ hmax (by rw [hnx.2]; omega)
  have hscans : progScans o maxScans len ⟨ms0, fun _ _ => 0⟩ = .ok st2 := by
    unfold progScans
    rw [c1]
    simp only
    rw [hnx.1]
    exact f1
  -- the end
  have hzw : zeroed st2.ms.work = zeroed work := f3.trans c4
  have hlow : ∀ a k x, sentAfter f (fun _ _ => none) (q :: qs) a k = some x → x ≤ 13 :=
    sent_low (q :: qs) (by intro a k x hx; cases hx) h.scans
  have hr2 : progHeight st2.ms.d.height (factors st2.ms.d) = f.mcusDown := by
    unfold progHeight isInterleaved
    rw [f2.height, f2.fac, hY, hfs, hd.hMax, hd.vMax]
    split
    · rfl
    · rename_i hno
      have : f0.v = 1 := by simp at hno; omega
      rw [this]
  have hneed : ∀ k, progNeeded out sp k = isNeeded out f.comps.length k := by
    intro k
    unfold progNeeded isNeeded
    rw [hpl]
    rcases hcases with rfl | rfl | rfl | rfl | rfl <;> simp [InSpace.planes]
  have hfin : progFinish avx2 out p len st2 (List.replicate (f.width * f.height * out.comps) 0) = .ok (ps'.done ++ ps'.rest) := by
    unfold progFinish
    simp only
    rw [hr2, f2.space, f2.width, f2.fac]
    have hpp : ({ p with mcuHeight := f.mcusDown, conv := convOf avx2 sp out f.width p.padded } : Post) = p := by
      rw [hY, ← hH, ← hp]
      rfl
    rw [hpp]
    have key := prog_rows (f := f) hlow h.fits f4 avx2 hrows (len := len) (qt := fun k => quantAt (tq k)) (need := fun k => isNeeded out f.comps.length k) p
      (by
        intro k hk y hy x hx
        rw [hY] at hy
        rw [hX] at hx
        have := hdc k hk y hy x hx
        rw [hZ] at this
        exact this) f.mcusDown 0 ((List.zip f.factors st2.ms.work).mapIdx fun k (f, w) =>
          { w with
            needed := progNeeded out sp k
            raw := if progNeeded out sp k then List.replicate (w.stride * f.v * 8) 0 else w.raw })
      ⟨setupComps f.width f.factors, [], List.replicate (f.width * f.height * out.comps) 0⟩ ps' (by omega) (by
        rw [List.length_mapIdx, List.length_zip, zeroed_length hzw, w1, hfs, hfl, Nat.min_self]) (by
        intro k w hk
        rw [List.getElem?_mapIdx, Option.map_eq_some_iff] at hk
        obtain ⟨⟨F, w'⟩, hz, rfl⟩ := hk
        rw [List.getElem?_zip_eq_some] at hz
        obtain ⟨hz1, hz2⟩ := hz
        have hkn : k < f.comps.length := by rw [← w1, ← zeroed_length hzw]; exact (List.getElem?_eq_some_iff.1 hz2).1
        rw [hfs, hfk k hkn] at hz1
        obtain rfl : F = f.factor k := (Option.some.inj hz1).symm
        have hwk : (zeroed st2.ms.work)[k]? = (zeroed work)[k]? := by rw [hzw]
        unfold zeroed at hwk
        have hwo : work[k]? = some (work[k]'(by omega)) := List.getElem?_eq_getElem _
        rw [List.getElem?_map, List.getElem?_map, hz2, hwo, Option.map_some, Option.map_some, Option.some.injEq] at hwk
        obtain ⟨-, b1, b2, b3⟩ := hw k _ hwo
        have hst : w'.stride = 8 * (f.mcusAcross * (f.factor k).h) := by
          rw [← b1]
          exact (congrArg Work.stride hwk :)
        refine ⟨hst, ?_, hneed k, ?_, hlenk k hkn⟩
        · rw [← b2]
          exact (congrArg Work.qt hwk :)
        · simp only [hneed k]
          cases hne : isNeeded out f.comps.length k with
          | true =>
            simp only [if_true, List.length_replicate]
            rw [hst]
            ring
          | false =>
            simp only [Bool.false_eq_true, if_false]
            rw [← b3 hne]
            exact (congrArg Work.raw hwk :)) (by
        rw [← hpost, hH, hY, hX, hfs, hZ])
    rw [key]
  unfold decodeAny
  rw [e1]
  simp only
  rw [if_pos e2, e3, e4]
  unfold decodeProgressive
  rw [e5, e6, e7]
  simp only [Bool.false_eq_true, if_false]
  rw [← e8]
  unfold progFrame
  simp only
  rw [if_neg (by rw [hF.fac, hfs, hfl, hnum]; exact Nat.lt_irrefl _)]
  have hwe : framePost avx2 sp out d1.width d1.height (factors d1) = p := by rw [hF.width, hF.height, hF.fac, hfs, hp]
  rw [hwe, ← hlen]
  have hwk2 : setupWork d1.width out (factors d1) qts true (mcuAcross d1.width (factors d1)) p.mcuHeight = work := by
    rw [hwork, hF.fac, hfs]
  rw [hwk2, ← hms0, hscans]
  simp only
  rw [hfin, f5]

end Zune.Jpeg
