import Verif.Jpeg.McuFrame
import Verif.Jpeg.HeaderProps

/-!
# Sequential files in one scan: from the bytes to the decoder's state

Helper lemmas of `McuProps`.
-/

namespace Zune.Jpeg

open Zune.Canon Seg

instance : Inhabited Huff := ⟨⟨fun _ => 0, fun _ => 0, fun _ => 0, none, fun _ => 0⟩⟩

/-- How a component is coded: its quantisation table, its Huffman tables, and for every symbol a code. -/
structure Coding where
  /-- Quantisation table. -/
  tq : QTab
  /-- DC table. -/
  td : HTab
  /-- AC table. -/
  ta : HTab
  /-- Code of each DC symbol. -/
  dcode : Nat → List Bool
  /-- Code of each AC symbol. -/
  acode : Nat → List Bool

/-- The elements of a quantisation table, which are in zig-zag order, in natural order. -/
def quantAt (t : QTab) (i : Nat) : I32 :=
  BitVec.ofNat 32 (((List.range 64).map fun k => t.vals.getD (zigzagWalk.idxOf (k / 8, k % 8)) 0).getD i 0)

/-- The component of a scan, apart from what the decoder builds. -/
def Coding.comp (c : Coding) (dt t : Huff := default) : ScanComp :=
  { dcnt := c.td.count, dvals := fun p => c.td.syms[p]?.getD 0, cnt := c.ta.count, vals := fun p => c.ta.syms[p]?.getD 0
    dt := dt, t := t, qt := quantAt c.tq, dcode := c.dcode, acode := c.acode }

/-- The components of frame `f` are all in the scan `c`, with tables that the segments `l` define. -/
def Coded (l : List Segment) (c : Scan) (f : Seg.Frame) (cod : Nat → Coding) : Prop :=
  ∀ (k : Nat) (fc : FComp), f.comps[k]? = some fc → ∃ e ∈ c.comps, e.id = fc.id ∧
    last? (fun t : QTab => t.id == fc.tq) (l.flatMap Segment.qtabs) = some (cod k).tq ∧
    last? (fun t : HTab => t.ac == false && t.id == e.td) (l.flatMap Segment.htabs) = some (cod k).td ∧
    last? (fun t : HTab => t.ac == true && t.id == e.ta) (l.flatMap Segment.htabs) = some (cod k).ta

/-- Blocks of component `k` in an MCU: its sampling factors, or one block if it is the only component (T.81, A.2.2
and A.2.3). -/
def Seg.Frame.factor (f : Seg.Frame) (k : Nat) : Factor :=
  if f.comps.length = 1 then ⟨1, 1⟩
  else match f.comps[k]? with
    | some c => ⟨c.h, c.v⟩
    | none => ⟨1, 1⟩

/-- The blocks of all components. -/
def Seg.Frame.factors (f : Seg.Frame) : List Factor := (List.range f.comps.length).map f.factor

/-- Components in the order of the scan header, by their place in the frame header. -/
def scanOrder (f : Seg.Frame) (c : Scan) : List Nat := c.comps.map fun e => f.comps.findIdx fun k => k.id == e.id

/-- The restart interval that the segments define; 0 for none. -/
def restartOf (l : List Segment) : Nat := (l.flatMap Segment.dris).getLast?.getD 0

theorem scanBits_congr {a b : Nat → ScanComp} (h : ∀ k, (a k).dcode = (b k).dcode ∧ (a k).acode = (b k).acode) (l : List (Nat × List Int)) :
    ∀ p, scanBits a p l = scanBits b p l := by
  induction l with
  | nil => intro p; rfl
  | cons x l ih =>
    intro p
    obtain ⟨i, z⟩ := x
    rw [scanBits, scanBits, ih]
    unfold ScanComp.bits
    rw [(h i).1, (h i).2]

theorem scanFits_congr {a b : Nat → ScanComp} (h : ∀ k, (a k).dcnt = (b k).dcnt ∧ (a k).dvals = (b k).dvals ∧ (a k).cnt = (b k).cnt ∧
    (a k).vals = (b k).vals ∧ (a k).dcode = (b k).dcode ∧ (a k).acode = (b k).acode) (l : List (Nat × List Int)) :
    ∀ p, ScanFits a p l → ScanFits b p l := by
  induction l with
  | nil => intro p _; trivial
  | cons x l ih =>
    intro p hf
    obtain ⟨i, z⟩ := x
    obtain ⟨h1, h2, h3, h4, h5, h6⟩ := h i
    obtain ⟨⟨f1, f2, f3, f4, f5⟩, f6⟩ := hf
    refine ⟨⟨f1, f2, f3, ?_, ?_⟩, ih _ f6⟩
    · rw [← h1, ← h2, ← h5]; exact f4
    · rw [← h3, ← h4, ← h6]; exact f5

theorem scanData_congr {a b : Nat → ScanComp} (h : ∀ k, (a k).dcnt = (b k).dcnt ∧ (a k).dvals = (b k).dvals ∧ (a k).cnt = (b k).cnt ∧
    (a k).vals = (b k).vals ∧ (a k).dcode = (b k).dcode ∧ (a k).acode = (b k).acode) {R : Nat} {tail : List UInt8} {m : Nat}
    {l : List (List (Nat × List Int))} {s : List UInt8} (hs : ScanData a R tail m l s) : ScanData b R tail m l s := by
  have hb := scanBits_congr (a := a) (b := b) fun k => ⟨(h k).2.2.2.2.1, (h k).2.2.2.2.2⟩
  induction hs with
  | last m l data pad n hl hf hd => exact .last m l data pad n hl (scanFits_congr h _ _ hf) (by rw [← hb]; exact hd)
  | rst m l l' data pad n r hR hl hl' hf hd _ ih =>
    exact .rst m l l' data pad n r hR hl hl' (scanFits_congr h _ _ hf) (by rw [← hb]; exact hd) ih

theorem colours_planes {ids : List Nat} {ad : Option Nat} {sp : InSpace} (h : colours ids ad = some sp) :
    ids.length = sp.planes ∧ (sp = .luma ∨ sp = .ycbcr ∨ sp = .rgb ∨ sp = .cmyk ∨ sp = .ycck) := by
  unfold colours at h
  split at h <;> rename_i hl <;> simp only [Option.some.injEq, reduceCtorEq] at h <;> subst h <;> rw [hl] <;>
    (try split) <;> exact ⟨rfl, by simp⟩

/-- What the headers leave, for files of one scan. -/
theorem file_all (o : HdrOpts) (a b : List (Gap × Segment)) (gf g : Gap) (c : Scan) (m : Nat) (f : Seg.Frame) (rest : Bytes)
    (h : File o (a ++ (gf, .frame m f) :: b) g c m f) (hb : (b.map (·.2)).flatMap Segment.adobe = [])
    (hr : f.comps.map (·.id) = [82, 71, 66] → (a.map (·.2)).flatMap Segment.adobe = []) (sp : InSpace)
    (hs : colours (f.comps.map (·.id)) ((a.map (·.2)).flatMap Segment.adobe).getLast? = some sp)
    {l : List Segment} (hl : l = (a ++ (gf, .frame m f) :: b).map (·.2)) :
    ∃ d, decodeHeaders o (fileBytes (a ++ (gf, .frame m f) :: b) g c rest) = .ok (d, rest) ∧ Reads l c d ∧
      settleSpace o.strict d.comps.length d.space = some sp ∧
      AfterH false (fun _ => none) d.dc (l.flatMap Segment.htabs) ∧ AfterH true (fun _ => none) d.ac (l.flatMap Segment.htabs) ∧
      (d.sub = false → ∀ e ∈ c.comps, ∀ k ∈ d.comps, k.id = e.id → k.h = 1 ∧ k.v = 1) ∧ d.zorder.length = 4 := by
  obtain ⟨d1, e1, h1⟩ := c87_headers_partial o _ g c m f rest h
  obtain ⟨d2, e2, h2⟩ := c88_colour_partial o a b gf g c m f rest h hb hr sp hs
  obtain ⟨d3, h3, e3⟩ := file_holds o _ g c m f rest h
  rw [e1, Except.ok.injEq, Prod.mk.injEq] at e2 e3
  obtain ⟨rfl, -⟩ := e2
  obtain ⟨e3, -⟩ := e3
  rw [← hl] at h1 h3
  have hlen : c.comps.length ≤ d3.zorder.length := by rw [h3.zorder]; exact h.scan.2.1
  rw [afterScan_eq d3 c hlen] at e3
  have hfr := h.frame
  rw [← hl] at hfr
  obtain ⟨_, _, _, q, q', _⟩ := h1.frame m f hfr
  have hzo : d1.zorder.length = 4 := by
    rw [e3]
    unfold finishHdr
    have h4 := h.scan.2.1
    split <;> simp [h3.zorder] <;> omega
  refine ⟨d1, e1, h1, ?_, ?_, ?_, ?_, hzo⟩
  · rw [← h2, q', List.length_map, q]
  · rw [e3]
    unfold finishHdr
    split <;> exact h3.dc
  · rw [e3]
    unfold finishHdr
    split <;> exact h3.ac
  · have hsub : d1.sub = sampled d3.comps c.comps ∧ d1.comps.map (fun k => (k.id, k.h, k.v)) = d3.comps.map (fun k => (k.id, k.h, k.v)) := by
      rw [e3]
      have key : (d3.comps.map fun k => match c.comps.find? (fun e => e.id == k.id) with
               | none => k
               | some e => { k with td := e.td, ta := e.ta }).map (fun k => (k.id, k.h, k.v)) = d3.comps.map (fun k => (k.id, k.h, k.v)) := by
        rw [List.map_map]
        refine List.map_congr_left fun k _ => ?_
        simp only [Function.comp]
        split <;> rfl
      unfold finishHdr
      split <;> exact ⟨rfl, key⟩
    intro hf e he k hk hid
    rw [hsub.1] at hf
    have hm : (k.id, k.h, k.v) ∈ d3.comps.map (fun k => (k.id, k.h, k.v)) := by
      rw [← hsub.2]
      exact List.mem_map_of_mem hk
    obtain ⟨k', hk', hkk⟩ := List.mem_map.1 hm
    simp only [Prod.mk.injEq] at hkk
    unfold sampled at hf
    rw [List.any_eq_false] at hf
    have := hf e he
    simp only [List.any_eq_true, not_exists, not_and, Bool.and_eq_true, Bool.or_eq_true, decide_eq_true_eq, beq_iff_eq] at this
    have := this k' hk' (by rw [hkk.1]; exact hid)
    rw [← hkk.2.1, ← hkk.2.2]
    omega

theorem find_eq (c : Scan) (hn : (c.comps.map (·.id)).Nodup) (e : SComp) (he : e ∈ c.comps) :
    c.comps.find? (fun x => x.id == e.id) = some e := by
  generalize c.comps = l at hn he
  induction l with
  | nil => cases he
  | cons x l ih =>
    rw [List.map_cons, List.nodup_cons] at hn
    rw [List.find?_cons]
    rcases List.mem_cons.1 he with rfl | he'
    · simp
    · have : x.id ≠ e.id := fun q => hn.1 (q ▸ List.mem_map_of_mem he')
      rw [show (x.id == e.id) = false by simpa using this]
      exact ih hn.2 he'

theorem findIdx_at (l : List FComp) (hn : (l.map (·.id)).Nodup) (k : Nat) (fc : FComp) (h : l[k]? = some fc) :
    l.findIdx (fun x => x.id == fc.id) = k := by
  induction l generalizing k with
  | nil => cases h
  | cons x l ih =>
    rw [List.map_cons, List.nodup_cons] at hn
    rw [List.findIdx_cons]
    cases k with
    | zero =>
      cases h
      simp
    | succ k =>
      rw [List.getElem?_cons_succ] at h
      have : x.id ≠ fc.id := fun q => hn.1 (q ▸ List.mem_map_of_mem (List.mem_of_getElem? h))
      rw [show (x.id == fc.id) = false by simpa using this]
      simp only [cond_false]
      rw [ih hn.2 k h]

theorem last?_mem {α : Type} {p : α → Bool} {l : List α} {x : α} (h : last? p l = some x) : x ∈ l ∧ p x = true := by
  have := List.mem_of_getLast? h
  exact List.mem_filter.1 this

theorem allSome_map {α β : Type} (f : α → Option β) (l : List α) (h : ∀ a ∈ l, (f a).isSome) :
    ∃ r, allSome (l.map f) = some r ∧ ∀ k : Nat, r[k]? = (l[k]?).bind f := by
  induction l with
  | nil => exact ⟨[], rfl, fun k => by simp⟩
  | cons a l ih =>
    obtain ⟨r, h1, h2⟩ := ih fun a ha => h a (List.mem_cons_of_mem _ ha)
    obtain ⟨b, hb⟩ := Option.isSome_iff_exists.1 (h a List.mem_cons_self)
    refine ⟨b :: r, by rw [List.map_cons, hb, allSome, h1]; rfl, ?_⟩
    intro k
    cases k with
    | zero => simp [hb]
    | succ k => simp [h2]

theorem after_some {c : Bool} {old new : Nat → Option Huff} {ts : List HTab} (h : AfterH c old new ts) {j : Nat} {t : HTab}
    (ht : last? (fun t : HTab => t.ac == c && t.id == j) ts = some t) : ∃ u, new j = some u ∧ Built t u := by
  have := h j
  rw [ht] at this
  exact this

theorem built_new {t : HTab} {u : Huff} (h : Built t u) (hs : ∀ c ∈ t.syms, c < 256) (ac : Bool) (hac : t.ac = ac) :
    Huff.new t.count (fun p => t.syms[p]?.getD 0) (!ac) = .ok u := by
  have := h.2
  rw [show symbolsOf (t.syms.map UInt8.ofNat) = fun p => t.syms[p]?.getD 0 from funext (syms_eq t hs), hac] at this
  exact this

/-- The scan of a file is decoded and `postAll` is run on the samples. -/
theorem file_ok (avx2 : Bool) (o : HdrOpts) (out : OutSpace) (a b : List (Gap × Segment)) (gf g : Gap) (c : Scan) (m : Nat)
    (f : Seg.Frame) (rest tail : Bytes) (h : File o (a ++ (gf, .frame m f) :: b) g c m f) (hm : m ≠ 0xC2)
    (hb : (b.map (·.2)).flatMap Segment.adobe = [])
    (hr : f.comps.map (·.id) = [82, 71, 66] → (a.map (·.2)).flatMap Segment.adobe = []) (sp : InSpace)
    (hs : colours (f.comps.map (·.id)) ((a.map (·.2)).flatMap Segment.adobe).getLast? = some sp)
    {l : List Segment} (hl : l = (a ++ (gf, .frame m f) :: b).map (·.2)) (hmj : l.any Segment.avi = false)
    (cod : Nat → Coding) (hc : Coded l c f cod) {f0 : Factor} {fs : List Factor} (hfs : f.factors = f0 :: fs) (hd : Divides f0 fs)
    {Z : Nat → Nat → Nat → List Int} {p : Post} (hp : p = framePost avx2 sp out f.width f.height (f0 :: fs))
    (hdc : ∀ k < f.comps.length, ∀ y < p.mcuHeight * (f.factor k).v, ∀ x < divCeil f.width (f0.h * 8) * (f.factor k).h,
      DcSmall (quantAt (cod k).tq) (Z k y x))
    (hscan : ScanData (fun k => (cod k).comp) (restartOf l) tail 0
      (mcuRows (scanOrder f c) f.factor Z (divCeil f.width (f0.h * 8)) 0 p.mcuHeight) rest)
    {ps' : PState}
    (hpost : postAll p (fun i => (List.range f.comps.length).map fun k => if isNeeded out f.comps.length k then
        compRow (quantAt (cod k).tq) (f.factor k) (Z k) (divCeil f.width (f0.h * 8)) i else []) p.mcuHeight 0
      ⟨setupComps f.width (f0 :: fs), [], List.replicate (f.width * f.height * out.comps) 0⟩ = some ps') :
    decodeJpeg avx2 o out (fileBytes (a ++ (gf, .frame m f) :: b) g c rest) = .ok (ps'.done ++ ps'.rest, tail) := by
  obtain ⟨d, e1, h1, hsp, hdct, hact, hsub, -⟩ := file_all o a b gf g c m f rest h hb hr sp hs hl
  obtain ⟨hpl, hcases⟩ := colours_planes hs
  rw [List.length_map] at hpl
  have hfr := h.frame
  rw [← hl] at hfr
  obtain ⟨r1, r2, r3, r4, r5, r6⟩ := h1.frame m f hfr
  -- the segments are allowed
  have hseg : ∀ s ∈ l, s.Ok := by
    intro s hs'
    rw [hl] at hs'
    obtain ⟨x, hx, rfl⟩ := List.mem_map.1 hs'
    exact (h.segs x hx).2.1
  have hfok : f.Ok := by
    have : Segment.frame m f ∈ l := by rw [hl]; simp
    exact (hseg _ this).2
  have hht : ∀ t ∈ l.flatMap Segment.htabs, t.Ok := by
    intro t ht
    obtain ⟨s, hs', hts⟩ := List.mem_flatMap.1 ht
    cases s with
    | dht ts => exact hseg _ hs' t hts
    | _ => cases hts
  have hdri : ∀ n ∈ l.flatMap Segment.dris, n < 65536 := by
    intro t ht
    obtain ⟨s, hs', hts⟩ := List.mem_flatMap.1 ht
    cases s with
    | dri n =>
      rw [Segment.dris, List.mem_singleton] at hts
      subst hts
      exact hseg _ hs'
    | _ => cases hts
  set n := f.comps.length with hn
  have hlen : d.comps.length = n := by rw [r5, List.length_map]
  -- a component of the headers
  have hget : ∀ (k : Nat) (x : HComp), d.comps[k]? = some x → ∃ fc e, f.comps[k]? = some fc ∧ e ∈ c.comps ∧ e.id = fc.id ∧
      x = { id := fc.id, h := fc.h, v := fc.v, tq := fc.tq, td := e.td, ta := e.ta } ∧
      last? (fun t : QTab => t.id == fc.tq) (l.flatMap Segment.qtabs) = some (cod k).tq ∧
      last? (fun t : HTab => t.ac == false && t.id == e.td) (l.flatMap Segment.htabs) = some (cod k).td ∧
      last? (fun t : HTab => t.ac == true && t.id == e.ta) (l.flatMap Segment.htabs) = some (cod k).ta := by
    intro k x hx
    rw [r5, List.getElem?_map, Option.map_eq_some_iff] at hx
    obtain ⟨fc, hfc, rfl⟩ := hx
    obtain ⟨e, he, hid, q1, q2, q3⟩ := hc k fc hfc
    refine ⟨fc, e, hfc, he, hid, ?_, q1, q2, q3⟩
    have := find_eq c h.scan.2.2.1 e he
    rw [hid] at this
    rw [this]
    rfl
  -- quantisation tables
  obtain ⟨qts, hq, hqk⟩ := allSome_map (fun x : HComp => d.qt x.tq) d.comps (by
    intro x hx
    obtain ⟨k, hk⟩ := List.mem_iff_getElem?.1 hx
    obtain ⟨fc, e, hfc, he, hid, rfl, q1, _, _⟩ := hget k x hk
    simp only
    rw [h1.qt, q1]
    rfl)
  -- the components once the colour space is settled
  have hones : sp = .luma ↔ n = 1 := by
    rw [hpl]
    rcases hcases with rfl | rfl | rfl | rfl | rfl <;> simp [InSpace.planes]
  generalize hd1 : ({ resetLuma sp d with space := sp } : Hdr) = d1
  have hd1c : d1.comps = d.comps.mapIdx fun k x => { x with h := (f.factor k).h, v := (f.factor k).v } := by
    apply List.ext_getElem?
    intro k
    have hx : ∀ x : HComp, d.comps[k]? = some x → n ≠ 1 → x = { x with h := (f.factor k).h, v := (f.factor k).v } := by
      intro x hx hn1
      obtain ⟨fc, e, hfc, he, hid, rfl, _⟩ := hget k x hx
      have : f.factor k = ⟨fc.h, fc.v⟩ := by
        unfold Seg.Frame.factor
        rw [if_neg hn1, hfc]
      rw [this]
    rw [List.getElem?_mapIdx, ← hd1]
    simp only
    unfold resetLuma
    cases hk : d.comps[k]? with
    | none =>
      split
      · rw [List.getElem?_mapIdx, hk]
        rfl
      · exact hk
    | some x =>
      by_cases hn1 : n = 1
      · have hfac : f.factor k = ⟨1, 1⟩ := by
          unfold Seg.Frame.factor
          rw [if_pos hn1]
        have hk0 : k = 0 := by
          have := (List.getElem?_eq_some_iff.1 hk).1
          omega
        subst hk0
        split
        · rw [List.getElem?_mapIdx, hk, hfac]
          rfl
        · rename_i hno
          rw [hk, hfac]
          rw [Option.map_some, Option.some.injEq]
          have hfs1 : factors d = [⟨x.h, x.v⟩] := by
            obtain ⟨y, hy⟩ := List.length_eq_one_iff.1 (hlen.trans hn1)
            rw [hy] at hk
            cases hk
            unfold factors
            rw [hy]
            rfl
          obtain ⟨fc, e, hfc, he, hid, rfl, _⟩ := hget 0 x hk
          obtain ⟨_, v1, _, v2, _⟩ := hfok.2.2.2.2.2.2 fc (List.mem_of_getElem? hfc)
          rw [hfs1] at hno
          simp only [hMax, vMax, List.foldl_cons, List.foldl_nil] at hno
          have hh : fc.h = 1 ∧ fc.v = 1 := by
            have := hones.2 hn1
            simp only [this, true_and, not_or, not_not] at hno
            omega
          simp only [hh.1, hh.2]
      · rw [if_neg (fun q => hn1 (hones.1 q.1)), hk, Option.map_some]
        exact congrArg some (hx x hk hn1)
  have hd1o : d1.dc = d.dc ∧ d1.ac = d.ac ∧ d1.ns = d.ns ∧ d1.zorder = d.zorder ∧ d1.sub = d.sub ∧ d1.restart = d.restart ∧
      d1.todo = d.todo ∧ d1.width = d.width ∧ d1.height = d.height := by
    rw [← hd1]
    unfold resetLuma
    split <;> exact ⟨rfl, rfl, rfl, rfl, rfl, rfl, rfl, rfl, rfl⟩
  obtain ⟨o1, o2, o3, o4, o5, o6, o7, o8, o9⟩ := hd1o
  have hlen1 : d1.comps.length = n := by rw [hd1c, List.length_mapIdx, hlen]
  have hfac1 : factors d1 = f0 :: fs := by
    rw [← hfs]
    unfold factors Seg.Frame.factors
    rw [hd1c]
    apply List.ext_getElem?
    intro k
    rw [List.getElem?_map, List.getElem?_mapIdx, List.getElem?_map]
    by_cases hk : k < n
    · rw [List.getElem?_eq_getElem (by omega), List.getElem?_range hk]
      rfl
    · rw [List.getElem?_eq_none (by omega), List.getElem?_eq_none (by simpa using Nat.le_of_not_lt hk)]
      rfl
  -- tables
  have htab : ∀ k : Nat, ∃ ts : Huff × Huff, ∀ x : HComp, d.comps[k]? = some x → x.td < 4 ∧ x.ta < 4 ∧ d.dc x.td = some ts.1 ∧ d.ac x.ta = some ts.2 ∧
      ((cod k).comp ts.1 ts.2).Ok := by
    intro k
    cases hk : d.comps[k]? with
    | none => exact ⟨default, fun x hx => by cases hx⟩
    | some x =>
      obtain ⟨fc, e, hfc, he, hid, rfl, q1, q2, q3⟩ := hget k x hk
      obtain ⟨u, hu1, hu2⟩ := after_some hdct q2
      obtain ⟨w, hw1, hw2⟩ := after_some hact q3
      obtain ⟨m2, p2⟩ := last?_mem q2
      obtain ⟨m3, p3⟩ := last?_mem q3
      have k2 := hht _ m2
      have k3 := hht _ m3
      simp only [Bool.and_eq_true, beq_iff_eq] at p2 p3
      refine ⟨(u, w), ?_⟩
      rintro _ ⟨⟩
      refine ⟨by rw [← p2.2]; exact k2.1, by rw [← p3.2]; exact k3.1, hu1, hw1, built_new hu2 k2.2.2.2.1 false p2.1,
        built_new hw2 k3.2.2.2.1 true p3.1, rfl, rfl, ?_, ?_⟩
      · intro q
        show (cod k).td.syms[q]?.getD 0 < 256
        cases hv : (cod k).td.syms[q]? with
        | none => decide
        | some v => exact k2.2.2.2.1 v (List.mem_of_getElem? hv)
      · intro q
        show (cod k).ta.syms[q]?.getD 0 < 256
        cases hv : (cod k).ta.syms[q]? with
        | none => decide
        | some v => exact k3.2.2.2.1 v (List.mem_of_getElem? hv)
  choose T hT using htab
  -- every component is in the scan once
  have hordk : ∀ k, k ∈ d1.zorder.take d1.ns ↔ k < n := by
    intro k
    rw [o4, o3, h1.ns, r6, List.mem_map]
    constructor
    · rintro ⟨e, he, rfl⟩
      obtain ⟨fc, hfc, hid⟩ := List.mem_map.1 (h.scan.2.2.2.1 e he).1
      rw [hn]
      exact List.findIdx_lt_length_of_exists ⟨fc, hfc, by simpa using hid⟩
    · intro hk
      obtain ⟨e, he, hid, _⟩ := hc k _ (List.getElem?_eq_getElem hk)
      refine ⟨e, he, ?_⟩
      rw [hid]
      exact findIdx_at f.comps h.ids k _ (List.getElem?_eq_getElem hk)
  have hns : d1.ns = n := by
    rw [o3, h1.ns]
    have s1 : c.comps.map (·.id) ⊆ f.comps.map (·.id) := by
      intro x hx
      obtain ⟨e, he, rfl⟩ := List.mem_map.1 hx
      exact (h.scan.2.2.2.1 e he).1
    have s2 : f.comps.map (·.id) ⊆ c.comps.map (·.id) := by
      intro x hx
      obtain ⟨fc, hfc, rfl⟩ := List.mem_map.1 hx
      obtain ⟨k, hk⟩ := List.mem_iff_getElem?.1 hfc
      obtain ⟨e, he, hid, _⟩ := hc k fc hk
      rw [← hid]
      exact List.mem_map_of_mem he
    have l1 := (List.Nodup.subperm h.scan.2.2.1 s1).length_le
    have l2 := (List.Nodup.subperm h.ids s2).length_le
    rw [List.length_map, List.length_map] at l1 l2
    omega
  have hget1 : ∀ (k : Nat) (x : HComp), d1.comps[k]? = some x → ∃ y, d.comps[k]? = some y ∧
      x = { y with h := (f.factor k).h, v := (f.factor k).v } := by
    intro k x hx
    rw [hd1c, List.getElem?_mapIdx, Option.map_eq_some_iff] at hx
    obtain ⟨y, hy, rfl⟩ := hx
    exact ⟨y, hy, rfl⟩
  have hR : restartOf l < 65536 := by
    unfold restartOf
    cases hq' : (l.flatMap Segment.dris).getLast? with
    | none => decide
    | some x => exact hdri x (List.mem_of_getLast? hq')
  obtain ⟨ms', hbase, htail⟩ := base_ok avx2 o out d rest (List.replicate (f.width * f.height * out.comps) 0) tail hsp hq
    (by rw [h1.mjpeg]; exact hmj) hd1.symm hfac1 hd (by
      intro x hx
      rw [← hfs] at hx
      obtain ⟨k, hk, rfl⟩ := List.mem_map.1 hx
      unfold Seg.Frame.factor
      split
      · exact ⟨by decide, by decide⟩
      · rw [List.mem_range] at hk
        rw [List.getElem?_eq_getElem hk]
        obtain ⟨_, v1, _, v2, _⟩ := hfok.2.2.2.2.2.2 _ (List.getElem_mem hk)
        exact ⟨v1, v2⟩) (by rw [hns, hlen1]) (by
      unfold checkTables
      rw [List.all_eq_true]
      intro x hx
      obtain ⟨k, hk⟩ := List.mem_iff_getElem?.1 hx
      obtain ⟨y, hy, rfl⟩ := hget1 k x hk
      obtain ⟨t1, t2, t3, t4, _⟩ := hT k y hy
      simp only [o1, o2, t3, t4, Option.isSome_some, Bool.and_true]
      simp [t1, t2]) (by rw [hlen1]; exact hordk) (comps := fun k => (cod k).comp (T k).1 (T k).2) (F := f.factor) (by
      intro k x hx
      obtain ⟨y, hy, rfl⟩ := hget1 k x hx
      obtain ⟨t1, t2, t3, t4, t5⟩ := hT k y hy
      refine ⟨t5, by rw [o1]; exact t3, by rw [o2]; exact t4, rfl, ?_, ?_⟩
      · intro hs'
        rw [o5] at hs'
        obtain ⟨fc, e, hfc, he, hid, rfl, _⟩ := hget k y hy
        have := hsub hs' e he _ (List.mem_of_getElem? hy) hid.symm
        simp only at this ⊢
        unfold Seg.Frame.factor
        split
        · exact ⟨rfl, rfl⟩
        · rw [hfc]
          exact this
      · obtain ⟨fc, e, hfc, he, hid, rfl, q1, _⟩ := hget k y hy
        refine ⟨natural (cod k).tq.vals, ?_, rfl⟩
        rw [hqk, hy]
        simp only [Option.bind_some]
        rw [h1.qt, q1]
        rfl) (Z := Z) (p := p) (by rw [hp, o8, o9, r2, r3]) (by
      rw [hlen1, o8, r2]
      exact hdc) (by
      rw [o8, r2, o6, h1.restart, o4, o3, h1.ns, r6]
      exact scanData_congr (a := fun k => (cod k).comp) (b := fun k => (cod k).comp (T k).1 (T k).2) (fun k => ⟨rfl, rfl, rfl, rfl, rfl, rfl⟩) hscan) (by
      rw [o6, h1.restart]
      exact Nat.lt_of_lt_of_le hR (by decide)) (by
      rw [o6, o7, h1.restart, h1.todo]
      cases (l.flatMap Segment.dris).getLast? with
      | none => intro q; exact absurd rfl q
      | some x => intro _; rfl) (ps' := ps') (by
      rw [hlen1, o8, r2]
      exact hpost)
  unfold decodeJpeg
  rw [e1]
  simp only
  rw [r1, if_neg (by simpa using hm), r2, r3, hbase]
  simp only
  rw [htail]

end Zune.Jpeg
