import Verif.Jpeg.ProgScanRun

/-!
# zune-jpeg: between the scans of a progressive file (lemmas)

The segments between scans, the scan headers, the order of the blocks of a scan.
-/

namespace Zune.Jpeg

open Zune.Canon Seg

/-- The decoder holds the frame `f` and what the segments `l` say, in the colour space `sp`. -/
structure HoldsFrame (f : Seg.Frame) (sp : InSpace) (l : List Segment) (d : Hdr) : Prop where
  width : d.width = f.width
  height : d.height = f.height
  count : d.ncomp = d.comps.length
  ids : d.comps.map (·.id) = f.comps.map (·.id)
  fac : factors d = f.factors
  order : d.zorder.length = 4
  space : d.space = sp
  dc : AfterH false (fun _ => none) d.dc (l.flatMap Segment.htabs)
  ac : AfterH true (fun _ => none) d.ac (l.flatMap Segment.htabs)
  restart : d.restart = restartOf l

/-- The decoder holds the scan header `c`. -/
structure HoldsScan (f : Seg.Frame) (c : Scan) (d : Hdr) : Prop where
  ns : d.ns = c.comps.length
  order : d.zorder.take d.ns = scanOrder f c
  ss : d.ss = c.ss
  se : d.se = c.se
  ah : d.ah = c.ah
  al : d.al = c.al
  tabs : ∀ (k : Nat) (x : HComp) (e : SComp), d.comps[k]? = some x → e ∈ c.comps → e.id = x.id → x.td = e.td ∧ x.ta = e.ta

theorem holdsFrame_todo {f sp l d} (h : HoldsFrame f sp l d) (t : Nat) : HoldsFrame f sp l { d with todo := t } :=
  ⟨h.width, h.height, h.count, h.ids, h.fac, h.order, h.space, h.dc, h.ac, h.restart⟩

/-- A segment between two scans. -/
theorem middle_step (o : HdrOpts) {f sp l d} (h : HoldsFrame f sp l d) (s : Segment) (r : Bytes) (hok : s.Ok) (hk : Known o s)
    (hl : s.params.length + 2 < 65536) (hm : Middle s) :
    ∃ d', parseMarker o s.code d (body s.params ++ r) = .ok (d', r) ∧ HoldsFrame f sp (l ++ [s]) d' := by
  cases s with
  | dqt ts => exact hm.elim
  | frame m fr => exact hm.elim
  | dht ts =>
    obtain ⟨dc, ac, a1, a2, a3⟩ := parseDht_complete d r ts hok hl
    refine ⟨{ d with dc := dc, ac := ac }, ?_, h.width, h.height, h.count, h.ids, h.fac, h.order, h.space, ?_, ?_, ?_⟩
    · unfold parseMarker
      simp only [Segment.code]
      rw [if_neg (by decide), if_neg (by decide), if_neg (by decide), if_neg (by decide), if_neg (by decide), if_neg (by decide),
        if_pos trivial]
      exact a1
    · rw [List.flatMap_append]
      simpa [Segment.htabs] using h.dc.append a2
    · rw [List.flatMap_append]
      simpa [Segment.htabs] using h.ac.append a3
    · rw [show restartOf (l ++ [.dht ts]) = restartOf l by simp [restartOf, Segment.dris]]
      exact h.restart
  | dri n =>
    refine ⟨{ d with restart := n, todo := n }, ?_, h.width, h.height, h.count, h.ids, h.fac, h.order, h.space, ?_, ?_, ?_⟩
    · unfold parseMarker
      simp only [Segment.code]
      rw [if_neg (by decide), if_neg (by decide), if_neg (by decide), if_neg (by decide), if_neg (by decide), if_neg (by decide),
        if_neg (by decide), if_neg (by decide), if_neg (by decide), if_neg (by decide), if_pos trivial]
      exact dri_ok d n r hok
    · rw [List.flatMap_append]
      simpa [Segment.htabs] using h.dc
    · rw [List.flatMap_append]
      simpa [Segment.htabs] using h.ac
    · simp [restartOf, Segment.dris]
  | data m b =>
    obtain ⟨d', a1, a2⟩ := data_ok o d m b r hok hk hl
    have had : (Segment.data m b).adobe = [] := by
      unfold Segment.adobe
      rw [under_ne hm]
      rfl
    have hsp : spaceAfter d.space (.data m b) = d.space := by
      show (match (Segment.data m b).adobe with
        | [t] => adobeSpace t
        | _ => d.space) = d.space
      rw [had]
    refine ⟨d', a1, ?_⟩
    rw [a2]
    refine ⟨h.width, h.height, h.count, h.ids, h.fac, h.order, ?_, ?_, ?_, ?_⟩
    · show spaceAfter d.space (.data m b) = sp
      rw [hsp]
      exact h.space
    · rw [List.flatMap_append]
      simpa [Segment.htabs] using h.dc
    · rw [List.flatMap_append]
      simpa [Segment.htabs] using h.ac
    · rw [show restartOf (l ++ [.data m b]) = restartOf l by simp [restartOf, Segment.dris]]
      exact h.restart

theorem findIdx_ids {α β : Type} (g : α → Nat) (g' : β → Nat) (l : List α) (l' : List β) (h : l.map g = l'.map g') (i : Nat) :
    l.findIdx (fun x => g x == i) = l'.findIdx (fun x => g' x == i) := by
  have h1 : l.findIdx (fun x => g x == i) = (l.map g).findIdx (· == i) := by rw [List.findIdx_map]; rfl
  have h2 : l'.findIdx (fun x => g' x == i) = (l'.map g').findIdx (· == i) := by rw [List.findIdx_map]; rfl
  rw [h1, h2, h]

/-- A scan header. -/
theorem sos_step (o : HdrOpts) {f sp l d} (h : HoldsFrame f sp l d) (hn : (f.comps.map (·.id)).Nodup) (c : Scan) (r : Bytes)
    (hc : c.Ok (f.comps.map (·.id))) :
    ∃ d', parseMarker o 0xDA d (body c.bytes ++ r) = .ok (d', r) ∧ HoldsFrame f sp l d' ∧ HoldsScan f c d' := by
  have hle : c.comps.length ≤ d.zorder.length := by rw [h.order]; exact hc.2.1
  refine ⟨afterScan d c, ?_, ?_⟩
  · unfold parseMarker
    rw [if_neg (by decide), if_neg (by decide), if_neg (by decide), if_neg (by decide), if_neg (by decide), if_neg (by decide),
      if_neg (by decide), if_pos rfl]
    exact (parseSos_iff d _ _ r h.count (by rw [h.ids]; exact hn)).2 ⟨c, by rw [h.ids]; exact hc, rfl, rfl⟩
  · rw [afterScan_eq d c hle]
    refine ⟨⟨h.width, h.height, ?_, ?_, ?_, ?_, h.space, h.dc, h.ac, h.restart⟩, ⟨rfl, ?_, rfl, rfl, rfl, rfl, ?_⟩⟩
    · simp only [List.length_map]
      exact h.count
    · rw [← h.ids]
      simp only [List.map_map]
      refine List.map_congr_left fun k _ => ?_
      simp only [Function.comp]
      split <;> rfl
    · rw [← h.fac]
      unfold factors
      simp only [List.map_map]
      refine List.map_congr_left fun k _ => ?_
      simp only [Function.comp]
      split <;> rfl
    · simp only [List.length_append, List.length_map, List.length_drop]
      rw [h.order] at hle ⊢
      omega
    · simp only
      rw [List.take_append_of_le_length (by simp), List.take_of_length_le (by simp)]
      unfold scanOrder
      refine List.map_congr_left fun e _ => ?_
      exact findIdx_ids _ _ _ _ h.ids e.id
    · intro k x e hx he hid
      simp only [List.getElem?_map, Option.map_eq_some_iff] at hx
      obtain ⟨y, hy, rfl⟩ := hx
      have hyid : e.id = y.id := by
        rw [hid]
        split <;> rfl
      have := find_eq c hc.2.2.1 e he
      rw [hyid] at this
      rw [this]
      exact ⟨rfl, rfl⟩

/-- The search for a marker goes over a gap. -/
theorem seek_fill (n : Nat) (m : UInt8) (r : Bytes) (h0 : m ≠ 0) (h1 : m ≠ 255) :
    seekMarker true (List.replicate n 255 ++ m :: r) = some (m, r) := by
  induction n with
  | zero => simp [seekMarker, h0, h1]
  | succ n ih =>
    rw [List.replicate_succ, List.cons_append, seekMarker, if_pos rfl]
    exact ih

theorem seek_gap (g : Gap) (m : Nat) (r : Bytes) (hg : ∀ b ∈ g.junk, b ≠ 255) (h0 : UInt8.ofNat m ≠ 0) (h1 : UInt8.ofNat m ≠ 255) :
    seekMarker false (g.marker m ++ r) = some (UInt8.ofNat m, r) := by
  unfold Gap.marker
  generalize g.junk = j at hg
  induction j with
  | nil =>
    rw [List.nil_append, List.replicate_succ, List.cons_append, List.cons_append, seekMarker, List.append_assoc]
    exact seek_fill g.fill _ r h0 h1
  | cons b j ih =>
    rw [List.cons_append, List.cons_append, seekMarker]
    have : (decide (b = 255)) = false := by simpa using hg b (by simp)
    rw [this]
    exact ih (fun x hx => hg x (by simp [hx]))

/-- What the decoder holds besides the header state: nothing noted in the reader. -/
structure Quiet0 (bs : Bs) (r : Bytes) : Prop where
  over : bs.over = 0
  eoi : bs.seenEoi = false
  marker : bs.marker = none
  rest : bs.rest = r

theorem quiet_get {bs : Bs} {g : Gap} {m : Nat} {r : Bytes} (h : Quiet0 bs (g.marker m ++ r)) (hg : ∀ b ∈ g.junk, b ≠ 255)
    (h0 : UInt8.ofNat m ≠ 0) (h1 : UInt8.ofNat m ≠ 255) :
    getMarker bs = (some (UInt8.ofNat m), { bs with rest := r }) := by
  unfold getMarker
  rw [h.marker, h.rest, seek_gap g m r hg h0 h1]

theorem code_small {s : Segment} (hok : s.Ok) (hm : Middle s) : UInt8.ofNat s.code ≠ 0 ∧ UInt8.ofNat s.code ≠ 255 ∧
    UInt8.ofNat s.code ≠ 0xD9 ∧ UInt8.ofNat s.code ≠ 0xDA ∧ isRst (UInt8.ofNat s.code) = false ∧ (UInt8.ofNat s.code).toNat = s.code := by
  have key : ∀ m < 256, ((0xE0 ≤ m ∧ m ≤ 0xEF) ∨ m = 0xFE ∨ m = 0xC4 ∨ m = 0xDD) → UInt8.ofNat m ≠ 0 ∧ UInt8.ofNat m ≠ 255 ∧
      UInt8.ofNat m ≠ 0xD9 ∧ UInt8.ofNat m ≠ 0xDA ∧ isRst (UInt8.ofNat m) = false ∧ (UInt8.ofNat m).toNat = m := by decide +kernel
  cases s with
  | dqt ts => exact hm.elim
  | frame m fr => exact hm.elim
  | dht ts => exact key 0xC4 (by decide) (by decide)
  | dri n => exact key 0xDD (by decide) (by decide)
  | data m b =>
    have hok' : (0xE0 ≤ m ∧ m ≤ 0xEF) ∨ m = 0xFE := hok
    exact key m (by omega) (by omega)

/-- The markers and segments up to the header of the next scan. -/
theorem loop_segs (o : HdrOpts) (maxScans : Nat) (len : Nat → Nat) {f : Seg.Frame} {sp : InSpace} (g : Gap) (hg : GapOk o g) (r : Bytes)
    (seen : Nat) (segs : List (Gap × Segment)) : ∀ (x : Segment) (l : List Segment) (st : QState) (fuel : Nat),
    (∀ y ∈ segs, GapOk o y.1 ∧ y.2.Ok ∧ Known o y.2 ∧ y.2.params.length + 2 < 65536 ∧ Middle y.2) →
    x.Ok → Known o x → x.params.length + 2 < 65536 → Middle x → HoldsFrame f sp l st.ms.d →
    Quiet0 st.ms.bs (body x.params ++ (Seg.bytesOf segs ++ (g.marker 0xDA ++ r))) → st.ms.bs.rest.length < fuel →
    ∃ d bs fuel', progLoop o maxScans len fuel (UInt8.ofNat x.code) seen st =
        progLoop o maxScans len fuel' 0xDA seen { st with ms := { st.ms with d := d, bs := bs } } ∧
      HoldsFrame f sp (l ++ x :: segs.map (·.2)) d ∧ Quiet0 bs r ∧ r.length < fuel' := by
  induction segs with
  | nil =>
    intro x l st fuel _ hok hk hl hm hf hq hfu
    obtain ⟨c0, c1, c2, c3, c4, c5⟩ := code_small hok hm
    obtain ⟨d', a1, a2⟩ := middle_step o hf x (Seg.bytesOf [] ++ (g.marker 0xDA ++ r)) hok hk hl hm
    cases fuel with
    | zero => omega
    | succ fuel =>
      have hpi : parseIn o (UInt8.ofNat x.code) st.ms = .ok { st.ms with d := d', bs := { st.ms.bs with rest := g.marker 0xDA ++ r } } := by
        unfold parseIn
        rw [c5, hq.rest, a1]
        rfl
      have hgm := quiet_get (bs := { st.ms.bs with rest := g.marker 0xDA ++ r }) (g := g) (m := 0xDA) (r := r)
        ⟨hq.over, hq.eoi, hq.marker, rfl⟩ hg.1 (by decide) (by decide)
      refine ⟨d', { st.ms.bs with rest := r }, fuel, ?_, a2, ⟨hq.over, hq.eoi, hq.marker, rfl⟩, ?_⟩
      · rw [progLoop, if_neg c2, if_neg c3, if_neg (by rw [c4]; simp), hpi]
        simp only
        rw [hgm]
        rfl
      · rw [hq.rest] at hfu
        simp only [List.length_append, Gap.marker, List.length_cons, List.length_replicate] at hfu
        omega
  | cons y segs ih =>
    intro x l st fuel hall hok hk hl hm hf hq hfu
    obtain ⟨c0, c1, c2, c3, c4, c5⟩ := code_small hok hm
    obtain ⟨e1, e2, e3, e4, e5⟩ := hall y (by simp)
    obtain ⟨y0, y1, -⟩ := code_small e2 e5
    have hby : Seg.bytesOf (y :: segs) ++ (g.marker 0xDA ++ r) =
        y.1.marker y.2.code ++ (body y.2.params ++ (Seg.bytesOf segs ++ (g.marker 0xDA ++ r))) := by
      simp [Seg.bytesOf]
    rw [hby] at hq
    obtain ⟨d', a1, a2⟩ := middle_step o hf x (y.1.marker y.2.code ++ (body y.2.params ++ (Seg.bytesOf segs ++ (g.marker 0xDA ++ r)))) hok hk hl hm
    cases fuel with
    | zero => omega
    | succ fuel =>
      have hpi : parseIn o (UInt8.ofNat x.code) st.ms = .ok { st.ms with d := d', bs := { st.ms.bs with
          rest := y.1.marker y.2.code ++ (body y.2.params ++ (Seg.bytesOf segs ++ (g.marker 0xDA ++ r))) } } := by
        unfold parseIn
        rw [c5, hq.rest, a1]
      have hgm := quiet_get (bs := { st.ms.bs with rest := y.1.marker y.2.code ++ (body y.2.params ++ (Seg.bytesOf segs ++ (g.marker 0xDA ++ r))) })
        (g := y.1) (m := y.2.code) (r := body y.2.params ++ (Seg.bytesOf segs ++ (g.marker 0xDA ++ r)))
        ⟨hq.over, hq.eoi, hq.marker, rfl⟩ e1.1 y0 y1
      have hstep : progLoop o maxScans len (fuel + 1) (UInt8.ofNat x.code) seen st = progLoop o maxScans len fuel (UInt8.ofNat y.2.code) seen
          { st with ms := { st.ms with d := d', bs := { st.ms.bs with rest := body y.2.params ++ (Seg.bytesOf segs ++ (g.marker 0xDA ++ r)) } } } := by
        rw [progLoop, if_neg c2, if_neg c3, if_neg (by rw [c4]; simp), hpi]
        simp only
        rw [hgm]
      obtain ⟨d2, bs2, fuel2, b1, b2, b3, b4⟩ := ih y.2 (l ++ [x])
        { st with ms := { st.ms with d := d', bs := { st.ms.bs with rest := body y.2.params ++ (Seg.bytesOf segs ++ (g.marker 0xDA ++ r)) } } } fuel
        (fun w hw => hall w (by simp [hw])) e2 e3 e4 e5 a2 ⟨hq.over, hq.eoi, hq.marker, rfl⟩ (by
          rw [hq.rest] at hfu
          simp only [List.length_append, Gap.marker, List.length_cons, List.length_replicate] at hfu ⊢
          omega)
      refine ⟨d2, bs2, fuel2, hstep.trans b1, ?_, b3, b4⟩
      simpa using b2

end Zune.Jpeg
