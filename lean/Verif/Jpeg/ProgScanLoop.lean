import Verif.Jpeg.ProgScanStep

/-!
# zune-jpeg: the scans of a progressive file (lemmas)
-/

namespace Zune.Jpeg

open Zune.Canon Seg

theorem htabs_ok {l : List Segment} (h : ∀ s ∈ l, s.Ok) : ∀ t ∈ l.flatMap Segment.htabs, t.Ok := by
  intro t ht
  obtain ⟨s, hs', hts⟩ := List.mem_flatMap.1 ht
  cases s with
  | dht ts => exact h _ hs' t hts
  | _ => cases hts

theorem restart_lt {l : List Segment} (h : ∀ s ∈ l, s.Ok) : restartOf l < 65536 := by
  have hdri : ∀ n ∈ l.flatMap Segment.dris, n < 65536 := by
    intro t ht
    obtain ⟨s, hs', hts⟩ := List.mem_flatMap.1 ht
    cases s with
    | dri n =>
      rw [Segment.dris, List.mem_singleton] at hts
      subst hts
      exact h _ hs'
    | _ => cases hts
  unfold restartOf
  cases hq' : (l.flatMap Segment.dris).getLast? with
  | none => decide
  | some x => exact hdri x (List.mem_of_getLast? hq')

/-- Fill bytes, marker, and what follows, at the start of `scansBytes`. -/
def firstMarker (n : Nat) (tail : Bytes) : List PScan → Nat × UInt8 × Bytes
  | [] => (n, 0xD9, tail)
  | q :: qs =>
    match q.segs with
    | [] => (q.gap.fill, 0xDA, body q.hdr.bytes ++ (q.data ++ scansBytes n tail qs))
    | x :: xs => (x.1.fill, UInt8.ofNat x.2.code,
        body x.2.params ++ (Seg.bytesOf xs ++ (q.gap.marker 0xDA ++ (body q.hdr.bytes ++ (q.data ++ scansBytes n tail qs)))))

theorem directly_known {g : Gap} {m : Nat} (h : Directly g m) : knownMarker (UInt8.ofNat m) = true := by
  have key : ∀ m ∈ [0xC4, 0xDA, 0xDD, 0xE0, 0xE1, 0xE2, 0xED, 0xFE], knownMarker (UInt8.ofNat m) = true := by decide
  exact key m h.2

theorem gap_direct {g : Gap} {m : Nat} (h : Directly g m) :
    g.marker m = 0xFF :: List.replicate g.fill 0xFF ++ [UInt8.ofNat m] := by
  unfold Gap.marker
  rw [h.1, List.nil_append, List.replicate_succ]

theorem firstMarker_eq {o : HdrOpts} (n : Nat) (tail : Bytes) {qs : List PScan} (h : ∀ q ∈ qs, q.Next o) :
    scansBytes n tail qs = 0xFF :: List.replicate (firstMarker n tail qs).1 0xFF ++ (firstMarker n tail qs).2.1 :: (firstMarker n tail qs).2.2 ∧
      knownMarker (firstMarker n tail qs).2.1 = true ∧ (qs.isEmpty = true → (firstMarker n tail qs).2.1 = 0xD9) := by
  cases qs with
  | nil => exact ⟨rfl, rfl, fun _ => rfl⟩
  | cons q qs =>
    have hn := (h q (by simp)).near
    cases hs : q.segs with
    | nil =>
      have e : firstMarker n tail (q :: qs) = (q.gap.fill, 0xDA, body q.hdr.bytes ++ (q.data ++ scansBytes n tail qs)) := by
        simp only [firstMarker]
        rw [hs]
      rw [hs] at hn
      rw [e]
      refine ⟨?_, rfl, by simp⟩
      rw [scansBytes, gap_direct hn, hs]
      simp [Seg.bytesOf]
    | cons x xs =>
      have e : firstMarker n tail (q :: qs) = (x.1.fill, UInt8.ofNat x.2.code,
          body x.2.params ++ (Seg.bytesOf xs ++ (q.gap.marker 0xDA ++ (body q.hdr.bytes ++ (q.data ++ scansBytes n tail qs))))) := by
        simp only [firstMarker]
        rw [hs]
      rw [hs] at hn
      rw [e]
      refine ⟨?_, directly_known hn, by simp⟩
      rw [scansBytes, hs, Seg.bytesOf, List.flatMap_cons, gap_direct hn]
      simp [Seg.bytesOf]

theorem scans_next {o f z} (qs : List PScan) : ∀ {l sent}, Scans o f z false l sent qs → ∀ q ∈ qs, q.Next o := by
  induction qs with
  | nil => intro l sent _ q hq; cases hq
  | cons q qs ih =>
    intro l sent h x hx
    obtain ⟨h1, -, -, -, h5⟩ := h
    rcases List.mem_cons.1 hx with rfl | hx
    · exact h1
    · exact ih h5 x hx

/-- The scans after the first. -/
theorem scans_loop (o : HdrOpts) (maxScans : Nat) {len : Nat → Nat} {f : Seg.Frame} (hf : f.Ok) (hn : (f.comps.map (·.id)).Nodup)
    {sp : InSpace} (hsp : sp.num = f.comps.length) {z : Addr → Nat → Int} (hz : ∀ a k, (z a k).natAbs < 2 ^ 15) (n : Nat) (tail : Bytes)
    (qs : List PScan) : ∀ (l : List Segment) (sent : Sent) (st : QState) (seen fuel : Nat), (∀ s ∈ l, s.Ok) →
    HoldsFrame f sp l st.ms.d → Laid f len st.ms.work → Knows sent z st.buf → Scans o f z false l sent qs →
    Quiet0 st.ms.bs (firstMarker n tail qs).2.2 → seen + qs.length ≤ maxScans → (firstMarker n tail qs).2.2.length < fuel →
    ∃ st' l', progLoop o maxScans len fuel (firstMarker n tail qs).2.1 seen st = .ok st' ∧ HoldsFrame f sp l' st'.ms.d ∧
      zeroed st'.ms.work = zeroed st.ms.work ∧ Knows (sentAfter f sent qs) z st'.buf ∧ st'.ms.bs.rest = tail := by
  induction qs with
  | nil =>
    intro l sent st seen fuel _ hF hw hk _ hq _ hfu
    refine ⟨st, l, ?_, hF, rfl, hk, hq.rest⟩
    cases fuel with
    | zero => omega
    | succ fuel => rfl
  | cons q qs ih =>
    intro l sent st seen fuel hl hF hw hk hS hq hse hfu
    obtain ⟨s1, s2, s3, s4, s5⟩ := hS
    have s1 : q.Next o := s1
    have hl' : ∀ s ∈ l ++ q.segs.map (·.2), s.Ok := by
      intro s hs
      rcases List.mem_append.1 hs with hs | hs
      · exact hl s hs
      · obtain ⟨x, hx, rfl⟩ := List.mem_map.1 hs
        exact (s1.segs x hx).2.1
    obtain ⟨g1, g2, g3⟩ := firstMarker_eq (o := o) n tail (scans_next qs s5)
    set r : Bytes := body q.hdr.bytes ++ (q.data ++ scansBytes n tail qs) with hr
    -- up to the scan header
    obtain ⟨d, bs, fuel', a1, a2, a3, a4⟩ : ∃ d bs fuel', progLoop o maxScans len fuel (firstMarker n tail (q :: qs)).2.1 seen st =
        progLoop o maxScans len fuel' 0xDA seen { st with ms := { st.ms with d := d, bs := bs } } ∧
      HoldsFrame f sp (l ++ q.segs.map (·.2)) d ∧ Quiet0 bs r ∧ r.length < fuel' := by
      cases hs : q.segs with
      | nil =>
        have e : firstMarker n tail (q :: qs) = (q.gap.fill, 0xDA, r) := by
          simp only [firstMarker]
          rw [hs]
        rw [e] at hq hfu ⊢
        refine ⟨st.ms.d, st.ms.bs, fuel, rfl, ?_, hq, hfu⟩
        simpa using hF
      | cons x xs =>
        have e : firstMarker n tail (q :: qs) = (x.1.fill, UInt8.ofNat x.2.code, body x.2.params ++ (Seg.bytesOf xs ++ (q.gap.marker 0xDA ++ r))) := by
          simp only [firstMarker]
          rw [hs]
        rw [e] at hq hfu ⊢
        have hsg := s1.segs
        rw [hs] at hsg
        obtain ⟨x1, x2, x3, x4, x5⟩ := hsg x (by simp)
        exact loop_segs o maxScans len q.gap s1.gap r seen xs x.2 l st fuel (fun y hy => hsg y (by simp [hy])) x2 x3 x4 x5 hF hq
          (by rw [hq.rest]; exact hfu)
    rw [a1]
    cases fuel' with
    | zero => omega
    | succ fuel' =>
      obtain ⟨d', b1, b2, b3⟩ := sos_step o a2 hn q.hdr (q.data ++ scansBytes n tail qs) s2.ok
      have hpi : parseIn o 0xDA { st.ms with d := d, bs := bs } =
          .ok { st.ms with d := d', bs := { bs with rest := q.data ++ scansBytes n tail qs } } := by
        unfold parseIn
        simp only
        rw [a3.rest, show ((0xDA : UInt8).toNat) = 0xDA from rfl, b1]
      obtain ⟨st', c1, c2, c3, c4, c5, c6, -⟩ := data_step (len := len) hf hsp hz (n := (firstMarker n tail qs).1) (tail := (firstMarker n tail qs).2.2) g2 g3
        (st := { st with ms := { st.ms with d := d', bs := { bs with rest := q.data ++ scansBytes n tail qs } } })
        b2 b3 s2 (htabs_ok hl') (restart_lt hl') s3 hk hw s4 ⟨a3.over, a3.eoi, by rw [← g1]⟩
      obtain ⟨bs', e1, e2, e3, e4, e5⟩ := ends_get c6
      have hlt : (firstMarker n tail qs).2.2.length < fuel' := by
        have h1 : (scansBytes n tail qs).length = (firstMarker n tail qs).2.2.length + (firstMarker n tail qs).1 + 2 := by
          rw [g1]
          simp only [List.length_append, List.length_cons, List.length_replicate]
          omega
        rw [hr] at a4
        simp only [List.length_append] at a4
        omega
      obtain ⟨st2, l2, f1, f2, f3, f4, f5⟩ := ih (l ++ q.segs.map (·.2)) ((q.spec f).after sent)
        { st' with ms := { st'.ms with bs := bs'.reset } } (seen + 1) fuel' hl' c2 c3 c5 s5
        (by
          show Quiet0 bs'.reset _
          rw [reset_new e3 e4, e2]
          exact ⟨rfl, rfl, rfl, rfl⟩) (by simp only [List.length_cons] at hse; omega) hlt
      refine ⟨st2, l2, ?_, f2, f3.trans c4, f4, f5⟩
      rw [progLoop, if_neg (by decide), if_pos rfl, hpi]
      simp only
      rw [c1]
      simp only
      rw [e1]
      simp only
      rw [if_neg (by simp only [List.length_cons] at hse; omega)]
      exact f1

end Zune.Jpeg
