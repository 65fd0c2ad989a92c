import Verif.Jpeg.ProgBetween

/-!
# zune-jpeg: a scan of a progressive file (lemmas)

The order of the blocks, the tables, and `parse_entropy_coded_data` as a whole.
-/

namespace Zune.Jpeg

open Zune.Canon Seg

theorem factor_ok {f : Seg.Frame} (h : f.Ok) (k : Nat) :
    1 ≤ (f.factor k).h ∧ (f.factor k).h ≤ 4 ∧ 1 ≤ (f.factor k).v ∧ (f.factor k).v ≤ 4 := by
  unfold Seg.Frame.factor
  split
  · decide
  · split
    · rename_i c hc
      obtain ⟨_, a, b, c', d, _⟩ := h.2.2.2.2.2.2 c (List.mem_of_getElem? hc)
      exact ⟨a, b, c', d⟩
    · decide

theorem comp_at {f sp l d} (h : HoldsFrame f sp l d) {k : Nat} (hk : k < f.comps.length) :
    ∃ x fc, d.comps[k]? = some x ∧ f.comps[k]? = some fc ∧ x.id = fc.id ∧ x.h = (f.factor k).h ∧ x.v = (f.factor k).v := by
  have hl : d.comps.length = f.comps.length := by simpa using congrArg List.length h.ids
  have hx : d.comps[k]? = some (d.comps[k]'(by omega)) := List.getElem?_eq_getElem _
  have hfc : f.comps[k]? = some f.comps[k] := List.getElem?_eq_getElem hk
  refine ⟨_, _, hx, hfc, ?_, ?_⟩
  · have := congrArg (·[k]?) h.ids
    simp only [List.getElem?_map, hx, hfc, Option.map_some, Option.some.injEq] at this
    exact this
  · have := congrArg (·[k]?) h.fac
    simp only [factors, Seg.Frame.factors, List.getElem?_map, hx, List.getElem?_range hk, Option.map_some, Option.some.injEq] at this
    rw [← this]
    exact ⟨rfl, rfl⟩

theorem order_mem {f : Seg.Frame} {c : Scan} (hc : c.Ok (f.comps.map (·.id))) {k : Nat} (hk : k ∈ scanOrder f c) :
    ∃ e fc, e ∈ c.comps ∧ f.comps[k]? = some fc ∧ e.id = fc.id := by
  obtain ⟨e, he, rfl⟩ := List.mem_map.1 hk
  obtain ⟨fc, hfc, hid⟩ := List.mem_map.1 (hc.2.2.2.1 e he).1
  have hlt : f.comps.findIdx (fun k => k.id == e.id) < f.comps.length :=
    List.findIdx_lt_length_of_exists ⟨fc, hfc, by simpa using hid⟩
  refine ⟨e, _, he, List.getElem?_eq_getElem hlt, ?_⟩
  have := List.findIdx_getElem (w := hlt)
  exact (beq_iff_eq.1 this).symm

theorem divCeil_le {a n m : Nat} (hn : 0 < n) (h : a ≤ m * n) : divCeil a n ≤ m := by
  unfold divCeil
  rw [Nat.div_le_iff_le_mul_add_pred hn, Nat.mul_comm]
  omega

theorem blocks_le (a h n : Nat) (hn : 0 < n) : divCeil (divCeil (a * h) n) 8 ≤ divCeil a (n * 8) * h := by
  rw [ceil_ceil _ _ _ hn (by omega)]
  refine divCeil_le (by omega) ?_
  have := le_divCeil a (n * 8) (by omega)
  calc a * h ≤ n * 8 * divCeil a (n * 8) * h := Nat.mul_le_mul_right _ this
    _ = divCeil a (n * 8) * h * (n * 8) := by ring

/-- Where the blocks of a scan are. -/
theorem mem_mcus {f : Seg.Frame} {c : Scan} {m : List Addr} (hm : m ∈ f.mcus c) {a : Addr} (ha : a ∈ m) :
    a.1 ∈ scanOrder f c ∧ a.2 + 1 ≤ f.mcusAcross * (f.factor a.1).h * (f.mcusDown * (f.factor a.1).v) := by
  have key : ∀ k y x, y < f.mcusDown * (f.factor k).v → x < f.mcusAcross * (f.factor k).h →
      y * (f.mcusAcross * (f.factor k).h) + x + 1 ≤ f.mcusAcross * (f.factor k).h * (f.mcusDown * (f.factor k).v) := by
    intro k y x hy hx
    rw [Nat.mul_comm (f.mcusAcross * (f.factor k).h) (f.mcusDown * (f.factor k).v)]
    exact mul_add_lt hy hx
  unfold Seg.Frame.mcus at hm
  split at hm
  · rename_i k hk
    obtain ⟨y, hy, hm⟩ := List.mem_flatMap.1 hm
    obtain ⟨x, hx, rfl⟩ := List.mem_map.1 hm
    rw [List.mem_singleton] at ha
    subst ha
    rw [List.mem_range] at hy hx
    refine ⟨by rw [hk]; exact List.mem_singleton_self _, key k y x ?_ ?_⟩
    · exact lt_of_lt_of_le hy (blocks_le _ _ _ (vMax_pos _))
    · exact lt_of_lt_of_le hx (blocks_le _ _ _ (hMax_pos _))
  · obtain ⟨i, hi, hm⟩ := List.mem_flatMap.1 hm
    obtain ⟨j, hj, rfl⟩ := List.mem_map.1 hm
    obtain ⟨k, hk, ha⟩ := List.mem_flatMap.1 ha
    obtain ⟨v, hv, ha⟩ := List.mem_flatMap.1 ha
    obtain ⟨h, hh, rfl⟩ := List.mem_map.1 ha
    rw [List.mem_range] at hi hj hv hh
    exact ⟨hk, key k _ _ (mul_add_lt hi hv) (mul_add_lt hj hh)⟩

/-- No MCU is empty, and there are not too many. -/
theorem mcus_some {f : Seg.Frame} (hf : f.Ok) {c : Scan} (hc : c.Ok (f.comps.map (·.id))) :
    (∀ x ∈ f.mcus c, x ≠ []) ∧ f.mcus c ≠ [] ∧ (f.mcus c).length < 2 ^ 64 - 1 := by
  obtain ⟨h1, h2, h3, h4, -⟩ := id hf
  have hX : 0 < f.mcusAcross := divCeil_pos _ _ (by omega) (by have := hMax_pos f.factors; omega)
  have hY : 0 < f.mcusDown := divCeil_pos _ _ (by omega) (by have := vMax_pos f.factors; omega)
  have hX2 : f.mcusAcross ≤ 65536 := divCeil_le (by have := hMax_pos f.factors; omega) (by have := hMax_pos f.factors; nlinarith)
  have hY2 : f.mcusDown ≤ 65536 := divCeil_le (by have := vMax_pos f.factors; omega) (by have := vMax_pos f.factors; nlinarith)
  have hlen : (scanOrder f c).length = c.comps.length := by simp [scanOrder]
  unfold Seg.Frame.mcus
  split
  · rename_i k hk
    obtain ⟨a, b, c', d⟩ := factor_ok hf k
    have hA : 0 < blocksAcross f.width f.factors (f.factor k) :=
      divCeil_pos _ _ (divCeil_pos _ _ (Nat.mul_pos (by omega) (by omega)) (hMax_pos _)) (by decide)
    have hD : 0 < blocksDown f.height f.factors (f.factor k) :=
      divCeil_pos _ _ (divCeil_pos _ _ (Nat.mul_pos (by omega) (by omega)) (vMax_pos _)) (by decide)
    refine ⟨?_, ?_, ?_⟩
    · intro x hx
      obtain ⟨y, _, hx⟩ := List.mem_flatMap.1 hx
      obtain ⟨x', _, rfl⟩ := List.mem_map.1 hx
      simp
    · intro hn
      rw [List.flatMap_eq_nil_iff] at hn
      have := hn 0 (by simpa using hD)
      rw [List.map_eq_nil_iff, List.range_eq_nil] at this
      omega
    · have l1 : blocksAcross f.width f.factors (f.factor k) ≤ 65536 * 4 :=
        le_trans (blocks_le _ _ _ (hMax_pos _)) (Nat.mul_le_mul hX2 b)
      have l2 : blocksDown f.height f.factors (f.factor k) ≤ 65536 * 4 :=
        le_trans (blocks_le _ _ _ (vMax_pos _)) (Nat.mul_le_mul hY2 d)
      simp only [List.length_flatMap, List.length_map, List.length_range, List.map_const', List.sum_replicate_nat]
      exact lt_of_le_of_lt (Nat.mul_le_mul l2 l1) (by norm_num)
  · rename_i ord hord
    refine ⟨?_, ?_, ?_⟩
    · intro x hx
      obtain ⟨i, _, hx⟩ := List.mem_flatMap.1 hx
      obtain ⟨j, _, rfl⟩ := List.mem_map.1 hx
      intro hn
      rw [List.flatMap_eq_nil_iff] at hn
      obtain ⟨k, hk⟩ : ∃ k, k ∈ scanOrder f c := List.exists_mem_of_length_pos (by rw [hlen]; exact hc.1)
      obtain ⟨a, b, c', d⟩ := factor_ok hf k
      have := hn k hk
      rw [List.flatMap_eq_nil_iff] at this
      have := this 0 (List.mem_range.2 c')
      rw [List.map_eq_nil_iff, List.range_eq_nil] at this
      omega
    · intro hn
      rw [List.flatMap_eq_nil_iff] at hn
      have := hn 0 (by simpa using hY)
      rw [List.map_eq_nil_iff, List.range_eq_nil] at this
      omega
    · simp only [List.length_flatMap, List.length_map, List.length_range, List.map_const', List.sum_replicate_nat]
      exact lt_of_le_of_lt (Nat.mul_le_mul hY2 hX2) (by norm_num)

/-- The table of a component of the scan. -/
theorem table_at {f : Seg.Frame} {sp l d} {q : PScan} (hF : HoldsFrame f sp l d) (hS : HoldsScan f q.hdr d) (hH : q.Header f l)
    (hht : ∀ t ∈ l.flatMap Segment.htabs, t.Ok) (hss : q.hdr.comps.length ≠ 1 → q.hdr.ss = 0) {k : Nat} (hk : k ∈ scanOrder f q.hdr) :
    ∃ u, tableOf (decide (d.ns = 1)) d k = some u ∧
      Huff.new (q.tab k).count (fun p => (q.tab k).syms[p]?.getD 0) (decide (q.hdr.ss = 0)) = .ok u := by
  obtain ⟨e, fc, he, hfc, hid⟩ := order_mem hH.ok hk
  have hkn : k < f.comps.length := (List.getElem?_eq_some_iff.1 hfc).1
  obtain ⟨x, fc', hx, hfc', hxid, -⟩ := comp_at hF hkn
  rw [hfc] at hfc'
  cases hfc'
  obtain ⟨t1, t2⟩ := hS.tabs k x e hx he (by rw [hid, hxid])
  have htab := hH.tables k fc e hfc he hid
  obtain ⟨m1, m2⟩ := last?_mem htab
  have mok := hht _ m1
  simp only [Bool.and_eq_true, beq_iff_eq] at m2
  by_cases h0 : q.hdr.ss = 0
  · rw [if_pos h0, show (decide (q.hdr.ss ≠ 0)) = false by simp [h0]] at htab
    rw [if_pos h0, show (decide (q.hdr.ss ≠ 0)) = false by simp [h0]] at m2
    obtain ⟨u, u1, u2⟩ := after_some hF.dc htab
    refine ⟨u, ?_, ?_⟩
    · unfold tableOf
      rw [hx, Option.bind_some, hS.ss, h0]
      have h4 : x.td % 4 = x.td := by
        rw [t1, ← m2.2]
        exact Nat.mod_eq_of_lt mok.1
      rw [h4, t1, u1]
      split <;> rfl
    · have := built_new u2 (fun c hc => hH.any k c hc) false m2.1
      rw [h0]
      exact this
  · rw [if_neg h0, show (decide (q.hdr.ss ≠ 0)) = true by simp [h0]] at htab
    rw [if_neg h0, show (decide (q.hdr.ss ≠ 0)) = true by simp [h0]] at m2
    obtain ⟨u, u1, u2⟩ := after_some hF.ac htab
    have hone : d.ns = 1 := by
      rw [hS.ns]
      by_contra hn
      exact h0 (hss hn)
    refine ⟨u, ?_, ?_⟩
    · unfold tableOf
      rw [hx, Option.bind_some, hS.ss, if_neg (by simp [hone]), if_neg h0, t2, u1]
    · have := built_new u2 (fun c hc => hH.any k c hc) true m2.1
      rw [show (decide (q.hdr.ss = 0)) = false by simp [h0]]
      exact this

/-- The blocks as the decoder visits them: scans of one component. -/
theorem one_order {f : Seg.Frame} {c : Scan} {k stride : Nat} (hk : scanOrder f c = [k]) (hs : stride = 8 * (f.mcusAcross * (f.factor k).h)) :
    ((oneOrder k stride (blocksAcross f.width f.factors (f.factor k), blocksDown f.height f.factors (f.factor k))).map fun a => [a]) =
      f.mcus c := by
  unfold Seg.Frame.mcus
  rw [hk]
  simp only
  unfold oneOrder
  rw [List.map_flatMap]
  refine List.flatMap_congr fun y _ => ?_
  rw [List.map_map]
  refine List.map_congr_left fun x _ => ?_
  simp only [Function.comp, Seg.Frame.block]
  rw [hs, Nat.mul_div_cancel_left _ (by decide : 0 < 8), Nat.add_comm]

/-- The blocks as the decoder visits them: scans of several components. -/
theorem several_order {f : Seg.Frame} {c : Scan} (hn : (scanOrder f c).length ≠ 1) (st : Nat → Nat)
    (hs : ∀ k, st k = 8 * (f.mcusAcross * (f.factor k).h)) :
    mcuList ((scanOrder f c).map fun k => ⟨k, f.factor k, st k⟩) f.mcusAcross f.mcusDown = f.mcus c := by
  have h2 : f.mcus c = (List.range f.mcusDown).flatMap fun i => (List.range f.mcusAcross).map fun j =>
      (scanOrder f c).flatMap fun k => (List.range (f.factor k).v).flatMap fun v => (List.range (f.factor k).h).map fun h =>
        f.block k (i * (f.factor k).v + v) (j * (f.factor k).h + h) := by
    unfold Seg.Frame.mcus
    split
    · rename_i k hk
      rw [hk] at hn
      exact absurd rfl hn
    · rfl
  rw [h2]
  unfold mcuList
  refine List.flatMap_congr fun i _ => List.map_congr_left fun j _ => ?_
  rw [List.flatMap_map]
  refine List.flatMap_congr fun k _ => ?_
  unfold McuComp.blocks
  refine List.flatMap_congr fun v _ => List.map_congr_left fun h _ => ?_
  simp only [Seg.Frame.block]
  rw [hs, place, Nat.add_comm]

theorem head_getD (l : List Nat) (k n : Nat) (h : l.take n = [k]) : l.getD 0 0 = k := by
  cases l with
  | nil => simp at h
  | cons a l =>
    cases n with
    | zero => simp at h
    | succ n =>
      rw [List.take_succ_cons] at h
      exact (List.cons.inj h).1

theorem order_nodup {f : Seg.Frame} {c : Scan} (hc : c.Ok (f.comps.map (·.id))) : (scanOrder f c).Nodup := by
  unfold scanOrder
  refine List.Nodup.of_map (fun k => (f.comps.map (·.id)).getD k 0) ?_
  rw [List.map_map]
  have : c.comps.map ((fun k => (f.comps.map (·.id)).getD k 0) ∘ fun e => f.comps.findIdx fun k => k.id == e.id) = c.comps.map (·.id) := by
    refine List.map_congr_left fun e he => ?_
    obtain ⟨fc, hfc, hid⟩ := List.mem_map.1 (hc.2.2.2.1 e he).1
    have hlt : f.comps.findIdx (fun k => k.id == e.id) < f.comps.length :=
      List.findIdx_lt_length_of_exists ⟨fc, hfc, by simpa using hid⟩
    have := List.findIdx_getElem (w := hlt)
    simp only [Function.comp, List.getD_eq_getElem?_getD, List.getElem?_map, List.getElem?_eq_getElem hlt, Option.map_some,
      Option.getD_some]
    exact beq_iff_eq.1 this
  rw [this]
  exact hc.2.2.1

theorem order_le {f : Seg.Frame} {c : Scan} (hc : c.Ok (f.comps.map (·.id))) : c.comps.length ≤ f.comps.length := by
  have h1 : (scanOrder f c).length = c.comps.length := by simp [scanOrder]
  have h2 : (scanOrder f c) ⊆ List.range f.comps.length := by
    intro k hk
    obtain ⟨_, _, _, h, _⟩ := order_mem hc hk
    exact List.mem_range.2 (List.getElem?_eq_some_iff.1 h).1
  have := (List.subperm_of_subset (order_nodup hc) h2).length_le
  rw [h1, List.length_range] at this
  exact this

/-- What stays the same from scan to scan. -/
structure Laid (f : Seg.Frame) (len : Nat → Nat) (work : List Work) : Prop where
  count : work.length = f.comps.length
  stride : ∀ (k : Nat) (w : Work), work[k]? = some w → w.stride = 8 * (f.mcusAcross * (f.factor k).h)
  len : ∀ k, k < f.comps.length → 64 * (f.mcusAcross * (f.factor k).h * (f.mcusDown * (f.factor k).v)) ≤ len k

theorem laid_zeroed {f : Seg.Frame} {len a b} (h : Laid f len a) (he : zeroed b = zeroed a) : Laid f len b := by
  refine ⟨(zeroed_length he).trans h.count, fun k w hw => ?_, h.len⟩
  have : (zeroed b)[k]? = (zeroed a)[k]? := by rw [he]
  unfold zeroed at this
  rw [List.getElem?_map, List.getElem?_map, hw, Option.map_some] at this
  cases ha : a[k]? with
  | none => rw [ha] at this; cases this
  | some w' =>
    rw [ha, Option.map_some, Option.some.injEq] at this
    rw [← h.stride k w' ha]
    exact (congrArg Work.stride this :)

/-- `parse_entropy_coded_data` reads the data of a scan. -/
theorem data_step {len : Nat → Nat} {f : Seg.Frame} (hf : f.Ok) {sp l} (hsp : sp.num = f.comps.length) {q : PScan}
    {z : Addr → Nat → Int} (hz : ∀ a k, (z a k).natAbs < 2 ^ 15) {first eoi : Bool} {n : Nat} {M : UInt8} {tail : Bytes}
    (hM : knownMarker M = true) (heoi : eoi = true → M = 0xD9) {st : QState} {sent : Sent}
    (hF : HoldsFrame f sp l st.ms.d) (hS : HoldsScan f q.hdr st.ms.d) (hH : q.Header f l)
    (hht : ∀ t ∈ l.flatMap Segment.htabs, t.Ok) (hR : restartOf l < 65536) (hleg : (q.spec f).Legal sent)
    (hk : Knows sent z st.buf) (hw : Laid f len st.ms.work)
    (hp : PData (q.Sends f z first) (restartOf l) eoi 0 (f.mcus q.hdr) q.data)
    (hb : st.ms.bs.over = 0 ∧ st.ms.bs.seenEoi = false ∧ st.ms.bs.rest = q.data ++ (0xFF :: List.replicate n 0xFF ++ M :: tail)) :
    ∃ st', progData len st = .ok st' ∧ HoldsFrame f sp l st'.ms.d ∧ Laid f len st'.ms.work ∧
      zeroed st'.ms.work = zeroed st.ms.work ∧
      Knows ((q.spec f).after sent) z st'.buf ∧ Ends st'.ms.bs M tail ∧
      (first = true → q.hdr.ss = 0 → q.hdr.ah = 0 → st'.ms.bs.marker.isSome = true) := by
  obtain ⟨b1, b2, b3⟩ := hb
  have hlen : (scanOrder f q.hdr).length = q.hdr.comps.length := by simp [scanOrder]
  have hcl : st.ms.d.comps.length = f.comps.length := by simpa using congrArg List.length hF.ids
  have hss : q.hdr.comps.length ≠ 1 → q.hdr.ss = 0 := by
    intro h
    by_contra h0
    exact h (of_decide_eq_true (hleg.single h0))
  obtain ⟨m1, m2, m3⟩ := mcus_some hf hH.ok
  set st1 : QState := { st with ms := progReset st.ms } with hst1
  have hF1 : HoldsFrame f sp l st1.ms.d := holdsFrame_todo hF _
  have hS1 : HoldsScan f q.hdr st1.ms.d := ⟨hS.ns, hS.order, hS.ss, hS.se, hS.ah, hS.al, hS.tabs⟩
  have hw1 : Laid f len st1.ms.work := laid_zeroed hw (zeroed_idem _)
  -- the blocks
  have hall : ∀ a ∈ (f.mcus q.hdr).flatten, ∃ u, tableOf (decide (st1.ms.d.ns = 1)) st1.ms.d a.1 = some u ∧
      Huff.new (q.tab a.1).count (fun p => (q.tab a.1).syms[p]?.getD 0) (decide (q.hdr.ss = 0)) = .ok u ∧
      64 * a.2 + 64 ≤ len a.1 := by
    intro a ha
    obtain ⟨m, hm, ha⟩ := List.mem_flatten.1 ha
    obtain ⟨c1, c2⟩ := mem_mcus hm ha
    obtain ⟨u, u1, u2⟩ := table_at hF1 hS1 hH hht hss c1
    obtain ⟨_, _, _, hfc, _⟩ := order_mem hH.ok c1
    have := hw.len a.1 (List.getElem?_eq_some_iff.1 hfc).1
    refine ⟨u, u1, u2, ?_⟩
    have := Nat.mul_le_mul_left 64 c2
    omega
  have hread : ((q.spec f).on (f.mcus q.hdr).flatten).Read (scanOf (decide (st1.ms.d.ns = 1)) st1.ms.d) := by
    refine ⟨?_, hS1.se, hS1.al, ?_, fun _ => rfl, ?_, ?_⟩
    · show (if decide (st1.ms.d.ns = 1) = true then st1.ms.d.ss else 0) = q.hdr.ss
      rw [hS1.ns, hS1.ss]
      by_cases h1 : q.hdr.comps.length = 1
      · simp [h1]
      · simp [h1, hss h1]
    · show decide (st1.ms.d.ah ≠ 0) = decide (q.hdr.ah ≠ 0)
      rw [hS1.ah]
    · intro k i
      show (q.tab k).syms[i]?.getD 0 < 256
      cases hi : (q.tab k).syms[i]? with
      | none => decide
      | some v => exact hH.any k v (List.mem_of_getElem? hi)
    · intro a ha
      obtain ⟨u, u1, u2, -⟩ := hall a ha
      show if q.hdr.ss = 0 then _ else _
      by_cases h0 : q.hdr.ss = 0
      · rw [if_pos h0]
        intro _
        show Huff.new (q.tab a.1).count _ true = .ok ((tableOf _ _ a.1).getD default)
        rw [u1]
        rw [show decide (q.hdr.ss = 0) = true by simp [h0]] at u2
        exact u2
      · rw [if_neg h0]
        show Huff.new (q.tab a.1).count _ false = .ok ((tableOf _ _ a.1).getD default)
        rw [u1]
        rw [show decide (q.hdr.ss = 0) = false by simp [h0]] at u2
        exact u2
  obtain ⟨st', t, r1, r2, r3, r4, r5, r6⟩ := scan_data (one := decide (st1.ms.d.ns = 1)) (len := len) (P := q.spec f) hz
    (first := first) (n := n) (tail := tail) hM heoi hp st1 sent hread hleg
    (by
      show st.ms.bs.reset = _
      rw [reset_new b1 b2, b3])
    (predOf_zeroed _) hk (fun a ha => by
      obtain ⟨u, u1, -, u3⟩ := hall a ha
      exact ⟨by rw [u1]; rfl, u3⟩)
    (by rw [hw1.count]; exact hcl.symm) hF1.restart (by omega)
    (by
      show (if st.ms.d.restart ≠ 0 then st.ms.d.restart else 2 ^ 64 - 1) = _
      rw [hF.restart]) m3
  refine ⟨st', ?_, by rw [r2]; exact holdsFrame_todo hF1 t, laid_zeroed hw1 r3, r3.trans (zeroed_idem _), r4, r5, fun h1 h2 h3 => ?_⟩
  · show (if st1.ms.d.space.num < st1.ms.d.ns then .error (.scan, st1) else if st1.ms.d.ns = 1 then progOne len st1 else progSeveral len st1) =
      (.ok st' : Except (DecErr × QState) QState)
    rw [if_neg (by
      rw [hF1.space, hsp, hS1.ns]
      exact Nat.not_lt.2 (order_le hH.ok))]
    by_cases h1 : st1.ms.d.ns = 1
    · rw [if_pos h1]
      have hl1 : (scanOrder f q.hdr).length = 1 := by rw [hlen, ← hS1.ns, h1]
      obtain ⟨k, hord⟩ := List.length_eq_one_iff.1 hl1
      have hzo : st1.ms.d.zorder.getD 0 0 = k := head_getD _ _ _ (hS1.order.trans hord)
      obtain ⟨e, fc, _, hfc, _⟩ := order_mem hH.ok (k := k) (by rw [hord]; exact List.mem_singleton_self _)
      have hkn : k < f.comps.length := (List.getElem?_eq_some_iff.1 hfc).1
      obtain ⟨x, _, hx, _, _, hxh, hxv⟩ := comp_at hF1 hkn
      obtain ⟨w, hwk⟩ : ∃ w, st1.ms.work[k]? = some w := ⟨_, List.getElem?_eq_getElem (by rw [hw1.count]; exact hkn)⟩
      unfold progOne
      simp only
      rw [if_neg (by
        rintro ⟨g1, g2⟩
        rw [hS1.se] at g1
        rw [hS1.ss] at g2
        exact g1 (hleg.alone g2))]
      have hone : oneComp? st1.ms = some (x, w) := by
        unfold oneComp?
        rw [hzo, hx, hwk]
      rw [hone]
      simp only
      rw [hzo, hxh, hxv, hF1.width, hF1.height, hF1.fac, c70_size_partial _ _ _ _ (by
        rcases hH.size k hord with h | h
        · exact .inl h
        · rw [h]; exact .inr ⟨rfl, rfl⟩), one_order hord (hw1.stride k w hwk)]
      rw [← r1]
      simp [h1]
    · rw [if_neg h1]
      have hl1 : (scanOrder f q.hdr).length ≠ 1 := by rw [hlen, ← hS1.ns]; exact h1
      have hs0 : q.hdr.ss = 0 := hss (by rw [← hS1.ns]; exact h1)
      unfold progSeveral
      simp only
      rw [if_neg (by
        rw [hS1.se]
        exact fun h => h (hleg.alone hs0)), hS1.order]
      have hcomp : ∀ k ∈ scanOrder f q.hdr, mcuComp st1.ms k = some ⟨k, f.factor k, 8 * (f.mcusAcross * (f.factor k).h)⟩ := by
        intro k hk
        obtain ⟨e, fc, _, hfc, _⟩ := order_mem hH.ok hk
        have hkn : k < f.comps.length := (List.getElem?_eq_some_iff.1 hfc).1
        obtain ⟨x, _, hx, _, _, hxh, hxv⟩ := comp_at hF1 hkn
        obtain ⟨w, hwk⟩ : ∃ w, st1.ms.work[k]? = some w := ⟨_, List.getElem?_eq_getElem (by rw [hw1.count]; exact hkn)⟩
        unfold mcuComp
        rw [hx, hwk]
        simp only
        rw [hxh, hxv, hw1.stride k w hwk]
      rw [List.map_congr_left hcomp]
      obtain ⟨r, e1, e2⟩ := allSome_map (fun k => some (McuComp.mk k (f.factor k) (8 * (f.mcusAcross * (f.factor k).h)))) (scanOrder f q.hdr)
        (fun _ _ => rfl)
      have hr : r = (scanOrder f q.hdr).map fun k => McuComp.mk k (f.factor k) (8 * (f.mcusAcross * (f.factor k).h)) := by
        apply List.ext_getElem?
        intro i
        rw [e2, List.getElem?_map]
        cases (scanOrder f q.hdr)[i]? <;> rfl
      rw [e1]
      simp only
      rw [if_pos (by
        rw [List.all_eq_true]
        intro k hk
        obtain ⟨u, u1, -⟩ := table_at hF1 hS1 hH hht hss hk
        unfold tableOf at u1
        cases hx : st1.ms.d.comps[k]? with
        | none => rw [hx] at u1; cases u1
        | some x =>
          rw [hx, Option.bind_some, if_pos (by simp [h1])] at u1
          simp [u1]), hr, hF1.width, hF1.height, hF1.fac]
      have := several_order (f := f) (c := q.hdr) hl1 (fun k => 8 * (f.mcusAcross * (f.factor k).h)) (fun _ => rfl)
      unfold Seg.Frame.mcusAcross Seg.Frame.mcusDown at this
      unfold Seg.Frame.mcusAcross
      rw [this, ← r1]
      simp [h1]
  · exact r6 h1 h2 (by simp [PScan.spec, h3]) m1 m2

end Zune.Jpeg
