import Verif.Jpeg.ProgDriver
import Verif.Jpeg.ProgFileSpec
import Verif.Jpeg.McuScan

/-!
# zune-jpeg: one scan of a progressive file (lemmas)

The blocks of an interval as `ProgScan.loop` decodes them, the countdown, the restart markers.
-/

namespace Zune.Jpeg

open Zune.Canon Seg

/-- The table that the blocks of component `k` are decoded with. -/
def tableOf (one : Bool) (d : Hdr) (k : Nat) : Option Huff :=
  d.comps[k]?.bind fun c => if one = false then d.dc c.td else if d.ss = 0 then d.dc (c.td % 4) else d.ac c.ta

/-- The parameters of the scan. -/
def scanOf (one : Bool) (d : Hdr) : ProgScan :=
  { ss := if one then d.ss else 0, se := d.se, al := d.al, refine := decide (d.ah ≠ 0)
    dc := fun k => (tableOf one d k).getD default, ac := fun k => (tableOf one d k).getD default }

/-- The components without their predictions. -/
def zeroed (work : List Work) : List Work := work.map fun w => { w with pred := 0 }

/-- The prediction of component `k`. -/
def predOf (work : List Work) (k : Nat) : I32 := work[k]?.elim 0 (·.pred)

theorem predOf_set (work : List Work) (k : Nat) (w : Work) (hw : work[k]? = some w) (v : I32) :
    predOf (work.set k { w with pred := v }) = fun c => if c = k then v else predOf work c := by
  funext c
  unfold predOf
  rw [List.getElem?_set]
  by_cases h : k = c
  · subst h
    rw [if_pos rfl, if_pos rfl, if_pos (List.getElem?_eq_some_iff.1 hw).1]
    rfl
  · rw [if_neg h, if_neg (fun e => h e.symm)]

theorem zeroed_set (work : List Work) (k : Nat) (w : Work) (hw : work[k]? = some w) (v : I32) :
    zeroed (work.set k { w with pred := v }) = zeroed work := by
  unfold zeroed
  apply List.ext_getElem?
  intro c
  rw [List.getElem?_map, List.getElem?_map, List.getElem?_set]
  by_cases h : k = c
  · subst h
    rw [if_pos rfl, if_pos (List.getElem?_eq_some_iff.1 hw).1, hw]
    rfl
  · rw [if_neg h]

theorem block_table (p q : ProgScan) (c : Nat) (pred : I32) (b : Nat → I16) (s : Bs) (h1 : p.ss = q.ss) (h2 : p.se = q.se) (h3 : p.al = q.al)
    (h4 : p.refine = q.refine) (h5 : p.dc c = q.dc c) (h6 : p.ac c = q.ac c) : p.block c pred b s = q.block c pred b s := by
  have hb : p.band = q.band := by unfold ProgScan.band; rw [h1, h2, h3]
  unfold ProgScan.block
  rw [h1, h4, h5, h6, hb]

/-- A block as `ProgScan.block` decodes it. -/
theorem block_sim (one : Bool) (len : Nat → Nat) (st : QState) (a : Addr) (ht : (tableOf one st.ms.d a.1).isSome)
    (hl : 64 * a.2 + 64 ≤ len a.1) (hw : st.ms.work.length = st.ms.d.comps.length) {v b bs}
    (h : (scanOf one st.ms.d).block a.1 (predOf st.ms.work a.1) (st.buf a) st.ms.bs = .ok (v, b, bs)) :
    ∃ st', progBlock one len st a = .ok st' ∧ st'.ms.d = st.ms.d ∧ st'.ms.bs = bs ∧ zeroed st'.ms.work = zeroed st.ms.work ∧
      predOf st'.ms.work = (fun c => if c = a.1 then v else predOf st.ms.work c) ∧
      st'.buf = fun x => if x = a then b else st.buf x := by
  obtain ⟨t, ht⟩ := Option.isSome_iff_exists.1 ht
  have ht' := ht
  unfold tableOf at ht'
  rw [Option.bind_eq_some_iff] at ht'
  obtain ⟨c, hc, hct⟩ := ht'
  have hk : a.1 < st.ms.work.length := by rw [hw]; exact (List.getElem?_eq_some_iff.1 hc).1
  have hwk : st.ms.work[a.1]? = some st.ms.work[a.1] := List.getElem?_eq_getElem hk
  generalize st.ms.work[a.1] = w at hwk
  have hp : predOf st.ms.work a.1 = w.pred := by unfold predOf; rw [hwk]; rfl
  rw [hp] at h
  unfold progBlock
  rw [hc, hwk]
  simp only
  by_cases he : one = true ∧ st.ms.d.ss ≠ 0 ∧ st.ms.d.ah = 0 ∧ 0 < st.ms.bs.eobRun
  · rw [if_pos he]
    obtain ⟨e1, e2, e3, e4⟩ := he
    unfold ProgScan.block at h
    rw [if_pos ⟨by unfold scanOf; rw [e1]; exact e2, by unfold scanOf; simp [e3], e4⟩, Except.ok.injEq, Prod.mk.injEq, Prod.mk.injEq] at h
    obtain ⟨rfl, rfl, rfl⟩ := h
    refine ⟨_, rfl, rfl, rfl, rfl, ?_, ?_⟩
    · funext k
      by_cases hka : k = a.1
      · rw [if_pos hka, hka]; exact hp
      · rw [if_neg hka]
    · funext x
      by_cases hx : x = a
      · rw [if_pos hx, hx]
      · rw [if_neg hx]
  · rw [if_neg he, if_neg (by omega), hct]
    simp only
    rw [block_table (scanOf one st.ms.d) { ss := if one = true then st.ms.d.ss else 0, se := st.ms.d.se, al := st.ms.d.al, refine := decide (st.ms.d.ah ≠ 0), dc := fun _ => t, ac := fun _ => t }
      a.1 w.pred (st.buf a) st.ms.bs rfl rfl rfl rfl (by simp [scanOf, ht]) (by simp [scanOf, ht])] at h
    rw [h]
    simp only
    rw [if_pos hl]
    exact ⟨_, rfl, rfl, rfl, zeroed_set _ _ _ hwk v, predOf_set _ _ _ hwk v, rfl⟩

/-- The blocks of a list, the loop over them and others being successful. -/
theorem blocks_sim (one : Bool) (len : Nat → Nat) (l2 : List Addr) {r} (l : List Addr) : ∀ (st : QState),
    (∀ a ∈ l, (tableOf one st.ms.d a.1).isSome ∧ 64 * a.2 + 64 ≤ len a.1) → st.ms.work.length = st.ms.d.comps.length →
    (scanOf one st.ms.d).loop (l ++ l2) (predOf st.ms.work) st.buf st.ms.bs = .ok r →
    ∃ st', l.foldlM (progBlock one len) st = .ok st' ∧ st'.ms.d = st.ms.d ∧ zeroed st'.ms.work = zeroed st.ms.work ∧
      (scanOf one st.ms.d).loop l2 (predOf st'.ms.work) st'.buf st'.ms.bs = .ok r := by
  induction l with
  | nil => exact fun st _ _ h => ⟨st, rfl, rfl, rfl, h⟩
  | cons a l ih =>
    intro st hall hw h
    rw [List.cons_append, ProgScan.loop] at h
    split at h
    · cases h
    · rename_i v b bs hb
      obtain ⟨st1, a1, a2, a3, a4, a5, a6⟩ := block_sim one len st a (hall a (by simp)).1 (hall a (by simp)).2 hw hb
      have hw1 : st1.ms.work.length = st1.ms.d.comps.length := by
        rw [a2, ← hw]
        have := congrArg List.length a4
        simpa [zeroed] using this
      obtain ⟨st2, b1, b2, b3, b4⟩ := ih st1 (fun x hx => by rw [a2]; exact hall x (by simp [hx])) hw1 (by rw [a2, a3, a5, a6]; exact h)
      refine ⟨st2, ?_, b2.trans a2, b3.trans a4, by rw [← a2]; exact b4⟩
      rw [List.foldlM_cons, a1]
      exact b1

theorem scanOf_todo (one : Bool) (d : Hdr) (n : Nat) : scanOf one { d with todo := n } = scanOf one d := rfl

/-- MCUs that are not the last of their interval. -/
theorem mcus_sim (one : Bool) (len : Nat → Nat) (l2 : List Addr) {r} (l : List (List Addr)) : ∀ (st : QState),
    (∀ a ∈ l.flatten, (tableOf one st.ms.d a.1).isSome ∧ 64 * a.2 + 64 ≤ len a.1) → st.ms.work.length = st.ms.d.comps.length →
    l.length < st.ms.d.todo → st.ms.d.todo < 2 ^ 64 →
    (scanOf one st.ms.d).loop (l.flatten ++ l2) (predOf st.ms.work) st.buf st.ms.bs = .ok r →
    ∃ st', l.foldlM (progMcu one len) st = .ok st' ∧ st'.ms.d = { st.ms.d with todo := st.ms.d.todo - l.length } ∧
      zeroed st'.ms.work = zeroed st.ms.work ∧
      (scanOf one st.ms.d).loop l2 (predOf st'.ms.work) st'.buf st'.ms.bs = .ok r := by
  induction l with
  | nil => exact fun st _ _ _ _ h => ⟨st, rfl, rfl, rfl, h⟩
  | cons x l ih =>
    intro st hall hw ht h64 h
    rw [List.flatten_cons, List.append_assoc] at h
    rw [List.flatten_cons] at hall
    rw [List.length_cons] at ht
    obtain ⟨st1, a1, a2, a3, a4⟩ := blocks_sim one len (l.flatten ++ l2) x st (fun a ha => hall a (by simp [ha])) hw h
    have hcd : countDown st1.ms = { st1.ms with d := { st.ms.d with todo := st.ms.d.todo - 1 } } := by
      obtain ⟨t, ht', hc⟩ := countDown_eq st1.ms
      rw [hc, ht', a2, show (st.ms.d.todo + 2 ^ 64 - 1) % 2 ^ 64 = st.ms.d.todo - 1 by omega]
    have hmcu : progMcu one len st x = .ok { st1 with ms := { st1.ms with d := { st.ms.d with todo := st.ms.d.todo - 1 } } } := by
      unfold progMcu
      rw [a1]
      simp only
      unfold progAfter
      rw [if_neg (by rw [a2]; omega), hcd]
      simp only
      rw [if_neg (by omega)]
    have hw1 : st1.ms.work.length = st.ms.d.comps.length := by
      rw [← hw]
      have := congrArg List.length a3
      simpa [zeroed] using this
    obtain ⟨st2, b1, b2, b3, b4⟩ := ih { st1 with ms := { st1.ms with d := { st.ms.d with todo := st.ms.d.todo - 1 } } }
      (fun a ha => hall a (by simp [ha])) hw1 (by simp only; omega) (by simp only; omega) a4
    refine ⟨st2, ?_, ?_, b3.trans a3, b4⟩
    · rw [List.foldlM_cons, hmcu]
      exact b1
    · rw [b2, List.length_cons]
      simp only
      rw [show st.ms.d.todo - 1 - l.length = st.ms.d.todo - (l.length + 1) by omega]

/-! ## Intervals -/

/-- The scan `P`, restricted to the blocks `l`. -/
def ScanSpec.on (P : ScanSpec) (l : List Addr) : ScanSpec := { P with order := l }

theorem zeroed_length {a b : List Work} (h : zeroed a = zeroed b) : a.length = b.length := by
  have := congrArg List.length h
  simpa [zeroed] using this

theorem predOf_zeroed (work : List Work) : predOf (zeroed work) = fun _ => 0 := by
  funext k
  unfold predOf zeroed
  rw [List.getElem?_map]
  cases work[k]? <;> rfl

theorem zeroed_idem (work : List Work) : zeroed (zeroed work) = zeroed work := by
  unfold zeroed
  rw [List.map_map]
  rfl

/-- The state at the start of an interval: the bits of the interval, the predictions zero, the coefficients as sent. -/
structure Starts (one : Bool) (len : Nat → Nat) (P : ScanSpec) (z : Addr → Nat → Int) (st : QState) (sent : Sent)
    (l : List (List Addr)) (bits pad : List Bool) (e : UInt8 × List UInt8) : Prop where
  read : (P.on l.flatten).Read (scanOf one st.ms.d)
  legal : (P.on l.flatten).Legal sent
  sends : (P.on l.flatten).Sends z bits
  str : Str st.ms.bs (bits ++ pad) (some e)
  run : st.ms.bs.eobRun = 0
  pred : predOf st.ms.work = fun _ => 0
  knows : Knows sent z st.buf
  all : ∀ a ∈ l.flatten, (tableOf one st.ms.d a.1).isSome ∧ 64 * a.2 + 64 ≤ len a.1
  shape : st.ms.work.length = st.ms.d.comps.length
  todo : st.ms.d.todo < 2 ^ 64

variable {one : Bool} {len : Nat → Nat} {P : ScanSpec} {z : Addr → Nat → Int} (hz : ∀ a k, (z a k).natAbs < 2 ^ 15)
include hz

/-- An interval shorter than the restart interval. -/
theorem interval_short {st sent l bits pad e} (h : Starts one len P z st sent l bits pad e) (hl : l.length < st.ms.d.todo) :
    ∃ st', l.foldlM (progMcu one len) st = .ok st' ∧ st'.ms.d = { st.ms.d with todo := st.ms.d.todo - l.length } ∧
      zeroed st'.ms.work = zeroed st.ms.work ∧ Knows ((P.on l.flatten).after sent) z st'.buf ∧ Str st'.ms.bs pad (some e) ∧
      (scanOf one st.ms.d).loop l.flatten (fun _ => 0) st.buf st.ms.bs = .ok (st'.buf, st'.ms.bs) := by
  obtain ⟨s', a1, a2⟩ := scan_loop _ _ h.read sent h.legal z hz bits h.sends h.str h.run st.buf h.knows
  have hlp : (scanOf one st.ms.d).loop (l.flatten ++ []) (predOf st.ms.work) st.buf st.ms.bs = .ok
      (written (P.on l.flatten).ss (fun a => ((P.on l.flatten).part (z a)).map (nowAt (P.on l.flatten).al)) (P.on l.flatten).order st.buf, s') := by
    rw [List.append_nil, h.pred]
    exact a1
  obtain ⟨st', b1, b2, b3, b4⟩ := mcus_sim one len [] l st h.all h.shape hl h.todo hlp
  rw [ProgScan.loop, Except.ok.injEq, Prod.mk.injEq] at b4
  obtain ⟨b4, b5⟩ := b4
  refine ⟨st', b1, b2, b3, ?_, by rw [b5]; exact a2, ?_⟩
  · rw [b4]
    exact knows_written _ sent h.legal z st.buf h.knows
  · rw [b4, b5]
    exact a1

/-- A whole interval, up to the restart marker or EOI. -/
theorem interval_full {st sent l bits pad m r} (h : Starts one len P z st sent l bits pad (m, r)) (hl : l.length = st.ms.d.todo)
    (hne : l ≠ []) (hR : st.ms.d.restart ≠ 0) (hm : isRst m = true ∨ m = 0xD9) :
    ∃ st', l.foldlM (progMcu one len) st = .ok st' ∧ st'.ms.d = { st.ms.d with todo := st.ms.d.restart } ∧
      zeroed st'.ms.work = zeroed st.ms.work ∧ Knows ((P.on l.flatten).after sent) z st'.buf ∧
      (isRst m = true → st'.ms.bs = Bs.new r ∧ predOf st'.ms.work = fun _ => 0) ∧
      (m = 0xD9 → st'.ms.bs.marker = some m ∧ st'.ms.bs.rest = r ∧ st'.ms.bs.over = 0 ∧ st'.ms.bs.seenEoi = false) := by
  obtain ⟨s', a1, a2⟩ := scan_loop _ _ h.read sent h.legal z hz bits h.sends h.str h.run st.buf h.knows
  obtain ⟨l0, x, rfl⟩ : ∃ l0 x, l = l0 ++ [x] := ⟨l.dropLast, l.getLast hne, (List.dropLast_append_getLast hne).symm⟩
  have hf : (l0 ++ [x]).flatten = l0.flatten ++ x := by simp
  generalize hW : written (P.on (l0 ++ [x]).flatten).ss (fun a => ((P.on (l0 ++ [x]).flatten).part (z a)).map
    (nowAt (P.on (l0 ++ [x]).flatten).al)) (P.on (l0 ++ [x]).flatten).order st.buf = W at a1
  have hk : Knows ((P.on (l0 ++ [x]).flatten).after sent) z W := by
    rw [← hW]
    exact knows_written _ sent h.legal z st.buf h.knows
  have hlp : (scanOf one st.ms.d).loop (l0.flatten ++ x) (predOf st.ms.work) st.buf st.ms.bs = .ok (W, s') := by
    rw [h.pred]
    have := a1
    unfold ScanSpec.on at this
    simp only at this
    rwa [hf] at this
  have hall := h.all
  rw [hf] at hall
  rw [List.length_append, List.length_singleton] at hl
  have htodo := h.todo
  obtain ⟨st1, b1, b2, b3, b4⟩ := mcus_sim one len x l0 st (fun a ha => hall a (by simp [ha])) h.shape (by omega) htodo hlp
  have hsc : scanOf one st1.ms.d = scanOf one st.ms.d := by rw [b2]; rfl
  obtain ⟨st2, c1, c2, c3, c4⟩ := blocks_sim one len [] x st1 (fun a ha => by
      rw [b2]
      exact hall a (by simp [ha])) (by rw [b2, zeroed_length b3]; exact h.shape) (by rw [List.append_nil, hsc]; exact b4)
  rw [ProgScan.loop, Except.ok.injEq, Prod.mk.injEq] at c4
  obtain ⟨c4, c5⟩ := c4
  have hd2 : st2.ms.d = { st.ms.d with todo := 1 } := by rw [c2, b2, show st.ms.d.todo - l0.length = 1 by omega]
  have hcd : countDown st2.ms = { st2.ms with d := { st.ms.d with todo := 0 } } := by
    obtain ⟨t, ht', hc⟩ := countDown_eq st2.ms
    have h1 : st2.ms.d.todo = 1 := by rw [hd2]
    have ht0 : t = 0 := by rw [ht', h1]; norm_num
    rw [hc, ht0, hd2]
  obtain ⟨bs1, d1, d2, _⟩ := str_refill (s := st2.ms.bs) (by rw [c5]; exact a2)
  obtain ⟨bs2, e1, e2, e3, e4, e5⟩ := seekRst_str (ms := { st2.ms with d := { st.ms.d with todo := 0 }, bs := bs1 }) d2 hR
  have hmain : ∀ ms', handleRst { st2.ms with d := { st.ms.d with todo := 0 }, bs := bs2 } = .ok ms' →
      (l0 ++ [x]).foldlM (progMcu one len) st = .ok { st2 with ms := ms' } := by
    intro ms' hh
    rw [List.foldlM_append, b1]
    show [x].foldlM (progMcu one len) st1 = _
    rw [List.foldlM_cons]
    have : progMcu one len st1 x = .ok { st2 with ms := ms' } := by
      unfold progMcu
      rw [c1]
      simp only
      unfold progAfter
      rw [if_neg (by rw [hd2]; simp), hcd]
      simp only
      rw [if_pos trivial]
      unfold handleRstMain
      simp only
      rw [d1]
      simp only
      rw [e1]
      simp only
      rw [hh]
    rw [this]
    rfl
  by_cases hrst : isRst m = true
  · have hh : handleRst { st2.ms with d := { st.ms.d with todo := 0 }, bs := bs2 } =
        .ok { st2.ms with d := { st.ms.d with todo := st.ms.d.restart }, bs := bs2.reset, work := zeroed st2.ms.work } := by
      unfold handleRst
      simp only
      rw [e2]
      simp only
      rw [if_pos hrst]
      rfl
    refine ⟨_, hmain _ hh, rfl, ?_, ?_, fun _ => ⟨?_, predOf_zeroed _⟩, ?_⟩
    · show zeroed (zeroed _) = _
      rw [zeroed_idem, c3, b3]
    · show Knows _ z st2.buf
      rw [c4]
      exact hk
    · show bs2.reset = _
      rw [reset_new e4 e5, e3]
    · rintro rfl
      exact absurd hrst (by decide)
  · have h9 : m = 0xD9 := hm.resolve_left hrst
    have hh : handleRst { st2.ms with d := { st.ms.d with todo := 0 }, bs := bs2 } =
        .ok { st2.ms with d := { st.ms.d with todo := st.ms.d.restart }, bs := bs2 } := by
      unfold handleRst
      simp only
      rw [e2]
      simp only
      rw [if_neg hrst, if_pos h9]
    refine ⟨_, hmain _ hh, rfl, c3.trans b3, ?_, fun h => absurd h hrst, fun _ => ⟨e2, e3, e4, e5⟩⟩
    show Knows _ z st2.buf
    rw [c4]
    exact hk

omit hz

/-! ## The end of the first scan -/

theorem decodeDc_marker {s t : Bs} {V : List Bool} {e} {T : Huff} {p q : I32} (h : Str s V (some e)) (hv : V.length < 32)
    (hd : s.decodeDc T p = .ok (q, t)) : t.marker.isSome = true := by
  by_cases hm : s.marker.isSome = true
  · rw [(decodeDc_ack hm hd).2]
    exact hm
  · have hm' : s.marker = none := by simpa using hm
    have ho : s.over = 0 := (str_marker (m := e.1) (r := e.2) h).1
    obtain ⟨⟨bs, hi, hf⟩, hfin, hk⟩ := h
    obtain ⟨k, hall, hk0⟩ := hf.all
    have hlen := congrArg List.length hall
    rw [List.length_append, List.length_append, hk0 hm' ho] at hlen
    simp only [zeros, List.length_replicate] at hlen
    have hleft : s.left < 32 := by rw [hi.buf.left]; omega
    obtain ⟨s1, bs1, a1, a2, a3, a4, a5⟩ := refill_ok s bs V hi hf (by rw [hfin]; exact hk)
    have hm1 : s1.marker.isSome = true := by
      by_contra hn
      have hn' : s1.marker = none := by simpa using hn
      have ho1 : s1.over = 0 := (str_marker (m := e.1) (r := e.2) ⟨⟨bs1, a2, a3⟩, by rw [a4, hfin], hk⟩).1
      obtain ⟨k1, hall1, hk1⟩ := a3.all
      have hlen1 := congrArg List.length hall1
      rw [List.length_append, List.length_append, hk1 hn' ho1] at hlen1
      simp only [zeros, List.length_replicate] at hlen1
      rcases a5 with a5 | a5
      · omega
      · exact hn a5.1
    unfold Bs.decodeDc at hd
    rw [if_pos hleft, a1] at hd
    simp only at hd
    split at hd
    · cases hd
    · rename_i sym s2 h2
      have hm2 : s2.marker.isSome = true := by rw [(huff_ack h2).2]; exact hm1
      split at hd
      · cases hd
        exact hm2
      · cases hd
        exact hm2

theorem dc_loop_marker (d : ProgScan) (al : Nat) (hal : al ≤ 13) (hda : d.al = al) (h0 : d.ss = 0)
    (hr : d.refine = false) {cnt vals : Nat → Nat → Nat} (hz : ∀ c, cnt c 0 = 0)
    (hv : ∀ c i, vals c i < 256) (q : Addr → Int) (l : List Addr) (prev : Nat → Int)
    {bits V : List Bool} (hb : DcSends cnt vals q prev l bits)
    (ht : ∀ a ∈ l, Huff.new (cnt a.1) (vals a.1) true = .ok (d.dc a.1))
    {s : Bs} {e} (h : Str s (bits ++ V) (some e)) (frame : Addr → Nat → I16) (hne : l ≠ [])
    (hlast : ∀ l1 a b1 b2, l = l1 ++ [a] → bits = b1 ++ b2 → DcSends cnt vals q prev l1 b1 → b2.length + V.length < 32)
    {F s'} (hloop : d.loop l (fun c => BitVec.ofInt 32 (prev c)) frame s = .ok (F, s')) : s'.marker.isSome = true := by
  induction hb generalizing s frame with
  | nil => exact absurd rfl hne
  | cons prev a l code bits h15 hc hb ih =>
    obtain ⟨g, _⟩ := good_of_new (ht a (by simp)) (hz a.1)
    have h' := h
    rw [List.append_assoc] at h
    obtain ⟨s1, a1, a2⟩ := decodeDc_ok g (hv a.1) hc (category_le _ h15) (magnitude_lt _) h
      (BitVec.ofInt 32 (prev a.1))
    have a1' := a1
    rw [extend_magnitude, ← BitVec.ofInt_add, show prev a.1 + (q a - prev a.1) = q a by omega] at a1
    have hblk : d.block a.1 (BitVec.ofInt 32 (prev a.1)) (frame a) s =
        .ok (BitVec.ofInt 32 (q a), setBand (frame a) 0 [nowAt al (q a)], s1) := by
      unfold ProgScan.block
      rw [if_neg (by simp [h0]), if_pos h0, hr, if_neg (by simp), Bs.progDcFirst, a1]
      simp only [Except.map, ProgScan.band, hda, shift_mask al hal, setWidth_ofInt, nowAt_mul]
      rfl
    rw [loop_cons d a l (fun c => BitVec.ofInt 32 (prev c)) frame s s1 _ _ hblk] at hloop
    cases l with
    | nil =>
      rw [ProgScan.loop, Except.ok.injEq, Prod.mk.injEq] at hloop
      rw [← hloop.2]
      refine decodeDc_marker h' ?_ a1'
      rw [List.length_append]
      exact hlast [] a [] _ rfl rfl (.nil _)
    | cons a' l =>
      refine ih (fun x hx => ht x (by simp [hx])) a2
        (fun x => if x = a then setBand (frame a) 0 [nowAt al (q a)] else frame x) (by simp) ?_ ?_
      · intro l1 x b1 b2 e1 e2 hs
        exact hlast (a :: l1) x _ b2 (by rw [e1]; rfl) (by rw [e2, ← List.append_assoc]) (.cons prev a l1 code b1 h15 hc hs)
      · rw [← hloop]
        congr 1
        funext c
        simp only
        split <;> rfl

/-! ## The data of a scan -/

/-- The reader at the end of a scan: the marker is noted or the next to be found. -/
structure Ends (bs : Bs) (m : UInt8) (r : List UInt8) : Prop where
  over : bs.over = 0
  eoi : bs.seenEoi = false
  next : (bs.marker = some m ∧ bs.rest = r) ∨ (bs.marker = none ∧ seekMarker false bs.rest = some (m, r))

theorem ends_str {bs : Bs} {V m r} (h : Str bs V (some (m, r))) : Ends bs m r := by
  obtain ⟨a, b, c, d⟩ := str_marker h
  refine ⟨a, b, ?_⟩
  cases hm : bs.marker with
  | some m' =>
    obtain ⟨rfl, e⟩ := c m' hm
    exact .inl ⟨rfl, e⟩
  | none => exact .inr ⟨rfl, d hm⟩

theorem ends_get {bs : Bs} {m r} (h : Ends bs m r) :
    ∃ bs', getMarker bs = (some m, bs') ∧ bs'.rest = r ∧ bs'.over = 0 ∧ bs'.seenEoi = false ∧ bs'.marker = none := by
  unfold getMarker
  rcases h.next with ⟨a, b⟩ | ⟨a, b⟩
  · rw [a]
    exact ⟨_, rfl, b, h.over, h.eoi, rfl⟩
  · rw [a, b]
    exact ⟨_, rfl, rfl, h.over, h.eoi, rfl⟩

theorem on_nil (P : ScanSpec) (sent : Sent) : (P.on []).after sent = sent := by
  funext a k
  unfold ScanSpec.after ScanSpec.on
  simp

theorem on_append (P : ScanSpec) (l1 l2 : List Addr) (sent : Sent) :
    (P.on (l1 ++ l2)).after sent = (P.on l2).after ((P.on l1).after sent) := by
  funext a k
  unfold ScanSpec.after ScanSpec.on
  simp only [List.mem_append]
  by_cases h1 : a ∈ l1 <;> by_cases h2 : a ∈ l2 <;> by_cases h3 : P.ss ≤ k ∧ k ≤ P.se <;> simp [h1, h2, h3]

theorem legal_left {P : ScanSpec} {l1 l2 : List Addr} {sent : Sent} (h : (P.on (l1 ++ l2)).Legal sent) : (P.on l1).Legal sent :=
  ⟨h.band, h.last, h.alone, h.single, h.low, (List.nodup_append.1 h.once).1, fun a ha => h.next a (List.mem_append_left _ ha)⟩

theorem legal_right {P : ScanSpec} {l1 l2 : List Addr} {sent : Sent} (h : (P.on (l1 ++ l2)).Legal sent) :
    (P.on l2).Legal ((P.on l1).after sent) := by
  refine ⟨h.band, h.last, h.alone, h.single, h.low, (List.nodup_append.1 h.once).2.1, fun a ha k h1 h2 => ?_⟩
  have hd := (List.nodup_append.1 h.once).2.2
  have : a ∉ l1 := fun hc => hd a hc a ha rfl
  unfold ScanSpec.after
  rw [if_neg (fun hc => this hc.1)]
  exact h.next a (List.mem_append_right _ ha) k h1 h2

theorem read_left {P : ScanSpec} {l1 l2 : List Addr} {d : ProgScan} (h : (P.on (l1 ++ l2)).Read d) : (P.on l1).Read d :=
  ⟨h.ss, h.se, h.al, h.refine, h.zero, h.vals, fun a ha => h.tables a (List.mem_append_left _ ha)⟩

theorem read_right {P : ScanSpec} {l1 l2 : List Addr} {d : ProgScan} (h : (P.on (l1 ++ l2)).Read d) : (P.on l2).Read d :=
  ⟨h.ss, h.se, h.al, h.refine, h.zero, h.vals, fun a ha => h.tables a (List.mem_append_right _ ha)⟩

/-- The bits of an interval, and the condition on the last block of the first scan. -/
def Bits (P : ScanSpec) (z : Addr → Nat → Int) (first last : Bool) (l : List Addr) (bits pad : List Bool) : Prop :=
  (P.on l).Sends z bits ∧ (first = true → last = true → ∀ l1 a b1 b2, l = l1 ++ [a] → bits = b1 ++ b2 →
    (P.on l1).Sends z b1 → b2.length + pad.length < 32)

theorem sends_eq (f : Seg.Frame) (q : PScan) (z : Addr → Nat → Int) (first : Bool) : q.Sends f z first = Bits (q.spec f) z first := rfl

/-- The data of a scan, followed by the marker `M`. -/
theorem scan_data {one : Bool} {len : Nat → Nat} {P : ScanSpec} {z : Addr → Nat → Int} (hz : ∀ a k, (z a k).natAbs < 2 ^ 15)
    {first eoi : Bool} {R n : Nat} {M : UInt8} {tail : Bytes} (hM : knownMarker M = true) (heoi : eoi = true → M = 0xD9)
    {m : Nat} {l : List (List Addr)} {bytes : Bytes} (hp : PData (Bits P z first) R eoi m l bytes) : ∀ (st : QState) (sent : Sent),
    (P.on l.flatten).Read (scanOf one st.ms.d) → (P.on l.flatten).Legal sent →
    st.ms.bs = Bs.new (bytes ++ (0xFF :: List.replicate n 0xFF ++ M :: tail)) → predOf st.ms.work = (fun _ => 0) →
    Knows sent z st.buf → (∀ a ∈ l.flatten, (tableOf one st.ms.d a.1).isSome ∧ 64 * a.2 + 64 ≤ len a.1) →
    st.ms.work.length = st.ms.d.comps.length → st.ms.d.restart = R → R < 2 ^ 64 - 1 →
    st.ms.d.todo = (if R ≠ 0 then R else 2 ^ 64 - 1) → l.length < 2 ^ 64 - 1 →
    ∃ st' t, l.foldlM (progMcu one len) st = .ok st' ∧ st'.ms.d = { st.ms.d with todo := t } ∧
      zeroed st'.ms.work = zeroed st.ms.work ∧ Knows ((P.on l.flatten).after sent) z st'.buf ∧ Ends st'.ms.bs M tail ∧
      (first = true → P.ss = 0 → P.refine = false → (∀ x ∈ l, x ≠ []) → l ≠ [] → st'.ms.bs.marker.isSome = true) := by
  induction hp with
  | last m l data bits pad hl hs hd =>
    intro st sent hread hlegal hbs hpred hk hall hw hres hR64 htodo hlen
    rw [List.cons_append] at hbs
    have hstr : Str st.ms.bs (bits ++ pad) (some (M, tail)) := by
      have := str_segment data n M tail hM
      rw [List.append_assoc, List.cons_append] at this
      rw [hbs, ← hd]
      exact this
    have hS : Starts one len P z st sent l bits pad (M, tail) := by
      refine ⟨hread, hlegal, hs.1, hstr, by rw [hbs]; rfl, hpred, hk, hall, hw, ?_⟩
      rw [htodo]
      split <;> omega
    by_cases hc : l.length < st.ms.d.todo
    · obtain ⟨st', a1, a2, a3, a4, a5, a6⟩ := interval_short hz hS hc
      refine ⟨st', _, a1, a2, a3, a4, ends_str a5, fun hf h0 hr hx hne => ?_⟩
      have hfl : l.flatten ≠ [] := by
        obtain ⟨x, l', rfl⟩ := List.exists_cons_of_ne_nil hne
        intro hc
        exact hx x (by simp) (List.flatten_eq_nil_iff.1 hc x (by simp))
      have hsd := hs.1
      unfold ScanSpec.Sends at hsd
      rw [if_pos (show (P.on l.flatten).ss = 0 from h0), if_neg (by simpa using (show (P.on l.flatten).refine = false from hr))] at hsd
      refine dc_loop_marker _ P.al hlegal.low hread.al (by rw [hread.ss]; exact h0) (by rw [hread.refine]; exact hr) hread.zero
        hread.vals _ _ _ hsd (fun a ha => ?_) hstr st.buf hfl ?_ a6
      · have := hread.tables a ha
        rw [if_pos (show (P.on l.flatten).ss = 0 from h0)] at this
        exact this hr
      · intro l1 a b1 b2 e1 e2 hs1
        refine hs.2 hf rfl l1 a b1 b2 e1 e2 ?_
        unfold ScanSpec.Sends
        rw [if_pos (show (P.on l1).ss = 0 from h0), if_neg (by simpa using (show (P.on l1).refine = false from hr))]
        exact hs1
    · rw [htodo] at hc
      have hR0 : R ≠ 0 := by
        intro h0
        rw [if_neg (by simpa using h0)] at hc
        omega
      rw [if_pos hR0] at hc
      have hlR : l.length = R ∧ eoi = true := by
        rcases hl with h | h | h
        · exact absurd h hR0
        · omega
        · exact h
      have hne : l ≠ [] := by
        rintro rfl
        exact hR0 hlR.1.symm
      obtain ⟨st', a1, a2, a3, a4, a5, a6⟩ := interval_full hz hS (by rw [htodo, if_pos hR0]; exact hlR.1) hne
        (by rw [hres]; exact hR0) (.inr (heoi hlR.2))
      obtain ⟨b1, b2, b3, b4⟩ := a6 (heoi hlR.2)
      exact ⟨st', _, a1, a2, a3, a4, ⟨b3, b4, .inl ⟨b1, b2⟩⟩, fun _ _ _ _ _ => by rw [b1]; rfl⟩
  | rst m l l' data bits pad n' r hR hl hl' hs hd hr ih =>
    intro st sent hread hlegal hbs hpred hk hall hw hres hR64 htodo hlen
    rw [List.flatten_append] at hread hlegal hall
    have hbs' : st.ms.bs = Bs.new (stuff data ++ 0xFF :: List.replicate n' 0xFF ++ rstMarker m ::
        (r ++ (0xFF :: List.replicate n 0xFF ++ M :: tail))) := by
      rw [hbs]
      simp only [List.append_assoc, List.cons_append]
    have hS : Starts one len P z st sent l bits pad (rstMarker m, r ++ (0xFF :: List.replicate n 0xFF ++ M :: tail)) := by
      refine ⟨read_left hread, legal_left hlegal, hs.1, ?_, by rw [hbs']; rfl, hpred, hk, fun a ha => hall a (by simp [ha]), hw, ?_⟩
      · rw [hbs', ← hd]
        exact str_segment data n' (rstMarker m) _ (rst_known m).1
      · rw [htodo]
        split <;> omega
    have hne : l ≠ [] := by
      rintro rfl
      exact hR hl.symm
    obtain ⟨st1, a1, a2, a3, a4, a5, a6⟩ := interval_full hz hS (by rw [htodo, if_pos hR]; exact hl) hne (by rw [hres]; exact hR)
      (.inl (rst_known m).2.1)
    obtain ⟨a5, a7⟩ := a5 (rst_known m).2.1
    obtain ⟨st2, t, b1, b2, b3, b4, b5, b6⟩ := ih st1 ((P.on l.flatten).after sent) (by rw [a2]; exact read_right hread)
      (legal_right hlegal) a5 a7 a4 (fun a ha => by rw [a2]; exact hall a (by simp [ha])) (by rw [a2, zeroed_length a3]; exact hw)
      (by rw [a2]; exact hres) hR64 (by rw [a2, if_pos hR]; exact hres) (by rw [List.length_append] at hlen; omega)
    refine ⟨st2, t, ?_, ?_, b3.trans a3, ?_, b5, ?_⟩
    · rw [List.foldlM_append, a1]
      exact b1
    · rw [b2, a2]
    · rw [List.flatten_append, on_append]
      exact b4
    · intro hf h0 hr hx _
      exact b6 hf h0 hr (fun x hx' => hx x (by simp [hx'])) hl'

end Zune.Jpeg
