import Verif.Jpeg.Prog

/-!
# zune-jpeg: progressive scans (properties)
-/

namespace Zune.Jpeg

open Zune.Canon

/-! ## Specification: what the scans of a progressive image send (T.81, annex G) -/

/-- The coefficient `k` (in zig-zag order) down to its bit `al` (T.81, G.1.2.1): shifted for the DC
coefficient, divided towards zero for the others. -/
def level (k al : Nat) (v : Int) : Int := if k = 0 then v / 2 ^ al else v.tdiv (2 ^ al)

/-- A scan as the standard has it: band, bit position, first or not, and the counts and symbols of
the tables of each component. -/
structure ScanSpec where
  /-- First coefficient. -/
  ss : Nat
  /-- Last coefficient. -/
  se : Nat
  /-- Bit position. -/
  al : Nat
  /-- Whether earlier scans sent the higher bits. -/
  refine : Bool
  /-- Whether the scan has one component. -/
  one : Bool
  /-- Counts of the table of each component. -/
  cnt : Nat → Nat → Nat
  /-- Symbols of the table of each component. -/
  vals : Nat → Nat → Nat
  /-- The blocks, in the order in which they are sent. -/
  order : List Addr

/-- The part of the coefficients `z` of a block that a scan sends. -/
def ScanSpec.part (p : ScanSpec) (z : Nat → Int) : List Int :=
  (List.range (p.se + 1 - p.ss)).map fun i => level (p.ss + i) p.al (z (p.ss + i))

/-- First DC scan: the differences of the levels, each component's on their own. -/
inductive DcSends (cnt vals : Nat → Nat → Nat) (q : Addr → Int) :
    (Nat → Int) → List Addr → List Bool → Prop
  | nil (prev : Nat → Int) : DcSends cnt vals q prev [] []
  | cons (prev : Nat → Int) (a : Addr) (l : List Addr) (code bits : List Bool) :
      (q a - prev a.1).natAbs < 2 ^ 15 →
      IsCode (cnt a.1) (vals a.1) (category (q a - prev a.1)) code →
      DcSends cnt vals q (fun c => if c = a.1 then q a else prev c) l bits →
      DcSends cnt vals q prev (a :: l)
        (code ++ toBits (category (q a - prev a.1)) (magnitude (q a - prev a.1)) ++ bits)

/-- First AC scan; the number is that of the blocks that the end-of-band run still covers. -/
inductive FirstSends (cnt vals : Nat → Nat → Nat) (q : Addr → List Int) :
    Nat → List Addr → List Bool → Prop
  | nil : FirstSends cnt vals q 0 [] []
  | skip (n : Nat) (a : Addr) (l : List Addr) (bits : List Bool) : (∀ v ∈ q a, v = 0) →
      FirstSends cnt vals q n l bits → FirstSends cnt vals q (n + 1) (a :: l) bits
  | block (n : Nat) (a : Addr) (l : List Addr) (now bits : List Bool) :
      FirstBits (cnt a.1) (vals a.1) (q a) now n → FirstSends cnt vals q n l bits →
      FirstSends cnt vals q 0 (a :: l) (now ++ bits)

/-- AC refinement scan; a block covered by an end-of-band run sends its correction bits only. -/
inductive RefineSends (cnt vals : Nat → Nat → Nat) (q : Addr → List Int) :
    Nat → List Addr → List Bool → Prop
  | nil : RefineSends cnt vals q 0 [] []
  | skip (n : Nat) (a : Addr) (l : List Addr) (bits : List Bool) : Quiet (q a) →
      RefineSends cnt vals q n l bits →
      RefineSends cnt vals q (n + 1) (a :: l) (corrs (q a) ++ bits)
  | block (n : Nat) (a : Addr) (l : List Addr) (now bits : List Bool) :
      RefBits (cnt a.1) (vals a.1) (q a) now n → RefineSends cnt vals q n l bits →
      RefineSends cnt vals q 0 (a :: l) (now ++ bits)

/-- `bits` are the bits of the scan for the coefficients `z`.  (A DC refinement scan sends the bit
`al` of each.) -/
def ScanSpec.Sends (p : ScanSpec) (z : Addr → Nat → Int) (bits : List Bool) : Prop :=
  if p.ss = 0 then
    if p.refine then bits = p.order.map fun a => decide (z a 0 / 2 ^ p.al % 2 = 1)
    else DcSends p.cnt p.vals (fun a => level 0 p.al (z a 0)) (fun _ => 0) p.order bits
  else if p.refine then RefineSends p.cnt p.vals (fun a => p.part (z a)) 0 p.order bits
  else FirstSends p.cnt p.vals (fun a => p.part (z a)) 0 p.order bits

/-- Down to which bit each coefficient of each block was sent. -/
abbrev Sent := Addr → Nat → Option Nat

/-- The scan may come after what was sent (T.81, G.1.1.1): it sends a band of AC coefficients of one
component or DC coefficients; those of a first scan were not sent before, those of a refinement
scan down to the bit before.  No block comes twice. -/
structure ScanSpec.Legal (p : ScanSpec) (sent : Sent) : Prop where
  band : p.ss ≤ p.se
  last : p.se ≤ 63
  alone : p.ss = 0 → p.se = 0
  single : p.ss ≠ 0 → p.one = true
  low : p.al ≤ 13
  once : p.order.Nodup
  next : ∀ a ∈ p.order, ∀ k, p.ss ≤ k → k ≤ p.se →
    sent a k = if p.refine then some (p.al + 1) else none

/-- What was sent after the scan. -/
def ScanSpec.after (p : ScanSpec) (sent : Sent) : Sent := fun a k =>
  if a ∈ p.order ∧ p.ss ≤ k ∧ k ≤ p.se then some p.al else sent a k

/-- The value the decoder should have for a coefficient. -/
def known (o : Option Nat) (k : Nat) (v : Int) : Int :=
  match o with
  | none => 0
  | some al => level k al v * 2 ^ al

/-- The frame holds, for each coefficient, what was sent of it, at its place on the walk along the
anti-diagonals. -/
def Knows (sent : Sent) (z : Addr → Nat → Int) (frame : Addr → Nat → I16) : Prop :=
  ∀ (a : Addr) (k : Nat) (rc : Nat × Nat), zigzagWalk[k]? = some rc →
    frame a (8 * rc.1 + rc.2) = BitVec.ofInt 16 (known (sent a k) k (z a k))

/-- The decoder's parameters for a scan, with the tables it built. -/
structure ScanSpec.Read (p : ScanSpec) (d : ProgScan) : Prop where
  ss : d.ss = p.ss
  se : d.se = p.se
  al : d.al = p.al
  refine : d.refine = p.refine
  zero : ∀ c, p.cnt c 0 = 0
  vals : ∀ c i, p.vals c i < 256
  tables : ∀ a ∈ p.order, if p.ss = 0 then
      p.refine = false → Huff.new (p.cnt a.1) (p.vals a.1) true = .ok (d.dc a.1)
    else Huff.new (p.cnt a.1) (p.vals a.1) false = .ok (d.ac a.1)

/-! ## One scan -/

theorem shift_mask (al : Nat) (h : al ≤ 13) : (1#16 <<< al : I16) = mask al := by
  unfold mask
  interval_cases al <;> decide

/-- Places in the frame that a scan writes, and what it writes there. -/
def written (ss : Nat) (w : Addr → List I16) (l : List Addr) (frame : Addr → Nat → I16) :
    Addr → Nat → I16 :=
  fun a => if a ∈ l then setBand (frame a) ss (w a) else frame a

theorem written_cons (ss : Nat) (w : Addr → List I16) (a : Addr) (l : List Addr) (h : a ∉ l)
    (frame : Addr → Nat → I16) :
    written ss w l (fun x => if x = a then setBand (frame a) ss (w a) else frame x) =
      written ss w (a :: l) frame := by
  funext x
  unfold written
  by_cases hx : x = a
  · subst hx
    simp [h]
  · simp only [List.mem_cons, hx, false_or, if_false]

theorem loop_cons (d : ProgScan) (a : Addr) (l : List Addr) (pred : Nat → I32)
    (frame : Addr → Nat → I16) (s s' : Bs) (v : I32) (b : Nat → I16)
    (h : d.block a.1 (pred a.1) (frame a) s = .ok (v, b, s')) :
    d.loop (a :: l) pred frame s =
      d.loop l (fun c => if c = a.1 then v else pred c) (fun x => if x = a then b else frame x)
        s' := by
  rw [ProgScan.loop, h]

theorem dc_loop (d : ProgScan) (al : Nat) (hal : al ≤ 13) (hda : d.al = al) (h0 : d.ss = 0)
    (hr : d.refine = false) {cnt vals : Nat → Nat → Nat} (hz : ∀ c, cnt c 0 = 0)
    (hv : ∀ c i, vals c i < 256) (q : Addr → Int) (l : List Addr) (prev : Nat → Int)
    {bits V : List Bool} (hb : DcSends cnt vals q prev l bits)
    (ht : ∀ a ∈ l, Huff.new (cnt a.1) (vals a.1) true = .ok (d.dc a.1)) (hn : l.Nodup)
    {s : Bs} {e} (h : Str s (bits ++ V) e) (frame : Addr → Nat → I16) :
    ∃ s', d.loop l (fun c => BitVec.ofInt 32 (prev c)) frame s =
      .ok (written 0 (fun a => [nowAt al (q a)]) l frame, s') ∧ Str s' V e := by
  induction hb generalizing s frame with
  | nil => exact ⟨s, rfl, h⟩
  | cons prev a l code bits h15 hc hb ih =>
    obtain ⟨hna, hnl⟩ := List.nodup_cons.1 hn
    obtain ⟨g, _⟩ := good_of_new (ht a (by simp)) (hz a.1)
    rw [List.append_assoc] at h
    obtain ⟨s1, a1, a2⟩ := decodeDc_ok g (hv a.1) hc (category_le _ h15) (magnitude_lt _) h
      (BitVec.ofInt 32 (prev a.1))
    rw [extend_magnitude, ← BitVec.ofInt_add, show prev a.1 + (q a - prev a.1) = q a by omega] at a1
    have hblk : d.block a.1 (BitVec.ofInt 32 (prev a.1)) (frame a) s =
        .ok (BitVec.ofInt 32 (q a), setBand (frame a) 0 [nowAt al (q a)], s1) := by
      unfold ProgScan.block
      rw [if_neg (by simp [h0]), if_pos h0, hr, if_neg (by simp), Bs.progDcFirst, a1]
      simp only [Except.map, ProgScan.band, hda, shift_mask al hal, setWidth_ofInt, nowAt_mul]
      rfl
    rw [loop_cons d a l (fun c => BitVec.ofInt 32 (prev c)) frame s s1 _ _ hblk]
    obtain ⟨s2, b1, b2⟩ := ih (fun x hx => ht x (by simp [hx])) hnl a2
      (fun x => if x = a then setBand (frame a) 0 [nowAt al (q a)] else frame x)
    refine ⟨s2, ?_, b2⟩
    rw [written_cons 0 (fun a => [nowAt al (q a)]) a l hna] at b1
    rw [← b1]
    congr 1
    funext c
    simp only
    split <;> rfl

theorem dc_refine_value (al : Nat) (v : Int) :
    (if (if decide (v / 2 ^ al % 2 = 1) = true then (1 : Nat) else 0) = 1 then
      BitVec.ofInt 16 (v / 2 ^ (al + 1) * 2 ^ (al + 1)) + mask al
      else BitVec.ofInt 16 (v / 2 ^ (al + 1) * 2 ^ (al + 1))) = nowAt al (v / 2 ^ al) := by
  have e : v / 2 ^ (al + 1) = v / 2 ^ al / 2 := by
    rw [pow_succ, Int.ediv_ediv_of_nonneg (by positivity)]
  rw [e]
  unfold nowAt mask
  generalize v / 2 ^ al = d
  by_cases hd : d % 2 = 1
  · rw [decide_eq_true hd, if_pos rfl, if_pos rfl, ← BitVec.ofInt_add]
    have : d = d / 2 * 2 + 1 := by omega
    congr 1
    generalize d / 2 = c at *
    rw [this, pow_succ]
    ring
  · rw [decide_eq_false hd]
    have : d = d / 2 * 2 := by omega
    simp only [Bool.false_eq_true, if_false, show ¬ (0 : Nat) = 1 by omega]
    congr 1
    generalize d / 2 = c at *
    rw [this, pow_succ]
    ring

theorem dc_refine_loop (d : ProgScan) (al : Nat) (hal : al ≤ 13) (hda : d.al = al) (h0 : d.ss = 0)
    (hr : d.refine = true) (z : Addr → Int) (l : List Addr) (pred : Nat → I32) {V : List Bool}
    (hn : l.Nodup) {s : Bs} {e}
    (h : Str s (l.map (fun a => decide (z a / 2 ^ al % 2 = 1)) ++ V) e) (frame : Addr → Nat → I16)
    (hf : ∀ a ∈ l, frame a 0 = BitVec.ofInt 16 (z a / 2 ^ (al + 1) * 2 ^ (al + 1))) :
    ∃ s', d.loop l pred frame s =
      .ok (written 0 (fun a => [nowAt al (z a / 2 ^ al)]) l frame, s') ∧ Str s' V e := by
  induction l generalizing s frame pred with
  | nil => exact ⟨s, rfl, h⟩
  | cons a l ih =>
    obtain ⟨hna, hnl⟩ := List.nodup_cons.1 hn
    rw [List.map_cons, List.cons_append] at h
    obtain ⟨s1, a1, a2, a3⟩ : ∃ s1, (if s.left < 1 then s.refill else .ok s) = .ok s1 ∧
        Str s1 (decide (z a / 2 ^ al % 2 = 1) ::
          (l.map (fun a => decide (z a / 2 ^ al % 2 = 1)) ++ V)) e ∧ 1 ≤ s1.left := by
      by_cases hl : s.left < 1
      · rw [if_pos hl]
        obtain ⟨s1, a, b, c⟩ := str_refill h
        refine ⟨s1, a, b, ?_⟩
        rcases c with c | c
        · omega
        · rw [List.length_cons] at c; omega
      · rw [if_neg hl]
        exact ⟨s, rfl, h, by omega⟩
    obtain ⟨b1, b2⟩ := str_bit a2 a3
    have hblk : d.block a.1 (pred a.1) (frame a) s =
        .ok (pred a.1, setBand (frame a) 0 [nowAt al (z a / 2 ^ al)], s1.bit.2) := by
      unfold ProgScan.block
      rw [if_neg (by simp [h0]), if_pos h0, hr, if_pos rfl, Bs.progDcRefine, a1]
      simp only [if_neg (show ¬ s1.left < 1 by omega), Except.map, ProgScan.band, hda,
        shift_mask al hal]
      rw [hf a (by simp), b1, dc_refine_value]
      rfl
    rw [loop_cons d a l pred frame s _ _ _ hblk]
    obtain ⟨s2, c1, c2⟩ := ih (fun c => if c = a.1 then pred a.1 else pred c) hnl b2
      (fun x => if x = a then setBand (frame a) 0 [nowAt al (z a / 2 ^ al)] else frame x)
      (fun x hx => by
        rw [if_neg (by rintro rfl; exact hna hx)]
        exact hf x (by simp [hx]))
    exact ⟨s2, by rw [c1, written_cons 0 (fun a => [nowAt al (z a / 2 ^ al)]) a l hna], c2⟩

theorem first_loop (d : ProgScan) (al : Nat) (hal : al ≤ 13) (hda : d.al = al) (h0 : d.ss ≠ 0)
    (hse : d.se ≤ 63) (hr : d.refine = false) {cnt vals : Nat → Nat → Nat} (hz : ∀ c, cnt c 0 = 0)
    (hv : ∀ c i, vals c i < 256) (q : Addr → List Int) (l : List Addr) (n : Nat)
    (hlen : ∀ a ∈ l, d.ss + (q a).length = d.se + 1 ∧ q a ≠ [])
    {bits V : List Bool} (hb : FirstSends cnt vals q n l bits)
    (ht : ∀ a ∈ l, Huff.new (cnt a.1) (vals a.1) false = .ok (d.ac a.1)) (hn : l.Nodup)
    (pred : Nat → I32) {s : Bs} {e} (h : StrE s (bits ++ V) e n) (frame : Addr → Nat → I16)
    (hf : ∀ a ∈ l, HasBand (frame a) d.ss ((q a).map fun _ => 0#16)) :
    ∃ s', d.loop l pred frame s =
      .ok (written d.ss (fun a => (q a).map (nowAt al)) l frame, s') ∧ Str s' V e := by
  induction hb generalizing s frame pred with
  | nil => exact ⟨s, rfl, h.str⟩
  | skip n a l bits hq hb ih =>
    obtain ⟨hna, hnl⟩ := List.nodup_cons.1 hn
    have hblk : d.block a.1 (pred a.1) (frame a) s =
        .ok (pred a.1, setBand (frame a) d.ss ((q a).map (nowAt al)),
          { s with eobRun := s.eobRun - 1 }) := by
      unfold ProgScan.block
      rw [if_pos ⟨h0, hr, by rw [h.run]; omega⟩, setBand_same]
      have : (q a).map (nowAt al) = (q a).map fun _ => 0#16 :=
        List.map_congr_left fun v hm => by rw [hq v hm, nowAt_zero]
      rw [this]
      exact hf a (by simp)
    rw [loop_cons d a l pred frame s _ _ _ hblk]
    obtain ⟨s2, c1, c2⟩ := ih (fun x hx => hlen x (by simp [hx])) (fun x hx => ht x (by simp [hx])) hnl
      (fun c => if c = a.1 then pred a.1 else pred c)
      (s := { s with eobRun := s.eobRun - 1 })
      ⟨str_eob h.str _, by simp only [h.run]; omega⟩
      (fun x => if x = a then setBand (frame a) d.ss ((q a).map (nowAt al)) else frame x)
      (fun x hx => by
        rw [if_neg (by rintro rfl; exact hna hx)]
        exact hf x (by simp [hx]))
    exact ⟨s2, by rw [c1, written_cons d.ss (fun a => (q a).map (nowAt al)) a l hna], c2⟩
  | block n a l now bits hq hb ih =>
    obtain ⟨hna, hnl⟩ := List.nodup_cons.1 hn
    obtain ⟨f, T⟩ := acTable_new (ht a (by simp)) (hz a.1) (hv a.1)
    obtain ⟨hl1, hl2⟩ := hlen a (by simp)
    rw [List.append_assoc] at h
    obtain ⟨s1, a1, a2⟩ := firstLoop_ok T d.band al
      (by rw [ProgScan.band, hda]; exact shift_mask al hal) hq 64 d.ss hl2
      hl1 hse (by omega) h (frame a) (hf a (by simp))
    have hblk : d.block a.1 (pred a.1) (frame a) s =
        .ok (pred a.1, setBand (frame a) d.ss ((q a).map (nowAt al)), s1) := by
      unfold ProgScan.block
      rw [if_neg (by rw [h.run]; omega), if_neg h0, hr, if_neg (by simp), Bs.acFirst, T.look]
      simp only
      rw [show d.band.ss = d.ss from rfl, a1]
      rfl
    rw [loop_cons d a l pred frame s _ _ _ hblk]
    obtain ⟨s2, c1, c2⟩ := ih (fun x hx => hlen x (by simp [hx])) (fun x hx => ht x (by simp [hx])) hnl
      (fun c => if c = a.1 then pred a.1 else pred c) a2
      (fun x => if x = a then setBand (frame a) d.ss ((q a).map (nowAt al)) else frame x)
      (fun x hx => by
        rw [if_neg (by rintro rfl; exact hna hx)]
        exact hf x (by simp [hx]))
    exact ⟨s2, by rw [c1, written_cons d.ss (fun a => (q a).map (nowAt al)) a l hna], c2⟩

theorem refine_loop (d : ProgScan) (al : Nat) (hal : al ≤ 13) (hda : d.al = al) (h0 : d.ss ≠ 0)
    (hse : d.se ≤ 63) (hr : d.refine = true) {cnt vals : Nat → Nat → Nat} (hz : ∀ c, cnt c 0 = 0)
    (hv : ∀ c i, vals c i < 256) (q : Addr → List Int) (l : List Addr) (n : Nat)
    (hlen : ∀ a ∈ l, d.ss + (q a).length = d.se + 1 ∧ q a ≠ [])
    (hfit : ∀ a ∈ l, Fit16 al (q a))
    {bits V : List Bool} (hb : RefineSends cnt vals q n l bits)
    (ht : ∀ a ∈ l, Huff.new (cnt a.1) (vals a.1) false = .ok (d.ac a.1)) (hn : l.Nodup)
    (pred : Nat → I32) {s : Bs} {e} (h : StrE s (bits ++ V) e n) (frame : Addr → Nat → I16)
    (hf : ∀ a ∈ l, HasBand (frame a) d.ss ((q a).map (wasAt al))) :
    ∃ s', d.loop l pred frame s =
      .ok (written d.ss (fun a => (q a).map (nowAt al)) l frame, s') ∧ Str s' V e := by
  have hbit : d.band.bit = mask al := by rw [ProgScan.band, hda]; exact shift_mask al hal
  induction hb generalizing s frame pred with
  | nil => exact ⟨s, rfl, h.str⟩
  | skip n a l bits hq hb ih =>
    obtain ⟨hna, hnl⟩ := List.nodup_cons.1 hn
    obtain ⟨hl1, hl2⟩ := hlen a (by simp)
    rw [List.append_assoc] at h
    obtain ⟨s1, a1, a2⟩ := refineEob_ok d.band al hal hbit hse (q a) hq (hfit a (by simp)) d.ss
      (by omega) hl1 h (frame a) (hf a (by simp))
    have hblk : d.block a.1 (pred a.1) (frame a) s =
        .ok (pred a.1, setBand (frame a) d.ss ((q a).map (nowAt al)), s1) := by
      unfold ProgScan.block
      rw [if_neg (by simp [hr]), if_neg h0, hr, if_pos rfl, Bs.acRefine,
        if_neg (by rw [h.run]; omega), show d.band.ss = d.ss from rfl, a1]
      rfl
    rw [loop_cons d a l pred frame s _ _ _ hblk]
    obtain ⟨s2, c1, c2⟩ := ih (fun x hx => hlen x (by simp [hx])) (fun x hx => hfit x (by simp [hx]))
      (fun x hx => ht x (by simp [hx])) hnl (fun c => if c = a.1 then pred a.1 else pred c) a2
      (fun x => if x = a then setBand (frame a) d.ss ((q a).map (nowAt al)) else frame x)
      (fun x hx => by
        rw [if_neg (by rintro rfl; exact hna hx)]
        exact hf x (by simp [hx]))
    exact ⟨s2, by rw [c1, written_cons d.ss (fun a => (q a).map (nowAt al)) a l hna], c2⟩
  | block n a l now bits hq hb ih =>
    obtain ⟨hna, hnl⟩ := List.nodup_cons.1 hn
    obtain ⟨g, _⟩ := good_of_new (ht a (by simp)) (hz a.1)
    obtain ⟨hl1, hl2⟩ := hlen a (by simp)
    rw [List.append_assoc] at h
    obtain ⟨s1, a1, a2⟩ := refineBoth_ok g (hv a.1) d.band al hal hbit hse hq (hfit a (by simp)) 64
      d.ss hl2 (by omega) hl1 (by omega) h (frame a) (hf a (by simp))
    have hblk : d.block a.1 (pred a.1) (frame a) s =
        .ok (pred a.1, setBand (frame a) d.ss ((q a).map (nowAt al)), s1) := by
      unfold ProgScan.block
      have : s.acRefine (d.ac a.1) d.band (frame a) =
          refineBoth (d.ac a.1) d.band 64 d.ss s (frame a) := by
        rw [Bs.acRefine, if_pos h.run]
        rfl
      rw [if_neg (by simp [hr]), if_neg h0, hr, if_pos rfl, this, a1]
      rfl
    rw [loop_cons d a l pred frame s _ _ _ hblk]
    obtain ⟨s2, c1, c2⟩ := ih (fun x hx => hlen x (by simp [hx])) (fun x hx => hfit x (by simp [hx]))
      (fun x hx => ht x (by simp [hx])) hnl (fun c => if c = a.1 then pred a.1 else pred c) a2
      (fun x => if x = a then setBand (frame a) d.ss ((q a).map (nowAt al)) else frame x)
      (fun x hx => by
        rw [if_neg (by rintro rfl; exact hna hx)]
        exact hf x (by simp [hx]))
    exact ⟨s2, by rw [c1, written_cons d.ss (fun a => (q a).map (nowAt al)) a l hna], c2⟩

/-! ## The frame after a scan -/

/-- `Knows`, by the decoder's own table of places. -/
theorem knows_iff (sent : Sent) (z : Addr → Nat → Int) (frame : Addr → Nat → I16) :
    Knows sent z frame ↔
      ∀ a k, k < 64 → frame a (zz k) = BitVec.ofInt 16 (known (sent a k) k (z a k)) := by
  constructor
  · intro h a k hk
    have hl : zigzagWalk.length = 64 := by decide +kernel
    have hw : zigzagWalk[k]? = some (zigzagWalk[k]'(by omega)) := List.getElem?_eq_getElem _
    rw [← (walk_zz k _ hw).2]
    exact h a k _ hw
  · intro h a k rc hw
    obtain ⟨h1, h2⟩ := walk_zz k rc hw
    rw [h2]
    exact h a k h1

theorem level_small (k al : Nat) (v : Int) (h : v.natAbs < 2 ^ 15) (hk : k ≠ 0) :
    (level k al v).natAbs * 2 ^ al < 2 ^ 15 := by
  rw [level, if_neg hk, Int.natAbs_tdiv, Int.natAbs_pow, show (2 : Int).natAbs = 2 from rfl]
  exact lt_of_le_of_lt (Nat.div_mul_le_self _ _) h

theorem level_tdiv (k al : Nat) (v : Int) (hk : k ≠ 0) :
    (level k al v).tdiv 2 = level k (al + 1) v := by
  rw [level, if_neg hk, level, if_neg hk, pow_succ]
  have hp : (0 : Int) ≤ 2 ^ al := by positivity
  have key : ∀ w : Int, 0 ≤ w → (w.tdiv (2 ^ al)).tdiv 2 = w.tdiv (2 ^ al * 2) := by
    intro w hw
    rw [Int.tdiv_eq_ediv_of_nonneg hw, Int.tdiv_eq_ediv_of_nonneg (Int.ediv_nonneg hw hp),
      Int.tdiv_eq_ediv_of_nonneg hw, Int.ediv_ediv_of_nonneg hp]
  rcases le_or_gt 0 v with hv | hv
  · exact key v hv
  · have := key (-v) (by omega)
    rwa [Int.neg_tdiv, Int.neg_tdiv, Int.neg_tdiv, neg_inj] at this

theorem part_get (p : ScanSpec) (z : Nat → Int) (k : Nat) (h1 : p.ss ≤ k) (h2 : k ≤ p.se) :
    (p.part z)[k - p.ss]? = some (level k p.al (z k)) := by
  unfold ScanSpec.part
  rw [List.getElem?_map, List.getElem?_range (by omega), Option.map_some,
    show p.ss + (k - p.ss) = k by omega]

theorem part_length (p : ScanSpec) (z : Nat → Int) : (p.part z).length = p.se + 1 - p.ss := by
  simp [ScanSpec.part]

theorem hasBand_part (p : ScanSpec) (z : Nat → Int) (hle : p.ss ≤ p.se) (b : Nat → I16)
    (w : Int → I16)
    (h : ∀ k, p.ss ≤ k → k ≤ p.se → b (zz k) = w (level k p.al (z k))) :
    HasBand b p.ss ((p.part z).map w) := by
  intro i v hv
  have hi : i < p.se + 1 - p.ss := by
    have := (List.getElem?_eq_some_iff.1 hv).1
    rwa [List.length_map, part_length] at this
  have hg := part_get p z (p.ss + i) (by omega) (by omega)
  rw [show p.ss + i - p.ss = i by omega] at hg
  rw [List.getElem?_map, hg] at hv
  simp only [Option.map_some, Option.some.injEq] at hv
  rw [← hv]
  exact h _ (by omega) (by omega)

/-- The frame that a scan should leave. -/
theorem knows_written (p : ScanSpec) (sent : Sent) (L : p.Legal sent) (z : Addr → Nat → Int)
    (frame : Addr → Nat → I16) (hk : Knows sent z frame) :
    Knows (p.after sent) z
      (written p.ss (fun a => (p.part (z a)).map (nowAt p.al)) p.order frame) := by
  rw [knows_iff] at hk ⊢
  intro a k hlt
  have hband := L.band
  have hlast := L.last
  have hlen : p.ss + ((p.part (z a)).map (nowAt p.al)).length ≤ 64 := by
    rw [List.length_map, part_length]; omega
  unfold written ScanSpec.after
  by_cases ha : a ∈ p.order
  · rw [if_pos ha]
    by_cases hb : p.ss ≤ k ∧ k ≤ p.se
    · rw [if_pos ⟨ha, hb⟩]
      have := setBand_has (frame a) p.ss _ hlen (k - p.ss) (nowAt p.al (level k p.al (z a k)))
        (by rw [List.getElem?_map, part_get p (z a) k hb.1 hb.2]; rfl)
      rw [show p.ss + (k - p.ss) = k by omega] at this
      rw [this]
      rfl
    · rw [if_neg (fun h => hb h.2), setBand_other _ _ _ hlen, hk a k hlt]
      intro i hi hz
      rw [List.length_map, part_length] at hi
      have := zz_inj k (p.ss + i) hlt (by omega) hz
      omega
  · rw [if_neg ha, if_neg (fun h => ha h.1)]
    exact hk a k hlt

/-- The bytes of a scan: data bits with stuffing and padding, and a marker behind. -/
structure Carries (rest : List UInt8) (bits : List Bool) : Prop where
  bytes : ∃ (data : List UInt8) (pad : List Bool) (k : Nat) (m : UInt8) (r : List UInt8),
    bytesBits data = bits ++ pad ∧ knownMarker m = true ∧
    rest = stuff data ++ 0xFF :: List.replicate k 0xFF ++ m :: r

theorem carries_str {rest : List UInt8} {bits : List Bool} (h : Carries rest bits) :
    ∃ pad e, Str (Bs.new rest) (bits ++ pad) e := by
  obtain ⟨data, pad, k, m, r, hd, hm, rfl⟩ := h.bytes
  have h0 : m ≠ 0 := by rintro rfl; revert hm; decide
  have hF : m ≠ 0xFF := by rintro rfl; revert hm; decide
  have hu := c48_segment data k m r h0 hF
  have hs := str_new (stuff data ++ 0xFF :: List.replicate k 0xFF ++ m :: r)
    (by rw [hu]; intro m' r' h; cases h; exact hm)
  rw [hu, hd] at hs
  exact ⟨pad, _, hs⟩

/-- The loop over the blocks of a scan, from any state of the reader. -/
theorem scan_loop (p : ScanSpec) (d : ProgScan) (R : p.Read d) (sent : Sent) (L : p.Legal sent)
    (z : Addr → Nat → Int) (hz : ∀ a k, (z a k).natAbs < 2 ^ 15) (bits : List Bool)
    (hb : p.Sends z bits) {s : Bs} {V : List Bool} {e} (hs : Str s (bits ++ V) e) (hrun : s.eobRun = 0)
    (frame : Addr → Nat → I16) (hk : Knows sent z frame) :
    ∃ s', d.loop p.order (fun _ => 0) frame s =
      .ok (written p.ss (fun a => (p.part (z a)).map (nowAt p.al)) p.order frame, s') ∧ Str s' V e := by
  have hk' := (knows_iff sent z frame).1 hk
  have hband := L.band
  have hlast := L.last
  unfold ScanSpec.Sends at hb
  by_cases h0 : p.ss = 0
  · rw [if_pos h0] at hb
    have hse := L.alone h0
    have hpart : ∀ a, p.part (z a) = [level 0 p.al (z a 0)] := fun a => by
      unfold ScanSpec.part
      rw [h0, hse]
      rfl
    have hw : (fun a => (p.part (z a)).map (nowAt p.al)) =
        fun a => [nowAt p.al (z a 0 / 2 ^ p.al)] := by
      funext a
      rw [hpart]
      rfl
    rw [hw, h0]
    cases hr : p.refine with
    | true =>
      rw [hr, if_pos rfl] at hb
      rw [hb] at hs
      refine dc_refine_loop d p.al L.low R.al (by rw [R.ss, h0]) (by rw [R.refine, hr])
        (fun a => z a 0) p.order _ L.once hs frame (fun a ha => ?_)
      have := hk' a 0 (by omega)
      rw [L.next a ha 0 (by omega) (by omega), hr] at this
      rw [show zz 0 = 0 by decide] at this
      rw [this]
      rfl
    | false =>
      rw [hr, if_neg (by simp)] at hb
      exact dc_loop d p.al L.low R.al (by rw [R.ss, h0]) (by rw [R.refine, hr]) R.zero R.vals _
        p.order (fun _ => 0) hb
        (fun a ha => by
          have := R.tables a ha
          rw [if_pos h0] at this
          exact this hr) L.once hs frame
  · rw [if_neg h0] at hb
    have ht : ∀ a ∈ p.order, Huff.new (p.cnt a.1) (p.vals a.1) false = .ok (d.ac a.1) :=
      fun a ha => by
        have := R.tables a ha
        rwa [if_neg h0] at this
    have hlen : ∀ a ∈ p.order, d.ss + (p.part (z a)).length = d.se + 1 ∧ p.part (z a) ≠ [] := by
      intro a _
      rw [R.ss, R.se, part_length]
      refine ⟨by omega, fun h => ?_⟩
      have := congrArg List.length h
      rw [part_length, List.length_nil] at this
      omega
    have hss : d.ss = p.ss := R.ss
    cases hr : p.refine with
    | true =>
      rw [hr, if_pos rfl] at hb
      have := refine_loop d p.al L.low R.al (by rw [hss]; exact h0) (by rw [R.se]; exact hlast)
        (by rw [R.refine, hr]) R.zero R.vals (fun a => p.part (z a)) p.order 0 hlen
        (fun a _ q hq => by
          unfold ScanSpec.part at hq
          obtain ⟨i, _, rfl⟩ := List.mem_map.1 hq
          exact level_small _ _ _ (hz _ _) (by omega))
        hb ht L.once (fun _ => 0) ⟨hs, hrun⟩ frame
        (fun a ha => by
          rw [hss]
          refine hasBand_part p (z a) hband _ _ (fun k h1 h2 => ?_)
          rw [hk' a k (by omega), L.next a ha k h1 h2, hr]
          unfold wasAt
          rw [level_tdiv _ _ _ (by omega)]
          rfl)
      rw [hss] at this
      exact this
    | false =>
      rw [hr, if_neg (by simp)] at hb
      have := first_loop d p.al L.low R.al (by rw [hss]; exact h0) (by rw [R.se]; exact hlast)
        (by rw [R.refine, hr]) R.zero R.vals (fun a => p.part (z a)) p.order 0 hlen
        hb ht L.once (fun _ => 0) ⟨hs, hrun⟩ frame
        (fun a ha => by
          rw [hss]
          refine hasBand_part p (z a) hband _ _ (fun k h1 h2 => ?_)
          rw [hk' a k (by omega), L.next a ha k h1 h2, hr]
          rfl)
      rw [hss] at this
      exact this

/-! ## Theorems -/

/-- **C69** One scan: whatever was sent before, a scan that may follow it and carries the bits the
standard prescribes is decoded without error, and leaves every coefficient of every block at what
was sent of it so far. -/
theorem c69_scan (p : ScanSpec) (d : ProgScan) (R : p.Read d) (sent : Sent) (L : p.Legal sent)
    (z : Addr → Nat → Int) (hz : ∀ a k, (z a k).natAbs < 2 ^ 15) (bits : List Bool)
    (hb : p.Sends z bits) (rest : List UInt8) (hc : Carries rest bits)
    (frame : Addr → Nat → I16) (hk : Knows sent z frame) :
    ∃ frame', d.run p.one p.order rest frame = .ok frame' ∧ Knows (p.after sent) z frame' := by
  refine ⟨_, ?_, knows_written p sent L z frame hk⟩
  obtain ⟨pad, e, hs⟩ := carries_str hc
  obtain ⟨s', h, _⟩ := scan_loop p d R sent L z hz bits hb hs rfl frame hk
  unfold ProgScan.run
  have h1 := L.alone
  have h2 := L.single
  rw [if_neg, h]
  · rfl
  · rw [R.se, R.ss]
    rintro ⟨h3, h4 | h4⟩
    · exact h3 (h1 h4)
    · by_cases h5 : p.ss = 0
      · exact h3 (h1 h5)
      · rw [h2 h5] at h4; cases h4

/-- A scan of an image: as the standard has it, the decoder's parameters, its bytes. -/
structure ScanStep where
  /-- The scan. -/
  spec : ScanSpec
  /-- The decoder's parameters. -/
  dec : ProgScan
  /-- The bytes behind the header. -/
  rest : List UInt8

/-- Each scan may follow those before, the decoder has its parameters and tables, and its bytes
carry its bits. -/
def Script (z : Addr → Nat → Int) : Sent → List ScanStep → Prop
  | _, [] => True
  | sent, t :: ts =>
    t.spec.Read t.dec ∧ t.spec.Legal sent ∧ (∃ bits, t.spec.Sends z bits ∧ Carries t.rest bits) ∧
      Script z (t.spec.after sent) ts

/-- What was sent after all scans. -/
def sentBy : Sent → List ScanStep → Sent
  | sent, [] => sent
  | sent, t :: ts => sentBy (t.spec.after sent) ts

/-- The decoder on all scans (mcu_prog.rs:134-186; without the parsing of markers between). -/
def decodeScans : List ScanStep → (Addr → Nat → I16) → Except JErr (Addr → Nat → I16)
  | [], frame => .ok frame
  | t :: ts, frame =>
    match t.dec.run t.spec.one t.spec.order t.rest frame with
    | .error e => .error e
    | .ok frame => decodeScans ts frame

theorem script_knows (z : Addr → Nat → Int) (hz : ∀ a k, (z a k).natAbs < 2 ^ 15)
    (ts : List ScanStep) (sent : Sent) (h : Script z sent ts) (frame : Addr → Nat → I16)
    (hk : Knows sent z frame) :
    ∃ frame', decodeScans ts frame = .ok frame' ∧ Knows (sentBy sent ts) z frame' := by
  induction ts generalizing sent frame with
  | nil => exact ⟨frame, rfl, hk⟩
  | cons t ts ih =>
    obtain ⟨R, L, ⟨bits, hb, hc⟩, hs⟩ := h
    obtain ⟨f1, a1, a2⟩ := c69_scan t.spec t.dec R sent L z hz bits hb t.rest hc frame hk
    obtain ⟨f2, b1, b2⟩ := ih _ hs f1 a2
    refine ⟨f2, ?_, b2⟩
    rw [decodeScans, a1]
    exact b1

/-- **C69** A progressive image: for every sequence of scans the standard allows (spectral selection
and successive approximation mixed in any way, DC scans interleaved or not, any Huffman tables the
decoder accepts, end-of-band runs, correction bits), decoding from a zeroed frame succeeds; every
coefficient that was sent down to its last bit has its exact value, one that was sent down to bit
`al` has the value of those bits, one that was not sent is zero. -/
theorem c69_progressive (z : Addr → Nat → Int) (hz : ∀ a k, (z a k).natAbs < 2 ^ 15)
    (ts : List ScanStep) (h : Script z (fun _ _ => none) ts) :
    ∃ frame, decodeScans ts (fun _ _ => 0) = .ok frame ∧
      Knows (sentBy (fun _ _ => none) ts) z frame ∧
      ∀ (a : Addr) (k : Nat) (rc : Nat × Nat), zigzagWalk[k]? = some rc →
        sentBy (fun _ _ => none) ts a k = some 0 →
        (frame a (8 * rc.1 + rc.2)).toInt = z a k := by
  obtain ⟨frame, h1, h2⟩ := script_knows z hz ts _ h (fun _ _ => 0) (fun a k rc _ => rfl)
  refine ⟨frame, h1, h2, fun a k rc hw hs => ?_⟩
  rw [h2 a k rc hw, hs, known, level]
  have : (if k = 0 then z a k / 2 ^ 0 else (z a k).tdiv (2 ^ 0)) * 2 ^ 0 = z a k := by
    split <;> simp
  rw [this, toInt16 _ (hz a k)]

/-- Counts of a table with the codes 0 and 10. -/
def exTwo : Nat → Nat := fun l => ([0, 1, 1] : List Nat).getD l 0

/-- Its symbols: a coefficient ±1 without zeros before, and the end of two blocks. -/
def exTwoVals : Nat → Nat := fun p => ([0x01, 0x10] : List Nat).getD p 0

/-- Two blocks: DC 5 and AC -3, 1; and DC 2. -/
def exProg : Addr → Nat → Int := fun a k =>
  if a = (0, 0) then ([5, -3, 1] : List Int).getD k 0 else if a = (0, 1) ∧ k = 0 then 2 else 0

/-- A scan over both blocks. -/
def exScan (ss se al : Nat) (refine : Bool) : ScanSpec :=
  { ss := ss, se := se, al := al, refine := refine, one := true,
    cnt := fun _ => if ss = 0 then exBits else exTwo,
    vals := fun _ => if ss = 0 then fun p => p % 16 else exTwoVals, order := [(0, 0), (0, 1)] }

/-- The scan as the decoder has it. -/
def exScanDec (dt t : Huff) (ss se al : Nat) (refine : Bool) : ProgScan :=
  { ss := ss, se := se, al := al, refine := refine, dc := fun _ => dt, ac := fun _ => t }

/-- Four scans: DC and AC, each without and with the last bit. -/
def exSteps (dt t : Huff) : List ScanStep :=
  [⟨exScan 0 0 1 false, exScanDec dt t 0 0 1 false, [0x72, 0x7F, 0xFF, 0xC4]⟩,
   ⟨exScan 1 63 1 false, exScanDec dt t 1 63 1 false, [0x27, 0xFF, 0xDA]⟩,
   ⟨exScan 1 63 0 true, exScanDec dt t 1 63 0 true, [0x73, 0xFF, 0xDA]⟩,
   ⟨exScan 0 0 0 true, exScanDec dt t 0 0 0 true, [0xBF, 0xFF, 0xD9]⟩]

theorem exRead {dt t : Huff} (hdt : Huff.new exBits (fun p => p % 16) true = .ok dt)
    (ht : Huff.new exTwo exTwoVals false = .ok t) (ss se al : Nat) (refine : Bool) :
    (exScan ss se al refine).Read (exScanDec dt t ss se al refine) := by
  refine ⟨rfl, rfl, rfl, rfl, fun c => ?_, fun c i => ?_, fun a _ => ?_⟩
  · simp only [exScan]
    split <;> rfl
  · simp only [exScan]
    split
    · simp only; omega
    · by_cases hi : i < 2
      · interval_cases i <;> decide
      · simp [exTwoVals, hi]
  · simp only [exScan, exScanDec]
    split
    · exact fun _ => hdt
    · exact ht

-- the four scans meet the hypotheses, and all coefficients are sent in full.
example : ∃ dt t : Huff, Script exProg (fun _ _ => none) (exSteps dt t) ∧
    (∀ k < 64, ∀ i < 2, sentBy (fun _ _ => none) (exSteps dt t) (0, i) k = some 0) ∧
    ∀ a k, (exProg a k).natAbs < 2 ^ 15 := by
  obtain ⟨dt, hdt⟩ := (c42_accepts exBits (fun p => p % 16) true rfl).2
    ⟨fun l h1 h2 => by interval_cases l <;> decide +kernel, by decide +kernel,
      fun _ i _ => by omega⟩
  obtain ⟨t, ht⟩ := (c42_accepts exTwo exTwoVals false rfl).2
    ⟨fun l h1 h2 => by interval_cases l <;> decide +kernel, by decide +kernel, fun h => by cases h⟩
  have c1 : IsCode exTwo exTwoVals 0x01 [false] :=
    ⟨1, 0, by decide, by decide, by decide, by decide, rfl⟩
  have c2 : IsCode exTwo exTwoVals 0x10 [true, false] :=
    ⟨2, 0, by decide, by decide, by decide, by decide, rfl⟩
  refine ⟨dt, t, ⟨exRead hdt ht _ _ _ _, ?_, ?_, exRead hdt ht _ _ _ _, ?_, ?_,
    exRead hdt ht _ _ _ _, ?_, ?_, exRead hdt ht _ _ _ _, ?_, ?_, trivial⟩, ?_, ?_⟩
  · show (exScan 0 0 1 false).Legal _
    refine ⟨by decide, by decide, fun _ => rfl, fun _ => rfl, by decide, by decide +kernel,
      fun a _ k _ _ => rfl⟩
  · show ∃ bits, (exScan 0 0 1 false).Sends exProg bits ∧
      Carries [0x72, 0x7F, 0xFF, 0xC4] bits
    refine ⟨[false, true, true, true, false, false, true, false, false], ?_,
      ⟨[0x72, 0x7F], List.replicate 7 true, 0, 0xC4, [], by decide +kernel, by decide, by decide⟩⟩
    refine DcSends.cons _ (0, 0) _ [false, true, true] [false, true, false, false] ?_ ?_ ?_
    · decide
    · exact ⟨3, 1, by decide, by decide, by decide, by decide, rfl⟩
    · refine DcSends.cons _ (0, 1) _ [false, true, false] [] ?_ ?_ (DcSends.nil _)
      · decide
      · exact ⟨3, 0, by decide, by decide, by decide, by decide, rfl⟩
  · show (exScan 1 63 1 false).Legal _
    refine ⟨by decide, by decide, (fun h => by cases h), fun _ => rfl, by decide, by decide +kernel,
      fun a _ k h1 _ => ?_⟩
    have : 1 ≤ k := h1
    simp only [ScanSpec.after, exScan]
    rw [if_neg (by omega)]
    rfl
  · show ∃ bits, (exScan 1 63 1 false).Sends exProg bits ∧
      Carries [0x27, 0xFF, 0xDA] bits
    refine ⟨[false, false, true, false, false], ?_,
      ⟨[0x27], List.replicate 3 true, 0, 0xDA, [], by decide +kernel, by decide, by decide⟩⟩
    refine FirstSends.block 1 (0, 0) _ [false, false, true, false, false] [] ?_ ?_
    · have e : (exScan 1 63 1 false).part (exProg (0, 0)) =
          List.replicate 0 0 ++ (-1) :: List.replicate 62 0 := by decide +kernel
      simp only [e]
      exact FirstBits.coef 0 (-1) _ [false] _ 1 (by decide) (by decide) (by decide) c1
        (FirstBits.eob 62 1 0 [true, false] (by decide) (by decide) (by decide) c2)
    · exact FirstSends.skip 0 (0, 1) [] [] (by decide +kernel) FirstSends.nil
  · show (exScan 1 63 0 true).Legal _
    refine ⟨by decide, by decide, (fun h => by cases h), fun _ => rfl, by decide, by decide +kernel,
      fun a ha k h1 h2 => ?_⟩
    have h3 : 1 ≤ k := h1
    have h4 : k ≤ 63 := h2
    simp only [ScanSpec.after]
    rw [if_pos ⟨ha, h3, h4⟩]
    rfl
  · show ∃ bits, (exScan 1 63 0 true).Sends exProg bits ∧
      Carries [0x73, 0xFF, 0xDA] bits
    refine ⟨[false, true, true, true, false, false], ?_,
      ⟨[0x73], List.replicate 2 true, 0, 0xDA, [], by decide +kernel, by decide, by decide⟩⟩
    refine RefineSends.block 1 (0, 0) _ [false, true, true, true, false, false] [] ?_ ?_
    · have e : (exScan 1 63 0 true).part (exProg (0, 0)) =
          [-3] ++ 1 :: List.replicate 61 0 := by decide +kernel
      simp only [e]
      have e2 := RefBits.eob (List.replicate 61 0) 1 0 [true, false] (by decide)
        (fun q hq => by rw [List.eq_of_mem_replicate hq]; decide) (by decide) (by decide) c2
      exact RefBits.coef [-3] 1 _ [false] _ 1 (by intro q hq; simp at hq; subst hq; decide)
        (by decide) (by decide) c1 e2
    · have hq : (exScan 1 63 0 true).part (exProg (0, 1)) = List.replicate 63 0 := by decide +kernel
      have := RefineSends.skip (cnt := (exScan 1 63 0 true).cnt) (vals := (exScan 1 63 0 true).vals)
        (q := fun a => (exScan 1 63 0 true).part (exProg a)) 0 (0, 1) [] []
        (by simp only [hq]; intro q hq; rw [List.eq_of_mem_replicate hq]; decide) RefineSends.nil
      simp only [hq] at this
      exact this
  · show (exScan 0 0 0 true).Legal _
    refine ⟨by decide, by decide, fun _ => rfl, fun _ => rfl, by decide, by decide +kernel,
      fun a ha k h1 h2 => ?_⟩
    have h4 : k ≤ 0 := h2
    obtain rfl : k = 0 := by omega
    simp only [ScanSpec.after]
    rw [if_neg (by simp [exScan]), if_neg (by simp [exScan]), if_pos ⟨ha, by decide, by decide⟩]
    rfl
  · show ∃ bits, (exScan 0 0 0 true).Sends exProg bits ∧
      Carries [0xBF, 0xFF, 0xD9] bits
    refine ⟨[true, false], ?_,
      ⟨[0xBF], List.replicate 6 true, 0, 0xD9, [], by decide +kernel, by decide, by decide⟩⟩
    show [true, false] = [((0 : Nat), (0 : Nat)), (0, 1)].map fun a =>
      decide (exProg a 0 / 2 ^ 0 % 2 = 1)
    decide +kernel
  · intro k hk i hi
    have key : ∀ (k : Fin 64) (i : Fin 2),
        sentBy (fun _ _ => none) (exSteps dt t) (0, i.val) k.val = some 0 := by
      have e : ∀ u, (fun k i => sentBy (fun _ _ => none) (exSteps dt t) (0, i) k) =
          fun k i => sentBy (fun _ _ => none) (exSteps u u) (0, i) k := fun u => rfl
      intro k i
      have := congrFun (congrFun (e ⟨fun _ => 0, fun _ => 0, fun _ => 0, none, fun _ => 0⟩) k.val)
        i.val
      simp only at this
      rw [this]
      clear this
      revert k i
      decide +kernel
    exact key ⟨k, hk⟩ ⟨i, hi⟩
  · intro a k
    unfold exProg
    split
    · rcases k with _ | _ | _ | k <;> simp
    · split <;> decide

end Zune.Jpeg
