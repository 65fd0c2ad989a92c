import Mathlib.Data.Nat.Size
import Mathlib.Logic.Function.Basic
import Verif.Jpeg.Block
import Verif.Jpeg.BitsProps
import Verif.Jpeg.IdctProps

/-!
# zune-jpeg: blocks of coefficients (properties)
-/

namespace Zune.Jpeg

open Zune.Canon

/-! ## Specification: the encoder of the standard -/

/-- Number of bits of a coefficient (T.81, tables F.1 and F.2). -/
def category (v : Int) : Nat := v.natAbs.size

/-- The extra bits of a coefficient (T.81, F.1.2.1): a negative one is sent less one. -/
def magnitude (v : Int) : Nat :=
  if v < 0 then (v + 2 ^ category v - 1).toNat else v.toNat

/-- The codes for the AC coefficients `vs` (T.81, figure F.2), after `run` zeros: symbol, number
of extra bits, extra bits. -/
def acTokens : Nat → List Int → List (Nat × Nat × Nat)
  | run, [] => if run = 0 then [] else [(0x00, 0, 0)]
  | run, v :: vs =>
    if v = 0 then acTokens (run + 1) vs
    else List.replicate (run / 16) (0xF0, 0, 0) ++
      (16 * (run % 16) + category v, category v, magnitude v) :: acTokens 0 vs

/-- The bits of a list of codes. -/
def tokenBits (code : Nat → List Bool) (ts : List (Nat × Nat × Nat)) : List Bool :=
  ts.flatMap fun t => code t.1 ++ toBits t.2.1 t.2.2

/-- One component of a scan: counts and symbols of its two tables, the tables the decoder built
from them, the quantisation table and the codes an encoder uses. -/
structure ScanComp where
  /-- Counts of the DC table. -/
  dcnt : Nat → Nat
  /-- Symbols of the DC table. -/
  dvals : Nat → Nat
  /-- Counts of the AC table. -/
  cnt : Nat → Nat
  /-- Symbols of the AC table. -/
  vals : Nat → Nat
  /-- Decoder's DC table. -/
  dt : Huff
  /-- Decoder's AC table. -/
  t : Huff
  /-- Quantisation table, in natural order. -/
  qt : Nat → I32
  /-- Code of each DC symbol. -/
  dcode : Nat → List Bool
  /-- Code of each AC symbol. -/
  acode : Nat → List Bool

/-- The decoder built its tables from these counts and symbols. -/
structure ScanComp.Ok (c : ScanComp) : Prop where
  dc : Huff.new c.dcnt c.dvals true = .ok c.dt
  ac : Huff.new c.cnt c.vals false = .ok c.t
  dc0 : c.dcnt 0 = 0
  ac0 : c.cnt 0 = 0
  dcv : ∀ p, c.dvals p < 256
  acv : ∀ p, c.vals p < 256

/-- The bits of a block whose coefficients in zig-zag order are `z`; `prev` is the DC coefficient
of the block of this component before. -/
def ScanComp.bits (c : ScanComp) (prev : Int) (z : List Int) : List Bool :=
  c.dcode (category (z.headD 0 - prev)) ++
    toBits (category (z.headD 0 - prev)) (magnitude (z.headD 0 - prev)) ++
    tokenBits c.acode (acTokens 0 z.tail)

/-- The block can be encoded: 64 coefficients within range, and the codes it needs are codes of the
tables. -/
structure ScanComp.Fits (c : ScanComp) (prev : Int) (z : List Int) : Prop where
  len : z.length = 64
  diff : (z.headD 0 - prev).natAbs < 2 ^ 15
  range : ∀ v ∈ z.tail, v.natAbs < 2 ^ 15
  dcode : IsCode c.dcnt c.dvals (category (z.headD 0 - prev)) (c.dcode (category (z.headD 0 - prev)))
  acode : ∀ t ∈ acTokens 0 z.tail, IsCode c.cnt c.vals t.1 (c.acode t.1)

/-- The bits of a sequence of blocks, each with the number of its component. -/
def scanBits (comps : Nat → ScanComp) : (Nat → Int) → List (Nat × List Int) → List Bool
  | _, [] => []
  | prev, (i, z) :: l =>
    (comps i).bits (prev i) z ++ scanBits comps (Function.update prev i (z.headD 0)) l

/-- All blocks of the sequence can be encoded. -/
def ScanFits (comps : Nat → ScanComp) : (Nat → Int) → List (Nat × List Int) → Prop
  | _, [] => True
  | prev, (i, z) :: l =>
    (comps i).Fits (prev i) z ∧ ScanFits comps (Function.update prev i (z.headD 0)) l

/-- What the caller of `decode_mcu_block` does: decode a block of each component listed, each into
a zeroed array and with the prediction of its component. -/
def decodeScan (comps : Nat → ScanComp) : (Nat → I32) → List Nat → Bs →
    Except JErr (List (Nat → I32) × Bs)
  | _, [], s => .ok ([], s)
  | pred, i :: l, s =>
    match s.decodeBlock (comps i).dt (comps i).t (comps i).qt (fun _ => 0) (pred i) with
    | .error e => .error e
    | .ok out =>
      (decodeScan comps (Function.update pred i out.pred) l out.s).map
        fun r => (out.block :: r.1, r.2)

/-- A decoded block is the quantised coefficients times the quantisation table, each at its place
on the walk along the anti-diagonals. -/
def Holds (qt : Nat → I32) (z : List Int) (b : Nat → I32) : Prop :=
  ∀ (k : Nat) (rc : Nat × Nat) (v : Int), zigzagWalk[k]? = some rc → z[k]? = some v →
    b (8 * rc.1 + rc.2) = BitVec.ofInt 32 v * qt (8 * rc.1 + rc.2)

/-! ## The encoder's bits are an encoding -/

theorem magnitude_lt (v : Int) : magnitude v < 2 ^ category v := by
  have h : v.natAbs < 2 ^ category v := Nat.lt_size_self _
  unfold magnitude
  have e : ((2 ^ category v : Nat) : Int) = 2 ^ category v := by push_cast; rfl
  rw [← e]
  generalize 2 ^ category v = P at *
  split <;> omega

theorem extend_magnitude (v : Int) : extend (magnitude v) (category v) = v := by
  have h : v.natAbs < 2 ^ category v := Nat.lt_size_self _
  by_cases h0 : v = 0
  · subst h0; decide
  have hs : 0 < category v := Nat.size_pos.2 (by omega)
  have h2 : 2 ^ (category v - 1) ≤ v.natAbs := Nat.lt_size.1 (show category v - 1 < v.natAbs.size by
    unfold category at hs ⊢; omega)
  have e : ((2 ^ category v : Nat) : Int) = 2 ^ category v := by push_cast; rfl
  have h3 : 2 ^ category v = 2 * 2 ^ (category v - 1) := by
    rw [← pow_succ', show category v - 1 + 1 = category v by omega]
  unfold extend magnitude
  rw [← e]
  rw [h3] at h ⊢
  clear h3 e hs
  generalize 2 ^ (category v - 1) = P at *
  split <;> split <;> omega

theorem category_le (v : Int) (h : v.natAbs < 2 ^ 15) : category v ≤ 15 := Nat.size_le.2 h

theorem category_pos (v : Int) (h : v ≠ 0) : 1 ≤ category v := Nat.size_pos.2 (by omega)

/-- The coefficients that are not zero, with their indices. -/
def nonzero : Nat → List Int → List (Nat × Int)
  | _, [] => []
  | k, v :: vs => if v = 0 then nonzero (k + 1) vs else (k, v) :: nonzero (k + 1) vs

theorem zrls {cnt values : Nat → Nat} {code : Nat → List Bool}
    (n pos : Nat) (bits : List Bool) (cs : List (Nat × Int)) (hp : pos + 16 * n ≤ 64)
    (hc : 0 < n → IsCode cnt values 0xF0 (code 0xF0))
    (h : AcBits cnt values (pos + 16 * n) cs bits) :
    AcBits cnt values pos cs
      (tokenBits code (List.replicate n (0xF0, 0, 0)) ++ bits) := by
  induction n generalizing pos with
  | zero => simpa [tokenBits] using h
  | succ n ih =>
    have := ih (pos + 16) (by omega) (fun _ => hc (by omega))
      (by rw [show pos + 16 + 16 * n = pos + 16 * (n + 1) by omega]; exact h)
    have h2 := AcBits.zrl pos (code 0xF0) _ cs (by omega) (hc (by omega)) this
    rw [List.replicate_succ]
    simp only [tokenBits, List.flatMap_cons, List.append_assoc]
    simpa [tokenBits, toBits] using h2

theorem tokens_bits {cnt values : Nat → Nat} {code : Nat → List Bool} (vs : List Int)
    (pos run : Nat) (hl : pos + run + vs.length = 64) (hr : ∀ v ∈ vs, v.natAbs < 2 ^ 15)
    (hc : ∀ t ∈ acTokens run vs, IsCode cnt values t.1 (code t.1)) :
    AcBits cnt values pos (nonzero (pos + run) vs) (tokenBits code (acTokens run vs)) := by
  induction vs generalizing pos run with
  | nil =>
    rw [List.length_nil] at hl
    unfold acTokens at hc ⊢
    by_cases h : run = 0
    · subst h
      obtain rfl : pos = 64 := by omega
      exact AcBits.full
    · rw [if_neg h] at hc ⊢
      have := hc (0, 0, 0) (by simp)
      simpa [tokenBits, toBits, nonzero] using AcBits.eob pos (code 0) (by omega) this
  | cons v vs ih =>
    rw [List.length_cons] at hl
    unfold acTokens at hc ⊢
    unfold nonzero
    by_cases h : v = 0
    · rw [if_pos h] at hc ⊢
      rw [if_pos h]
      exact ih pos (run + 1) (by omega) (fun w hw => hr w (by simp [hw])) hc
    · rw [if_neg h] at hc ⊢
      rw [if_neg h]
      have i1 := ih (pos + run + 1) 0 (by omega) (fun w hw => hr w (by simp [hw]))
        (fun t ht => hc t (by simp [ht]))
      rw [Nat.add_zero] at i1
      have hcc := hc (16 * (run % 16) + category v, category v, magnitude v) (by simp)
      have h15 := category_le v (hr v (by simp))
      have hpr : pos + 16 * (run / 16) + run % 16 = pos + run := by omega
      have i2 := AcBits.coef (pos + 16 * (run / 16)) (run % 16) (category v) (magnitude v) _ _ _
        (by omega) (by omega) (category_pos v h) h15 (magnitude_lt v) hcc
        (by rw [hpr]; exact i1)
      rw [extend_magnitude, hpr] at i2
      have i3 := zrls (code := code) (run / 16) pos _ _ (by omega)
        (fun hn => hc (0xF0, 0, 0) (by
          rw [List.mem_append]; exact Or.inl (List.mem_replicate.2 ⟨by omega, rfl⟩))) i2
      have e : tokenBits code (List.replicate (run / 16) (0xF0, 0, 0) ++
          (16 * (run % 16) + category v, category v, magnitude v) :: acTokens 0 vs) =
          tokenBits code (List.replicate (run / 16) (0xF0, 0, 0)) ++
            (code (16 * (run % 16) + category v) ++ toBits (category v) (magnitude v) ++
              tokenBits code (acTokens 0 vs)) := by
        simp only [tokenBits, List.flatMap_append, List.flatMap_cons]
      rw [e]
      exact i3

theorem coefAt_nonzero (vs : List Int) (k0 k : Nat) :
    coefAt (nonzero k0 vs) k =
      if k < k0 then none else (vs[k - k0]?).bind fun v => if v = 0 then none else some v := by
  induction vs generalizing k0 with
  | nil => simp [nonzero, coefAt]
  | cons v vs ih =>
    unfold nonzero
    have hstep : ∀ l : List (Nat × Int), coefAt ((k0, v) :: l) k = if k0 = k then some v
        else coefAt l k := by
      intro l
      unfold coefAt
      rw [List.find?_cons]
      by_cases hk : k0 = k
      · simp [hk]
      · rw [if_neg hk, beq_eq_false_iff_ne.2 hk]
    by_cases hv : v = 0
    · rw [if_pos hv, ih]
      by_cases h1 : k < k0
      · rw [if_pos h1, if_pos (by omega)]
      · rw [if_neg h1]
        by_cases h2 : k = k0
        · subst h2
          simp [hv]
        · rw [if_neg (by omega), show k - k0 = k - (k0 + 1) + 1 by omega, List.getElem?_cons_succ]
    · rw [if_neg hv, hstep, ih]
      by_cases h1 : k < k0
      · rw [if_neg (by omega), if_pos h1, if_pos (by omega)]
      · rw [if_neg h1]
        by_cases h2 : k0 = k
        · subst h2
          simp [hv]
        · rw [if_neg h2, if_neg (by omega), show k - k0 = k - (k0 + 1) + 1 by omega,
            List.getElem?_cons_succ]

theorem walk_zz (k : Nat) (rc : Nat × Nat) (h : zigzagWalk[k]? = some rc) :
    k < 64 ∧ 8 * rc.1 + rc.2 = zz k := by
  have hl : zigzagWalk.length = 64 := by decide +kernel
  have hk : k < 64 := by
    rw [← hl]; exact (List.getElem?_eq_some_iff.1 h).1
  have key : ∀ i : Fin 64, (zigzagWalk[i.val]?).map (fun p => 8 * p.1 + p.2) = some (zz i.val) := by
    decide +kernel
  have := key ⟨k, hk⟩
  rw [h] at this
  exact ⟨hk, by simpa using this⟩

theorem block_step {c : ScanComp} (ok : c.Ok) {prev : Int} {z : List Int} (fit : c.Fits prev z)
    {V : List Bool} {s : Bs} {e} (h : Str s (c.bits prev z ++ V) e) :
    ∃ out, s.decodeBlock c.dt c.t c.qt (fun _ => 0) (BitVec.ofInt 32 prev) = .ok out ∧
      Str out.s V e ∧ out.pred = BitVec.ofInt 32 (z.headD 0) ∧ Holds c.qt z out.block ∧
      (∀ k v, z[k]? = some v → v ≠ 0 → k ≠ 0 → k < out.len) ∧ out.len ≤ 64 := by
  obtain ⟨g, _⟩ := good_of_new ok.dc ok.dc0
  obtain ⟨f, T⟩ := acTable_new ok.ac ok.ac0 ok.acv
  obtain ⟨hlen, hdiff, hrange, hdc, hac⟩ := fit
  have hb := tokens_bits (cnt := c.cnt) (values := c.vals) (code := c.acode) z.tail 1 0
    (by rw [List.length_tail, hlen]) hrange hac
  obtain ⟨out, o1, o2, o3, o4, o5, o6⟩ := decodeBlock_ok g ok.dcv T c.qt hdc
    (category_le _ hdiff) (magnitude_lt _) hb h (fun _ => 0) (BitVec.ofInt 32 prev)
  have hpred : out.pred = BitVec.ofInt 32 (z.headD 0) := by
    rw [o3, extend_magnitude, ← BitVec.ofInt_add]
    congr 1; omega
  obtain ⟨m1, m2⟩ := acBits_mem hb
  obtain ⟨d, ac, rfl⟩ : ∃ d ac, z = d :: ac := by
    cases z with
    | nil => simp at hlen
    | cons d ac => exact ⟨d, ac, rfl⟩
  refine ⟨out, o1, o2, hpred, ?_, ?_, o6⟩
  · intro k rc v hw hv
    obtain ⟨hk, hz⟩ := walk_zz k rc hw
    rw [hz, o4, storeAll_spec c.qt _ _ (fun c hc => (m1 c hc).2) m2 k hk, coefAt_nonzero]
    by_cases hk0 : k = 0
    · subst hk0
      simp only [show (0 : Nat) < 1 + 0 from by omega, if_true]
      rw [hpred, setAt, show zz 0 = 0 by decide, if_pos rfl]
      simp only [List.getElem?_cons_zero, Option.some.injEq] at hv
      rw [← hv]
      rfl
    · rw [if_neg (by omega)]
      have hv' : ac[k - 1]? = some v := by
        rw [show k = k - 1 + 1 by omega, List.getElem?_cons_succ] at hv
        exact hv
      rw [List.tail_cons, show k - (1 + 0) = k - 1 by omega, hv']
      simp only [Option.bind_some]
      by_cases hv0 : v = 0
      · rw [if_pos hv0]
        have hz0 : zz k ≠ 0 := fun h0 => hk0 (zz_inj k 0 hk (by omega) (by rw [h0]; decide))
        simp only
        rw [setAt, if_neg hz0, hv0]
        simp
      · rw [if_neg hv0]
  · intro k v hv hv0 hk0
    have hv' : ac[k - 1]? = some v := by
      rw [show k = k - 1 + 1 by omega, List.getElem?_cons_succ] at hv
      exact hv
    have hca := coefAt_nonzero ac (1 + 0) k
    rw [if_neg (by omega), show k - (1 + 0) = k - 1 by omega, hv'] at hca
    simp only [Option.bind_some, if_neg hv0] at hca
    unfold coefAt at hca
    rw [Option.map_eq_some_iff] at hca
    obtain ⟨p, hp, _⟩ := hca
    have hpk : p.1 = k := by simpa using List.find?_some hp
    have := o5 p (List.mem_of_find?_eq_some hp)
    omega

theorem scan_step (comps : Nat → ScanComp) (l : List (Nat × List Int)) (prev : Nat → Int)
    (ok : ∀ p ∈ l, (comps p.1).Ok) (fit : ScanFits comps prev l) (V : List Bool) (s : Bs) (e)
    (h : Str s (scanBits comps prev l ++ V) e) :
    ∃ bs s', decodeScan comps (fun i => BitVec.ofInt 32 (prev i)) (l.map Prod.fst) s =
        .ok (bs, s') ∧
      List.Forall₂ (fun p b => Holds (comps p.1).qt p.2 b) l bs ∧ Str s' V e := by
  induction l generalizing prev s with
  | nil => exact ⟨[], s, rfl, List.Forall₂.nil, by simpa [scanBits] using h⟩
  | cons p l ih =>
    obtain ⟨i, z⟩ := p
    obtain ⟨f1, f2⟩ := fit
    rw [scanBits, List.append_assoc] at h
    obtain ⟨out, o1, o2, o3, o4, _⟩ := block_step (ok (i, z) (by simp)) f1 h
    obtain ⟨bs, s', q1, q2, q3⟩ := ih (Function.update prev i (z.headD 0))
      (fun p hp => ok p (by simp [hp])) f2 out.s o2
    refine ⟨out.block :: bs, s', ?_, List.Forall₂.cons o4 q2, q3⟩
    rw [List.map_cons, decodeScan]
    simp only [o1]
    have e : Function.update (fun i => BitVec.ofInt 32 (prev i)) i out.pred =
        fun j => BitVec.ofInt 32 (Function.update prev i (z.headD 0) j) := by
      funext j
      by_cases hj : j = i
      · subst hj
        simp [o3]
      · simp [Function.update_of_ne hj]
    rw [e, q1]
    rfl

/-! ## Theorems -/

/-- **C68** Baseline blocks round-trip: coefficients encoded as the standard prescribes (differences
of DC coefficients, runs of zeros, categories and extra bits, with any Huffman tables the decoder
accepts), stuffed into bytes with any padding and followed by a marker, are decoded to the same
coefficients, each times its quantiser and at its place in the block.  For every sequence of
blocks of any number of components in any order. -/
theorem c68_roundtrip (comps : Nat → ScanComp) (l : List (Nat × List Int))
    (ok : ∀ p ∈ l, (comps p.1).Ok) (fit : ScanFits comps (fun _ => 0) l)
    (data : List UInt8) (pad : List Bool)
    (hd : bytesBits data = scanBits comps (fun _ => 0) l ++ pad)
    (k : Nat) (m : UInt8) (r : List UInt8) (hm : knownMarker m = true) :
    ∃ bs s', decodeScan comps (fun _ => 0) (l.map Prod.fst)
        (Bs.new (stuff data ++ 0xFF :: List.replicate k 0xFF ++ m :: r)) = .ok (bs, s') ∧
      List.Forall₂ (fun p b => Holds (comps p.1).qt p.2 b) l bs := by
  have h0 : m ≠ 0 := by rintro rfl; revert hm; decide
  have hF : m ≠ 0xFF := by rintro rfl; revert hm; decide
  have hu := c48_segment data k m r h0 hF
  have hs := str_new (stuff data ++ 0xFF :: List.replicate k 0xFF ++ m :: r)
    (by rw [hu]; intro m' r' h; cases h; exact hm)
  rw [hu, hd] at hs
  obtain ⟨bs, s', q1, q2, _⟩ := scan_step comps l (fun _ => 0) ok fit pad _ _ hs
  exact ⟨bs, s', q1, q2⟩

/-- Counts of a small AC table: codes 00, 01, 10 and 110 for 00, 01, F0 and 12. -/
def exAc : Nat → Nat := fun l => ([0, 0, 3, 1] : List Nat).getD l 0

/-- Symbols of the small AC table. -/
def exAcVals : Nat → Nat := fun p => ([0x00, 0x01, 0xF0, 0x12] : List Nat).getD p 0

/-- A component with the DC table of the standard and the small AC table. -/
def exScanComp (dt t : Huff) : ScanComp :=
  { dcnt := exBits, dvals := fun p => p % 16, cnt := exAc, vals := exAcVals, dt := dt, t := t,
    qt := fun k => BitVec.ofNat 32 (k + 1),
    dcode := fun s => if s = 2 then [false, true, true] else [false, false],
    acode := fun s => if s = 0 then [false, false] else if s = 1 then [false, true] else
      if s = 0xF0 then [true, false] else [true, true, false] }

/-- A block with DC 3 and two other coefficients, 18 zeros apart. -/
def exZ : List Int := [3, 1] ++ List.replicate 17 0 ++ [-2] ++ List.replicate 44 0

-- two blocks (the second with the same DC coefficient) meet all hypotheses.
example : ∃ dt t : Huff, (exScanComp dt t).Ok ∧
    ScanFits (fun _ => exScanComp dt t) (fun _ => 0) [(0, exZ), (0, exZ)] ∧
    bytesBits [0x7B, 0xB2, 0x0E, 0xC9] =
      scanBits (fun _ => exScanComp dt t) (fun _ => 0) [(0, exZ), (0, exZ)] ++ [true] := by
  obtain ⟨dt, hdt⟩ := (c42_accepts exBits (fun p => p % 16) true rfl).2
    ⟨fun l h1 h2 => by interval_cases l <;> decide +kernel, by decide +kernel,
      fun _ i _ => by omega⟩
  obtain ⟨t, ht⟩ := (c42_accepts exAc exAcVals false rfl).2
    ⟨fun l h1 h2 => by interval_cases l <;> decide +kernel, by decide +kernel, fun h => by cases h⟩
  have hv : ∀ p, exAcVals p < 256 := by
    intro p
    by_cases hp : p < 4
    · interval_cases p <;> decide
    · simp [exAcVals, hp]
  refine ⟨dt, t, ⟨hdt, ht, rfl, rfl, fun p => by simp [exScanComp]; omega, hv⟩, ?_, ?_⟩
  · have e : acTokens 0 exZ.tail = [(1, 1, 1), (0xF0, 0, 0), (0x12, 2, 1), (0, 0, 0)] := by
      decide +kernel
    have hac : ∀ tk ∈ acTokens 0 exZ.tail, IsCode exAc exAcVals tk.1 ((exScanComp dt t).acode tk.1) := by
      rw [e]
      intro tk h
      simp only [List.mem_cons, List.not_mem_nil, or_false] at h
      rcases h with rfl | rfl | rfl | rfl
      · exact ⟨2, 1, by decide, by decide, by decide, by decide, rfl⟩
      · exact ⟨2, 2, by decide, by decide, by decide, by decide, rfl⟩
      · exact ⟨3, 0, by decide, by decide, by decide, by decide, rfl⟩
      · exact ⟨2, 0, by decide, by decide, by decide, by decide, rfl⟩
    have hr : ∀ v ∈ exZ.tail, v.natAbs < 2 ^ 15 := by decide +kernel
    have hc2 : category 3 = 2 := by decide +kernel
    have hc0 : category 0 = 0 := by decide +kernel
    refine ⟨⟨by decide +kernel, by decide, hr, ?_, hac⟩,
      ⟨by decide +kernel, by simp [exZ], hr, ?_, hac⟩, trivial⟩
    · rw [show exZ.headD 0 - 0 = 3 from rfl, hc2]
      have : IsCode exBits (fun p => p % 16) 2 [false, true, true] :=
        ⟨3, 1, by decide, by decide, by decide, by decide, rfl⟩
      exact this
    · rw [Function.update_self, Int.sub_self, hc0]
      have : IsCode exBits (fun p => p % 16) 0 [false, false] :=
        ⟨2, 0, by decide, by decide, by decide, by decide, rfl⟩
      exact this
  · have e : ∀ i, scanBits (fun _ => exScanComp dt t) (fun _ => 0) [(0, exZ), (0, exZ)] =
        scanBits (fun _ => exScanComp i i) (fun _ => 0) [(0, exZ), (0, exZ)] := fun i => rfl
    rw [e { maxcode := fun _ => 0, offset := fun _ => 0, lookup := fun _ => 0, acLookup := none,
            values := fun _ => 0 }]
    decide +kernel

/-- **C68** Skipping a block takes the same bits as decoding it, returns the same length and fails
with the same errors, in every state of the reader and for every tables; except where decoding
stops at once because the segment is used up. -/
theorem c68_discard (s : Bs) (dc ac : Huff) (qt : Nat → I32) (block : Nat → I32) (pred : I32)
    (hl : ¬ (s.left < 1 ∧ s.marker.isSome)) :
    s.discardBlock dc ac = (s.decodeBlock dc ac qt block pred).map fun o => (o.len, o.s) := by
  unfold Bs.discardBlock Bs.decodeBlock
  cases ac.acLookup with
  | none => rfl
  | some f =>
    simp only [if_neg hl, discardDc_eq s dc pred]
    cases s.decodeDc dc pred with
    | error e => rfl
    | ok r =>
      obtain ⟨p, s1⟩ := r
      simp only [Except.map]
      rw [skipLoop_eq ac f qt 63 1 s1 (setAt block 0 (p * qt 0))]
      cases Bs.acLoop ac f qt 63 1 s1 (setAt block 0 (p * qt 0)) with
      | error e => rfl
      | ok r => rfl

example : ¬ ((Bs.new [0x7B, 0xB2, 0x0E, 0xC9]).left < 1 ∧
    (Bs.new [0x7B, 0xB2, 0x0E, 0xC9]).marker.isSome) := by decide

/-- The array of coefficients as a block. -/
def asBlock (b : Nat → I32) : Block := fun r c => b (8 * r.val + c.val)

/-- **C49** Whatever the stream, tables and state of the reader: entries of the array are written
only at places of the walk along the anti-diagonals, and when fewer than 64 coefficients are
reported only at the first `len` of them.  So a zeroed array becomes a block of `len` coefficients
in the sense the choice of the inverse transform relies on. -/
theorem c49_written (s : Bs) (dc ac : Huff) (qt : Nat → I32) (block : Nat → I32) (pred : I32)
    (out : BlockOut) (h : s.decodeBlock dc ac qt block pred = .ok out) :
    1 ≤ out.len ∧ out.len ≤ 64 ∧
    (∀ j, 64 ≤ j → out.block j = block j) ∧
    (∀ i k, unZigzag[i]? = some k → out.len ≤ i → i < 64 → out.block k = block k) := by
  unfold Bs.decodeBlock at h
  split at h
  · cases h
  · rename_i f hf
    split at h
    · cases h
    · split at h
      · cases h
      · rename_i p s1 hd
        split at h
        · cases h
        · rename_i len s2 b hl
          cases h
          obtain ⟨f1, f2, f3, f4⟩ := acLoop_frame _ _ _ _ _ _ _ _ _ _ hl
          have hlen : 1 ≤ len := by
            by_cases hx : len < 64
            · exact f1 hx
            · omega
          refine ⟨hlen, f2, fun j hj => ?_, fun i k hi hle hlt => ?_⟩ <;> simp only at *
          · by_contra hne
            by_cases hj0 : b j = setAt block 0 (p * qt 0) j
            · refine hne ?_
              rw [hj0, setAt, if_neg (by omega)]
            · obtain ⟨q, hq⟩ := f3 j hj0
              have := zz_lt q
              omega
          · have hkz : k = zz i := by
              have key : ∀ i : Fin 64, unZigzag[i.val]? = some (zz i.val) := by decide +kernel
              have := key ⟨i, hlt⟩
              rw [hi] at this
              simpa using this
            by_contra hne
            have hk0 : k ≠ 0 := fun h0 => by
              have := zz_inj i 0 hlt (by omega) (by rw [← hkz, h0]; decide)
              omega
            have hj0 : b k ≠ setAt block 0 (p * qt 0) k := by
              rw [setAt, if_neg hk0]
              exact hne
            obtain ⟨q, hq, hqz⟩ := f4 (by omega) k hj0
            have := zz_inj i q hlt (by omega) (by rw [← hkz, hqz])
            omega

/-- **C49** The same in the terms of the inverse transforms: the block is short. -/
theorem c49_short (s : Bs) (dc ac : Huff) (qt : Nat → I32) (pred : I32) (out : BlockOut)
    (h : s.decodeBlock dc ac qt (fun _ => 0) pred = .ok out) :
    Short out.len (asBlock out.block) := by
  intro i k hk hi hle hlt
  have := (c49_written s dc ac qt _ pred out h).2.2.2 i k hi hle hlt
  unfold coef asBlock
  simp only
  rw [show 8 * (k / 8) + k % 8 = k by omega, this]

-- a stream that is decoded to a block of 3 coefficients.
example : ∃ dt t out, Huff.new exBits (fun p => p % 16) true = .ok dt ∧
    Huff.new exAc exAcVals false = .ok t ∧
    (Bs.new [0x7B, 0x3F, 0x3F, 0x3F]).decodeBlock dt t (fun _ => 1) (fun _ => 0) 0 = .ok out ∧
    out.len = 2 ∧ out.block 0 = 3 ∧ out.block 1 = 1 := by
  have h : (match Huff.new exBits (fun p => p % 16) true, Huff.new exAc exAcVals false with
      | .ok dt, .ok t =>
        match (Bs.new [0x7B, 0x3F, 0x3F, 0x3F]).decodeBlock dt t (fun _ => 1) (fun _ => 0) 0 with
        | .ok out => decide (out.len = 2 ∧ out.block 0 = 3 ∧ out.block 1 = 1)
        | .error _ => false
      | _, _ => false) = true := by decide +kernel
  split at h
  · rename_i dt t h1 h2
    split at h
    · rename_i out h3
      exact ⟨dt, t, out, h1, h2, h3, by simpa using h⟩
    · cases h
  · cases h

end Zune.Jpeg
