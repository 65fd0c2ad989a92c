/-
Lemmas about the frame level of the JPEG XL encoder: what its writers hold, and what is written out.
-/
import Verif.Jxl.Samples
import Verif.Jxl.DescProps

namespace Zune.Jxl

open Prefix (Used)
open Rfc7932 (Describes)

/-! ### Output -/

theorem emit_eq (out : SinkWriter) (b : BitWriter) (last : Bool) :
    emit out b last = (if b.left > 0 then b.flush else some b).bind fun b =>
      if b.pos > b.dest.length then none else (out.putBytes (b.dest.take b.pos)).bind fun out =>
        let e := (if b.left ≠ 0 then out.put b.left b.buf else out).flush
        some (if last && e.left != 0 then e.put (8 - e.left) 0 else e) := by
  rw [emit]
  by_cases h : b.left > 0
  · simp only [h, if_true]
    cases b.flush with
    | none => rfl
    | some c =>
      by_cases h2 : c.pos > c.dest.length
      · simp [h2]
      · simp [h2]
  · simp only [h, if_false]
    by_cases h2 : b.pos > b.dest.length
    · simp [h2]
    · simp [h2]

theorem emit_holds {out out' : SinkWriter} {b : BitWriter} {last : Bool} {s t : List Bool} (ho : out.Holds s) (hb : b.Holds t)
    (h : emit out b last = some out') : out'.Holds (s ++ t ++ if last then padding (s ++ t).length else []) := by
  rw [emit_eq] at h
  have h1 : ∃ c, (if b.left > 0 then b.flush else some b) = some c ∧ c.Holds t ∧ c.left < 8 := by
    cases hf : (if b.left > 0 then b.flush else some b) with
    | none => rw [hf] at h; cases h
    | some c =>
      refine ⟨c, rfl, ?_⟩
      split at hf
      · obtain ⟨h1, h2, -⟩ := BitWriter.flush_holds hb hf
        exact ⟨h1, h2⟩
      · cases hf
        exact ⟨hb, by omega⟩
  obtain ⟨c, hc, h2, h3⟩ := h1
  rw [hc] at h
  have h4 : ¬ c.pos > c.dest.length := by have := h2.pos; omega
  simp only [Option.bind_some, h4, if_false] at h
  obtain ⟨d, hd, h5⟩ := SinkWriter.putBytes_holds (c.dest.take c.pos) ho
  rw [hd] at h
  simp only [Option.bind_some] at h
  have h6 : (if c.left ≠ 0 then d.put c.left c.buf else d).Holds (s ++ t) := by
    rw [← h2.bits, ← List.append_assoc]
    split
    · exact SinkWriter.put_holds h5 (by omega)
    · rename_i hz
      simp only [ne_eq, not_not] at hz
      rw [hz]
      simpa [lsb] using h5
  obtain ⟨h7, h8⟩ := SinkWriter.flush_holds h6
  generalize (if c.left ≠ 0 then d.put c.left c.buf else d) = e at h h6 h7 h8
  have h9 := h7.length
  have h10 : out' = if last && e.flush.left != 0 then e.flush.put (8 - e.flush.left) 0 else e.flush := by
    cases h; rfl
  subst h10
  cases last with
  | false => simpa using h7
  | true =>
    by_cases hz : e.flush.left = 0
    · simp only [hz, Bool.true_and, bne_self_eq_false, Bool.false_eq_true, if_false, if_true]
      have : padding (s ++ t).length = [] := by simp only [padding, h9, hz]; rw [show (8 - (8 * e.flush.dest.length + 0) % 8) % 8 = 0 by omega]; rfl
      rw [this, List.append_nil]
      exact h7
    · have hz' : (e.flush.left != 0) = true := by simpa using hz
      simp only [hz', Bool.true_and, if_true]
      have h11 := SinkWriter.put_holds (n := 8 - e.flush.left) (v := 0) h7 (by omega)
      have : padding (s ++ t).length = lsb (8 - e.flush.left) 0 := by
        rw [padding, h9, show (8 - (8 * e.flush.dest.length + e.flush.left) % 8) % 8 = 8 - e.flush.left by omega]
        generalize 8 - e.flush.left = k
        induction k with
        | zero => rfl
        | succ k ih => rw [List.replicate_succ, lsb, ih]; rfl
      rw [this]
      exact h11

theorem emitAll_holds {ws : List BitWriter} {bs : List (List Bool)} (hw : List.Forall₂ BitWriter.Holds ws bs) (hne : ws ≠ []) :
    ∀ {out out' : SinkWriter} {s : List Bool}, out.Holds s → emitAll out ws = some out' →
      out'.Holds (s ++ bs.flatten ++ padding (s ++ bs.flatten).length) := by
  induction hw with
  | nil => exact absurd rfl hne
  | @cons b t ws bs hb hw ih =>
    intro out out' s ho h
    rw [emitAll] at h
    cases he : emit out b ws.isEmpty with
    | none => rw [he] at h; cases h
    | some c =>
      rw [he] at h
      have h1 := emit_holds ho hb he
      cases ws with
      | nil =>
        cases hw
        cases h
        simpa using h1
      | cons b' ws' =>
        simp only [List.isEmpty_cons, Bool.false_eq_true, if_false, List.append_nil] at h1
        have := ih (by simp) h1 h
        simpa using this

/-- A section of the file: the bits of its channels, completed to bytes. -/
def pad (s : List Bool) : List Bool := s ++ padding s.length

theorem pad_length (s : List Bool) : (pad s).length % 8 = 0 := Nat.mod_eq_zero_of_dvd (padding_length s)

theorem padding_add {s : List Bool} (h : s.length % 8 = 0) (t : List Bool) : padding (s ++ t).length = padding t.length := by
  rw [padding, padding, List.length_append]
  congr 2
  omega

theorem foldlM_emitAll {ch : Nat} (hch : 0 < ch) {groups : List (List BitWriter)} {bss : List (List (List Bool))}
    (hg : List.Forall₂ (fun ws bs => List.Forall₂ BitWriter.Holds (ws.take ch) bs) groups bss) (hne : ∀ ws ∈ groups, ws ≠ []) :
    ∀ {out out' : SinkWriter} {s : List Bool}, out.Holds s → s.length % 8 = 0 → groups.foldlM (fun out ws => emitAll out (ws.take ch)) out = some out' →
      out'.Holds (s ++ bss.flatMap fun bs => pad bs.flatten) := by
  induction hg with
  | nil => intro out out' s ho _ h; cases h; simpa using ho
  | @cons ws bs groups bss hw hg ih =>
    intro out out' s ho hs h
    rw [List.foldlM_cons] at h
    cases he : emitAll out (ws.take ch) with
    | none => rw [he] at h; cases h
    | some c =>
      rw [he] at h
      have hne' : ws.take ch ≠ [] := by
        intro e
        rcases List.take_eq_nil_iff.1 e with h | h
        · omega
        · exact hne ws (by simp) h
      have h1 := emitAll_holds hw hne' ho he
      rw [padding_add hs, List.append_assoc] at h1
      have := ih (fun ws hw => hne ws (by simp [hw])) h1 (by rw [List.length_append]; have := pad_length bs.flatten; rw [pad] at this; omega) h
      rw [List.flatMap_cons, ← List.append_assoc]
      exact this

theorem writeOutput_bits {o : Opts} (hch : 0 < o.channels) {header : BitWriter} {hb : List Bool} (hh : header.Holds hb) {groups : List (List BitWriter)}
    {bss : List (List (List Bool))} (hg : List.Forall₂ (fun ws bs => List.Forall₂ BitWriter.Holds (ws.take o.channels) bs) groups bss)
    (hne : ∀ ws ∈ groups, ws ≠ []) {out : List UInt8} (h : writeOutput o header groups = some out) :
    bytesLsb out = pad hb ++ bss.flatMap fun bs => pad bs.flatten := by
  rw [writeOutput] at h
  cases he : emit (SinkWriter.new []) header true with
  | none => rw [he] at h; cases h
  | some c =>
    rw [he] at h
    have h0 : (SinkWriter.new []).Holds [] := ⟨by show (0 : Nat) < 64; decide, by show (0 : Nat) < 2 ^ 0; decide, rfl⟩
    have h1 := emit_holds h0 hh he
    simp only [List.nil_append, if_true] at h1
    cases hf : groups.foldlM (fun out ws => emitAll out (ws.take o.channels)) c with
    | none =>
      have : (groups.foldlM (fun out ws => emitAll out (ws.take o.channels)) c >>= fun out => if out.flush.left ≠ 0 then none else some out.flush.dest) = some out := h
      rw [hf] at this; cases this
    | some d =>
      have h2 : (if d.flush.left ≠ 0 then none else some d.flush.dest) = some out := by
        have : (groups.foldlM (fun out ws => emitAll out (ws.take o.channels)) c >>= fun out => if out.flush.left ≠ 0 then none else some out.flush.dest) = some out := h
        rw [hf] at this; exact this
      have h3 := foldlM_emitAll hch hg hne h1 (pad_length hb) hf
      obtain ⟨h4, -⟩ := SinkWriter.flush_holds h3
      split at h2
      · cases h2
      · rename_i hz
        simp only [ne_eq, not_not] at hz
        cases h2
        have := h4.bits
        rw [hz] at this
        simpa [lsb, pad] using this

/-! ### Channels -/

/-- The group lies in the picture. -/
theorem groupArea_spec {o : Opts} {data : List UInt8} (h : o.Fits data) {g : Nat} (hg : g < o.groupsX * o.groupsY) :
    (o.groupArea g).1 + (o.groupArea g).2.2.1 ≤ o.width ∧ (o.groupArea g).2.1 + (o.groupArea g).2.2.2 ≤ o.height ∧
      (o.groupArea g).2.2.1 ≤ 256 ∧ (o.groupArea g).2.2.2 ≤ 256 := by
  have hw := h.width
  have hh := h.height
  have hX : 0 < o.groupsX := by unfold Opts.groupsX; omega
  have hxg : g % o.groupsX < o.groupsX := Nat.mod_lt _ hX
  have hyg : g / o.groupsX < o.groupsY := (Nat.div_lt_iff_lt_mul hX).2 (by rw [Nat.mul_comm]; exact hg)
  simp only [Opts.groupArea]
  generalize g % o.groupsX = xg at *
  generalize g / o.groupsX = yg at *
  unfold Opts.groupsY at hyg
  unfold Opts.groupsX at hxg
  omega

/-- What the row processor makes of channel `c` of group `g`. -/
def Opts.proc (o : Opts) (data : List UInt8) (g c : Nat) : Proc :=
  area 0 (o.groupArea g).2.2.1 ((List.range (o.groupArea g).2.2.2).map fun y => (List.range (o.groupArea g).2.2.1).map fun x =>
    pixAt o data c ((o.groupArea g).2.1 + y) ((o.groupArea g).1 + x))

theorem proc_symbols {o : Opts} {data : List UInt8} (h : o.Fits data) (g c : Nat) :
    (o.proc data g c).symbols = (List.range (o.groupArea g).2.2.2).flatMap (fun y => (List.range (o.groupArea g).2.2.1).map
      (residualAt (fun y x => (pixAt o data c ((o.groupArea g).2.1 + y) ((o.groupArea g).1 + x)).toInt) y)) ∧ (o.proc data g c).Runs := by
  obtain ⟨B, hB, hpix⟩ := pixAt_bound h
  rw [Opts.proc, area]
  have := areaLoop_symbols (fun y x => pixAt o data c ((o.groupArea g).2.1 + y) ((o.groupArea g).1 + x)) B (by omega) (by omega) (by omega)
    (by rcases hB with ⟨-, h1, h2⟩ | ⟨-, h1, h2⟩ <;> rw [h1, h2] <;> decide) (fun y x => hpix c _ _) (o.groupArea g).2.2.1 (o.groupArea g).2.2.2
    (Line.zero _) (Line.zero _) 0 ⟨0, []⟩ ⟨Or.inl rfl, by simp⟩ (by omega)
  rw [← List.range_eq_range'] at this
  exact ⟨by rw [this.1]; simp [Proc.symbols], this.2⟩

theorem proc_spec {o : Opts} {data : List UInt8} (h : o.Fits data) (g c : Nat) :
    (o.proc data g c).symbols.length = (o.groupArea g).2.2.2 * (o.groupArea g).2.2.1 ∧ (∀ v ∈ (o.proc data g c).symbols, v < 2 ^ o.resBits) := by
  have hs := (proc_symbols h g c).1
  rw [hs]
  refine ⟨by simp [List.length_flatMap], fun v hv => ?_⟩
  obtain ⟨y, -, hy⟩ := List.mem_flatMap.1 hv
  obtain ⟨x, -, rfl⟩ := List.mem_map.1 hy
  exact residualAt_lt h c _ _ y x

theorem groupArea_le {o : Opts} {data : List UInt8} (h : o.Fits data) {g : Nat} (hg : g < o.groupsX * o.groupsY) :
    (o.groupArea g).2.2.2 * (o.groupArea g).2.2.1 ≤ 65536 := by
  obtain ⟨-, -, h1, h2⟩ := groupArea_spec h hg
  exact Nat.mul_le_mul h2 h1

/-- The code of a channel of a picture. -/
structure CodeSpec (o : Opts) (c : PrefixCode) : Prop where
  good : Good c
  length : c.lens.length = 257
  used : ∀ t, Used c.lens t ↔ t < o.numSymbols ∨ 224 ≤ t ∧ t < 224 + 28
  raw7 : ∀ t < 13, c.rawNbits.getD t 0 ≤ 7

theorem ChannelCode.spec {o : Opts} {data : List UInt8} (h : o.Fits data) {c : PrefixCode} (hc : ChannelCode o c) : CodeSpec o c := by
  obtain ⟨raw, lz, hr, hl, hraw, hlz, hn⟩ := hc
  obtain ⟨c', hc', h1, -, -, h4, -, -, h7, -⟩ := c72_code o.bytes o.numSymbols raw lz (numSymbols_cases h) hr hl hraw hlz
  rw [hn] at hc'
  cases hc'
  exact ⟨new_good hr hl hn, h1, h4, h7⟩

/-- Bits that one sample takes at most. -/
def Opts.sampleBits (o : Opts) : Nat := (if o.bytes = 1 then 7 else 8) + (o.resBits - 1)

theorem lz_le {c : PrefixCode} (g : Good c) (t : Nat) : c.lz77Nbits.getD t 0 ≤ 15 := by
  rw [List.getD_eq_getElem?_getD]
  cases h : c.lz77Nbits[t]? with
  | none => simp
  | some a => exact g.le _ (by rw [PrefixCode.lens]; exact List.mem_append_right _ (List.mem_of_getElem? h))

theorem residualBits_le {o : Opts} {c : PrefixCode} (hc : CodeSpec o c) {v : Nat} (hv : v < 2 ^ o.resBits) :
    (residualBits c v).1 ≤ o.sampleBits := by
  have hk : o.resBits ≤ 18 ∧ 1 ≤ o.resBits ∧ (o.bytes = 1 → o.resBits ≤ 10) := by
    unfold Opts.resBits
    split
    · split <;> omega
    · split <;> omega
  have h3 : 2 ^ o.resBits ≤ 2 ^ 18 := Nat.pow_le_pow_right (by omega) hk.1
  obtain ⟨-, h1, -, h2⟩ := c52_residual v (Nat.lt_of_lt_of_le hv (Nat.le_trans h3 (by decide)))
  have h4 := h2 _ hv
  have h5 : (hybrid000 v).2.1 ≤ o.resBits - 1 := by
    rw [h1, Hybrid.extra]
    split
    · simp
    · simp at *; omega
  have h6 : (hybrid000 v).2.1 &&& 0xFF ≤ (hybrid000 v).2.1 := Nat.and_le_left
  have h7 := hc.raw7 (hybrid000 v).1
  have h8 := hc.good.raw8 (hybrid000 v).1
  show c.rawNbits.getD (hybrid000 v).1 0 + ((hybrid000 v).2.1 &&& 0xFF) ≤ _
  rw [Opts.sampleBits]
  split
  · rename_i hb
    have := h7 (by have := hk.2.2 hb; omega)
    omega
  · omega

theorem runBits_le {o : Opts} {c : PrefixCode} (hc : CodeSpec o c) {r : Nat} (hr : r = 0 ∨ 8 ≤ r ∧ r - 8 < 2 ^ 16) :
    ∀ q ∈ runBits c r, q.1 ≤ 37 := by
  have h0 := hc.raw7 0 (by omega)
  have key : ∀ n, n < 2 ^ 16 → (hybridLz77 n).2.1 ≤ 15 := by
    intro n hn
    obtain ⟨-, h2, -, h4⟩ := c52_run n (by omega)
    have := h4 16 (by omega) hn
    rw [h2, Hybrid.extra]
    split <;> simp
    omega
  intro q hq
  rw [runBits] at hq
  rcases hr with rfl | ⟨h8, h16⟩
  · simp at hq
  · rw [if_neg (by omega)] at hq
    simp only at hq
    have hn : r - (lz77MinLength + 1) < 2 ^ 16 := h16
    generalize r - (lz77MinLength + 1) = n at hq hn
    have h2 := key n hn
    have h3 := lz_le hc.good (hybridLz77 n).1
    by_cases h32 : n < 32
    · rw [if_pos h32, List.mem_singleton] at hq
      subst hq
      have h1 := (hc.good.cache n h32).2
      simp only [h1]
      omega
    · rw [if_neg h32, List.mem_singleton] at hq
      subst hq
      have h4 : (hybridLz77 n).2.1 &&& 0xFF ≤ (hybridLz77 n).2.1 := Nat.and_le_left
      show c.lz77Nbits.getD (hybridLz77 n).1 0 + ((hybridLz77 n).2.1 &&& 0xFF) + c.rawNbits.getD 0 0 ≤ 37
      omega

theorem fields_length (l : List (Nat × Nat)) : (fields l).length = (l.map Prod.fst).sum := by
  induction l with
  | nil => rfl
  | cons a l ih => rw [fields, List.length_append, ih]; simp

theorem runBits_length {o : Opts} {c : PrefixCode} (hc : CodeSpec o c) {r m : Nat} (hm : 15 ≤ m) (hr : r = 0 ∨ 8 ≤ r ∧ r - 8 < 2 ^ 16) :
    (fields (runBits c r)).length ≤ m * r := by
  have h1 := runBits_le hc hr
  rcases hr with rfl | ⟨h8, h16⟩
  · simp [runBits, fields]
  · have h2 : m * 8 ≤ m * r := Nat.mul_le_mul_left m h8
    have h3 : ∃ q, runBits c r = [q] := by
      rw [runBits, if_neg (by omega)]
      simp only
      split
      · exact ⟨_, rfl⟩
      · exact ⟨_, rfl⟩
    obtain ⟨q, hq⟩ := h3
    have := h1 q (by rw [hq]; simp)
    rw [hq, fields_length]
    simp
    omega

theorem resBits_pos (o : Opts) : 15 ≤ o.sampleBits ∧ o.sampleBits ≤ 25 := by
  unfold Opts.sampleBits Opts.resBits
  split
  · split <;> omega
  · split <;> omega

/-- No field of a channel is too wide for the writer, and a channel takes at most `sampleBits` for each sample. -/
theorem channelBits_le {o : Opts} {code : PrefixCode} (hc : CodeSpec o code) {p : Proc} (hr : p.Runs)
    (hl : p.symbols.length ≤ 65536) (hv : ∀ v ∈ p.symbols, v < 2 ^ o.resBits) :
    (∀ q ∈ channelBits code p, q.1 ≤ 56) ∧ (fields (channelBits code p)).length ≤ o.sampleBits * p.symbols.length := by
  have hm := resBits_pos o
  have hruns : ∀ r ∈ p.run :: p.calls.map Call.run, r = 0 ∨ 8 ≤ r ∧ r - 8 < 2 ^ 16 := by
    intro r hrm
    have h1 := length_runs p r hrm
    have h8 : r = 0 ∨ 8 ≤ r := by
      rcases List.mem_cons.1 hrm with rfl | h
      · exact hr.1
      · obtain ⟨q, hq, rfl⟩ := List.mem_map.1 h
        exact hr.2 q hq
    omega
  have hcall : ∀ k ∈ p.calls, (∀ v ∈ k.residuals, v < 2 ^ o.resBits) ∧ (k.run = 0 ∨ 8 ≤ k.run ∧ k.run - 8 < 2 ^ 16) := by
    intro k hk
    refine ⟨fun v hv' => hv v ?_, hruns _ (by simp; exact Or.inr ⟨k, hk, rfl⟩)⟩
    rw [Proc.symbols, List.mem_append, List.mem_flatMap]
    exact Or.inl ⟨k, hk, by simp [Call.expand, hv']⟩
  have hres : ∀ l : List Nat, (∀ v ∈ l, v < 2 ^ o.resBits) → (fields (l.map (residualBits code))).length ≤ o.sampleBits * l.length := by
    intro l hl
    induction l with
    | nil => simp [fields]
    | cons v l ih =>
      have h1 := residualBits_le hc (hl v (by simp))
      have h2 := ih fun v hv => hl v (by simp [hv])
      rw [List.map_cons, fields, List.length_append, List.length_cons, Nat.mul_succ]
      simp
      omega
  have hcalls : ∀ l : List Call, (∀ k ∈ l, (∀ v ∈ k.residuals, v < 2 ^ o.resBits) ∧ (k.run = 0 ∨ 8 ≤ k.run ∧ k.run - 8 < 2 ^ 16)) →
      (fields (l.flatMap (callBits code))).length ≤ o.sampleBits * (l.flatMap Call.expand).length := by
    intro l hl
    induction l with
    | nil => simp [fields]
    | cons k l ih =>
      have h1 := runBits_length hc hm.1 (hl k (by simp)).2
      have h2 := hres _ (hl k (by simp)).1
      have h3 := ih fun k hk => hl k (by simp [hk])
      simp only [List.flatMap_cons, fields_append, List.length_append, callBits, Call.expand, List.length_replicate, Nat.mul_add]
      omega
  constructor
  · intro q hq
    rw [channelBits, List.mem_append, List.mem_flatMap] at hq
    rcases hq with ⟨k, hk, hq⟩ | hq
    · rw [callBits, List.mem_append, List.mem_map] at hq
      rcases hq with hq | ⟨v, hv', rfl⟩
      · have := runBits_le hc (hcall k hk).2 q hq; omega
      · have := residualBits_le hc ((hcall k hk).1 v hv'); omega
    · have := runBits_le hc (hruns p.run (by simp)) q hq; omega
  · have h1 := hcalls p.calls hcall
    have h2 := runBits_length hc hm.1 (hruns p.run (by simp))
    simp only [channelBits, Proc.symbols, fields_append, List.length_append, List.length_replicate, Nat.mul_add]
    omega

/-! ### Writers -/

/-- The bits of channel `c` of group `g`. -/
def chanBits (o : Opts) (data : List UInt8) (cs : List PrefixCode) (g c : Nat) : List Bool :=
  match cs[c]? with
  | some code => fields (channelBits code (o.proc data g c))
  | none => []

/-- What is written in front of the first channel of a group of its own. -/
def groupPreface : List (Nat × Nat) := [(1, 1), (1, 1), (2, 0)]

theorem chan_le {o : Opts} {data : List UInt8} (h : o.Fits data) {cs : List PrefixCode} (hl : cs.length = 4) (hcs : ∀ code ∈ cs, CodeSpec o code)
    {g c : Nat} (hg : g < o.groupsX * o.groupsY) (hc : c < o.channels) : ∃ code, cs[c]? = some code ∧
      (∀ q ∈ channelBits code (o.proc data g c), q.1 ≤ 56) ∧
      (chanBits o data cs g c).length ≤ o.sampleBits * ((o.groupArea g).2.2.1 * (o.groupArea g).2.2.2) := by
  have hch := h.channels
  have hc4 : c < cs.length := by omega
  obtain ⟨h1, h2⟩ := proc_spec h g c
  have h3 := channelBits_le (hcs _ (List.getElem_mem hc4)) (proc_symbols h g c).2 (by rw [h1]; exact groupArea_le h hg) h2
  refine ⟨_, List.getElem?_eq_getElem hc4, h3.1, ?_⟩
  rw [chanBits, List.getElem?_eq_getElem hc4, Nat.mul_comm (o.groupArea g).2.2.1, ← h1]
  exact h3.2

theorem acChannel_eq {o : Opts} {data : List UInt8} (h : o.Fits data) {cs : List PrefixCode} {g c : Nat} (hg : g < o.groupsX * o.groupsY)
    {code : PrefixCode} (hcode : cs[c]? = some code) (b : BitWriter) : acChannel o data cs g c b =
      (if o.oneGroup && c == 0 then some b else b.allocate ((o.groupArea g).2.2.1 * (o.groupArea g).2.2.2 * o.maxBits + 4)).bind fun b =>
        b.puts ((if !o.oneGroup && c == 0 then groupPreface else []) ++ channelBits code (o.proc data g c)) := by
  obtain ⟨s1, s2, -, -⟩ := groupArea_spec h hg
  have hrows := sampleRows_eq h c _ _ _ _ s1 s2
  have key : ∀ b : BitWriter, ((if !o.oneGroup && c == 0 then b.puts [(1, 1), (1, 1), (2, 0)] else some b).bind fun b =>
      (sampleRows o data c (o.groupArea g).1 (o.groupArea g).2.1 (o.groupArea g).2.2.1 (o.groupArea g).2.2.2).bind fun rows =>
        cs[c]?.bind fun code => b.puts (channelBits code (area 0 (o.groupArea g).2.2.1 rows)))
      = b.puts ((if !o.oneGroup && c == 0 then groupPreface else []) ++ channelBits code (o.proc data g c)) := by
    intro b
    rw [BitWriter.puts_append, hrows, hcode]
    cases hq : (!o.oneGroup && c == 0)
    · simp only [Bool.false_eq_true, if_false, Option.bind_some, BitWriter.puts]
      rfl
    · simp only [if_true]
      rfl
  rw [acChannel]
  by_cases h1 : (o.oneGroup && c == 0) = true
  · simp only [h1, if_true, Option.bind_some]
    rw [← key]
    by_cases h2 : (!o.oneGroup && c == 0) = true
    · simp only [h2, if_true]; rfl
    · simp only [h2]; rfl
  · simp only [h1]
    simp only [← key]
    by_cases h2 : (!o.oneGroup && c == 0) = true
    · simp only [h2, if_true]; rfl
    · simp only [h2]; rfl

/-- The first channel of a picture in one group follows what the writer holds already. -/
theorem acChannel_first {o : Opts} {data : List UInt8} (h : o.Fits data) {cs : List PrefixCode} (hl : cs.length = 4) (hcs : ∀ code ∈ cs, CodeSpec o code)
    {g : Nat} (hg : g < o.groupsX * o.groupsY) (h1 : o.oneGroup = true) {b : BitWriter} {s : List Bool} (hb : b.Holds s) :
    (∀ b', acChannel o data cs g 0 b = some b' → b'.Holds (s ++ chanBits o data cs g 0) ∧ b'.dest.length = b.dest.length) ∧
    (s.length + (chanBits o data cs g 0).length + 64 ≤ 8 * b.dest.length → ∃ b', acChannel o data cs g 0 b = some b') := by
  obtain ⟨code, hcode, h2, -⟩ := chan_le (c := 0) h hl hcs hg (by have := h.channels; omega)
  rw [acChannel_eq h hg hcode, chanBits, hcode]
  simp only [h1, Bool.true_and, BEq.rfl, if_true, Option.bind_some, Bool.not_true, Bool.false_and, Bool.false_eq_true, if_false, List.nil_append]
  exact ⟨fun b' hb' => BitWriter.puts_holds hb h2 hb', BitWriter.puts_ok hb h2⟩

/-- What a writer of its own holds for channel `c` of group `g`. -/
def ownBits (o : Opts) (data : List UInt8) (cs : List PrefixCode) (g c : Nat) : List Bool :=
  (if !o.oneGroup && c == 0 then fields groupPreface else []) ++ chanBits o data cs g c

/-- All other channels have writers of their own. -/
theorem acChannel_fresh {o : Opts} {data : List UInt8} (h : o.Fits data) {cs : List PrefixCode} (hl : cs.length = 4) (hcs : ∀ code ∈ cs, CodeSpec o code)
    {g c : Nat} (hg : g < o.groupsX * o.groupsY) (hc : c < o.channels) (h1 : (o.oneGroup && c == 0) = false) :
    (∀ b', acChannel o data cs g c BitWriter.new = some b' → b'.Holds (ownBits o data cs g c) ∧
      b'.dest.length = ((o.groupArea g).2.2.1 * (o.groupArea g).2.2.2 * o.maxBits + 4) / 8 + 64) ∧
    ((ownBits o data cs g c).length + 64 ≤ 8 * (((o.groupArea g).2.2.1 * (o.groupArea g).2.2.2 * o.maxBits + 4) / 8 + 64) →
      ∃ b', acChannel o data cs g c BitWriter.new = some b') := by
  obtain ⟨code, hcode, h2, -⟩ := chan_le h hl hcs hg hc
  obtain ⟨b, hb, hb0, hlen⟩ := BitWriter.holds_allocate ((o.groupArea g).2.2.1 * (o.groupArea g).2.2.2 * o.maxBits + 4)
  rw [acChannel_eq h hg hcode, ownBits, chanBits, hcode]
  simp only [h1, Bool.false_eq_true, if_false, hb, Option.bind_some, ← hlen]
  have hw : ∀ q ∈ (if !o.oneGroup && c == 0 then groupPreface else []) ++ channelBits code (o.proc data g c), q.1 ≤ 56 := by
    intro q hq
    rcases List.mem_append.1 hq with hq | hq
    · split at hq
      · simp only [groupPreface, List.mem_cons, List.not_mem_nil, or_false] at hq
        rcases hq with rfl | rfl | rfl <;> decide
      · cases hq
    · exact h2 q hq
  have hf : fields ((if !o.oneGroup && c == 0 then groupPreface else []) ++ channelBits code (o.proc data g c)) =
      (if !o.oneGroup && c == 0 then fields groupPreface else []) ++ fields (channelBits code (o.proc data g c)) := by
    rw [fields_append]
    split <;> rfl
  rw [← hf]
  refine ⟨fun b' hb' => BitWriter.puts_holds hb0 hw hb', fun hs => BitWriter.puts_ok hb0 hw ?_⟩
  simpa using hs

theorem forall₂_of_getElem? {α β} {R : α → β → Prop} : ∀ {l : List α} {m : List β}, l.length = m.length →
    (∀ (i : Nat) a b, l[i]? = some a → m[i]? = some b → R a b) → List.Forall₂ R l m
  | [], [], _, _ => .nil
  | a :: l, b :: m, hl, h => .cons (h 0 a b rfl rfl) (forall₂_of_getElem? (by simpa using hl) fun i x y hx hy => h (i + 1) x y hx hy)

theorem forall₂_append {α β} {R : α → β → Prop} {a a' : List α} {b b' : List β} (h : List.Forall₂ R a b) (h' : List.Forall₂ R a' b') :
    List.Forall₂ R (a ++ a') (b ++ b') := by
  induction h with
  | nil => exact h'
  | cons h _ ih => exact .cons h ih

theorem acSection_eq (o : Opts) (data : List UInt8) (cs : List PrefixCode) (ws : List BitWriter) (g : Nat) :
    acSection o data cs ws g = ((List.range o.channels).mapM fun c => (ws[c]?).bind (acChannel o data cs g c)).bind fun used =>
      some (used ++ ws.drop o.channels) := rfl

/-- What the writers of a section hold when `writers[c]?` behaves as `f c`. -/
theorem acSection_holds {o : Opts} {data : List UInt8} {cs : List PrefixCode} {ws r : List BitWriter} {g : Nat} {bits : Nat → List Bool}
    (hb : ∀ c < o.channels, ∀ b', (ws[c]?).bind (acChannel o data cs g c) = some b' → b'.Holds (bits c))
    (hr : acSection o data cs ws g = some r) :
    List.Forall₂ BitWriter.Holds (r.take o.channels) ((List.range o.channels).map bits) ∧ (0 < o.channels → r ≠ []) := by
  rw [acSection_eq] at hr
  cases hm : (List.range o.channels).mapM fun c => (ws[c]?).bind (acChannel o data cs g c) with
  | none => rw [hm] at hr; cases hr
  | some used =>
    rw [hm] at hr
    cases hr
    obtain ⟨h1, h2⟩ := mapM_eq_some hm
    rw [List.length_range] at h1
    refine ⟨?_, fun hc he => ?_⟩
    · rw [List.take_append_of_le_length (by omega), List.take_of_length_le (by omega)]
      apply forall₂_of_getElem? (by simp [h1])
      intro i a b ha hb'
      have hi : i < o.channels := by
        have := (List.getElem?_eq_some_iff.1 ha).1
        omega
      rw [List.getElem?_map, List.getElem?_range hi] at hb'
      simp only [Option.map_some, Option.some.injEq] at hb'
      subst hb'
      obtain ⟨b, hb1, hb2⟩ := h2 i i (List.getElem?_range hi)
      rw [ha] at hb1
      cases hb1
      exact hb i hi _ hb2
    · rw [List.append_eq_nil_iff] at he
      rw [he.1] at h1
      simp at h1
      omega

/-! ### Sections -/

/-- The bits of `prepare_dc_global`. -/
def dcFields (o : Opts) (cs : List PrefixCode) : List Bool := fields ((dcBits o cs).getD [])

/-- The bits of all channels of all sections. -/
def sectionBits (o : Opts) (data : List UInt8) (cs : List PrefixCode) : List (List (List Bool)) :=
  if o.oneGroup then
    [(List.range o.channels).map fun c => if c = 0 then dcFields o cs ++ chanBits o data cs 0 c else ownBits o data cs 0 c]
  else
    ((List.range o.channels).map fun c => if c = 0 then pad (dcFields o cs) else []) ::
      List.replicate (1 + o.dcGroups) (List.replicate o.channels []) ++
      (List.range (o.groupsX * o.groupsY)).map fun g => (List.range o.channels).map (ownBits o data cs g)

/-- The description of a channel's code (C74). -/
theorem ChannelCode.describe {o : Opts} {data : List UInt8} (h : o.Fits data) {c : PrefixCode} (hc : ChannelCode o c) :
    ∃ l, c.describe = some l ∧ (∀ p ∈ l, p.1 ≤ 5) ∧ l.length ≤ 77 ∧
      ∀ rest lens rest', Describes 257 (fields l ++ rest) lens rest' ↔ lens = c.lens ∧ rest' = rest := by
  obtain ⟨raw, lz, hr, hl, hraw, hlz, hn⟩ := hc
  obtain ⟨c', l, hc', h1⟩ := c74_description o.bytes o.numSymbols raw lz (numSymbols_cases h) hr hl hraw hlz
  rw [hn] at hc'
  cases hc'
  exact ⟨l, h1⟩

/-- What follows the description of the codes. -/
def dcEnd (o : Opts) : List (Nat × Nat) :=
  [(1, 1), (1, 1)] ++ (if o.channels > 2 then [(2, 0b01), (2, 0b00), (5, 0b00000), (2, 0b00)] else [(2, 0b00)])

theorem dc_spec {o : Opts} {data : List UInt8} (h : o.Fits data) {cs : List PrefixCode} (hl : cs.length = 4) (hcs : ∀ code ∈ cs, ChannelCode o code) :
    ∃ d0 d1 d2 d3, cs.map PrefixCode.describe = [some d0, some d1, some d2, some d3] ∧
      dcBits o cs = some (dcPreface ++ (d0 ++ d1 ++ d2 ++ d3) ++ dcEnd o) ∧
      (∀ q ∈ dcPreface ++ (d0 ++ d1 ++ d2 ++ d3) ++ dcEnd o, q.1 ≤ 56) ∧
      (fields (dcPreface ++ (d0 ++ d1 ++ d2 ++ d3) ++ dcEnd o)).length ≤ 4000 := by
  match cs, hl with
  | [c0, c1, c2, c3], _ =>
    obtain ⟨d0, e0, w0, n0, -⟩ := ChannelCode.describe h (hcs c0 (by simp))
    obtain ⟨d1, e1, w1, n1, -⟩ := ChannelCode.describe h (hcs c1 (by simp))
    obtain ⟨d2, e2, w2, n2, -⟩ := ChannelCode.describe h (hcs c2 (by simp))
    obtain ⟨d3, e3, w3, n3, -⟩ := ChannelCode.describe h (hcs c3 (by simp))
    refine ⟨d0, d1, d2, d3, by simp [e0, e1, e2, e3], ?_, ?_, ?_⟩
    · simp [dcBits, dcEnd, e0, e1, e2, e3]
    · intro q hq
      simp only [List.mem_append] at hq
      rcases hq with (hq | ((hq | hq) | hq) | hq) | hq
      · exact (show ∀ q ∈ dcPreface, q.1 ≤ 56 by decide) q hq
      · have := w0 q hq; omega
      · have := w1 q hq; omega
      · have := w2 q hq; omega
      · have := w3 q hq; omega
      · rw [dcEnd] at hq
        split at hq
        · exact (show ∀ q ∈ ([(1, 1), (1, 1)] ++ [(2, 0b01), (2, 0b00), (5, 0b00000), (2, 0b00)] : List (Nat × Nat)), q.1 ≤ 56 by decide) q hq
        · exact (show ∀ q ∈ ([(1, 1), (1, 1)] ++ [(2, 0b00)] : List (Nat × Nat)), q.1 ≤ 56 by decide) q hq
    · have key : ∀ d : List (Nat × Nat), (∀ p ∈ d, p.1 ≤ 5) → d.length ≤ 77 → (fields d).length ≤ 385 := by
        intro d hd hn
        have : ∀ d : List (Nat × Nat), (∀ p ∈ d, p.1 ≤ 5) → (fields d).length ≤ 5 * d.length := by
          intro d hd
          induction d with
          | nil => simp [fields]
          | cons a d ih =>
            have h1 := hd a (by simp)
            have h2 := ih fun p hp => hd p (by simp [hp])
            rw [fields, List.length_append, lsb_length, List.length_cons]
            omega
        have := this d hd
        omega
      have k0 := key d0 w0 n0
      have k1 := key d1 w1 n1
      have k2 := key d2 w2 n2
      have k3 := key d3 w3 n3
      have k4 : (fields dcPreface).length ≤ 1000 := by rw [fields_length]; decide
      have k5 : (fields (dcEnd o)).length ≤ 100 := by
        rw [dcEnd]
        split <;> decide
      simp only [fields_append, List.length_append]
      omega

theorem dcFields_eq {o : Opts} {cs : List PrefixCode} {l : List (Nat × Nat)} (h : dcBits o cs = some l) : dcFields o cs = fields l := by rw [dcFields, h]; rfl

/-- `prepare_dc_global` succeeds. -/
theorem dcGlobal_ok {o : Opts} {data : List UInt8} (h : o.Fits data) {cs : List PrefixCode} (hl : cs.length = 4) (hcs : ∀ code ∈ cs, ChannelCode o code) :
    ∃ b, dcGlobal o cs = some b ∧ b.Holds (if o.oneGroup then dcFields o cs else pad (dcFields o cs)) ∧
      b.dest.length = (100000 + if o.oneGroup then o.width * o.height * 16 else 0) / 8 + 64 ∧ (dcFields o cs).length ≤ 4000 := by
  obtain ⟨d0, d1, d2, d3, -, h1, h2, h3⟩ := dc_spec h hl hcs
  rw [dcFields_eq h1]
  generalize dcPreface ++ (d0 ++ d1 ++ d2 ++ d3) ++ dcEnd o = l at *
  obtain ⟨b, hb, hb0, hlen⟩ := BitWriter.holds_allocate (100000 + if o.oneGroup then o.width * o.height * 16 else 0)
  have hd : 12500 + 64 ≤ b.dest.length := by rw [hlen]; omega
  obtain ⟨c, hc⟩ := BitWriter.puts_ok (l := l) hb0 h2 (by simp; omega)
  obtain ⟨h4, h5⟩ := BitWriter.puts_holds hb0 h2 hc
  rw [List.nil_append] at h4
  rw [dcGlobal, hb, h1]
  show ∃ b', ((b.puts l).bind fun b => if o.oneGroup then some b else b.zeroPad) = some b' ∧ _
  rw [hc, Option.bind_some]
  split
  · refine ⟨c, rfl, h4, ?_, h3⟩
    rw [h5, hlen]
    simp [*]
  · obtain ⟨e, he⟩ := BitWriter.zeroPad_ok h4 (by rw [h5]; omega)
    obtain ⟨h6, h7⟩ := BitWriter.zeroPad_holds h4 he
    refine ⟨e, he, h6, ?_, h3⟩
    rw [h7, h5, hlen]
    simp [*]

theorem holds_new : BitWriter.new.Holds [] := ⟨by show (0 : Nat) < 64; decide, by show (0 : Nat) < 2 ^ 0; decide, by simp [BitWriter.new], rfl⟩

theorem groups_pos {o : Opts} {data : List UInt8} (h : o.Fits data) : 0 < o.groupsX * o.groupsY := by
  have := h.width
  have := h.height
  apply Nat.mul_pos
  · unfold Opts.groupsX; omega
  · unfold Opts.groupsY; omega

/-- The writers of all sections. -/
theorem groupData_holds {o : Opts} {data : List UInt8} (h : o.Fits data) {cs : List PrefixCode} (hl : cs.length = 4) (hcs : ∀ code ∈ cs, ChannelCode o code)
    {groups : List (List BitWriter)} (hg : groupData o data cs = some groups) :
    List.Forall₂ (fun ws bs => List.Forall₂ BitWriter.Holds (ws.take o.channels) bs) groups (sectionBits o data cs) ∧ ∀ ws ∈ groups, ws ≠ [] := by
  have hch := h.channels
  have hcs' : ∀ code ∈ cs, CodeSpec o code := fun code hc => ChannelCode.spec h (hcs code hc)
  obtain ⟨b, hb, hb1, -, -⟩ := dcGlobal_ok h hl hcs
  rw [groupData, hb] at hg
  rw [sectionBits]
  cases h1 : o.oneGroup with
  | true =>
    simp only [h1, if_true] at hg hb1 ⊢
    cases hr : acSection o data cs (b :: freshWriters.tail) 0 with
    | none =>
      replace hg : (acSection o data cs (b :: freshWriters.tail) 0).bind (fun r => some [r]) = some groups := hg
      rw [hr] at hg; cases hg
    | some r =>
      replace hg : (acSection o data cs (b :: freshWriters.tail) 0).bind (fun r => some [r]) = some groups := hg
      rw [hr] at hg
      cases hg
      have := acSection_holds (bits := fun c => if c = 0 then dcFields o cs ++ chanBits o data cs 0 c else ownBits o data cs 0 c) (fun c hc b' hb' => by
        by_cases hz : c = 0
        · subst hz
          rw [if_pos rfl]
          exact ((acChannel_first h hl hcs' (groups_pos h) h1 hb1).1 b' hb').1
        · rw [if_neg hz]
          have hw : (b :: freshWriters.tail)[c]? = some BitWriter.new := by
            have : c = 1 ∨ c = 2 ∨ c = 3 := by omega
            rcases this with rfl | rfl | rfl <;> rfl
          rw [hw] at hb'
          exact ((acChannel_fresh h hl hcs' (groups_pos h) hc (by simp [hz])).1 b' hb').1) hr
      exact ⟨.cons this.1 .nil, by simpa using this.2 (by omega)⟩
  | false =>
    simp only [h1, Bool.false_eq_true, if_false] at hg hb1 ⊢
    cases hr : (List.range (o.groupsX * o.groupsY)).mapM (acSection o data cs freshWriters) with
    | none => 
      replace hg : ((List.range (o.groupsX * o.groupsY)).mapM (acSection o data cs freshWriters)).bind _ = some groups := hg
      rw [hr] at hg; cases hg
    | some gs =>
      replace hg : ((List.range (o.groupsX * o.groupsY)).mapM (acSection o data cs freshWriters)).bind (fun gs =>
        some ((b :: freshWriters.tail) :: List.replicate (1 + o.dcGroups) freshWriters ++ gs)) = some groups := hg
      rw [hr] at hg
      cases hg
      obtain ⟨h2, h3⟩ := mapM_eq_some hr
      have hsec : ∀ (i : Nat) ws, gs[i]? = some ws → i < o.groupsX * o.groupsY ∧
          List.Forall₂ BitWriter.Holds (ws.take o.channels) ((List.range o.channels).map (ownBits o data cs i)) ∧ ws ≠ [] := by
        intro i ws hi
        have hi' : i < o.groupsX * o.groupsY := by
          have := (List.getElem?_eq_some_iff.1 hi).1
          simpa [h2] using this
        obtain ⟨r, hr1, hr2⟩ := h3 i i (List.getElem?_range hi')
        rw [hi] at hr1
        cases hr1
        have := acSection_holds (bits := ownBits o data cs i) (fun c hc b' hb' => by
          have hw : freshWriters[c]? = some BitWriter.new := by
            have : c = 0 ∨ c = 1 ∨ c = 2 ∨ c = 3 := by omega
            rcases this with rfl | rfl | rfl | rfl <;> rfl
          rw [hw] at hb'
          exact ((acChannel_fresh h hl hcs' hi' hc (by simp [h1])).1 b' hb').1) hr2
        exact ⟨hi', this.1, this.2 (by omega)⟩
      have hempty : List.Forall₂ BitWriter.Holds (freshWriters.take o.channels) (List.replicate o.channels []) := by
        have : o.channels = 1 ∨ o.channels = 2 ∨ o.channels = 3 ∨ o.channels = 4 := by omega
        rcases this with e | e | e | e <;> rw [e] <;> simp [freshWriters, List.replicate, holds_new]
      constructor
      · rw [List.cons_append, List.cons_append]
        refine .cons ?_ (forall₂_append ?_ ?_)
        · have : o.channels = 1 ∨ o.channels = 2 ∨ o.channels = 3 ∨ o.channels = 4 := by omega
          rcases this with e | e | e | e <;> rw [e] <;> simp [freshWriters, List.replicate, List.range_succ, holds_new, hb1]
        · generalize 1 + o.dcGroups = n
          induction n with
          | zero => exact .nil
          | succ n ih => exact .cons hempty ih
        · apply forall₂_of_getElem? (by simpa using h2)
          intro i ws bs hi hb'
          obtain ⟨h4, h5, -⟩ := hsec i ws hi
          rw [List.getElem?_map, List.getElem?_range h4] at hb'
          cases hb'
          exact h5
      · intro ws hws
        simp only [List.mem_append, List.mem_cons, List.mem_replicate] at hws
        rcases hws with (rfl | ⟨-, rfl⟩) | hws
        · simp
        · simp [freshWriters]
        · obtain ⟨i, hi⟩ := List.getElem?_of_mem hws
          exact (hsec i ws hi).2.2

end Zune.Jxl
