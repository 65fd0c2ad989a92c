import Verif.Jpeg.McuModel
import Verif.Jpeg.BlockProps
import Verif.Jpeg.BitsProps

/-!
# zune-jpeg: the bit stream at markers (lemmas)

A segment whose EOI was acknowledged is read on like one whose EOI is still noted; the search for a marker
finds the one that ends the segment; after a restart the bit stream is a new one.
-/

namespace Zune.Jpeg

open Zune.Canon Zune.Stream

/-- EOI acknowledged. -/
def Bs.ack (s : Bs) : Bs := { s with marker := none, seenEoi := true }

theorem refill_ack {s t : Bs} (hm : s.marker.isSome = true) (h : s.refill = .ok t) :
    s.ack.refill = .ok t.ack ∧ t.marker = s.marker := by
  unfold Bs.refill at h ⊢
  have e1 : s.ack.left = s.left := rfl
  rw [e1]
  split at h
  · rename_i hl
    rw [if_pos hl, if_pos (.inr (.inr rfl))]
    rw [if_pos (.inl hm)] at h
    cases h
    exact ⟨rfl, rfl⟩
  · rename_i hl
    rw [if_neg hl]
    cases h
    exact ⟨rfl, rfl⟩

theorem huff_ack {s t : Bs} {T : Huff} {v : Nat} (h : s.huff T = .ok (v, t)) :
    s.ack.huff T = .ok (v, t.ack) ∧ t.marker = s.marker := by
  unfold Bs.huff at h ⊢
  have e1 : s.ack.peek 16 = s.peek 16 := rfl
  rw [e1]
  split at h
  · cases h
  · rename_i sym len hd
    have e2 : s.ack.left = s.left := rfl
    simp only [e2]
    split at h
    · cases h
    · rename_i hl
      rw [if_neg hl]
      cases h
      exact ⟨rfl, rfl⟩

theorem decodeDc_ack {s t : Bs} {T : Huff} {p q : I32} (hm : s.marker.isSome = true)
    (h : s.decodeDc T p = .ok (q, t)) : s.ack.decodeDc T p = .ok (q, t.ack) ∧ t.marker = s.marker := by
  unfold Bs.decodeDc at h ⊢
  have e1 : s.ack.left = s.left := rfl
  rw [e1]
  split at h
  · cases h
  · rename_i s1 h1
    have key : (if s.left < 32 then s.ack.refill else Except.ok s.ack) = .ok s1.ack ∧ s1.marker = s.marker := by
      split at h1
      · rename_i hl
        rw [if_pos hl]
        exact refill_ack hm h1
      · rename_i hl
        rw [if_neg hl]
        cases h1
        exact ⟨rfl, rfl⟩
    rw [key.1]
    split at h
    · cases h
    · rename_i sym s2 h2
      obtain ⟨a, b⟩ := huff_ack h2
      simp only [a]
      split at h
      · rename_i hs
        rw [if_pos hs]
        cases h
        exact ⟨rfl, b.trans key.2⟩
      · rename_i hs
        rw [if_neg hs]
        cases h
        exact ⟨rfl, b.trans key.2⟩

/-- The stream inside the result of a turn. -/
def ackSum : (Nat × Bs × (Nat → I32)) ⊕ (Nat × Bs × (Nat → I32)) → (Nat × Bs × (Nat → I32)) ⊕ (Nat × Bs × (Nat → I32))
  | .inl (a, s, b) => .inl (a, s.ack, b)
  | .inr (a, s, b) => .inr (a, s.ack, b)

/-- The marker inside the result of a turn. -/
def markerOf : (Nat × Bs × (Nat → I32)) ⊕ (Nat × Bs × (Nat → I32)) → Option UInt8
  | .inl (_, s, _) => s.marker
  | .inr (_, s, _) => s.marker

theorem acStep_ack {s : Bs} {T : Huff} {fast qt pos b r} (hm : s.marker.isSome = true)
    (h : Bs.acStep T fast qt pos s b = .ok r) :
    Bs.acStep T fast qt pos s.ack b = .ok (ackSum r) ∧ markerOf r = s.marker := by
  unfold Bs.acStep at h ⊢
  split at h
  · cases h
  · rename_i s1 h1
    obtain ⟨a, b1⟩ := refill_ack hm h1
    simp only [a]
    have e1 : s1.ack.peek 9 = s1.peek 9 := rfl
    rw [e1]
    simp only at h
    split at h
    · rename_i hf
      rw [if_pos hf]
      cases h
      exact ⟨rfl, b1⟩
    · rename_i hf
      rw [if_neg hf]
      split at h
      · cases h
      · rename_i sym s2 h2
        obtain ⟨c, d⟩ := huff_ack h2
        simp only [c]
        split at h
        · rename_i h3
          rw [if_pos h3]
          cases h
          exact ⟨rfl, d.trans b1⟩
        · rename_i h3
          rw [if_neg h3]
          split at h
          · rename_i h4
            rw [if_pos h4]
            cases h
            exact ⟨rfl, d.trans b1⟩
          · rename_i h4
            rw [if_neg h4]
            cases h
            exact ⟨rfl, d.trans b1⟩

theorem acLoop_ack {T : Huff} {fast qt} (n : Nat) : ∀ {pos : Nat} {s : Bs} {b len t b'}, s.marker.isSome = true →
    Bs.acLoop T fast qt n pos s b = .ok (len, t, b') →
    Bs.acLoop T fast qt n pos s.ack b = .ok (len, t.ack, b') ∧ t.marker = s.marker := by
  induction n with
  | zero =>
    intro pos s b len t b' _ h
    rw [Bs.acLoop] at h ⊢
    cases h
    exact ⟨rfl, rfl⟩
  | succ n ih =>
    intro pos s b len t b' hm h
    rw [Bs.acLoop] at h ⊢
    split at h
    · rename_i hp
      rw [if_pos hp]
      split at h
      · cases h
      · rename_i r h1
        obtain ⟨a, b1⟩ := acStep_ack hm h1
        simp only [a, ackSum]
        cases h
        exact ⟨rfl, b1⟩
      · rename_i pos' s' b'' h1
        obtain ⟨a, b1⟩ := acStep_ack hm h1
        simp only [a, ackSum]
        have b1 : s'.marker = s.marker := b1
        obtain ⟨c, d⟩ := ih (by rw [b1]; exact hm) h
        exact ⟨c, d.trans b1⟩
    · rename_i hp
      rw [if_neg hp]
      cases h
      exact ⟨rfl, rfl⟩

theorem decodeBlock_ack {s : Bs} {dc ac : Huff} {qt b pred out} (hm : s.marker.isSome = true)
    (h : s.decodeBlock dc ac qt b pred = .ok out) :
    s.ack.decodeBlock dc ac qt b pred = .ok { out with s := out.s.ack } ∧ out.s.marker = s.marker := by
  unfold Bs.decodeBlock at h ⊢
  split at h
  · cases h
  · rename_i fast hf
    split at h
    · cases h
    · rename_i hl
      rw [if_neg (by simp [Bs.ack])]
      split at h
      · cases h
      · rename_i p s1 h1
        obtain ⟨a, b1⟩ := decodeDc_ack hm h1
        simp only [a]
        split at h
        · cases h
        · rename_i len s2 b2 h2
          obtain ⟨c, d⟩ := acLoop_ack 63 (by rw [b1]; exact hm) h2
          simp only [c]
          cases h
          exact ⟨rfl, d.trans b1⟩

theorem discard_of_decode {s : Bs} {dc ac : Huff} {qt b pred out}
    (h : s.decodeBlock dc ac qt b pred = .ok out) : s.discardBlock dc ac = .ok (out.len, out.s) := by
  rw [c68_discard s dc ac qt b pred, h]
  · rfl
  · intro hl
    unfold Bs.decodeBlock at h
    split at h
    · cases h
    · rw [if_pos hl] at h
      cases h

/-- The bits `V` are still to come and `e` ends the segment; EOI may have been acknowledged. -/
def Live (s : Bs) (V : List Bool) (e : Option (UInt8 × List UInt8)) : Prop :=
  Str s V e ∨ ∃ s0 : Bs, s0.marker = some 0xD9 ∧ Str s0 V e ∧ s = s0.ack

theorem live_block {c : ScanComp} (ok : c.Ok) {prev : Int} {z : List Int} (fit : c.Fits prev z)
    {V : List Bool} {s : Bs} {e} (h : Live s (c.bits prev z ++ V) e) :
    ∃ out, s.decodeBlock c.dt c.t c.qt (fun _ => 0) (BitVec.ofInt 32 prev) = .ok out ∧
      Live out.s V e ∧ out.pred = BitVec.ofInt 32 (z.headD 0) ∧ Holds c.qt z out.block := by
  rcases h with h | ⟨s0, hm, h, rfl⟩
  · obtain ⟨out, a, b, c, d, _⟩ := block_step ok fit h
    exact ⟨out, a, .inl b, c, d⟩
  · obtain ⟨out, a, b, c, d, _⟩ := block_step ok fit h
    obtain ⟨a', m⟩ := decodeBlock_ack (by rw [hm]; rfl) a
    exact ⟨_, a', .inr ⟨out.s, m.trans hm, b, rfl⟩, c, d⟩

theorem live_refill {s : Bs} {V : List Bool} {e} (h : Live s V e) : ∃ t, s.refill = .ok t ∧ Live t V e := by
  rcases h with h | ⟨s0, hm, h, rfl⟩
  · obtain ⟨t, a, b, _⟩ := str_refill h
    exact ⟨t, a, .inl b⟩
  · obtain ⟨t, a, b, _⟩ := str_refill h
    obtain ⟨c, d⟩ := refill_ack (by rw [hm]; rfl) a
    exact ⟨t.ack, c, .inr ⟨t, d.trans hm, b, rfl⟩⟩

theorem seekMarker_unstuff : ∀ (n : Nat) (l : List UInt8), l.length ≤ n →
    seekMarker false l = (unstuff l).2 ∧
    seekMarker true l = if (nextByte l).1 = 0 then (unstuff (nextByte l).2).2 else some (nextByte l) := by
  intro n
  induction n with
  | zero =>
    intro l hl
    rw [List.length_eq_zero_iff.1 (Nat.le_zero.1 hl)]
    simp [seekMarker, unstuff_nil, nextByte]
  | succ n ih =>
    intro l hl
    cases l with
    | nil => simp [seekMarker, unstuff_nil, nextByte]
    | cons b t =>
      rw [List.length_cons] at hl
      obtain ⟨i1, i2⟩ := ih t (by omega)
      constructor
      · rw [seekMarker]
        by_cases hb : b = 255
        · rw [decide_eq_true hb, i2, hb]
          by_cases h0 : (nextByte t).1 = 0
          · rw [if_pos h0]
            exact (congrArg Prod.snd (unstuff_stuffed t h0)).symm
          · rw [if_neg h0]
            exact (congrArg Prod.snd (unstuff_marker t h0)).symm
        · rw [decide_eq_false hb, i1]
          exact (congrArg Prod.snd (unstuff_byte b t hb)).symm
      · rw [seekMarker, nextByte]
        by_cases hb : b = 255
        · rw [if_pos hb, if_pos hb, i2]
        · rw [if_neg hb, if_neg hb]
          by_cases h0 : b = 0
          · rw [if_neg (by simpa using h0), if_pos h0, i1]
          · rw [if_pos (by simpa using h0), if_neg h0]

theorem str_marker {s : Bs} {V : List Bool} {m : UInt8} {r : List UInt8} (h : Str s V (some (m, r))) :
    s.over = 0 ∧ s.seenEoi = false ∧ (∀ m', s.marker = some m' → m' = m ∧ s.rest = r) ∧
      (s.marker = none → seekMarker false s.rest = some (m, r)) := by
  obtain ⟨bits, fin, known⟩ := h
  obtain ⟨bs, hi, hf⟩ := bits
  refine ⟨?_, hf.eoi, ?_, ?_⟩
  · by_contra ho
    obtain ⟨h1, h2⟩ := hf.over (by omega)
    unfold Bs.fin at fin
    rw [h1, h2] at fin
    simp [unstuff_nil] at fin
  · intro m' hm'
    unfold Bs.fin at fin
    rw [hm'] at fin
    simpa [eq_comm] using fin
  · intro hm
    rw [(seekMarker_unstuff _ s.rest (le_refl _)).1]
    unfold Bs.fin at fin
    rw [hm] at fin
    exact fin

theorem live_marker {s : Bs} {V : List Bool} {m : UInt8} {r : List UInt8} (h : Live s V (some (m, r))) :
    s.over = 0 ∧ (∀ m', s.marker = some m' → s.seenEoi = false ∧ m' = m ∧ s.rest = r) ∧
      (s.marker = none → s.seenEoi = false → seekMarker false s.rest = some (m, r)) ∧
      (s.seenEoi = true → m = 0xD9 ∧ s.rest = r) := by
  rcases h with h | ⟨s0, hm, h, rfl⟩
  · obtain ⟨a, b, c, d⟩ := str_marker h
    exact ⟨a, fun m' e => ⟨b, c m' e⟩, fun e _ => d e, fun e => by rw [b] at e; cases e⟩
  · obtain ⟨a, b, c, d⟩ := str_marker h
    obtain ⟨e1, e2⟩ := c _ hm
    refine ⟨a, fun m' e => ?_, fun _ e => ?_, fun _ => ⟨e1.symm, e2⟩⟩
    · simp [Bs.ack] at e
    · simp [Bs.ack] at e

/-- After a restart marker: a new bit stream over the rest. -/
theorem reset_new {s : Bs} (h1 : s.over = 0) (h2 : s.seenEoi = false) : s.reset = Bs.new s.rest := by
  unfold Bs.reset Bs.new
  rw [h1, h2]

theorem str_segment (data : List UInt8) (k : Nat) (m : UInt8) (r : List UInt8) (hm : knownMarker m = true) :
    Str (Bs.new (stuff data ++ 0xFF :: List.replicate k 0xFF ++ m :: r)) (bytesBits data) (some (m, r)) := by
  have h0 : m ≠ 0 := by rintro rfl; revert hm; decide
  have hF : m ≠ 0xFF := by rintro rfl; revert hm; decide
  have hu := c48_segment data k m r h0 hF
  have hs := str_new (stuff data ++ 0xFF :: List.replicate k 0xFF ++ m :: r)
    (by rw [hu]; intro m' r' h; cases h; exact hm)
  rwa [hu] at hs

theorem bits_ne_nil {c : ScanComp} {prev : Int} {z : List Int} (fit : c.Fits prev z) :
    0 < (c.bits prev z).length := by
  obtain ⟨l, i, h1, h2, _, _, e⟩ := fit.dcode
  unfold ScanComp.bits
  rw [e]
  simp [List.length_append, toBits_length]
  omega

/-- A marker is seen and no bits are left: the data of the segment are used up. -/
theorem live_empty {s : Bs} {V : List Bool} {e} (h : Live s V e) (hm : s.marker.isSome = true) (hl : s.left = 0) :
    V = [] := by
  rcases h with h | ⟨s0, _, h, rfl⟩
  · obtain ⟨bs, hi, hf⟩ := h.bits
    obtain ⟨k, hk, _⟩ := hf.all
    have : bs = [] := List.length_eq_zero_iff.1 (by rw [← hf.buf.left]; exact hl)
    unfold Bs.tail at hk
    rw [if_pos hm, this] at hk
    exact (List.append_eq_nil_iff.1 hk.symm).1
  · simp [Bs.ack] at hm

end Zune.Jpeg
