/- Property C09: farbfeld. -/
import Verif.Farbfeld.Model
import Mathlib.Tactic.Ring
import Mathlib.Tactic.Linarith

namespace Zune.Farbfeld
open Zune.Stream

/-- The farbfeld format: magic, width and height, samples; everything big endian. -/
def Spec.file (w h : Nat) (samples : List Nat) : List UInt8 :=
  [0x66, 0x61, 0x72, 0x62, 0x66, 0x65, 0x6c, 0x64] ++ beBytes 4 w ++ beBytes 4 h ++ samples.flatMap (beBytes 2)

/-- Samples as bytes in memory on a little-endian machine. -/
def Spec.native (samples : List Nat) : List UInt8 := samples.flatMap (leBytes 2)

theorem samplesBE_native (l : List Nat) : samplesBE (Spec.native l) = l.flatMap (beBytes 2) := by
  induction l with
  | nil => rfl
  | cons v l ih =>
    have e : Spec.native (v :: l) = leBytes 2 v ++ Spec.native l := rfl
    rw [e, List.flatMap_cons, ← ih]
    simp [leBytes, beBytes, samplesBE]

theorem native_length (l : List Nat) : (Spec.native l).length = 2 * l.length := by
  induction l with
  | nil => rfl
  | cons v l ih =>
    have e : Spec.native (v :: l) = leBytes 2 v ++ Spec.native l := rfl
    rw [e, List.length_append, ih, leBytes_length, List.length_cons]; ring

theorem be_flat_length (l : List Nat) : (l.flatMap (beBytes 2)).length = 2 * l.length := by
  induction l with
  | nil => rfl
  | cons v l ih => rw [List.flatMap_cons, List.length_append, ih, beBytes_length, List.length_cons]; ring

/-- **C09** (encoder half): for every image the encoder writes the farbfeld file of its samples. -/
theorem c09_encoder_partial (w h : Nat) (samples : List Nat) (hl : samples.length = 4 * w * h)
    (hw : w < 2 ^ 32) (hh : h < 2 ^ 32) (hs : w * 2 * h * 4 + 20 < Zune.Bytestream.usizeLim) :
    encode w h (Spec.native samples) = .ok (Spec.file w h samples) := by
  unfold encode Spec.file
  rw [if_neg (by omega), if_neg (by rw [native_length, hl]; simp only [not_not]; ring), if_neg (by omega), samplesBE_native]

theorem readSamples_short (n : Nat) (s : List UInt8) (h : s.length < 2 * n) : readSamples n s = .error .io := by
  induction n generalizing s with
  | zero => omega
  | succ n ih =>
    unfold readSamples
    by_cases h2 : 2 ≤ s.length
    · simp only [be, exact, h2, if_true, Option.map_some]
      rw [ih _ (by simp; omega)]
    · simp [be, exact, h2]

theorem readSamples_ok (l : List Nat) (hl : ∀ v ∈ l, v < 65536) (s : List UInt8) :
    readSamples l.length (l.flatMap (beBytes 2) ++ s) = .ok (l, s) := by
  induction l with
  | nil => rfl
  | cons v l ih =>
    rw [List.length_cons, List.flatMap_cons, List.append_assoc, readSamples, be_append 2 v _ (by have := hl v (by simp); omega)]
    simp only
    rw [ih (fun v hv => hl v (by simp [hv]))]

theorem readSamples_prefix (k : Nat) (l : List Nat) (hl : ∀ v ∈ l, v < 65536) (s : List UInt8) (hs : 2 * k ≤ s.length) :
    ∃ more rest, readSamples (l.length + k) (l.flatMap (beBytes 2) ++ s) = .ok (l ++ more, rest) := by
  induction l with
  | nil =>
    simp only [List.length_nil, Nat.zero_add, List.flatMap_nil, List.nil_append]
    induction k generalizing s with
    | zero => exact ⟨[], s, rfl⟩
    | succ k ih =>
      have h2 : 2 ≤ s.length := by omega
      obtain ⟨m, r, e⟩ := ih (s.drop 2) (by simp; omega)
      refine ⟨beVal (s.take 2) :: m, r, ?_⟩
      unfold readSamples
      simp only [be, exact, h2, if_true, Option.map_some, e]
  | cons v l ih =>
    obtain ⟨m, r, e⟩ := ih (fun v hv => hl v (by simp [hv]))
    refine ⟨m, r, ?_⟩
    rw [List.length_cons, show l.length + 1 + k = (l.length + k) + 1 by ring, List.flatMap_cons, List.append_assoc, readSamples,
      be_append 2 v _ (by have := hl v (by simp); omega)]
    simp only
    rw [e]
    rfl

theorem bind_be {β : Type} (k v : Nat) (s : List UInt8) (f : Nat × List UInt8 → Except Err β) (h : v < 256 ^ k) :
    (io (be k (beBytes k v ++ s)) >>= f) = f (v, s) := by
  rw [be_append k v s h]; rfl

theorem decodeHeaders_spec (maxW maxH w h : Nat) (samples : List Nat) (s : List UInt8) (hw : w < 2 ^ 32) (hh : h < 2 ^ 32)
    (hwm : w ≤ maxW) (hhm : h ≤ maxH) :
    decodeHeaders maxW maxH (Spec.file w h samples ++ s) = .ok (w, h, samples.flatMap (beBytes 2) ++ s) := by
  unfold decodeHeaders Spec.file
  have e : io (exact 8 ([0x66, 0x61, 0x72, 0x62, 0x66, 0x65, 0x6c, 0x64] ++ beBytes 4 w ++ beBytes 4 h ++ samples.flatMap (beBytes 2) ++ s)) =
      .ok ([0x66, 0x61, 0x72, 0x62, 0x66, 0x65, 0x6c, 0x64], beBytes 4 w ++ (beBytes 4 h ++ (samples.flatMap (beBytes 2) ++ s))) := by
    simp only [List.append_assoc]
    have := exact_append [0x66, 0x61, 0x72, 0x62, 0x66, 0x65, 0x6c, 0x64] (beBytes 4 w ++ (beBytes 4 h ++ (samples.flatMap (beBytes 2) ++ s)))
    rw [show ([0x66, 0x61, 0x72, 0x62, 0x66, 0x65, 0x6c, 0x64] : List UInt8).length = 8 from rfl] at this
    rw [this]; rfl
  have b1 : ∀ {α β : Type} (a : α) (f : α → Except Err β), (Except.ok a >>= f) = f a := fun _ _ => rfl
  rw [e, b1]
  simp only [ne_eq, not_true_eq_false, if_false]
  rw [bind_be 4 w _ _ (by omega)]
  simp only
  rw [bind_be 4 h _ _ (by omega)]
  simp only
  rw [if_neg (by omega), if_neg (by omega)]
  rfl

/-- **C09** is false: for every image with at least one pixel, `decode` fails on what `encode` wrote.  It allocates `4 * w * h` samples
    and then compares that number with a size in bytes. -/
theorem c09_decode_always_fails (maxW maxH w h : Nat) (samples : List Nat) (hl : samples.length = 4 * w * h)
    (h1 : 0 < w) (h2 : 0 < h) (hw : w < 2 ^ 32) (hh : h < 2 ^ 32) (hwm : w ≤ maxW) (hhm : h ≤ maxH)
    (hs : w * 2 * h * 4 + 20 < Zune.Bytestream.usizeLim) :
    ∃ file, encode w h (Spec.native samples) = .ok file ∧ decode maxW maxH file = .error .small := by
  refine ⟨_, c09_encoder_partial w h samples hl hw hh hs, ?_⟩
  have e := decodeHeaders_spec maxW maxH w h samples [] hw hh hwm hhm
  rw [List.append_nil] at e
  have hpos : 0 < 4 * w * h := by positivity
  have hlim : ¬ 4 * w * h * 2 ≥ Zune.Bytestream.usizeLim := by
    have : w * 2 * h * 4 = 4 * w * h * 2 := by ring
    omega
  unfold decode
  rw [e]
  simp only [bind, Except.bind, decodeInto]
  rw [if_neg hlim, if_pos (by omega)]

/-- **C09** is false for `decode_into` as well: whatever the buffer, decoding exactly the file written by `encode` fails, because twice
    as many samples are requested as the file holds. -/
theorem c09_decode_into_always_fails (w h len : Nat) (samples : List Nat) (hl : samples.length = 4 * w * h) (h1 : 0 < w) (h2 : 0 < h)
    : ∃ e, decodeInto w h len (samples.flatMap (beBytes 2)) = .error e := by
  have hpos : 0 < 4 * w * h := by positivity
  unfold decodeInto
  simp only
  split
  · exact ⟨_, rfl⟩
  · split
    · exact ⟨_, rfl⟩
    · rw [readSamples_short _ _ (by rw [be_flat_length, hl]; omega)]
      exact ⟨_, rfl⟩

/-- **C09** (decoder half): when enough further bytes follow the file and the buffer has the size the decoder asks for, the first
    `4 * w * h` samples returned by `decode_into` are those of the image. -/
theorem c09_decode_into_partial (maxW maxH w h len : Nat) (samples : List Nat) (extra : List UInt8) (hl : samples.length = 4 * w * h)
    (hv : ∀ v ∈ samples, v < 65536) (hw : w < 2 ^ 32) (hh : h < 2 ^ 32) (hwm : w ≤ maxW) (hhm : h ≤ maxH)
    (hs : 4 * w * h * 2 < Zune.Bytestream.usizeLim) (hlen : 4 * w * h * 2 ≤ len) (he : 4 * w * h * 2 ≤ extra.length) :
    ∃ out body, decodeHeaders maxW maxH (Spec.file w h samples ++ extra) = .ok (w, h, body) ∧
      decodeInto w h len body = .ok out ∧ out.take (4 * w * h) = samples := by
  obtain ⟨m, r, e⟩ := readSamples_prefix (4 * w * h) samples hv extra (by omega)
  refine ⟨samples ++ m, _, decodeHeaders_spec maxW maxH w h samples extra hw hh hwm hhm, ?_, ?_⟩
  · unfold decodeInto
    simp only
    rw [if_neg (by omega), if_neg (by omega), show 4 * w * h * 2 = samples.length + 4 * w * h by omega, e]
  · rw [← hl, List.take_left]

/-- A 1x1 image satisfies the hypotheses, and its file and failure are as stated. -/
example : ([1, 2, 3, 65535] : List Nat).length = 4 * 1 * 1 ∧ (∀ v ∈ ([1, 2, 3, 65535] : List Nat), v < 65536) ∧
    1 * 2 * 1 * 4 + 20 < Zune.Bytestream.usizeLim ∧
    encode 1 1 [1, 0, 2, 0, 3, 0, 255, 255] =
      .ok [0x66, 0x61, 0x72, 0x62, 0x66, 0x65, 0x6c, 0x64, 0, 0, 0, 1, 0, 0, 0, 1, 0, 1, 0, 2, 0, 3, 255, 255] := by
  refine ⟨by decide, by decide, by decide, by rfl⟩

end Zune.Farbfeld
