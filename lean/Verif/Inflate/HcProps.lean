import Verif.Inflate.HcLemmas

/-!
# zune-inflate: the hash chain match finder (properties)
-/

namespace Zune.Inflate.Hc

open Zune

/-- **C123.** `count` never counts a byte that differs: the two strings agree on that many bytes, and it stops only at a difference, at the limit
or with less than eight bytes left in one of them. -/
theorem c123_count (w m : List UInt8) (max : Nat) :
    w.take (count w m max) = m.take (count w m max) ∧ count w m max ≤ w.length ∧ count w m max ≤ m.length ∧ count w m max ≤ max ∧
      (count w m max = 8 * (max / 8 - 1) ∨ w.length < count w m max + 8 ∨ m.length < count w m max + 8 ∨
        w[count w m max]? ≠ m[count w m max]?) := by
  obtain ⟨h1, h2, h3, h4, h5⟩ := countLoop_spec (max / 8 - 1) w m
  exact ⟨h1, h2, h3, by unfold count; omega, h5⟩

example : count [1, 2, 3, 4, 5, 6, 7, 8, 9, 10, 11, 12, 13, 14, 15, 16] [1, 2, 3, 4, 5, 6, 7, 8, 9, 10, 11, 99, 13, 14, 15, 16] 258 = 11 := by
  decide +kernel

/-- A block with two copies of ten bytes. -/
def twice : List UInt8 := [0, 1, 2, 3, 4, 5, 6, 7, 8, 9, 10, 50, 51, 1, 2, 3, 4, 5, 6, 7, 8, 9, 10, 60, 61, 62, 63, 64, 65, 66, 67, 68, 69, 70, 71]

/-- **C123.** When `compress_block` returns, whatever was in the tables, its sequences except the last stand for a beginning of the block, the
literals of the last one for the rest; the copies reach at least four bytes back and not before the block, and are at most 248 bytes long. -/
theorem c123_replay (p : Params) (stale : Nat → Nat) (src : List UInt8) (seqs : List Sequence) (h : compressBlock p stale src = some seqs) :
    ∃ ms upto, seqs = ms ++ [⟨upto, src.length - upto, 3, 10⟩] ∧ upto ≤ src.length ∧
      replay src [] ms = some (src.take upto) ∧ src.take upto ++ (src.drop upto).take (src.length - upto) = src ∧
      ∀ s ∈ ms, p.minLen ≤ s.ml ∧ s.ml ≤ 248 ∧ 4 ≤ s.ol ∧ s.ol < src.length := by
  obtain ⟨ms, upto, hu, e, he⟩ := matchLoop_emitted p src _ _ 0 0 0 _ [] seqs (by omega) rfl ⟨rfl, by simp, rfl⟩ h
  refine ⟨ms, upto, e, hu, he.replay, ?_, fun s hs => ?_⟩
  · rw [← List.take_add, show upto + (src.length - upto) = src.length by omega, List.take_length]
  · obtain ⟨a, _, c, d, f⟩ := he.sizes s hs
    exact ⟨a, c, d, f⟩

example : compressBlock ⟨8, 4, 3⟩ (fun i => i * 77 + 5) twice = some [⟨0, 13, 10, 12⟩, ⟨23, 12, 3, 10⟩] := by decide +kernel

/-- **C123.** In blocks of the size the code names (`DEFLATE_MAX_BLOCK_SIZE`), the matches are ones deflate can express, and the arrays of
`EncodedSequences` hold every sequence (their positions do not wrap around). -/
theorem c123_deflate (p : Params) (hm : 4 ≤ p.minLen) (stale : Nat → Nat) (src : List UInt8) (hb : src.length ≤ 2 ^ 15) (seqs : List Sequence)
    (h : compressBlock p stale src = some seqs) (a b c : Nat → Nat) :
    (∀ s ∈ seqs, 3 ≤ s.ml ∧ s.ml ≤ 258 ∧ 1 ≤ s.ol ∧ s.ol ≤ 32768) ∧
      ∀ (i : Nat) (s : Sequence), seqs[i]? = some s → addAll 0 (seqs.map fun s => s.ll) a i = s.ll ∧ addAll 0 (seqs.map fun s => s.ml) b i = s.ml ∧
        addAll 0 (seqs.map fun s => s.ol) c i = s.ol := by
  obtain ⟨ms, upto, hu, e, he⟩ := matchLoop_emitted p src _ _ 0 0 0 _ [] seqs (by omega) rfl ⟨rfl, by simp, rfl⟩ h
  have sz : ∀ s ∈ seqs, 3 ≤ s.ml ∧ s.ml ≤ 258 ∧ 1 ≤ s.ol ∧ s.ol ≤ 32768 ∧ s.ll ≤ 32768 := by
    intro s hs
    rw [e, List.mem_append, List.mem_singleton] at hs
    rcases hs with hs | rfl
    · obtain ⟨h1, h2, h3, h4, h5⟩ := he.sizes s hs
      have h6 := ll_le ms s hs
      rw [he.total] at h6
      omega
    · refine ⟨?_, ?_, ?_, ?_, ?_⟩ <;> dsimp only <;> omega
  have hlen : seqs.length ≤ 10922 := by
    have h1 := sum_ge ms 4 fun s hs => hm.trans (he.sizes s hs).1
    rw [he.total] at h1
    rw [e, List.length_append, List.length_singleton]
    omega
  have get : ∀ (f : Sequence → Nat), (∀ s ∈ seqs, f s < 2 ^ 32) → ∀ (a : Nat → Nat) (i : Nat) (s : Sequence), seqs[i]? = some s →
      addAll 0 (seqs.map f) a i = f s := by
    intro f hf a i s hs
    have := (addAll_get (seqs.map f) 0 a (by rw [List.length_map]; omega) (by
      intro v hv
      obtain ⟨s, hs, rfl⟩ := List.mem_map.1 hv
      exact hf s hs)).2 i (f s) (by rw [List.getElem?_map, hs]; rfl)
    rwa [Nat.zero_add] at this
  refine ⟨fun s hs => ?_, fun i s hs => ⟨get _ ?_ a i s hs, get _ ?_ b i s hs, get _ ?_ c i s hs⟩⟩
  · obtain ⟨h1, h2, h3, h4, -⟩ := sz s hs
    exact ⟨h1, h2, h3, h4⟩
  all_goals
    intro s hs
    have := sz s hs
    omega

example : twice.length ≤ 2 ^ 15 ∧ (compressBlock ⟨8, 4, 3⟩ (fun _ => 0) twice).isSome = true := by decide +kernel

/-- **C123.** If the first match found is always taken (`nice_length < min_length`), `compress_block` returns for every block of less than 16 MiB,
whatever an earlier block left in `next_tab`: no index is out of range, no position lies ahead, the assertions hold. -/
theorem c123_no_panic_partial (p : Params) (hp : p.nice < p.minLen) (hm : 4 ≤ p.minLen ∧ p.minLen ≤ 6) (stale : Nat → Nat) (src : List UInt8)
    (hb : src.length < 2 ^ 24) : ∃ seqs, compressBlock p stale src = some seqs :=
  matchLoop_total p hp hm src hb (src.length + 1) ⟨0, fun _ => 0, stale⟩ 0 0 ⟨0, 0, 0, 0⟩ [] (by omega) (by omega) (by omega) rfl
    ⟨fun _ => False, fun _ => Or.inl rfl, fun _ h => h.elim⟩

example : (3 < 4 ∧ 4 ≤ 4 ∧ 4 ≤ 6) ∧ twice.length < 2 ^ 24 := by decide

/-- Sixteen bytes, three times: the first two within a longer copy, the third at the end of the block. -/
def thrice : List UInt8 :=
  let word : List UInt8 := (List.range 16).map fun i => UInt8.ofNat (i + 1)
  [0, 210] ++ word ++ [200, 210] ++ word ++ ((List.range 110).map fun i => UInt8.ofNat (i + 30)) ++ word

/-- **C123.** Otherwise it can panic: when a match reaches the end of the block, the byte after it is read to look for a longer one. -/
theorem c123_past_end_wrong : compressBlock ⟨8, 4, 100⟩ (fun _ => 0) thrice = none := by decide +kernel

/-- The same block is compressed when the first match is taken. -/
example : (compressBlock ⟨8, 4, 3⟩ (fun _ => 0) thrice).isSome = true := by decide +kernel

/-- **C123.** The sequences as they are given to `EncodedSequences::add` never stand for the block: the last one has a match of three bytes, from
ten bytes back, that is not there. -/
theorem c123_last_wrong (p : Params) (stale : Nat → Nat) (src : List UInt8) (seqs : List Sequence) (h : compressBlock p stale src = some seqs) :
    replay src [] seqs ≠ some src := by
  obtain ⟨ms, upto, e, hu, hr, hs, -⟩ := c123_replay p stale src seqs h
  rw [e, replay_append, hr, Option.bind_some, replay]
  dsimp only
  rw [hs]
  split
  · rename_i h10
    intro e
    simp only [replay, Option.some.injEq] at e
    have := congrArg List.length e
    rw [lz_length 3 src (by omega) h10.2] at this
    omega
  · simp

example : (compressBlock ⟨8, 4, 3⟩ (fun _ => 0) twice).bind (replay twice []) = some (twice ++ [62, 63, 64]) := by decide +kernel

end Zune.Inflate.Hc
