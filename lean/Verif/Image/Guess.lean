/- C53: format detection. -/
import Verif.Image.GuessModel
import Verif.Bytestream.Props
import Mathlib.Tactic.IntervalCases

namespace Zune.Guess
open Zune.Bytestream

/-! ### Specification -/

/-- ASCII text as bytes. -/
def ascii (l : List Char) : List UInt8 := l.map fun c => UInt8.ofNat c.toNat

/-- The signatures of the formats, as their specifications give them. -/
def Signature : Format → List UInt8 → Prop
  | .PNG, d => [0x89, 0x50, 0x4E, 0x47, 0x0D, 0x0A, 0x1A, 0x0A] <+: d
  | .JPEG, d => [0xFF, 0xD8] <+: d
  | .PPM, d => ∃ k ∈ ['5', '6', '7', 'f', 'F'], ascii ['P', k] <+: d
  | .PSD, d => ascii ['8', 'B', 'P', 'S'] <+: d
  | .Farbfeld, d => ascii ['f', 'a', 'r', 'b', 'f', 'e', 'l', 'd'] <+: d
  | .QOI, d => ascii ['q', 'o', 'i', 'f'] <+: d
  | .HDR, d => ascii ['#', '?', 'R', 'A', 'D', 'I', 'A', 'N', 'C', 'E', '\n'] <+: d ∨ ascii ['#', '?', 'R', 'G', 'B', 'E', '\n'] <+: d
  | .JPEG_XL, d => [0xFF, 0x0A] <+: d ∨
      [0x00, 0x00, 0x00, 0x0C, 0x4A, 0x58, 0x4C, 0x20, 0x0D, 0x0A, 0x87, 0x0A] <+: d
  | .BMP, d => ascii ['B', 'M'] <+: d ∧ ∃ sz ∈ ([12, 16, 40, 52, 56, 64, 108, 124] : List UInt8), d[14]? = some sz
  | .WEBP, d => ascii ['R', 'I', 'F', 'F'] <+: d ∧ ascii ['W', 'E', 'B', 'P'] <+: d.drop 8

/-- The shortest file in which `guess_format` looks for a format: the loop gives up at the first signature longer than the
    file. -/
def need : Format → Nat
  | .PNG | .JPEG | .PPM | .PSD | .Farbfeld | .QOI => 8
  | .HDR => 11
  | .JPEG_XL => 12
  | .BMP | .WEBP => 16

/-! ### Lemmas -/

theorem peek (c : Cursor) (hv : c.Valid) (hb : c.pos + 16 < usizeLim) (n : Nat) (h0 : 0 < n) (h : n ≤ 16) :
    c.peekAt 0 n = if n ≤ c.rest.length then (.ok (c.rest.take n), c) else (.error .notEnoughBytes, c) := by
  have hlen : c.rest.length = c.data.length - c.pos := by simp [Cursor.rest]
  unfold Cursor.peekAt
  simp only [ne_eq, not_true_eq_false, if_false]
  rw [if_neg (by omega)]
  unfold Cursor.peekExact
  by_cases hn : n ≤ c.rest.length
  · rw [if_pos hn, Cursor.readExact_ok c n (Or.inr (by omega))]
    have hb := Cursor.seek_back { c with pos := c.pos + n } n (by simp) (by simp; omega)
    simp only [hb]
    simp [Cursor.rest]
  · rw [if_neg hn, Cursor.readExact_err c n hv (by omega) (by omega)]

/-- The same function on the bytes that are left. -/
def tailOn (d : List UInt8) : Option Format :=
  if d.length < 16 then none
  else if probeBmp (d.take 16) then some .BMP else if isWebp (d.take 12) then some .WEBP else none

def loopOn : List (List UInt8 × Format) → List UInt8 → Option Format
  | [], d => tailOn d
  | (m, f) :: t, d => if d.length < m.length then none else if m.isPrefixOf d then some f else loopOn t d

theorem isPrefixOf_take (m d : List UInt8) : m.isPrefixOf (d.take m.length) = m.isPrefixOf d := by
  rw [Bool.eq_iff_iff, List.isPrefixOf_iff_prefix, List.isPrefixOf_iff_prefix]
  constructor
  · exact fun h => h.trans (List.take_prefix _ _)
  · intro h
    rw [← List.prefix_iff_eq_take.1 h]
    exact List.prefix_refl _

theorem guessTail_eq (c : Cursor) (hv : c.Valid) (hb : c.pos + 16 < usizeLim) :
    guessTail c = (tailOn c.rest).map fun f => (f, c) := by
  unfold guessTail tailOn
  rw [peek c hv hb 16 (by omega) (by omega)]
  by_cases h : c.rest.length < 16
  · rw [if_pos h, if_neg (by omega)]; rfl
  · rw [if_neg h, if_pos (by omega)]
    simp only
    split
    · rfl
    · rw [peek c hv hb 12 (by omega) (by omega), if_pos (by omega)]
      simp only
      split <;> rfl

theorem guessLoop_eq (c : Cursor) (hv : c.Valid) (hb : c.pos + 16 < usizeLim) : ∀ (l : List (List UInt8 × Format)),
    (∀ p ∈ l, 0 < p.1.length ∧ p.1.length ≤ 16) → guessLoop l c = (loopOn l c.rest).map fun f => (f, c)
  | [], _ => guessTail_eq c hv hb
  | (m, f) :: t, h => by
    have hm : 0 < m.length ∧ m.length ≤ 16 := h (m, f) (by simp)
    rw [guessLoop, loopOn, peek c hv hb _ hm.1 hm.2]
    by_cases hl : c.rest.length < m.length
    · rw [if_pos hl, if_neg (by omega)]; rfl
    · rw [if_neg hl, if_pos (by omega)]
      simp only [isPrefixOf_take]
      split
      · rfl
      · exact guessLoop_eq c hv hb t (fun p hp => h p (by simp [hp]))

theorem guess_eq (c : Cursor) (hv : c.Valid) (hb : c.pos + 16 < usizeLim) :
    guessFormat c = (loopOn magicBytes c.rest).map fun f => (f, c) :=
  guessLoop_eq c hv hb _ (by decide)

/-- Sixteen bytes and the length decide. -/
theorem tailOn_take (d e : List UInt8) (h : d.take 16 = e.take 16) : tailOn d = tailOn e := by
  have hl : min 16 d.length = min 16 e.length := by
    rw [← List.length_take, ← List.length_take, h]
  have h12 : d.take 12 = e.take 12 := by
    have := congrArg (List.take 12) h
    simpa [List.take_take] using this
  unfold tailOn
  rw [h, h12]
  by_cases hd : d.length < 16
  · rw [if_pos hd, if_pos (show e.length < 16 by omega)]
  · rw [if_neg hd, if_neg (show ¬ e.length < 16 by omega)]

theorem loopOn_take (d e : List UInt8) (h : d.take 16 = e.take 16) : ∀ l : List (List UInt8 × Format),
    (∀ p ∈ l, p.1.length ≤ 16) → loopOn l d = loopOn l e
  | [], _ => tailOn_take d e h
  | (m, f) :: t, hl => by
    have hm : m.length ≤ 16 := hl (m, f) (by simp)
    have hlen : min 16 d.length = min 16 e.length := by
      rw [← List.length_take, ← List.length_take, h]
    have hp : m.isPrefixOf d = m.isPrefixOf e := by
      rw [← isPrefixOf_take m d, ← isPrefixOf_take m e]
      have := congrArg (List.take m.length) h
      rw [List.take_take, List.take_take, Nat.min_eq_left hm] at this
      rw [this]
    rw [loopOn, loopOn, hp, loopOn_take d e h t (fun p hp => hl p (by simp [hp]))]
    by_cases hd : d.length < m.length
    · rw [if_pos hd, if_pos (show e.length < m.length by omega)]
    · rw [if_neg hd, if_neg (show ¬ e.length < m.length by omega)]

theorem loopOn_sound {d : List UInt8} {f : Format} : ∀ {l : List (List UInt8 × Format)}, loopOn l d = some f →
    (∃ pre m post, l = pre ++ (m, f) :: post ∧ m <+: d ∧ ∀ p ∈ pre, p.1.length ≤ d.length) ∨ tailOn d = some f
  | [], h => Or.inr h
  | (m, g) :: t, h => by
    rw [loopOn] at h
    split at h
    · simp at h
    · rename_i hl
      split at h
      · rename_i hp
        simp only [Option.some.injEq] at h
        subst h
        exact Or.inl ⟨[], m, t, rfl, List.isPrefixOf_iff_prefix.1 hp, by simp⟩
      · rcases loopOn_sound h with ⟨pre, m', post, e, h1, h2⟩ | h
        · refine Or.inl ⟨(m, g) :: pre, m', post, by rw [e]; rfl, h1, ?_⟩
          intro p hp
          rcases List.mem_cons.1 hp with rfl | hp
          · simpa using hl
          · exact h2 p hp
        · exact Or.inr h

theorem loopOn_skip {d : List UInt8} {post : List (List UInt8 × Format)} : ∀ {pre : List (List UInt8 × Format)},
    (∀ p ∈ pre, p.1.length ≤ d.length ∧ ¬ p.1 <+: d) → loopOn (pre ++ post) d = loopOn post d
  | [], _ => rfl
  | (m, g) :: t, h => by
    have hm : m.length ≤ d.length ∧ ¬ m <+: d := h (m, g) (by simp)
    rw [List.cons_append, loopOn, if_neg (by omega), if_neg (by rw [List.isPrefixOf_iff_prefix]; exact hm.2)]
    exact loopOn_skip fun p hp => h p (by simp [hp])

/-- Two signatures of the same file are comparable. -/
theorem not_prefix {d m : List UInt8} (h : m <+: d) {p : List UInt8} (hp : (p.isPrefixOf m || m.isPrefixOf p) = false) :
    ¬ p <+: d := by
  intro h'
  simp only [Bool.or_eq_false_iff] at hp
  rcases Nat.le_total p.length m.length with hl | hl
  · have := List.isPrefixOf_iff_prefix.2 (List.prefix_of_prefix_length_le h' h hl)
    simp [hp.1] at this
  · have := List.isPrefixOf_iff_prefix.2 (List.prefix_of_prefix_length_le h h' hl)
    simp [hp.2] at this

/-- The entry number `k` of the list is found. -/
theorem loopOn_complete {d m : List UInt8} {f : Format} (k : Nat) (hk : magicBytes[k]? = some (m, f)) (h : m <+: d)
    (n : Nat) (hn : n ≤ d.length)
    (hc : ((magicBytes.take k).all fun p => decide (p.1.length ≤ n) && (p.1.isPrefixOf m || m.isPrefixOf p.1) == false) = true) :
    loopOn magicBytes d = some f := by
  have hlt : k < magicBytes.length := (List.getElem?_eq_some_iff.1 hk).1
  have e : magicBytes = magicBytes.take k ++ (m, f) :: magicBytes.drop (k + 1) := by
    have : magicBytes[k] = (m, f) := (List.getElem?_eq_some_iff.1 hk).2
    conv_lhs => rw [← List.take_append_drop k magicBytes]
    rw [List.drop_eq_getElem_cons hlt, this]
  rw [e, loopOn_skip]
  · rw [loopOn, if_neg (by have := h.length_le; omega), if_pos (List.isPrefixOf_iff_prefix.2 h)]
  · intro p hp
    have := List.all_eq_true.1 hc p hp
    simp only [Bool.and_eq_true, decide_eq_true_eq, beq_iff_eq] at this
    exact ⟨by omega, not_prefix h this.2⟩

theorem loopOn_tail {d m : List UInt8} (h : m <+: d) (hn : 16 ≤ d.length)
    (hc : (magicBytes.all fun p => decide (p.1.length ≤ 16) && (p.1.isPrefixOf m || m.isPrefixOf p.1) == false) = true) :
    loopOn magicBytes d = tailOn d := by
  rw [show loopOn magicBytes d = loopOn (magicBytes ++ []) d by rw [List.append_nil], loopOn_skip]
  · rfl
  · intro p hp
    have := List.all_eq_true.1 hc p hp
    simp only [Bool.and_eq_true, decide_eq_true_eq, beq_iff_eq] at this
    exact ⟨by omega, not_prefix h this.2⟩

theorem probe_iff (d : List UInt8) (h : 16 ≤ d.length) : probeBmp (d.take 16) = true ↔ Signature .BMP d := by
  have e14 : (d.take 16)[14]? = d[14]? := by rw [List.getElem?_take_of_lt (by omega)]
  have e2 : (d.take 16).take 2 = d.take 2 := by rw [List.take_take]; rfl
  have hp : Signature .BMP d ↔ d.take 2 = [66, 77] ∧ ∃ sz ∈ ([12, 16, 40, 52, 56, 64, 108, 124] : List UInt8), d[14]? = some sz := by
    show ([66, 77] : List UInt8) <+: d ∧ _ ↔ _
    rw [List.prefix_iff_eq_take]
    exact and_congr eq_comm Iff.rfl
  rw [hp]
  unfold probeBmp
  rw [e14, e2]
  by_cases h2 : d.take 2 = [66, 77]
  · rw [if_pos ⟨by rw [List.length_take]; omega, h2⟩]
    have : d[14]? = some d[14] := List.getElem?_eq_getElem (by omega)
    rw [this]
    simp [h2, or_assoc]
  · rw [if_neg (fun k => h2 k.2)]
    simp [h2]

theorem webp_iff (d : List UInt8) (h : 16 ≤ d.length) : isWebp (d.take 12) = true ↔ Signature .WEBP d := by
  have e1 : (d.take 12).take 4 = d.take 4 := by rw [List.take_take]; rfl
  have e2 : ((d.take 12).drop 8).take 4 = (d.drop 8).take 4 := by
    rw [List.drop_take, List.take_take]; rfl
  have hp : Signature .WEBP d ↔ d.take 4 = [82, 73, 70, 70] ∧ (d.drop 8).take 4 = [87, 69, 66, 80] := by
    show ([82, 73, 70, 70] : List UInt8) <+: d ∧ ([87, 69, 66, 80] : List UInt8) <+: d.drop 8 ↔ _
    rw [List.prefix_iff_eq_take, List.prefix_iff_eq_take]
    exact and_congr eq_comm eq_comm
  rw [hp]
  unfold isWebp
  rw [e1, e2, if_neg (by rw [List.length_take]; omega), Bool.and_eq_true, decide_eq_true_eq, decide_eq_true_eq]

theorem on_iff (d : List UInt8) (f : Format) : loopOn magicBytes d = some f ↔ Signature f d ∧ need f ≤ d.length := by
  constructor
  · intro h
    rcases loopOn_sound h with ⟨pre, m, post, e, h1, h2⟩ | h
    · have hk : magicBytes[pre.length]? = some (m, f) := by rw [e]; simp
      have hlt : pre.length < 14 := (List.getElem?_eq_some_iff.1 hk).1
      have ht : pre = magicBytes.take pre.length := by
        conv_rhs => rw [e]
        simp
      have hm := h1.length_le
      generalize pre.length = k at *
      subst ht
      have hh := fun j (hj : j < k) (hj' : j < 14) => h2 (magicBytes[j]'hj') (by
        rw [List.mem_take_iff_getElem]
        exact ⟨j, by simpa [magicBytes] using ⟨hj, hj'⟩, rfl⟩)
      have h0 : 0 < k → 8 ≤ d.length := fun h => hh 0 h (by omega)
      have h10 : 10 < k → 11 ≤ d.length := fun h => hh 10 h (by omega)
      have h12 : 12 < k → 12 ≤ d.length := fun h => hh 12 h (by omega)
      clear hh h2 e h
      interval_cases k <;> (
        simp only [magicBytes, List.getElem?_cons_zero, List.getElem?_cons_succ, Option.some.injEq, Prod.mk.injEq] at hk
        obtain ⟨rfl, rfl⟩ := hk
        simp only [List.length_cons, List.length_nil] at hm
        simp only [need]
        refine ⟨?_, by omega⟩)
      · exact h1
      · exact h1
      · exact ⟨'5', by simp, h1⟩
      · exact ⟨'6', by simp, h1⟩
      · exact ⟨'7', by simp, h1⟩
      · exact ⟨'f', by simp, h1⟩
      · exact ⟨'F', by simp, h1⟩
      · exact h1
      · exact h1
      · exact h1
      · exact Or.inl h1
      · exact Or.inr h1
      · exact Or.inr h1
      · exact Or.inl h1
    · unfold tailOn at h
      split at h
      · simp at h
      · rename_i hl
        split at h
        · rename_i hb
          simp only [Option.some.injEq] at h
          subst h
          exact ⟨(probe_iff d (by omega)).1 hb, by simp only [need]; omega⟩
        · split at h
          · rename_i hb
            simp only [Option.some.injEq] at h
            subst h
            exact ⟨(webp_iff d (by omega)).1 hb, by simp only [need]; omega⟩
          · simp at h
  · rintro ⟨h, hn⟩
    cases f <;> simp only [need] at hn
    · exact loopOn_complete 0 rfl h 8 hn (by decide)
    · exact loopOn_complete 1 rfl h 8 hn (by decide)
    · obtain ⟨k, hk, h⟩ := h
      simp only [List.mem_cons, List.not_mem_nil, or_false] at hk
      rcases hk with rfl | rfl | rfl | rfl | rfl
      · exact loopOn_complete 2 rfl h 8 hn (by decide)
      · exact loopOn_complete 3 rfl h 8 hn (by decide)
      · exact loopOn_complete 4 rfl h 8 hn (by decide)
      · exact loopOn_complete 5 rfl h 8 hn (by decide)
      · exact loopOn_complete 6 rfl h 8 hn (by decide)
    · exact loopOn_complete 7 rfl h 8 hn (by decide)
    · exact loopOn_complete 8 rfl h 8 hn (by decide)
    · exact loopOn_complete 9 rfl h 8 hn (by decide)
    · rcases h with h | h
      · exact loopOn_complete 10 rfl h 11 hn (by decide)
      · exact loopOn_complete 11 rfl h 11 hn (by decide)
    · rcases h with h | h
      · exact loopOn_complete 13 rfl h 12 hn (by decide)
      · exact loopOn_complete 12 rfl h 12 hn (by decide)
    · have hb := (probe_iff d hn).2 h
      rw [loopOn_tail (m := [66, 77]) h.1 hn (by decide), tailOn, if_neg (by omega), if_pos hb]
    · have hw := (webp_iff d hn).2 h
      rw [loopOn_tail (m := [82, 73, 70, 70]) h.1 hn (by decide), tailOn, if_neg (by omega), if_neg, if_pos hw]
      rw [probe_iff d hn]
      intro hb
      exact not_prefix (p := [66, 77]) h.1 (by decide) hb.1

/-! ### Properties -/

/-- **C53**, exactly.  `guess_format` answers `f` if and only if the data (from the position of the reader on) carries a signature
    of `f` and is at least `need f` bytes long; the reader is then where it was.  In particular an answer is always justified by
    a signature, and no data gets two answers. -/
theorem c53_exact (c : Cursor) (hv : c.Valid) (hb : c.pos + 16 < usizeLim) (f : Format) (c' : Cursor) :
    guessFormat c = some (f, c') ↔ Signature f c.rest ∧ need f ≤ c.rest.length ∧ c' = c := by
  rw [guess_eq c hv hb]
  simp only [Option.map_eq_some_iff, Prod.mk.injEq]
  constructor
  · rintro ⟨g, h, rfl, rfl⟩
    have := (on_iff _ _).1 h
    exact ⟨this.1, this.2, rfl⟩
  · rintro ⟨h1, h2, rfl⟩
    exact ⟨f, (on_iff _ _).2 ⟨h1, h2⟩, rfl, rfl⟩

/-- **C53** (locality).  Only the first 16 bytes matter. -/
theorem c53_local (c d : Cursor) (hc : c.Valid) (hd : d.Valid) (hbc : c.pos + 16 < usizeLim) (hbd : d.pos + 16 < usizeLim)
    (h : c.rest.take 16 = d.rest.take 16) : (guessFormat c).map Prod.fst = (guessFormat d).map Prod.fst := by
  rw [guess_eq c hc hbc, guess_eq d hd hbd, loopOn_take _ _ h _ (by decide)]
  cases loopOn magicBytes d.rest <;> rfl

theorem signature_append {f : Format} {d : List UInt8} (h : Signature f d) (z : List UInt8) : Signature f (d ++ z) := by
  have mono : ∀ {m e : List UInt8}, m <+: e → m <+: e ++ z := fun h => h.trans (List.prefix_append _ _)
  cases f
  · exact mono h
  · exact mono h
  · obtain ⟨k, hk, h⟩ := h; exact ⟨k, hk, mono h⟩
  · exact mono h
  · exact mono h
  · exact mono h
  · exact h.imp mono mono
  · exact h.imp mono mono
  · obtain ⟨h1, sz, h2, h3⟩ := h
    refine ⟨mono h1, sz, h2, ?_⟩
    rw [List.getElem?_append_left (List.getElem?_eq_some_iff.1 h3).1, h3]
  · have hl : 8 ≤ d.length := by
      have := h.2.length_le
      simp [ascii] at this
      omega
    refine ⟨mono h.1, ?_⟩
    rw [List.drop_append_of_le_length hl]
    exact mono h.2

/-- No data carries the signatures of two formats. -/
theorem signature_unique {f g : Format} {d : List UInt8} (hf : Signature f d) (hg : Signature g d) : f = g := by
  have h1 := (on_iff (d ++ List.replicate 16 0) f).2 ⟨signature_append hf _, by cases f <;> simp [need]⟩
  have h2 := (on_iff (d ++ List.replicate 16 0) g).2 ⟨signature_append hg _, by cases g <;> simp [need]⟩
  rw [h1] at h2
  exact Option.some.inj h2

/-- **C53** (disagreement, general).  Data with a valid signature is not recognised when it is shorter than a signature tried
    earlier: nothing under 8 bytes, and for instance no bare JPEG XL codestream (`FF 0A`) under 12 bytes. -/
theorem c53_short_missed (c : Cursor) (hv : c.Valid) (hb : c.pos + 16 < usizeLim) (f : Format) (hf : Signature f c.rest)
    (hs : c.rest.length < need f) : guessFormat c = none := by
  rw [guess_eq c hv hb]
  cases hl : loopOn magicBytes c.rest with
  | none => rfl
  | some g =>
    exfalso
    have h := (on_iff _ _).1 hl
    rw [signature_unique h.1 hf] at h
    omega

example : guessFormat (Cursor.new [0xFF, 0xD8, 0xFF, 0xE0, 0, 16, 74, 70]) =
    some (.JPEG, Cursor.new [0xFF, 0xD8, 0xFF, 0xE0, 0, 16, 74, 70]) := by decide +kernel
example : guessFormat (Cursor.new (ascii ['R', 'I', 'F', 'F', 'x', 'x', 'x', 'x', 'W', 'E', 'B', 'P', 'V', 'P', '8', 'L'])) =
    some (.WEBP, Cursor.new (ascii ['R', 'I', 'F', 'F', 'x', 'x', 'x', 'x', 'W', 'E', 'B', 'P', 'V', 'P', '8', 'L'])) := by
  decide +kernel
example : (Cursor.new (ascii ['P', '5'])).Valid ∧ Signature .PPM (Cursor.new (ascii ['P', '5'])).rest ∧
    (Cursor.new (ascii ['P', '5'])).rest.length < need .PPM :=
  ⟨⟨by decide +kernel, by decide +kernel⟩, ⟨'5', by simp, List.prefix_refl _⟩, by decide⟩

end Zune.Guess
