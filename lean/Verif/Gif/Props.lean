/-
**C105**: what `zune-gif` reads of a file.  The specification is section 17 to 19 of the GIF89a specification.
-/
import Verif.Gif.Model
import Mathlib.Tactic.NormNum

namespace Zune.Gif
open Zune.Stream

/-! ### Specification -/

/-- A logical screen descriptor with its global colour table, if there is one. -/
structure Screen where
  version : UInt8
  width : Nat
  height : Nat
  flags : UInt8
  background : UInt8
  ratio : UInt8
  colors : List (UInt8 × UInt8 × UInt8)

/-- The screen is one the format can express: version 87a or 89a; the highest bit of the flags tells whether there is a table, the lowest three its size. -/
structure Screen.Valid (c : Screen) : Prop where
  version : c.version = 0x37 ∨ c.version = 0x39
  width : c.width < 2 ^ 16
  height : c.height < 2 ^ 16
  colors : c.colors.length = if c.flags.toNat / 128 = 1 then 2 ^ (c.flags.toNat % 8 + 1) else 0

/-- Red, green, blue. -/
def rgb (p : UInt8 × UInt8 × UInt8) : List UInt8 := [p.1, p.2.1, p.2.2]

/-- The bytes of header, descriptor and table. -/
def Screen.bytes (c : Screen) : List UInt8 :=
  [0x47, 0x49, 0x46, 0x38, c.version, 0x61] ++ leBytes 2 c.width ++ leBytes 2 c.height ++ [c.flags, c.background, c.ratio] ++ c.colors.flatMap rgb

/-- The opaque colour in the order of the decoder: blue, green, red, alpha. -/
def bgra (p : UInt8 × UInt8 × UInt8) : List UInt8 := [p.2.2, p.2.1, p.1, 255]

/-! ### Lemmas -/

theorem colorLoop_spec {t : Nat} : ∀ {cs : List (UInt8 × UInt8 × UInt8)} {pos : Nat} {pal : List (List UInt8)} {s : List UInt8}, cs.length ≤ pal.length → pos + cs.length ≤ t →
    colorLoop t cs.length pos pal (cs.flatMap rgb ++ s) = (cs.map bgra ++ pal.drop cs.length, s)
  | [], pos, pal, s, _, _ => by simp [colorLoop]
  | c :: cs, pos, [], s, h, _ => by simp at h
  | c :: cs, pos, _ :: pal, s, h, hp => by
    simp only [List.length_cons] at h hp
    have ih := colorLoop_spec (t := t) (cs := cs) (pos := pos + 1) (pal := pal) (s := s) (by omega) (by omega)
    obtain ⟨r, g, b⟩ := c
    simp only [List.length_cons, colorLoop, List.flatMap_cons, rgb, List.cons_append, List.nil_append, u8]
    rw [ih, if_neg (by omega)]
    simp [bgra]

theorem flag_table : ∀ f : UInt8, ((f &&& 0x80) > 0 ↔ f.toNat / 128 = 1) ∧ 2 <<< (f &&& 7).toNat = 2 ^ (f.toNat % 8 + 1) ∧ 2 ^ (f.toNat % 8 + 1) ≤ 256 := by decide +kernel

theorem testGif_some {s t : List UInt8} : testGif s = some t ↔ ∃ v, (v = 0x37 ∨ v = 0x39) ∧ s = [0x47, 0x49, 0x46, 0x38, v, 0x61] ++ t := by
  constructor
  · intro h
    have hc := (Option.ite_none_right_eq_some.1 h)
    rcases s with _ | ⟨a, _ | ⟨b, _ | ⟨c, _ | ⟨d, _ | ⟨e, _ | ⟨f, s⟩⟩⟩⟩⟩⟩ <;> simp only at hc
    case cons.cons.cons.cons.cons.cons =>
      obtain ⟨⟨h1, h2, h3, h4, h5, h6⟩, h7⟩ := hc
      exact ⟨e, h5.symm, by simp [h1, h2, h3, h4, h6, Option.some.inj h7]⟩
    all_goals (revert hc; simp)
  · rintro ⟨v, hv, rfl⟩
    rcases hv with rfl | rfl <;> simp [testGif, u8]

/-- The state after the headers of `c`. -/
def Screen.state (c : Screen) (rest : List UInt8) : Decoder :=
  ⟨rest, c.width, c.height, c.flags, c.background, c.ratio, true, 0, c.colors.map bgra ++ List.replicate (256 - c.colors.length) [0, 0, 0, 0], []⟩

theorem headers_screen {o : Opts} {c : Screen} (hc : c.Valid) (rest : List UInt8) :
    (Decoder.new (c.bytes ++ rest)).decodeHeaders o =
      if c.width > o.maxW then .error .width else if c.height > o.maxH then .error .height else .ok (c.state rest) := by
  have ht : testGif (c.bytes ++ rest) = some (leBytes 2 c.width ++ (leBytes 2 c.height ++ (c.flags :: c.background :: c.ratio :: (c.colors.flatMap rgb ++ rest)))) :=
    testGif_some.2 ⟨c.version, hc.version, by simp [Screen.bytes]⟩
  obtain ⟨f1, f2, f3⟩ := flag_table c.flags
  have hd : ∀ g : Decoder, g.readHeaders = false → g.stream = c.bytes ++ rest → g.decodeHeaders o = g.screen o
      (leBytes 2 c.width ++ (leBytes 2 c.height ++ (c.flags :: c.background :: c.ratio :: (c.colors.flatMap rgb ++ rest)))) := by
    intro g h1 h2
    unfold Decoder.decodeHeaders
    rw [h1, h2, ht]; rfl
  rw [hd _ rfl rfl]
  unfold Decoder.screen
  simp only [bind, Except.bind, le_append 2 c.width _ (by have := hc.width; omega), le_append 2 c.height _ (by have := hc.height; omega), io, u8Err]
  by_cases hw : c.width > o.maxW
  · rw [if_pos hw, if_pos hw]; rfl
  by_cases hh : c.height > o.maxH
  · rw [if_neg hw, if_pos hh, if_neg hw, if_pos hh]; rfl
  rw [if_neg hw, if_neg hh, if_neg hw, if_neg hh]
  by_cases hf : c.flags.toNat / 128 = 1
  · have hl := hc.colors
    rw [if_pos hf] at hl
    have hloop := colorLoop_spec (t := 2 ^ 64 - 1) (cs := c.colors) (pos := 0) (pal := List.replicate 256 [0, 0, 0, 0]) (s := rest)
      (by rw [List.length_replicate]; omega) (by omega)
    rw [if_pos (f1.2 hf), f2, ← hl]
    unfold Decoder.parseColortable
    simp only [Decoder.new]
    rw [hloop, List.drop_replicate]
    rfl
  · rw [if_neg (fun h => hf (f1.1 h))]
    have hl := hc.colors
    rw [if_neg hf, List.length_eq_zero_iff] at hl
    unfold Screen.state
    rw [hl]; rfl

theorem headers_spec {o : Opts} {c : Screen} (hc : c.Valid) (rest : List UInt8) (hw : c.width ≤ o.maxW) (hh : c.height ≤ o.maxH) :
    (Decoder.new (c.bytes ++ rest)).decodeHeaders o = .ok (c.state rest) := by
  rw [headers_screen hc rest, if_neg (Nat.not_lt.2 hw), if_neg (Nat.not_lt.2 hh)]

theorem size_spec {c : Screen} (hc : c.Valid) (rest : List UInt8) : (c.state rest).outputBufSize = some (4 * (c.width * c.height)) := by
  have : c.width * c.height < 2 ^ 16 * 2 ^ 16 := Nat.mul_lt_mul'' hc.width hc.height
  show (if c.width * c.height < 2 ^ 64 then if c.width * c.height * 4 < 2 ^ 64 then some (c.width * c.height * 4) else none else none) = _
  rw [if_pos (by omega), if_pos (by omega), Nat.mul_comm 4]

theorem screen_gif {o : Opts} {g : Decoder} {s : List UInt8} : g.screen o s ≠ .error .notGif := by
  unfold Decoder.screen io
  intro h
  cases h1 : le 2 s with
  | none => rw [h1] at h; cases h
  | some p =>
    cases h2 : le 2 p.2 with
    | none => rw [h1] at h; simp only [bind, Except.bind] at h; rw [h2] at h; cases h
    | some q =>
      rw [h1] at h; simp only [bind, Except.bind] at h; rw [h2] at h
      obtain ⟨q1, q2⟩ := q
      rcases q2 with _ | ⟨a, _ | ⟨b, _ | ⟨c, q2⟩⟩⟩
      · cases h
      · cases h
      · cases h
      · simp only [u8Err] at h
        split at h
        · cases h
        · split at h
          · cases h
          · cases h

/-! ### The claims -/

/-- **C105** (headers).  Of every file the decoder gets width, height, flags, background index and ratio and the colours of the global table, in the order blue,
    green, red, all opaque, the entries that are not in the table zero, and is then behind the table; the size of the buffer is 4·width·height.  A picture wider or
    higher than the options allow is refused.  A second call changes nothing. -/
theorem c105_headers {o : Opts} {c : Screen} (hc : c.Valid) (rest : List UInt8) :
    (c.width ≤ o.maxW → c.height ≤ o.maxH → ∃ g, (Decoder.new (c.bytes ++ rest)).decodeHeaders o = .ok g ∧ g.width = c.width ∧ g.height = c.height ∧ g.flags = c.flags ∧
      g.bgindex = c.background ∧ g.ratio = c.ratio ∧ g.pal.length = 256 ∧ (∀ (i : Nat) p, c.colors[i]? = some p → g.pal[i]? = some (bgra p)) ∧
      (∀ (i : Nat), c.colors.length ≤ i → i < 256 → g.pal[i]? = some [0, 0, 0, 0]) ∧ g.stream = rest ∧ g.outputBufSize = some (4 * (c.width * c.height)) ∧
      g.decodeHeaders o = .ok g) ∧
    (o.maxW < c.width → (Decoder.new (c.bytes ++ rest)).decodeHeaders o = .error .width) ∧
    (c.width ≤ o.maxW → o.maxH < c.height → (Decoder.new (c.bytes ++ rest)).decodeHeaders o = .error .height) := by
  obtain ⟨f1, f2, f3⟩ := flag_table c.flags
  have hl : c.colors.length ≤ 256 := by rw [hc.colors]; split <;> omega
  refine ⟨fun hw hh => ⟨_, headers_spec hc rest hw hh, rfl, rfl, rfl, rfl, rfl, ?_, ?_, ?_, rfl, size_spec hc rest, rfl⟩, fun hw => ?_, fun hw hh => ?_⟩
  · simp only [Screen.state, List.length_append, List.length_map, List.length_replicate]; omega
  · intro i p hp
    have := (List.getElem?_eq_some_iff.1 hp).1
    simp only [Screen.state]
    rw [List.getElem?_append_left (by simpa using this), List.getElem?_map, hp]; rfl
  · intro i h1 h2
    simp only [Screen.state]
    rw [List.getElem?_append_right (by simpa using h1), List.getElem?_replicate, if_pos (by simp only [List.length_map]; omega)]
  · rw [headers_screen hc rest, if_pos hw]
  · rw [headers_screen hc rest, if_neg (Nat.not_lt.2 hw), if_pos hh]

/-- A file of 3 × 2 pixels with a table of two colours. -/
example : Screen.Valid ⟨0x39, 3, 2, 0x80, 1, 0, [(1, 2, 3), (4, 5, 6)]⟩ := ⟨.inr rfl, by decide, by decide, by decide⟩

example : ((Decoder.new (Screen.bytes ⟨0x39, 3, 2, 0x80, 1, 0, [(1, 2, 3), (4, 5, 6)]⟩ ++ [7])).decodeHeaders ⟨100, 100⟩).toOption.map
    (fun g => (g.width, g.height, g.pal.take 3, g.stream)) = some (3, 2, [[3, 2, 1, 255], [6, 5, 4, 255], [0, 0, 0, 0]], [7]) := by decide +kernel

/-- **C105** (signatures).  Files that do not begin with GIF87a or GIF89a are refused, and no others for that reason. -/
theorem c105_signature {o : Opts} (s : List UInt8) :
    (Decoder.new s).decodeHeaders o = .error .notGif ↔ ¬ ∃ v rest, (v = 0x37 ∨ v = 0x39) ∧ s = [0x47, 0x49, 0x46, 0x38, v, 0x61] ++ rest := by
  have hd : (Decoder.new s).decodeHeaders o = match testGif s with
      | none => .error .notGif
      | some t => (Decoder.new s).screen o t := rfl
  rw [hd]
  cases h : testGif s with
  | none =>
    refine ⟨?_, fun _ => rfl⟩
    rintro _ ⟨v, rest, hv, e⟩
    rw [testGif_some.2 ⟨v, hv, e⟩] at h; cases h
  | some t =>
    obtain ⟨v, hv, e⟩ := testGif_some.1 h
    exact ⟨fun hc => absurd hc screen_gif, fun hn => absurd ⟨v, t, hv, e⟩ hn⟩

example : (Decoder.new [0x47, 0x49, 0x46, 0x38, 0x38, 0x61]).decodeHeaders ⟨9, 9⟩ = .error .notGif := by decide

/-- **C105** (negative).  A colour table that is cut off is accepted: what is missing is taken for black. -/
theorem c105_truncated_wrong : ∃ g, (Decoder.new [0x47, 0x49, 0x46, 0x38, 0x39, 0x61, 3, 0, 2, 0, 0x80, 0, 0, 9]).decodeHeaders ⟨100, 100⟩ = .ok g ∧
    g.pal.take 2 = [[0, 0, 9, 255], [0, 0, 0, 255]] := by
  have h : ((Decoder.new [0x47, 0x49, 0x46, 0x38, 0x39, 0x61, 3, 0, 2, 0, 0x80, 0, 0, 9]).decodeHeaders ⟨100, 100⟩).toOption.map (fun g => g.pal.take 2) =
      some [[0, 0, 9, 255], [0, 0, 0, 255]] := by decide +kernel
  cases hg : (Decoder.new [0x47, 0x49, 0x46, 0x38, 0x39, 0x61, 3, 0, 2, 0, 0x80, 0, 0, 9]).decodeHeaders ⟨100, 100⟩ with
  | error e => rw [hg] at h; simp [Except.toOption] at h
  | ok g => rw [hg] at h; exact ⟨g, rfl, by simpa [Except.toOption] using h⟩

/-- **C105** (negative).  No picture is ever decoded: whatever follows the headers, the first call of `decode_into` clears the part of the buffer that belongs to the
    picture, later calls leave the buffer as it is, and none reads anything.  A buffer that is too small is refused. -/
theorem c105_no_pixels {o : Opts} {c : Screen} (hc : c.Valid) (rest : List UInt8) (hw : c.width ≤ o.maxW) (hh : c.height ≤ o.maxH) (buf : List UInt8) :
    (4 * (c.width * c.height) ≤ buf.length → ∃ g, (Decoder.new (c.bytes ++ rest)).decodeInto o buf =
        .ok (g, List.replicate (4 * (c.width * c.height)) 0 ++ buf.drop (4 * (c.width * c.height))) ∧ g.stream = rest ∧
      ∀ buf2 : List UInt8, 4 * (c.width * c.height) ≤ buf2.length → ∃ g2, g.decodeInto o buf2 = .ok (g2, buf2) ∧ g2.stream = rest) ∧
    (buf.length < 4 * (c.width * c.height) → (Decoder.new (c.bytes ++ rest)).decodeInto o buf = .error .small) := by
  have hs := size_spec hc rest
  have hd := headers_spec (o := o) hc rest hw hh
  constructor
  · intro hb
    refine ⟨{ c.state rest with background := List.replicate (4 * (c.width * c.height)) 0, framePos := 1 }, ?_, rfl, fun buf2 hb2 => ?_⟩
    · unfold Decoder.decodeInto
      rw [hd]
      simp only [bind, Except.bind, hs, pure, Except.pure, if_neg (Nat.not_lt.2 hb)]
      simp [Screen.state]
    · refine ⟨{ c.state rest with background := List.replicate (4 * (c.width * c.height)) 0, framePos := 2 }, ?_, rfl⟩
      have hd2 : Decoder.decodeHeaders o { c.state rest with background := List.replicate (4 * (c.width * c.height)) 0, framePos := 1 } =
        .ok { c.state rest with background := List.replicate (4 * (c.width * c.height)) 0, framePos := 1 } := rfl
      have hs2 : Decoder.outputBufSize { c.state rest with background := List.replicate (4 * (c.width * c.height)) 0, framePos := 1 } = some (4 * (c.width * c.height)) := hs
      unfold Decoder.decodeInto
      rw [hd2]
      simp only [bind, Except.bind, hs2, pure, Except.pure, if_neg (Nat.not_lt.2 hb2)]
      rfl
  · intro hb
    unfold Decoder.decodeInto
    rw [hd]
    simp only [bind, Except.bind, hs, pure, Except.pure, if_pos hb]
    rfl

/-- The file of the example above: 24 bytes are cleared, the 25th stays, whatever the image data. -/
example (rest : List UInt8) : ∃ g, (Decoder.new (Screen.bytes ⟨0x39, 3, 2, 0x80, 1, 0, [(1, 2, 3), (4, 5, 6)]⟩ ++ rest)).decodeInto ⟨100, 100⟩ (List.replicate 25 8) =
    .ok (g, List.replicate 24 0 ++ [8]) := by
  obtain ⟨g, h, _⟩ := (c105_no_pixels (o := ⟨100, 100⟩) (c := ⟨0x39, 3, 2, 0x80, 1, 0, [(1, 2, 3), (4, 5, 6)]⟩) ⟨.inr rfl, by decide, by decide, by decide⟩ rest
    (by decide) (by decide) (List.replicate 25 8)).1 (by decide)
  exact ⟨g, h⟩

end Zune.Gif
