/- PNG files at the level of chunks: the header loop accepts exactly framed chunks and accumulates their contents. -/
import Verif.Png.Model

namespace Zune.Png

open Zune.Stream

namespace Spec

/-- CRC-32 of RFC 2083 section 3.4. -/
def crc (d : List UInt8) : Nat := 2 ^ 32 - 1 - Inflate.Spec.crc d (2 ^ 32 - 1)

/-- A chunk (RFC 2083 section 3.2): length, name, data, CRC of name and data. -/
def chunk (name data : List UInt8) : List UInt8 :=
  beBytes 4 data.length ++ name ++ data ++ beBytes 4 (crc (name ++ data))

/-- Names with a meaning to the decoder that the specification below does not describe. -/
def reserved : List (List UInt8) :=
  [[0x49, 0x48, 0x44, 0x52], [0x49, 0x45, 0x4e, 0x44], [0x61, 0x63, 0x54, 0x4c], [0x66, 0x63, 0x54, 0x4c], [0x74, 0x49, 0x4d, 0x45],
   [0x69, 0x43, 0x43, 0x50], [0x69, 0x54, 0x58, 0x74], [0x7a, 0x54, 0x58, 0x74], [0x74, 0x45, 0x58, 0x74]]

/-- What a chunk between IHDR and IEND contributes; `none` where it is not well formed (or repeated). -/
def apply (st : St) (name data : List UInt8) : Option St :=
  if name = [0x49, 0x44, 0x41, 0x54] then some { st with idat := st.idat ++ data }
  else if name = [0x50, 0x4c, 0x54, 0x45] then
    if data.length % 3 = 0 ∧ data.length ≤ 768 ∧ st.seenPlte = false then
      some { st with
        seenPlte := true
        palette := (List.range 256).map fun i =>
          if i < data.length / 3 then { red := data.getD (3 * i) 0, green := data.getD (3 * i + 1) 0, blue := data.getD (3 * i + 2) 0 }
          else {} }
    else none
  else if name = [0x74, 0x52, 0x4e, 0x53] then
    if st.seenTrns then none
    else
      match st.color with
      | .luma => if data.length = 2 then some { st with seenTrns := true, key := [beVal data, 0, 0, 0] } else none
      | .rgb =>
        if data.length = 6 then
          some { st with seenTrns := true, key := [beVal (data.take 2), beVal ((data.drop 2).take 2), beVal (data.drop 4), 0] }
        else none
      | .palette =>
        if st.seenPlte ∧ data.length ≤ 256 then
          some { st with
            seenTrns := true
            palette := st.palette.mapIdx fun i e => if i < data.length then { e with alpha := data.getD i 0 } else e }
        else none
      | _ => none
  else if name = [0x67, 0x41, 0x4d, 0x41] then if data.length = 4 then some { st with gamma := some (beVal data) } else none
  else if name = [0x65, 0x58, 0x49, 0x66] then
    if data.take 4 = [73, 73, 42, 0] ∨ data.take 4 = [77, 77, 0, 42] then some { st with exif := some data } else none
  else if name ∈ reserved then none
  else if (name.headD 0).toNat / 32 % 2 = 1 then some st
  else none

/-- The effect of a list of chunks. -/
def applyAll (st : St) : List (List UInt8 × List UInt8) → Option St
  | [] => some st
  | (name, data) :: cs => (apply st name data).bind fun st => applyAll st cs

/-- The chunk names and lengths are possible. -/
def Framed (cs : List (List UInt8 × List UInt8)) : Prop := ∀ p ∈ cs, p.1.length = 4 ∧ p.2.length < 2 ^ 32

/-- Contents of IHDR. -/
structure Header where
  width : Nat
  height : Nat
  depth : Nat
  color : Color
  adam7 : Bool := false

/-- RFC 2083 section 4.1.1 colour types. -/
def Header.colorByte (h : Header) : UInt8 := match h.color with | .luma => 0 | .rgb => 2 | .palette => 3 | .lumaA => 4 | .rgba => 6

/-- The bytes of IHDR. -/
def Header.bytes (h : Header) : List UInt8 :=
  beBytes 4 h.width ++ beBytes 4 h.height ++ [UInt8.ofNat h.depth, h.colorByte, 0, 0, if h.adam7 then 1 else 0]

/-- Headers of pictures the decoder is willing to look at. -/
def Header.Ok (o : DecOpts) (h : Header) : Prop :=
  0 < h.width ∧ 0 < h.height ∧ h.width ≤ o.maxWidth ∧ h.height ≤ o.maxHeight ∧ h.width < 2 ^ 32 ∧ h.height < 2 ^ 32 ∧
  (h.depth = 1 ∨ h.depth = 2 ∨ h.depth = 4 ∨ h.depth = 8 ∨ (h.depth = 16 ∧ h.color ≠ .palette))

/-- The state after IHDR. -/
def Header.st (h : Header) : St :=
  { seenHdr := true, width := h.width, height := h.height, depth := h.depth, color := h.color, adam7 := h.adam7 }

/-- A file. -/
def file (h : Header) (cs : List (List UInt8 × List UInt8)) (tail : List UInt8) : List UInt8 :=
  [0x89, 0x50, 0x4e, 0x47, 0x0d, 0x0a, 0x1a, 0x0a] ++ chunk [0x49, 0x48, 0x44, 0x52] h.bytes ++
    (cs.flatMap fun p => chunk p.1 p.2) ++ chunk [0x49, 0x45, 0x4e, 0x44] [] ++ tail

end Spec

/-! ### Framing -/

theorem spec_crc_lt (d : List UInt8) : Spec.crc d < 256 ^ 4 := by
  unfold Spec.crc
  norm_num
  omega

theorem chunk_length (name data : List UInt8) (h : name.length = 4) : (Spec.chunk name data).length = data.length + 12 := by
  simp [Spec.chunk, h]; omega

theorem read_chunk (o : DecOpts) (name data rest : List UInt8) (hn : name.length = 4) (hd : data.length < 2 ^ 32) :
    readChunkHeader o (Spec.chunk name data ++ rest) =
      .ok (data.length, name, data ++ (beBytes 4 (Spec.crc (name ++ data)) ++ rest)) := by
  have e : Spec.chunk name data ++ rest =
      beBytes 4 data.length ++ (name ++ (data ++ (beBytes 4 (Spec.crc (name ++ data)) ++ rest))) := by simp [Spec.chunk]
  unfold readChunkHeader
  rw [e, be_append 4 _ _ (by norm_num; omega)]
  simp only
  have := exact_append name (data ++ (beBytes 4 (Spec.crc (name ++ data)) ++ rest))
  rw [hn] at this
  rw [this]
  simp only
  rw [if_neg (by simp only [List.length_append, beBytes_length]; omega), List.drop_left, List.take_left, List.take_left' (beBytes_length _ _),
    beVal_beBytes, Nat.mod_eq_of_lt (spec_crc_lt _), if_neg]
  rw [Inflate.c12_calc_crc]
  simp [Spec.crc]

/-- A chunk with a wrong checksum is rejected if checksums are to be confirmed. -/
theorem read_bad_crc (o : DecOpts) (hc : o.confirmCrc = true) (name data rest : List UInt8) (crc : Nat) (hn : name.length = 4)
    (hd : data.length < 2 ^ 32) (h32 : crc < 2 ^ 32) (hbad : crc ≠ Spec.crc (name ++ data)) :
    readChunkHeader o (beBytes 4 data.length ++ name ++ data ++ beBytes 4 crc ++ rest) = .error .badCrc := by
  have e : beBytes 4 data.length ++ name ++ data ++ beBytes 4 crc ++ rest =
      beBytes 4 data.length ++ (name ++ (data ++ (beBytes 4 crc ++ rest))) := by simp
  unfold readChunkHeader
  rw [e, be_append 4 _ _ (by norm_num; omega)]
  simp only
  have := exact_append name (data ++ (beBytes 4 crc ++ rest))
  rw [hn] at this
  rw [this]
  simp only
  rw [if_neg (by simp only [List.length_append, beBytes_length]; omega), List.drop_left, List.take_left, List.take_left' (beBytes_length _ _),
    beVal_beBytes, Nat.mod_eq_of_lt (by norm_num; omega), if_pos]
  refine ⟨hc, ?_⟩
  rw [Inflate.c12_calc_crc]
  exact hbad

/-! ### The single chunks -/

theorem getBe_append (k v : Nat) (s : List UInt8) (h : v < 256 ^ k) : getBe k (beBytes k v ++ s) = (v, s) := by
  unfold getBe orZero
  rw [if_pos (by simp), List.take_left' (beBytes_length _ _), List.drop_left' (beBytes_length _ _)]
  simp [beVal_beBytes, Nat.mod_eq_of_lt h]

theorem getBe_list (k : Nat) (d s : List UInt8) (h : d.length = k) : getBe k (d ++ s) = (beVal d, s) := by
  unfold getBe orZero
  rw [if_pos (by simp; omega), List.take_left' h, List.drop_left' h]

theorem skip_crc (v : Nat) (s : List UInt8) : skip 4 (beBytes 4 v ++ s) = s := by
  unfold skip; exact List.drop_left' (beBytes_length _ _)

theorem skip_data (d s : List UInt8) (v : Nat) : skip (d.length + 4) (d ++ (beBytes 4 v ++ s)) = s := by
  unfold skip; rw [← List.drop_drop, List.drop_left]; exact List.drop_left' (beBytes_length _ _)

theorem parse_ihdr_ok (o : DecOpts) (h : Spec.Header) (hok : h.Ok o) (v : Nat) (s : List UInt8) :
    parseIhdr o {} 13 (h.bytes ++ (beBytes 4 v ++ s)) = .ok (h.st, s) := by
  obtain ⟨hw0, hh0, hw, hh, hw32, hh32, hd⟩ := hok
  have e : h.bytes ++ (beBytes 4 v ++ s) = beBytes 4 h.width ++ (beBytes 4 h.height ++
    (UInt8.ofNat h.depth :: h.colorByte :: 0 :: 0 :: (if h.adam7 then 1 else 0) :: (beBytes 4 v ++ s))) := by simp [Spec.Header.bytes]
  unfold parseIhdr
  rw [e, getBe_append 4 _ _ (by norm_num; omega)]
  simp only [Bool.false_eq_true, if_false, ne_eq, not_true_eq_false]
  rw [getBe_append 4 _ _ (by norm_num; omega)]
  simp only
  rw [if_neg (by omega), if_neg (by omega), if_neg (by omega)]
  simp only [u8]
  have hcol : Color.ofByte h.colorByte = some h.color := by
    unfold Spec.Header.colorByte; cases h.color <;> decide
  have hdep : (UInt8.ofNat h.depth = 1 ∨ UInt8.ofNat h.depth = 2 ∨ UInt8.ofNat h.depth = 4 ∨ UInt8.ofNat h.depth = 8 ∨
      (UInt8.ofNat h.depth = 16 ∧ h.color ≠ .palette)) := by
    rcases hd with h | h | h | h | ⟨h, hc⟩ <;> rw [h]
    · left; decide
    · right; left; decide
    · right; right; left; decide
    · right; right; right; left; decide
    · right; right; right; right; exact ⟨by decide, hc⟩
  have hdn : (UInt8.ofNat h.depth).toNat = h.depth := by
    rcases hd with h | h | h | h | ⟨h, hc⟩ <;> rw [h] <;> decide
  have hin : (1 : UInt8) < (if h.adam7 then 1 else 0) ↔ False := by cases h.adam7 <;> decide
  have hin2 : ((if h.adam7 then (1 : UInt8) else 0) = 1) ↔ h.adam7 = true := by cases h.adam7 <;> decide
  simp only [hcol]
  rw [if_neg (not_not.mpr hdep)]
  simp only [not_true_eq_false, if_false, hdn, hin, hin2, skip_crc, Spec.Header.st,
    show ¬ (4 : UInt8) < 0 by decide, Bool.decide_eq_true]

theorem mapIdx_id {α : Type} (l : List α) : (l.mapIdx fun _ e => e) = l := by
  apply List.ext_getElem?; intro i; rw [List.getElem?_mapIdx]; cases l[i]? <;> rfl

theorem read_entries : ∀ (n : Nat) (pal : List Entry) (d s : List UInt8), n ≤ pal.length → d.length = 3 * n →
    readEntries n pal (d ++ s) = (pal.mapIdx fun i e =>
      if i < n then { e with red := d.getD (3 * i) 0, green := d.getD (3 * i + 1) 0, blue := d.getD (3 * i + 2) 0 } else e, s) := by
  intro n
  induction n with
  | zero =>
    intro pal d s _ hd
    have : d = [] := List.length_eq_zero_iff.mp (by omega)
    subst this
    cases pal with
    | nil => rfl
    | cons e es =>
      simp only [readEntries, List.nil_append, Nat.not_lt_zero, if_false, Prod.mk.injEq, and_true]
      exact (mapIdx_id _).symm
  | succ n ih =>
    intro pal d s hn hd
    match pal, hn with
    | e :: es, hn =>
      match d, hd with
      | a :: b :: c :: d, hd =>
        have hI := ih es d s (by simpa using hn) (by simpa [Nat.mul_add] using hd)
        simp only [List.cons_append, readEntries, u8, hI]
        rw [Prod.mk.injEq]
        refine ⟨?_, rfl⟩
        rw [List.mapIdx_cons]
        simp only [Nat.zero_lt_succ, if_true, Nat.mul_zero, List.getD_cons_zero, Nat.zero_add]
        congr 1
        apply List.ext_getElem?
        intro i
        simp only [List.getElem?_mapIdx]
        congr 1
        funext e
        rw [show 3 * (i + 1) = 3 * i + 1 + 1 + 1 by ring, show 3 * i + 1 + 1 + 1 + 1 = (3 * i + 1) + 1 + 1 + 1 by ring,
          show 3 * i + 1 + 1 + 1 + 2 = (3 * i + 2) + 1 + 1 + 1 by ring]
        simp only [List.getD_cons_succ, Nat.add_lt_add_iff_right]

theorem mapIdx_replicate {α β : Type} (n : Nat) (a : α) (f : Nat → α → β) :
    (List.replicate n a).mapIdx f = (List.range n).map fun i => f i a := by
  apply List.ext_getElem?
  intro i
  rw [List.getElem?_mapIdx, List.getElem?_replicate, List.getElem?_map]
  by_cases hi : i < n
  · rw [if_pos hi, List.getElem?_range hi]; rfl
  · rw [if_neg hi, List.getElem?_eq_none (by simpa using hi)]; rfl

theorem read_alphas : ∀ (pal : List Entry) (d s : List UInt8), d.length ≤ pal.length →
    readAlphas d.length pal (d ++ s) = (pal.mapIdx fun i e => if i < d.length then { e with alpha := d.getD i 0 } else e, s) := by
  intro pal
  induction pal with
  | nil =>
    intro d s hd
    have : d = [] := List.length_eq_zero_iff.mp (by simpa using hd)
    subst this; rfl
  | cons e es ih =>
    intro d s hd
    cases d with
    | nil =>
      simp only [readAlphas, List.length_nil, List.nil_append, Nat.not_lt_zero, if_false, Prod.mk.injEq, and_true]
      exact (mapIdx_id _).symm
    | cons a d =>
      have hI := ih d s (by simpa using hd)
      simp only [List.length_cons, List.cons_append, readAlphas, u8, hI]
      rw [Prod.mk.injEq]
      refine ⟨?_, rfl⟩
      rw [List.mapIdx_cons]
      simp

/-- What the decoder's state satisfies between chunks. -/
structure St.Inv (st : St) : Prop where
  hdr : st.seenHdr = true
  noPal : st.seenPlte = false → st.palette = []
  pal : st.seenPlte = true → st.palette.length = 256
  noKey : st.seenTrns = false → st.key = [0, 0, 0, 0]

theorem apply_inv (st st' : St) (hi : st.Inv) (name data : List UInt8) (h : Spec.apply st name data = some st') : st'.Inv := by
  obtain ⟨h1, h2, h3, h4⟩ := hi
  unfold Spec.apply at h
  split at h
  · cases h; exact ⟨h1, h2, h3, h4⟩
  split at h
  · split at h
    · cases h; exact ⟨h1, fun h => by simp at h, fun _ => by simp, h4⟩
    · cases h
  split at h
  · split at h
    · cases h
    · split at h
      · split at h
        · cases h; exact ⟨h1, h2, h3, fun h => by simp at h⟩
        · cases h
      · split at h
        · cases h; exact ⟨h1, h2, h3, fun h => by simp at h⟩
        · cases h
      · split at h
        · rename_i hp
          cases h
          refine ⟨h1, fun h => ?_, fun h => by rw [List.length_mapIdx]; exact h3 h, fun h => by simp at h⟩
          simp only at h
          rw [h] at hp; simp at hp
        · cases h
      · cases h
  split at h
  · split at h
    · cases h; exact ⟨h1, h2, h3, h4⟩
    · cases h
  split at h
  · split at h
    · cases h; exact ⟨h1, h2, h3, h4⟩
    · cases h
  split at h
  · cases h
  split at h
  · cases h; exact ⟨h1, h2, h3, h4⟩
  · cases h

theorem prefix_take (a b c d : UInt8) (l : List UInt8) : (([a, b, c, d] : List UInt8).isPrefixOf l = true) ↔ l.take 4 = [a, b, c, d] := by
  rw [List.isPrefixOf_iff_prefix]
  constructor
  · rintro ⟨t, rfl⟩; simp
  · intro h; exact ⟨l.drop 4, by rw [← h, List.take_append_drop]⟩

theorem bit5 : ∀ b : UInt8, (b &&& 32 = 0) ↔ ¬ b.toNat / 32 % 2 = 1 := by decide +kernel

/-- A well-formed chunk has its specified effect. -/
theorem parse_chunk (o : DecOpts) (st st' : St) (hi : st.Inv) (name data rest : List UInt8) (v : Nat)
    (h : Spec.apply st name data = some st') :
    name ≠ nIEND ∧ parseHeader o st data.length name (data ++ (beBytes 4 v ++ rest)) = .ok (st', rest) := by
  have hi' := (apply_inv st st' hi name data h).hdr
  obtain ⟨h1, h2, h3, h4⟩ := hi
  suffices hs : name ≠ nIEND ∧ dispatch o st data.length name (data ++ (beBytes 4 v ++ rest)) = .ok (st', rest) by
    refine ⟨hs.1, ?_⟩
    unfold parseHeader
    rw [hs.2]
    simp only [hi', if_true]
  unfold dispatch
  unfold Spec.apply at h
  split at h
  · rename_i hn
    cases h
    subst hn
    refine ⟨by decide, ?_⟩
    rw [if_neg (by decide)]
    rw [if_neg (by decide), if_pos (by decide)]
    unfold parseIdat
    rw [exact_append]
    simp only [skip_crc]
  rename_i hn1
  split at h
  · rename_i hn
    split at h
    · rename_i hc
      cases h
      subst hn
      refine ⟨by decide, ?_⟩
      rw [if_neg (by decide)]
      rw [if_pos (by decide)]
      unfold parsePlte
      rw [if_neg (by omega), h2 hc.2.2]
      simp only [List.take_nil, List.length_nil, Nat.sub_zero, List.nil_append]
      rw [read_entries _ _ _ _ (by rw [List.length_replicate]; omega) (by omega)]
      simp only [skip_crc, mapIdx_replicate]
    · cases h
  rename_i hn2
  split at h
  · rename_i hn
    subst hn
    refine ⟨by decide, ?_⟩
    rw [if_neg (by decide)]
    rw [if_neg (by decide), if_neg (by decide), if_pos (by decide)]
    split at h
    · cases h
    · rename_i hkey
      have hk0 := h4 (by simpa using hkey)
      unfold parseTrns
      split at h
      · rename_i hc
        split at h
        · rename_i hl
          cases h
          simp only [hc, getBe_list 2 data _ hl, skip_crc, hk0]; rfl
        · cases h
      · rename_i hc
        split at h
        · rename_i hl
          cases h
          have e : ∀ t, data ++ t = data.take 2 ++ ((data.drop 2).take 2 ++ (data.drop 4 ++ t)) := by
            intro t
            have a : data.drop 4 = (data.drop 2).drop 2 := by rw [List.drop_drop]
            rw [a, ← List.append_assoc ((data.drop 2).take 2), List.take_append_drop, ← List.append_assoc, List.take_append_drop]
          simp only [hc]
          rw [e, getBe_list 2 (data.take 2) _ (by rw [List.length_take]; omega)]
          simp only
          rw [getBe_list 2 ((data.drop 2).take 2) _ (by rw [List.length_take, List.length_drop]; omega)]
          simp only
          rw [getBe_list 2 (data.drop 4) _ (by rw [List.length_drop]; omega)]
          simp only [skip_crc, hk0]; rfl
        · cases h
      · rename_i hc
        split at h
        · rename_i hp
          cases h
          have hpl := h3 hp.1
          simp only [hc]
          rw [if_neg (by intro he; rw [he] at hpl; simp at hpl), if_neg (by omega), read_alphas _ _ _ (by omega)]
          simp only [skip_crc]
        · cases h
      · cases h
  rename_i hn3
  split at h
  · rename_i hn
    subst hn
    refine ⟨by decide, ?_⟩
    rw [if_neg (by decide)]
    rw [if_neg (by decide), if_neg (by decide), if_neg (by decide), if_pos (by decide)]
    split at h
    · rename_i hl
      cases h
      unfold parseGama
      rw [if_neg (by omega), getBe_list 4 data _ hl]
      simp only [skip_crc]
    · cases h
  rename_i hn4
  split at h
  · rename_i hn
    subst hn
    refine ⟨by decide, ?_⟩
    rw [if_neg (by decide)]
    rw [if_neg (by decide), if_neg (by decide), if_neg (by decide), if_neg (by decide), if_pos (by decide)]
    split at h
    · rename_i hl
      cases h
      unfold parseExif
      simp only [List.take_left, prefix_take]
      rw [if_pos hl, skip_data]
    · cases h
  rename_i hn5
  split at h
  · cases h
  rename_i hres
  simp only [Spec.reserved, List.mem_cons, List.not_mem_nil, or_false, not_or] at hres
  obtain ⟨r1, r2, r3, r4, r5, r6, r7, r8, r9⟩ := hres
  split at h
  · rename_i hb
    cases h
    refine ⟨r2, ?_⟩
    rw [if_neg (show ¬ name = nIHDR from r1), if_neg (show ¬ name = nPLTE from hn2), if_neg (show ¬ name = nIDAT from hn1),
      if_neg (show ¬ name = ntRNS from hn3), if_neg (show ¬ name = ngAMA from hn4), if_neg (show ¬ name = neXIf from hn5), if_neg (by
      simp only [List.mem_cons, List.not_mem_nil, or_false, not_or]
      exact ⟨r3, r4, r5, r6, r7, r8, r9⟩)]
    unfold defaultChunk
    rw [if_neg (by rw [bit5]; simpa using hb), skip_data]
  · cases h

/-! ### Whole files -/

theorem loop_chunks (o : DecOpts) (tail : List UInt8) : ∀ (cs : List (List UInt8 × List UInt8)) (st st' : St) (fuel : Nat), st.Inv →
    Spec.Framed cs → Spec.applyAll st cs = some st' → cs.length < fuel →
    headerLoop o fuel st ((cs.flatMap fun p => Spec.chunk p.1 p.2) ++ (Spec.chunk nIEND [] ++ tail)) =
      .ok (st', beBytes 4 (Spec.crc nIEND) ++ tail) := by
  intro cs
  induction cs with
  | nil =>
    intro st st' fuel hi _ h hf
    cases h
    obtain ⟨fuel, rfl⟩ : ∃ k, fuel = k + 1 := ⟨fuel - 1, by simp at hf; omega⟩
    rw [List.flatMap_nil, List.nil_append, headerLoop, read_chunk o nIEND [] tail rfl (by norm_num)]
    simp only [if_true, hi.hdr, List.nil_append, List.append_nil]
  | cons c cs ih =>
    obtain ⟨name, data⟩ := c
    intro st st' fuel hi hfr h hf
    obtain ⟨fuel, rfl⟩ : ∃ k, fuel = k + 1 := ⟨fuel - 1, by simp at hf; omega⟩
    simp only [Spec.applyAll, Option.bind_eq_some_iff] at h
    obtain ⟨st1, ha, h⟩ := h
    obtain ⟨hn, hd⟩ := hfr (name, data) (by simp)
    obtain ⟨hne, hp⟩ := parse_chunk o st st1 hi name data
      ((cs.flatMap fun p => Spec.chunk p.1 p.2) ++ (Spec.chunk nIEND [] ++ tail)) (Spec.crc (name ++ data)) ha
    rw [List.flatMap_cons, List.append_assoc, headerLoop, read_chunk o name data _ hn hd]
    simp only
    rw [if_neg hne, hp]
    exact ih st1 st' fuel (apply_inv st st1 hi name data ha) (fun p hp => hfr p (by simp [hp])) h (by simp at hf; omega)

/-- Any well-formed chunks are consumed one by one. -/
theorem loop_prefix (o : DecOpts) (rest : List UInt8) : ∀ (cs : List (List UInt8 × List UInt8)) (st st' : St) (fuel : Nat), st.Inv →
    Spec.Framed cs → Spec.applyAll st cs = some st' →
    headerLoop o (cs.length + fuel) st ((cs.flatMap fun p => Spec.chunk p.1 p.2) ++ rest) = headerLoop o fuel st' rest := by
  intro cs
  induction cs with
  | nil =>
    intro st st' fuel hi _ h
    cases h
    simp
  | cons c cs ih =>
    obtain ⟨name, data⟩ := c
    intro st st' fuel hi hfr h
    simp only [Spec.applyAll, Option.bind_eq_some_iff] at h
    obtain ⟨st1, ha, h⟩ := h
    obtain ⟨hn, hd⟩ := hfr (name, data) (by simp)
    obtain ⟨hne, hp⟩ := parse_chunk o st st1 hi name data
      ((cs.flatMap fun p => Spec.chunk p.1 p.2) ++ rest) (Spec.crc (name ++ data)) ha
    rw [List.flatMap_cons, List.append_assoc, List.length_cons, Nat.add_right_comm, headerLoop, read_chunk o name data _ hn hd]
    simp only
    rw [if_neg hne, hp]
    exact ih st1 st' fuel (apply_inv st st1 hi name data ha) (fun p hp => hfr p (by simp [hp])) h

theorem chunks_length_le : ∀ (cs : List (List UInt8 × List UInt8)), Spec.Framed cs →
    cs.length ≤ (cs.flatMap fun p => Spec.chunk p.1 p.2).length
  | [], _ => by simp
  | p :: cs, h => by
    have h1 := chunk_length p.1 p.2 (h p (by simp)).1
    have h2 := chunks_length_le cs fun q hq => h q (by simp [hq])
    rw [List.flatMap_cons, List.length_append, List.length_cons]; omega

theorem dispatch_ihdr (o : DecOpts) (st : St) (len : Nat) (s : List UInt8) : dispatch o st len nIHDR s = parseIhdr o st len s := by
  unfold dispatch
  exact if_pos (Eq.refl nIHDR)
theorem parse_seen (o : DecOpts) (st st1 : St) (name rest: List UInt8)(len : Nat) (s : List UInt8) (e : dispatch o st len name s = .ok (st1, rest)) (h : st1.seenHdr = true) : parseHeader o st len name s = .ok (st1, rest) := by
  unfold parseHeader; rw [e]; exact if_pos h
theorem parse_ihdr (o : DecOpts) (h : Spec.Header) (hok : h.Ok o) (rest : List UInt8) (v : Nat) : parseHeader o {} 13 nIHDR (h.bytes ++ (beBytes 4 v ++ rest)) = .ok (h.st, rest) :=
    parse_seen _ _ _ _ _ _ _ ((dispatch_ihdr _ _ _ _).trans (parse_ihdr_ok o h hok v rest)) rfl

/-- After the signature and IHDR the loop goes on behind IHDR. -/
theorem headers_start (o : DecOpts) (h : Spec.Header) (hok : h.Ok o) (rest : List UInt8) :
    decodeHeaders o ([0x89, 0x50, 0x4e, 0x47, 0x0d, 0x0a, 0x1a, 0x0a] ++ (Spec.chunk nIHDR h.bytes ++ rest)) =
      headerLoop o (rest.length + 24) h.st rest := by
  have hsig : ([0x89, 0x50, 0x4e, 0x47, 0x0d, 0x0a, 0x1a, 0x0a] : List UInt8) = beBytes 8 signature := by decide +kernel
  rw [hsig]
  have hlen : h.bytes.length = 13 := by simp [Spec.Header.bytes]
  have hlt : signature < 256 ^ 8 := by unfold signature; norm_num
  clear hsig
  unfold decodeHeaders
  generalize signature = sg at hlt ⊢
  rw [be_append 8 _ _ hlt]
  simp only [ne_eq, not_true_eq_false, if_false]
  have hpeek : ((Spec.chunk nIHDR h.bytes ++ rest).drop 4).take 4 = nIHDR := by
    rw [show Spec.chunk nIHDR h.bytes ++ rest = beBytes 4 h.bytes.length ++ (nIHDR ++ (h.bytes ++ (beBytes 4 (Spec.crc (nIHDR ++ h.bytes)) ++ rest))) by
      simp [Spec.chunk], List.drop_left' (beBytes_length _ _)]
    exact List.take_left' rfl
  rw [if_neg (by simpa using hpeek)]
  have hl : (Spec.chunk nIHDR h.bytes ++ rest).length = rest.length + 24 + 1 := by
    rw [List.length_append, chunk_length _ _ rfl, hlen]; omega
  rw [hl, headerLoop, read_chunk o nIHDR h.bytes rest rfl (by rw [hlen]; norm_num)]
  simp only
  rw [if_neg (by decide)]
  have hp : parseHeader o {} h.bytes.length nIHDR (h.bytes ++ (beBytes 4 (Spec.crc (nIHDR ++ h.bytes)) ++ rest)) = .ok (h.st, rest) := by
    rw [hlen]; exact parse_ihdr o h hok rest _
  rw [hp]

theorem headers_spec (o : DecOpts) (h : Spec.Header) (hok : h.Ok o) (cs : List (List UInt8 × List UInt8)) (hfr : Spec.Framed cs)
    (st' : St) (ha : Spec.applyAll h.st cs = some st') (tail : List UInt8) :
    decodeHeaders o (Spec.file h cs tail) = .ok (st', beBytes 4 (Spec.crc nIEND) ++ tail) := by
  unfold Spec.file
  simp only [List.append_assoc]
  have := headers_start o h hok ((cs.flatMap fun p => Spec.chunk p.1 p.2) ++ (Spec.chunk nIEND [] ++ tail))
  unfold nIHDR at this
  rw [show ([0x49, 0x45, 0x4e, 0x44] : List UInt8) = nIEND from rfl, this]
  have := chunks_length_le cs hfr
  refine loop_chunks o tail cs h.st st' _ ⟨rfl, fun _ => rfl, fun h => absurd h (by simp [Spec.Header.st]), fun _ => rfl⟩ hfr ha ?_
  rw [List.length_append]; omega

end Zune.Png
