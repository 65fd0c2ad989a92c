import Verif.Png.AnimSpec
import Verif.Png.File

/-! # PNG: the other chunks and the frames (lemmas) -/

namespace Zune.Png

open Zune.Stream

/-! ### The single chunks -/

theorem findIdx_zero : ∀ (k t : List UInt8), 0 ∉ k → (k ++ 0 :: t).findIdx? (· = 0) = some k.length
  | [], t, _ => by simp [List.findIdx?_cons]
  | a :: k, t, h => by
    have ha : ¬ a = 0 := fun e => h (by simp [e])
    have := findIdx_zero k t fun e => h (by simp [e])
    rw [List.cons_append, List.findIdx?_cons, if_neg (by simpa using ha), this]
    simp

theorem keyword_at (k t rest : List UInt8) (hk : Spec.Keyword k) :
    keywordAt (k ++ 0 :: t).length ((k ++ 0 :: t) ++ rest) = .ok (some k.length) := by
  obtain ⟨h1, h2⟩ := hk
  unfold keywordAt peek
  rw [if_neg (by simp only [List.length_append]; omega)]
  simp only
  have e : (k ++ 0 :: t ++ rest).take (min (k ++ 0 :: t).length 79) = k ++ 0 :: t.take (78 - k.length) := by
    rw [List.append_assoc, List.take_append, List.take_of_length_le (by simp; omega), List.length_append, List.length_cons]
    congr 1
    rw [List.cons_append, show min (k.length + (t.length + 1)) 79 - k.length = min t.length (78 - k.length) + 1 by omega, List.take_succ_cons]
    congr 1
    rw [List.take_append_of_le_length (by omega)]
    by_cases h : t.length ≤ 78 - k.length
    · rw [Nat.min_eq_left h, List.take_of_length_le h, List.take_length]
    · rw [Nat.min_eq_right (by omega)]
  rw [e, findIdx_zero _ _ h2]

theorem peek_left (a b : List UInt8) (n : Nat) (h : a.length = n) : peek n (a ++ b) = .ok a := by
  unfold peek
  rw [if_neg (by simp; omega), List.take_left' h]

theorem drop_key (k t rest : List UInt8) : skip (k.length + 1) ((k ++ 0 :: t) ++ rest) = t ++ rest := by
  unfold skip
  rw [← List.drop_drop, List.append_assoc, List.drop_left]; rfl

theorem take_key (k t rest : List UInt8) : ((k ++ 0 :: t) ++ rest).take k.length = k := by
  rw [List.append_assoc, List.take_left]

theorem text_ok (d : Dec) (k t rest : List UInt8) (v : Nat) (hk : Spec.Keyword k) :
    parseText { d with s := (k ++ 0 :: t) ++ (beBytes 4 v ++ rest) } (k ++ 0 :: t).length =
      .ok { d with info.text := d.info.text ++ [⟨k, t⟩], s := rest } := by
  unfold parseText
  simp only [keyword_at k t _ hk, bind, Except.bind, drop_key, take_key]
  rw [peek_left _ _ _ (by simp)]
  simp only [skip]
  rw [List.drop_left' (by simp), List.drop_left' (beBytes_length _ _)]

theorem ztxt_ok (zlib : Zlib) (d : Dec) (k c t rest : List UInt8) (v : Nat) (hk : Spec.Keyword k) (hz : zlib {} c = .ok t) :
    parseZtxt zlib { d with s := (k ++ 0 :: 0 :: c) ++ (beBytes 4 v ++ rest) } (k ++ 0 :: 0 :: c).length =
      .ok { d with info.ztxt := d.info.ztxt ++ [⟨k, t⟩], s := rest } := by
  unfold parseZtxt
  simp only [keyword_at k (0 :: c) _ hk, bind, Except.bind, drop_key, take_key, List.cons_append, u8]
  rw [peek_left _ _ _ (by simp)]
  simp only [skip, hz]
  rw [List.drop_left' (by simp), List.drop_left' (beBytes_length _ _)]

theorem iccp_ok (zlib : Zlib) (d : Dec) (k c p rest : List UInt8) (v : Nat) (hk : Spec.Keyword k) (hz : zlib {} c = .ok p) :
    parseIccp zlib { d with s := (k ++ 0 :: 0 :: c) ++ (beBytes 4 v ++ rest) } (k ++ 0 :: 0 :: c).length =
      .ok { d with info.icc := some p, s := rest } := by
  unfold parseIccp
  simp only [keyword_at k (0 :: c) _ hk, bind, Except.bind, drop_key, List.cons_append, u8]
  rw [peek_left _ _ _ (by simp)]
  simp only [skip, hz]
  rw [List.drop_left' (by simp), List.drop_left' (beBytes_length _ _)]

theorem itxt_ok (d : Dec) (k t rest : List UInt8) (v : Nat) (hk : Spec.Keyword k) :
    parseItxt { d with s := (k ++ 0 :: 0 :: 0 :: 0 :: 0 :: t) ++ (beBytes 4 v ++ rest) } (k ++ 0 :: 0 :: 0 :: 0 :: 0 :: t).length =
      .ok { d with info.itxt := d.info.itxt ++ [⟨k, t⟩], s := rest } := by
  unfold parseItxt
  simp only [keyword_at k (0 :: 0 :: 0 :: 0 :: t) _ hk, bind, Except.bind, take_key]
  have e : skip (k.length + 1 + 1 + 1 + 1 + 1) (k ++ 0 :: 0 :: 0 :: 0 :: 0 :: t ++ (beBytes 4 v ++ rest)) = t ++ (beBytes 4 v ++ rest) := by
    unfold skip
    rw [show k.length + 1 + 1 + 1 + 1 + 1 = k.length + 5 by omega, ← List.drop_drop, List.append_assoc, List.drop_left]; rfl
  rw [e, peek_left _ _ _ (by simp; omega)]
  simp only [skip]
  rw [List.drop_left' (by simp; omega), List.drop_left' (beBytes_length _ _)]

theorem actl_ok (d : Dec) (n p : Nat) (hn : n < 2 ^ 32) (hp : p < 2 ^ 32) (rest : List UInt8) (v : Nat) :
    parseActl { d with s := (beBytes 4 n ++ beBytes 4 p) ++ (beBytes 4 v ++ rest) } 8 = .ok { d with info.actl := some (n, p), s := rest } := by
  unfold parseActl
  simp only [ne_eq, not_true_eq_false, if_false, List.append_assoc]
  rw [getBe_append 4 _ _ (by norm_num; omega)]
  simp only
  rw [getBe_append 4 _ _ (by norm_num; omega)]
  simp only [skip_crc]

theorem time_ok (zlib : Zlib) (o : DecOpts) (d : Dec) (t : Time) (ht : (Spec.Extra.time t).Ok zlib) (rest : List UInt8) (v : Nat) :
    parseTime o { d with s := (Spec.Extra.time t).data ++ (beBytes 4 v ++ rest) } 7 = .ok { d with info.time := some t, s := rest } := by
  obtain ⟨h1, h2, h3, h4, h5, h6, h7, h8⟩ := ht
  unfold parseTime Spec.Extra.data
  simp only [ne_eq, not_true_eq_false, if_false, List.append_assoc, List.cons_append, List.nil_append]
  rw [getBe_append 2 _ _ (by norm_num; omega)]
  simp only [u8, skip_crc]
  have f : ∀ a b : Nat, a < b → b ≤ 256 → (UInt8.ofNat a).toNat % b = a := by
    intro a b h h'
    rw [UInt8.toNat_ofNat']
    rw [Nat.mod_eq_of_lt (by omega : a < 2 ^ 8), Nat.mod_eq_of_lt h]
  rw [f _ _ (by omega) (by norm_num), f _ _ (by omega) (by norm_num), f _ _ (by omega) (by norm_num), f _ _ (by omega) (by norm_num),
    f _ _ (by omega) (by norm_num)]

/-- Names of the chunks of `Extra`. -/
structure Named (n : List UInt8) : Prop where
  len : n.length = 4
  ihdr : n ≠ nIHDR
  idat : n ≠ nIDAT
  iend : n ≠ nIEND
  fctl : n ≠ nfcTL
  fdat : n ≠ nfdAT

theorem apply_names (st st' : St) (n x : List UInt8) (h : Spec.apply st n x = some st') : n ∉ Spec.reserved := by
  intro hr
  have e : ∀ m ∈ Spec.reserved, Spec.apply st m x = none := by
    intro m hm
    unfold Spec.apply
    have q : ∀ m ∈ Spec.reserved, m ≠ [0x49, 0x44, 0x41, 0x54] ∧ m ≠ [0x50, 0x4c, 0x54, 0x45] ∧ m ≠ [0x74, 0x52, 0x4e, 0x53] ∧
      m ≠ [0x67, 0x41, 0x4d, 0x41] ∧ m ≠ [0x65, 0x58, 0x49, 0x66] := by decide
    obtain ⟨a, b, c, d, e⟩ := q m hm
    rw [if_neg a, if_neg b, if_neg c, if_neg d, if_neg e, if_pos hm]
  rw [e n hr] at h
  cases h

theorem extra_named (zlib : Zlib) (e : Spec.Extra) (ho : e.Ok zlib) (i i' : Info) (ha : e.apply i = some i') : Named e.name := by
  cases e with
  | other n x =>
    obtain ⟨h1, h2, h3⟩ := ho
    simp only [Spec.Extra.apply, Option.map_eq_some_iff] at ha
    obtain ⟨st, hs, _⟩ := ha
    have hr := apply_names _ _ _ _ hs
    simp only [Spec.reserved, List.mem_cons, List.not_mem_nil, or_false, not_or] at hr
    exact ⟨h1, hr.1, h2, hr.2.1, hr.2.2.2.1, h3⟩
  | _ => constructor <;> simp only [Spec.Extra.name] <;> decide

theorem extra_inv (e : Spec.Extra) (i i' : Info) (ha : e.apply i = some i') (hi : i.st.Inv) : i'.st.Inv := by
  cases e with
  | other n x =>
    simp only [Spec.Extra.apply, Option.map_eq_some_iff] at ha
    obtain ⟨st, hs, rfl⟩ := ha
    exact apply_inv _ _ hi _ _ hs
  | _ => cases ha; exact hi

/-- Each chunk has its effect. -/
theorem extra_ok (zlib : Zlib) (o : DecOpts) (e : Spec.Extra) (ho : e.Ok zlib) (d : Dec) (hi : d.info.st.Inv) (i' : Info)
    (ha : e.apply d.info = some i') (rest : List UInt8) (v : Nat) :
    hdrSeen (plainChunk zlib o { d with s := e.data ++ (beBytes 4 v ++ rest) } e.data.length e.name) =
      .ok { d with info := i', s := rest } := by
  have hi' := (extra_inv e _ _ ha hi).hdr
  suffices plainChunk zlib o { d with s := e.data ++ (beBytes 4 v ++ rest) } e.data.length e.name = .ok { d with info := i', s := rest } by
    rw [this]; simp only [hdrSeen, hi', if_true]
  have hn := extra_named zlib e ho _ _ ha
  unfold plainChunk
  rw [if_neg hn.ihdr, if_neg hn.idat]
  cases e with
  | text k t =>
    cases ha
    have := text_ok d k t rest v ho
    simp only [Spec.Extra.data, Spec.Extra.name, List.append_assoc, List.cons_append, List.nil_append] at this ⊢
    exact this
  | ztxt k c t =>
    cases ha
    have := ztxt_ok zlib d k c t rest v ho.1 ho.2
    simp only [Spec.Extra.data, Spec.Extra.name, List.append_assoc, List.cons_append, List.nil_append] at this ⊢
    exact this
  | icc k c t =>
    cases ha
    have := iccp_ok zlib d k c t rest v ho.1 ho.2
    simp only [Spec.Extra.data, Spec.Extra.name, List.append_assoc, List.cons_append, List.nil_append] at this ⊢
    exact this
  | itxt k t =>
    cases ha
    have := itxt_ok d k t rest v ho
    simp only [Spec.Extra.data, Spec.Extra.name, List.append_assoc, List.cons_append, List.nil_append] at this ⊢
    exact this
  | actl n p =>
    cases ha
    have := actl_ok d n p ho.1 ho.2 rest v
    simp only [Spec.Extra.data, Spec.Extra.name, List.length_append, beBytes_length] at this ⊢
    exact this
  | time t =>
    cases ha
    have := time_ok zlib o d t ho rest v
    have hl : (Spec.Extra.time t).data.length = 7 := by simp [Spec.Extra.data]
    rw [hl]
    exact this
  | other n x =>
    simp only [Spec.Extra.apply, Option.map_eq_some_iff] at ha
    obtain ⟨st, hs, rfl⟩ := ha
    have hr := apply_names _ _ _ _ hs
    simp only [Spec.reserved, List.mem_cons, List.not_mem_nil, or_false, not_or] at hr
    obtain ⟨r1, r2, r3, r4, r5, r6, r7, r8, r9⟩ := hr
    have hp := (parse_chunk o _ _ hi n x rest v hs).2
    have hd : dispatch o d.info.st x.length n (x ++ (beBytes 4 v ++ rest)) = .ok (st, rest) := by
      unfold parseHeader at hp
      split at hp
      · cases hp
      · rename_i st1 s1 e1
        split at hp
        · cases hp; exact e1
        · cases hp
    rw [if_neg (show ¬ (Spec.Extra.other n x).name = nacTL from r3), if_neg (show ¬ (Spec.Extra.other n x).name = ntIME from r5),
      if_neg (show ¬ (Spec.Extra.other n x).name = niCCP from r6), if_neg (show ¬ (Spec.Extra.other n x).name = niTXt from r7),
      if_neg (show ¬ (Spec.Extra.other n x).name = nzTXt from r8), if_neg (show ¬ (Spec.Extra.other n x).name = ntEXt from r9)]
    simp only [Spec.Extra.name, Spec.Extra.data, hd]

/-! ### Chunks among the image data -/

theorem idat_ok (d : Dec) (a : List UInt8) (i : FrameInfo) (t : List (List UInt8 × FrameInfo)) (hf : d.frames = (a, i) :: t)
    (x rest : List UInt8) (v : Nat) :
    parseIdatA { d with s := x ++ (beBytes 4 v ++ rest) } x.length = .ok { d with frames := (a ++ x, i) :: t, s := rest } := by
  unfold parseIdatA
  simp only [hf, exact_append, skip_crc]

theorem extend_last (x : List UInt8) : ∀ (fs : List (List UInt8 × FrameInfo)) (a : List UInt8) (i : FrameInfo),
    extendLast x (fs ++ [(a, i)]) = some (fs ++ [(a ++ x, i)])
  | [], a, i => rfl
  | [f], a, i => rfl
  | f :: g :: fs, a, i => by
    have := extend_last x (g :: fs) a i
    simp only [List.cons_append] at this ⊢
    rw [extendLast, this]
    · rfl
    · intro _ _ _ h; cases h

/-- Whether there is image data. -/
def hasData : List Spec.Part → Bool
  | [] => false
  | .extra _ :: t => hasData t
  | .data _ _ :: _ => true

theorem partsInfo_inv : ∀ (ps : List Spec.Part) (i i' : Info), Spec.partsInfo i ps = some i' → i.st.Inv → i'.st.Inv
  | [], _, _, h, hi => by cases h; exact hi
  | .extra e :: t, i, i', h, hi => by
    simp only [Spec.partsInfo, Option.bind_eq_some_iff] at h
    obtain ⟨j, h1, h2⟩ := h
    exact partsInfo_inv t j i' h2 (extra_inv e _ _ h1 hi)
  | .data _ _ :: t, i, i', h, hi => partsInfo_inv t i i' h hi

/-- The main loop. -/
theorem main_parts (zlib : Zlib) (o : DecOpts) : ∀ (ps : List Spec.Part), (∀ p ∈ ps, p.Ok zlib) → ∀ (d : Dec), d.info.st.Inv →
    ∀ (i' : Info), Spec.partsInfo d.info ps = some i' → ∀ (rest : List UInt8), d.s = ps.flatMap (Spec.Part.chunk false) ++ rest →
    ∀ (a : List UInt8) (i : FrameInfo) (t : List (List UInt8 × FrameInfo)), d.frames = (a, i) :: t → ∀ (fuel : Nat),
    headersLoop zlib o (ps.length + fuel) d =
      headersLoop zlib o fuel { d with info := i', s := rest, frames := (a ++ Spec.partsData ps, i) :: t } := by
  intro ps
  induction ps with
  | nil =>
    intro _ d _ i' h rest hs a i t hf fuel
    cases h
    simp only [List.flatMap_nil, List.nil_append] at hs
    simp only [List.length_nil, Nat.zero_add, Spec.partsData, List.append_nil, ← hs, ← hf]
  | cons p ps ih =>
    intro hok d hi i' h rest hs a i t hf fuel
    have hp := hok p (by simp)
    have hr := fun q hq => hok q (List.mem_cons_of_mem _ hq)
    rw [List.length_cons, Nat.add_right_comm, headersLoop]
    cases p with
    | extra e =>
      simp only [Spec.partsInfo, Option.bind_eq_some_iff] at h
      obtain ⟨j, h1, h2⟩ := h
      have hn := extra_named zlib e hp.1 _ _ h1
      rw [hs, List.flatMap_cons, List.append_assoc]
      simp only [Spec.Part.chunk]
      rw [read_chunk o _ _ _ hn.len hp.2]
      simp only
      rw [if_neg hn.iend, if_neg hn.fctl, extra_ok zlib o e hp.1 d hi j h1]
      have := ih hr { d with info := j, s := ps.flatMap (Spec.Part.chunk false) ++ rest } (extra_inv e _ _ h1 hi) i' h2 rest rfl a i t hf fuel
      simp only [Spec.partsData]
      exact this
    | data q x =>
      rw [hs, List.flatMap_cons, List.append_assoc]
      simp only [Spec.Part.chunk, Bool.false_eq_true, if_false]
      rw [read_chunk o _ _ _ rfl (by have := hp.2; omega)]
      simp only
      rw [if_neg (by decide), if_neg (by decide)]
      unfold plainChunk
      rw [if_neg (by decide), if_pos (by decide), idat_ok d a i t hf]
      simp only [hdrSeen, hi.hdr, if_true]
      have := ih hr { d with s := ps.flatMap (Spec.Part.chunk false) ++ rest, frames := (a ++ x, i) :: t } hi i' h rest rfl (a ++ x) i t rfl fuel
      simp only [Spec.partsData]
      rw [this, List.append_assoc]

/-- IDAT chunks after an fcTL. -/
theorem fctl_idats (zlib : Zlib) (o : DecOpts) (c : FrameInfo) : ∀ (ps : List Spec.Part), (∀ p ∈ ps, p.Ok zlib) → ∀ (d : Dec), d.info.st.Inv →
    ∀ (i' : Info), Spec.partsInfo d.info ps = some i' → ∀ (rest : List UInt8), d.s = ps.flatMap (Spec.Part.chunk false) ++ rest →
    ∀ (a : List UInt8) (i : FrameInfo) (t : List (List UInt8 × FrameInfo)), d.frames = (a, i) :: t → ∀ (fuel : Nat) (add : Bool),
    fctlLoop zlib o c (ps.length + fuel) add d =
      fctlLoop zlib o c fuel (add && ps.isEmpty)
        { d with info := i', s := rest, frames := (a ++ Spec.partsData ps, if hasData ps then c else i) :: t } := by
  intro ps
  induction ps with
  | nil =>
    intro _ d _ i' h rest hs a i t hf fuel add
    cases h
    simp only [List.flatMap_nil, List.nil_append] at hs
    simp only [List.length_nil, Nat.zero_add, Spec.partsData, List.append_nil, ← hs, hasData, Bool.false_eq_true, if_false, ← hf,
      List.isEmpty_nil, Bool.and_true]
  | cons p ps ih =>
    intro hok d hi i' h rest hs a i t hf fuel add
    have hp := hok p (by simp)
    have hr := fun q hq => hok q (List.mem_cons_of_mem _ hq)
    rw [List.length_cons, Nat.add_right_comm, fctlLoop]
    cases p with
    | extra e =>
      simp only [Spec.partsInfo, Option.bind_eq_some_iff] at h
      obtain ⟨j, h1, h2⟩ := h
      have hn := extra_named zlib e hp.1 _ _ h1
      rw [hs, List.flatMap_cons, List.append_assoc]
      simp only [Spec.Part.chunk]
      rw [read_chunk o _ _ _ hn.len hp.2]
      simp only
      rw [if_neg hn.iend, if_neg hn.idat, if_neg hn.fctl, if_neg hn.fdat, extra_ok zlib o e hp.1 d hi j h1]
      have := ih hr { d with info := j, s := ps.flatMap (Spec.Part.chunk false) ++ rest } (extra_inv e _ _ h1 hi) i' h2 rest rfl a i t hf fuel false
      simp only [Spec.partsData, hasData, List.isEmpty_cons, Bool.and_false]
      exact this
    | data q x =>
      rw [hs, List.flatMap_cons, List.append_assoc]
      simp only [Spec.Part.chunk, Bool.false_eq_true, if_false]
      rw [read_chunk o _ _ _ rfl (by have := hp.2; omega)]
      simp only
      rw [if_neg (by decide), if_pos (by decide), idat_ok d a i t hf]
      simp only [setFirst]
      have := ih hr { d with s := ps.flatMap (Spec.Part.chunk false) ++ rest, frames := (a ++ x, c) :: t } hi i' h rest rfl (a ++ x) c t rfl fuel false
      simp only [Spec.partsData, hasData, List.isEmpty_cons, Bool.and_false, if_true]
      rw [this, List.append_assoc]
      simp only [ite_self, Bool.false_and]

/-- Further fdAT chunks. -/
theorem fctl_fdats (zlib : Zlib) (o : DecOpts) (c : FrameInfo) : ∀ (ps : List Spec.Part), (∀ p ∈ ps, p.Ok zlib) → ∀ (d : Dec), d.info.st.Inv →
    ∀ (i' : Info), Spec.partsInfo d.info ps = some i' → ∀ (rest : List UInt8), d.s = ps.flatMap (Spec.Part.chunk true) ++ rest →
    ∀ (fs : List (List UInt8 × FrameInfo)) (a : List UInt8) (i : FrameInfo), d.frames = fs ++ [(a, i)] → ∀ (fuel : Nat),
    fctlLoop zlib o c (ps.length + fuel) false d =
      fctlLoop zlib o c fuel false { d with info := i', s := rest, frames := fs ++ [(a ++ Spec.partsData ps, i)] } := by
  intro ps
  induction ps with
  | nil =>
    intro _ d _ i' h rest hs fs a i hf fuel
    cases h
    simp only [List.flatMap_nil, List.nil_append] at hs
    simp only [List.length_nil, Nat.zero_add, Spec.partsData, List.append_nil, ← hs, ← hf]
  | cons p ps ih =>
    intro hok d hi i' h rest hs fs a i hf fuel
    have hp := hok p (by simp)
    have hr := fun q hq => hok q (List.mem_cons_of_mem _ hq)
    rw [List.length_cons, Nat.add_right_comm, fctlLoop]
    cases p with
    | extra e =>
      simp only [Spec.partsInfo, Option.bind_eq_some_iff] at h
      obtain ⟨j, h1, h2⟩ := h
      have hn := extra_named zlib e hp.1 _ _ h1
      rw [hs, List.flatMap_cons, List.append_assoc]
      simp only [Spec.Part.chunk]
      rw [read_chunk o _ _ _ hn.len hp.2]
      simp only
      rw [if_neg hn.iend, if_neg hn.idat, if_neg hn.fctl, if_neg hn.fdat, extra_ok zlib o e hp.1 d hi j h1]
      have := ih hr { d with info := j, s := ps.flatMap (Spec.Part.chunk true) ++ rest } (extra_inv e _ _ h1 hi) i' h2 rest rfl fs a i hf fuel
      simp only [Spec.partsData]
      exact this
    | data q x =>
      rw [hs, List.flatMap_cons, List.append_assoc]
      simp only [Spec.Part.chunk, if_true]
      rw [read_chunk o _ _ _ rfl (by have := hp.2; simp; omega)]
      simp only
      rw [if_neg (by decide), if_neg (by decide), if_neg (by decide), if_pos (by decide)]
      simp only [List.append_assoc, skip, List.length_append, beBytes_length, Nat.add_sub_cancel_left]
      rw [List.drop_left' (beBytes_length _ _), exact_append]
      simp only [Bool.false_eq_true, if_false, hf, extend_last]
      rw [List.drop_left' (beBytes_length _ _)]
      have := ih hr { d with s := ps.flatMap (Spec.Part.chunk true) ++ rest, frames := fs ++ [(a ++ x, i)] } hi i' h rest rfl fs (a ++ x) i rfl fuel
      simp only [Spec.partsData]
      rw [this, List.append_assoc]

end Zune.Png
