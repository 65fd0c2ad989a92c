/-
Lemmas about the output of the JPEG XL encoder as a whole: what it is, and when there is one.
-/
import Verif.Jxl.Header

namespace Zune.Jxl

/-! ### What is written -/

/-- The sections of the file. -/
def sectionList (o : Opts) (data : List UInt8) (cs : List PrefixCode) : List (List Bool) := (sectionBits o data cs).map fun bs => pad bs.flatten

theorem pad_div (s : List Bool) : (pad s).length / 8 = (s.length + 7) / 8 := by
  simp [pad, padding]
  omega

theorem sectionSize_eq {o : Opts} {ws : List BitWriter} {bs : List (List Bool)} (h : List.Forall₂ BitWriter.Holds (ws.take o.channels) bs) :
    sectionSize o ws = (pad bs.flatten).length / 8 := by
  rw [pad_div, sectionSize]
  congr 2
  generalize ws.take o.channels = l at h
  induction h with
  | nil => rfl
  | cons h _ ih => rw [List.map_cons, List.sum_cons, ih, List.flatten_cons, List.length_append, h.length]; omega

theorem sizes_eq {o : Opts} {groups : List (List BitWriter)} {bss : List (List (List Bool))}
    (h : List.Forall₂ (fun ws bs => List.Forall₂ BitWriter.Holds (ws.take o.channels) bs) groups bss) :
    groups.map (sectionSize o) = (bss.map fun bs => pad bs.flatten).map fun s => s.length / 8 := by
  induction h with
  | nil => rfl
  | cons h _ ih => rw [List.map_cons, List.map_cons, List.map_cons, ih, sectionSize_eq h]

theorem encodeBody_eq (o : Opts) (data : List UInt8) : encodeBody o data = (codes o data).bind fun cs => (groupData o data cs).bind fun groups =>
    (prepareHeader o (groups.map (sectionSize o))).bind fun header => writeOutput o header groups := rfl

theorem prepareHeader_sizes {o : Opts} {sizes : List Nat} {b : BitWriter} (h : prepareHeader o sizes = some b) :
    ∃ h w, sizeBits o.height = some h ∧ sizeBits o.width = some w := by
  rw [prepareHeader] at h
  cases h1 : BitWriter.new.allocate (1000 + sizes.length * 32) with
  | none => rw [h1] at h; cases h
  | some c =>
    rw [h1] at h
    cases h2 : sizeBits o.height with
    | none => rw [h2] at h; cases h
    | some hb =>
      cases h3 : sizeBits o.width with
      | none => rw [h2, h3] at h; cases h
      | some wb => exact ⟨hb, wb, rfl, rfl⟩

theorem pad_fileHead (o : Opts) (h w : List (Nat × Nat)) (sizes : List Nat) : pad (fileHead o h w sizes) = fileHead o h w sizes := by
  have h1 := pad_length (fields (headBits o h w))
  have h2 := pad_length (fields (frameBits o))
  have h3 := pad_length (fields (sizes.flatMap tocBits))
  have h4 : (fileHead o h w sizes).length % 8 = 0 := by simp only [fileHead, List.length_append]; omega
  rw [pad, padding, show (8 - (fileHead o h w sizes).length % 8) % 8 = 0 by omega]
  simp

/-- The output, bit by bit. -/
theorem encodeBody_bits {o : Opts} {data : List UInt8} (hf : o.Fits data) {out : List UInt8} (h : encodeBody o data = some out) :
    ∃ cs hb wb, codes o data = some cs ∧ cs.length = 4 ∧ (∀ code ∈ cs, ChannelCode o code) ∧ sizeBits o.height = some hb ∧ sizeBits o.width = some wb ∧
      bytesLsb out = fileHead o hb wb ((sectionList o data cs).map fun s => s.length / 8) ++ (sectionList o data cs).flatten := by
  obtain ⟨cs, h1, h2, h3⟩ := codes_ok hf
  rw [encodeBody_eq, h1, Option.bind_some] at h
  cases h4 : groupData o data cs with
  | none => rw [h4] at h; cases h
  | some groups =>
    rw [h4, Option.bind_some] at h
    obtain ⟨h5, h6⟩ := groupData_holds hf h2 h3 h4
    rw [sizes_eq h5] at h
    cases h7 : prepareHeader o (((sectionBits o data cs).map fun bs => pad bs.flatten).map fun s => s.length / 8) with
    | none => rw [h7] at h; cases h
    | some header =>
      rw [h7, Option.bind_some] at h
      obtain ⟨hb, wb, hh, hw⟩ := prepareHeader_sizes h7
      refine ⟨cs, hb, wb, h1, h2, h3, hh, hw, ?_⟩
      obtain ⟨b, h8, h9, -⟩ := prepareHeader_ok hh hw (((sectionBits o data cs).map fun bs => pad bs.flatten).map fun s => s.length / 8)
      rw [h7] at h8
      cases h8
      rw [writeOutput_bits (by have := hf.channels; omega) h9 h5 h6 h]
      rw [pad_fileHead, List.flatMap_def]
      rfl

/-! ### Sizes of sections -/

theorem flatten_length_le {l : List (List Bool)} {n : Nat} (h : ∀ s ∈ l, s.length ≤ n) : l.flatten.length ≤ l.length * n := by
  induction l with
  | nil => simp
  | cons s l ih =>
    have h1 := h s (by simp)
    have h2 := ih fun s hs => h s (by simp [hs])
    rw [List.flatten_cons, List.length_append, List.length_cons, Nat.add_mul]
    omega

theorem chan_bound {o : Opts} {data : List UInt8} (h : o.Fits data) {cs : List PrefixCode} (hl : cs.length = 4) (hcs : ∀ code ∈ cs, CodeSpec o code)
    {g c : Nat} (hg : g < o.groupsX * o.groupsY) (hc : c < o.channels) : (chanBits o data cs g c).length ≤ 25 * 65536 := by
  obtain ⟨-, -, -, h1⟩ := chan_le h hl hcs hg hc
  have h2 := groupArea_le h hg
  have h3 := resBits_pos o
  rw [Nat.mul_comm (o.groupArea g).2.2.1] at h1
  exact Nat.le_trans h1 (Nat.mul_le_mul h3.2 h2)

theorem own_bound (o : Opts) (data : List UInt8) (cs : List PrefixCode) (g c : Nat) : (ownBits o data cs g c).length ≤ 4 + (chanBits o data cs g c).length := by
  rw [ownBits, List.length_append]
  split
  · have : (fields groupPreface).length = 4 := rfl
    omega
  · simp

theorem sectionList_spec {o : Opts} {data : List UInt8} (h : o.Fits data) {cs : List PrefixCode} (hl : cs.length = 4) (hcs : ∀ code ∈ cs, ChannelCode o code) :
    (∀ s ∈ sectionList o data cs, s.length % 8 = 0 ∧ s.length / 8 < 2 ^ 30) ∧ (sectionList o data cs).length = o.image.sections 256 := by
  have hch := h.channels
  have hcs' : ∀ code ∈ cs, CodeSpec o code := fun code hc => ChannelCode.spec h (hcs code hc)
  obtain ⟨-, -, -, -, -, hs⟩ := sections_eq o
  obtain ⟨-, -, -, -, hdc⟩ := dcGlobal_ok h hl hcs
  have hpd : (pad (dcFields o cs)).length ≤ 4007 := by simp [pad, padding]; omega
  constructor
  · intro s hs
    obtain ⟨bs, hbs, rfl⟩ := List.mem_map.1 hs
    refine ⟨pad_length _, ?_⟩
    rw [pad_div]
    have key : bs.length ≤ 4 ∧ ∀ s ∈ bs, s.length ≤ 2000000 := by
      rw [sectionBits] at hbs
      split at hbs
      · rw [List.mem_singleton] at hbs
        subst hbs
        refine ⟨by simp; omega, fun s hs => ?_⟩
        obtain ⟨c, hc, rfl⟩ := List.mem_map.1 hs
        rw [List.mem_range] at hc
        have h1 := chan_bound h hl hcs' (groups_pos h) hc
        have h2 := own_bound o data cs 0 c
        split
        · rw [List.length_append]; omega
        · omega
      · rw [List.mem_append, List.mem_cons, List.mem_replicate, List.mem_map] at hbs
        rcases hbs with (rfl | ⟨-, rfl⟩) | ⟨g, hg, rfl⟩
        · refine ⟨by simp; omega, fun s hs => ?_⟩
          obtain ⟨c, hc, rfl⟩ := List.mem_map.1 hs
          split
          · omega
          · simp
        · refine ⟨by simp; omega, fun s hs => ?_⟩
          rw [List.mem_replicate] at hs
          rw [hs.2]; simp
        · refine ⟨by simp; omega, fun s hs => ?_⟩
          obtain ⟨c, hc, rfl⟩ := List.mem_map.1 hs
          rw [List.mem_range] at hc hg
          have h1 := chan_bound h hl hcs' hg hc
          have h2 := own_bound o data cs g c
          omega
    have h1 := flatten_length_le key.2
    have h2 : bs.length * 2000000 ≤ 4 * 2000000 := Nat.mul_le_mul_right _ key.1
    omega
  · rw [hs, sectionList, List.length_map, sectionBits]
    split
    · rfl
    · simp
      omega

/-! ### When there is an output -/

/-- Writing the writer out cannot run out of room. -/
def Room (b : BitWriter) : Prop := b.left = 0 ∨ b.pos + 8 ≤ b.dest.length

theorem room_of_holds {b : BitWriter} {s : List Bool} (h : b.Holds s) (hs : s.length + 64 ≤ 8 * b.dest.length) : Room b := by
  have := h.length
  right; omega

theorem emit_ok {out : SinkWriter} {b : BitWriter} {s t : List Bool} (last : Bool) (ho : out.Holds s) (hb : b.Holds t) (hr : Room b) :
    ∃ out', emit out b last = some out' := by
  rw [emit_eq]
  have h1 : ∃ c, (if b.left > 0 then b.flush else some b) = some c ∧ c.Holds t := by
    split
    · rename_i h
      have : ∃ c, b.flush = some c := by rw [BitWriter.flush, if_pos (by rcases hr with hr | hr <;> omega)]; exact ⟨_, rfl⟩
      obtain ⟨c, hc⟩ := this
      exact ⟨c, hc, (BitWriter.flush_holds hb hc).1⟩
    · exact ⟨b, rfl, hb⟩
  obtain ⟨c, hc, h2⟩ := h1
  have h4 : ¬ c.pos > c.dest.length := by have := h2.pos; omega
  obtain ⟨d, hd, -⟩ := SinkWriter.putBytes_holds (c.dest.take c.pos) ho
  simp only [hc, Option.bind_some, h4, if_false, hd]
  exact ⟨_, rfl⟩

theorem emitAll_ok {ws : List BitWriter} {bs : List (List Bool)} (hw : List.Forall₂ BitWriter.Holds ws bs) (hr : ∀ b ∈ ws, Room b) :
    ∀ {out : SinkWriter} {s : List Bool}, out.Holds s → ∃ out', emitAll out ws = some out' := by
  induction hw with
  | nil => intro out s _; exact ⟨out, rfl⟩
  | @cons b t ws bs hb hw ih =>
    intro out s ho
    obtain ⟨c, hc⟩ := emit_ok ws.isEmpty ho hb (hr b (by simp))
    obtain ⟨d, hd⟩ := ih (fun b hb => hr b (by simp [hb])) (emit_holds ho hb hc)
    exact ⟨d, by rw [emitAll, hc]; exact hd⟩

theorem foldlM_emitAll_ok {ch : Nat} (hch : 0 < ch) {groups : List (List BitWriter)} {bss : List (List (List Bool))}
    (hg : List.Forall₂ (fun ws bs => List.Forall₂ BitWriter.Holds (ws.take ch) bs) groups bss) (hne : ∀ ws ∈ groups, ws ≠ [])
    (hr : ∀ ws ∈ groups, ∀ b ∈ ws.take ch, Room b) :
    ∀ {out : SinkWriter} {s : List Bool}, out.Holds s → ∃ out', groups.foldlM (fun out ws => emitAll out (ws.take ch)) out = some out' := by
  induction hg with
  | nil => intro out s _; exact ⟨out, rfl⟩
  | @cons ws bs groups bss hw hg ih =>
    intro out s ho
    obtain ⟨c, hc⟩ := emitAll_ok hw (hr ws (by simp)) ho
    have hne' : ws.take ch ≠ [] := by
      intro e
      rcases List.take_eq_nil_iff.1 e with h | h
      · omega
      · exact hne ws (by simp) h
    obtain ⟨d, hd⟩ := ih (fun ws hw => hne ws (by simp [hw])) (fun ws hw => hr ws (by simp [hw])) (emitAll_holds hw hne' ho hc)
    exact ⟨d, by rw [List.foldlM_cons, hc]; exact hd⟩

theorem writeOutput_ok {o : Opts} (hch : 0 < o.channels) {header : BitWriter} {hb : List Bool} (hh : header.Holds hb) (hr0 : Room header) {groups : List (List BitWriter)}
    {bss : List (List (List Bool))} (hg : List.Forall₂ (fun ws bs => List.Forall₂ BitWriter.Holds (ws.take o.channels) bs) groups bss)
    (hne : ∀ ws ∈ groups, ws ≠ []) (hr : ∀ ws ∈ groups, ∀ b ∈ ws.take o.channels, Room b) : ∃ out, writeOutput o header groups = some out := by
  have h0 : (SinkWriter.new []).Holds [] := ⟨by show (0 : Nat) < 64; decide, by show (0 : Nat) < 2 ^ 0; decide, rfl⟩
  obtain ⟨c, hc⟩ := emit_ok true h0 hh hr0
  have h1 := emit_holds h0 hh hc
  simp only [List.nil_append, if_true] at h1
  obtain ⟨d, hd⟩ := foldlM_emitAll_ok hch hg hne hr h1
  have h3 := foldlM_emitAll hch hg hne h1 (pad_length hb) hd
  obtain ⟨h4, h5⟩ := SinkWriter.flush_holds h3
  have h6 := h4.length
  have h7 : d.flush.left = 0 := by
    have h8 : (hb ++ padding hb.length ++ bss.flatMap fun bs => pad bs.flatten).length % 8 = 0 := by
      have := pad_length hb
      rw [List.length_append]
      have h9 : (bss.flatMap fun bs => pad bs.flatten).length % 8 = 0 := by
        clear hg h3 h4 h6
        induction bss with
        | nil => rfl
        | cons b l ih =>
          have := pad_length b.flatten
          rw [List.flatMap_cons, List.length_append]; omega
      rw [pad] at this
      omega
    omega
  refine ⟨d.flush.dest, ?_⟩
  rw [writeOutput, hc]
  show (groups.foldlM (fun out ws => emitAll out (ws.take o.channels)) c >>= fun out => if out.flush.left ≠ 0 then none else some out.flush.dest) = _
  rw [hd]
  show (if d.flush.left ≠ 0 then none else some d.flush.dest) = _
  rw [if_neg (by rw [h7]; simp)]

/-- A section succeeds if its channels do. -/
theorem acSection_ok {o : Opts} {data : List UInt8} {cs : List PrefixCode} {ws : List BitWriter} {g : Nat}
    (hb : ∀ c < o.channels, ∃ b', (ws[c]?).bind (acChannel o data cs g c) = some b' ∧ Room b') :
    ∃ r, acSection o data cs ws g = some r ∧ ∀ b ∈ r.take o.channels, Room b := by
  obtain ⟨used, hu⟩ := mapM_ok (f := fun c => (ws[c]?).bind (acChannel o data cs g c)) (l := List.range o.channels)
    fun c hc => (hb c (List.mem_range.1 hc)).imp fun _ => And.left
  refine ⟨used ++ ws.drop o.channels, by rw [acSection_eq, hu]; rfl, fun b hbm => ?_⟩
  obtain ⟨h1, h2⟩ := mapM_eq_some hu
  rw [List.length_range] at h1
  rw [List.take_append_of_le_length (by omega), List.take_of_length_le (by omega)] at hbm
  obtain ⟨i, hi⟩ := List.getElem?_of_mem hbm
  have hi' : i < o.channels := by
    have := (List.getElem?_eq_some_iff.1 hi).1
    omega
  obtain ⟨b1, hb1, hb2⟩ := h2 i i (List.getElem?_range hi')
  rw [hi] at hb1
  cases hb1
  obtain ⟨b2, hb3, hb4⟩ := hb i hi'
  rw [hb2] at hb3
  cases hb3
  exact hb4

/-- The room that has been allocated is enough. -/
structure Enough (o : Opts) (data : List UInt8) (cs : List PrefixCode) : Prop where
  own : ∀ g < o.groupsX * o.groupsY, ∀ c < o.channels, (o.oneGroup && c == 0) = false →
    (ownBits o data cs g c).length + 64 ≤ 8 * (((o.groupArea g).2.2.1 * (o.groupArea g).2.2.2 * o.maxBits + 4) / 8 + 64)
  first : o.oneGroup = true → (dcFields o cs).length + (chanBits o data cs 0 0).length + 64 ≤ 8 * ((100000 + o.width * o.height * 16) / 8 + 64)

theorem groupData_ok {o : Opts} {data : List UInt8} (h : o.Fits data) {cs : List PrefixCode} (hl : cs.length = 4) (hcs : ∀ code ∈ cs, ChannelCode o code)
    (he : Enough o data cs) : ∃ groups, groupData o data cs = some groups ∧ ∀ ws ∈ groups, ∀ b ∈ ws.take o.channels, Room b := by
  have hch := h.channels
  have hcs' : ∀ code ∈ cs, CodeSpec o code := fun code hc => ChannelCode.spec h (hcs code hc)
  obtain ⟨b, hb, hb1, hb2, hdl⟩ := dcGlobal_ok h hl hcs
  have hfresh : ∀ g < o.groupsX * o.groupsY, ∀ c < o.channels, (o.oneGroup && c == 0) = false → ∃ b', acChannel o data cs g c BitWriter.new = some b' ∧ Room b' := by
    intro g hg c hc h1
    have hE := he.own g hg c hc h1
    obtain ⟨a1, a2⟩ := acChannel_fresh h hl hcs' hg hc h1
    obtain ⟨b', hb'⟩ := a2 hE
    obtain ⟨a3, a4⟩ := a1 b' hb'
    exact ⟨b', hb', room_of_holds a3 (by rw [a4]; exact hE)⟩
  have hwnew : ∀ b ∈ freshWriters, Room b := by
    intro b hb
    rw [freshWriters, List.mem_replicate] at hb
    rw [hb.2]
    exact Or.inl rfl
  rw [groupData, hb]
  cases h1 : o.oneGroup with
  | true =>
    simp only [h1, if_true] at hb1 hb2 ⊢
    have hE := he.first h1
    have := acSection_ok (o := o) (data := data) (cs := cs) (ws := b :: freshWriters.tail) (g := 0) fun c hc => by
      by_cases hz : c = 0
      · subst hz
        obtain ⟨a1, a2⟩ := acChannel_first h hl hcs' (groups_pos h) h1 hb1
        obtain ⟨b', hb'⟩ := a2 (by rw [hb2]; exact hE)
        obtain ⟨a3, a4⟩ := a1 b' hb'
        exact ⟨b', hb', room_of_holds a3 (by rw [a4, hb2, List.length_append]; exact hE)⟩
      · have hw : (b :: freshWriters.tail)[c]? = some BitWriter.new := by
          have : c = 1 ∨ c = 2 ∨ c = 3 := by omega
          rcases this with rfl | rfl | rfl <;> rfl
        rw [hw]
        exact hfresh 0 (groups_pos h) c hc (by simp [hz])
    obtain ⟨r, hr, hr2⟩ := this
    refine ⟨[r], ?_, by simpa using hr2⟩
    show (acSection o data cs (b :: freshWriters.tail) 0).bind (fun r => some [r]) = some [r]
    rw [hr]; rfl
  | false =>
    simp only [h1, Bool.false_eq_true, if_false] at hb1 hb2 ⊢
    have hsec : ∀ g < o.groupsX * o.groupsY, ∃ r, acSection o data cs freshWriters g = some r ∧ ∀ b ∈ r.take o.channels, Room b := by
      intro g hg
      apply acSection_ok
      intro c hc
      have hw : freshWriters[c]? = some BitWriter.new := by
        have : c = 0 ∨ c = 1 ∨ c = 2 ∨ c = 3 := by omega
        rcases this with rfl | rfl | rfl | rfl <;> rfl
      rw [hw]
      exact hfresh g hg c hc (by simp [h1])
    obtain ⟨gs, hgs⟩ := mapM_ok (f := acSection o data cs freshWriters) (l := List.range (o.groupsX * o.groupsY)) fun g hg => (hsec g (List.mem_range.1 hg)).imp fun _ => And.left
    obtain ⟨h2, h3⟩ := mapM_eq_some hgs
    refine ⟨(b :: freshWriters.tail) :: List.replicate (1 + o.dcGroups) freshWriters ++ gs, ?_, ?_⟩
    · show ((List.range (o.groupsX * o.groupsY)).mapM (acSection o data cs freshWriters)).bind (fun gs =>
        some ((b :: freshWriters.tail) :: List.replicate (1 + o.dcGroups) freshWriters ++ gs)) = _
      rw [hgs]; rfl
    · intro ws hws x hx
      simp only [List.mem_append, List.mem_cons, List.mem_replicate] at hws
      rcases hws with (rfl | ⟨-, rfl⟩) | hws
      · have hx' := List.mem_of_mem_take hx
        rcases List.mem_cons.1 hx' with rfl | hx'
        · refine room_of_holds hb1 ?_
          rw [hb2]
          have : (pad (dcFields o cs)).length ≤ 4007 := by simp [pad, padding]; omega
          omega
        · exact hwnew x (List.mem_of_mem_tail hx')
      · exact hwnew x (List.mem_of_mem_take hx)
      · obtain ⟨i, hi⟩ := List.getElem?_of_mem hws
        have hi' : i < o.groupsX * o.groupsY := by
          have := (List.getElem?_eq_some_iff.1 hi).1
          simpa [h2] using this
        obtain ⟨r, hr1, hr2⟩ := h3 i i (List.getElem?_range hi')
        rw [hi] at hr1
        cases hr1
        obtain ⟨r', hr3, hr4⟩ := hsec i hi'
        rw [hr2] at hr3
        cases hr3
        exact hr4 x hx

theorem encodeBody_ok {o : Opts} {data : List UInt8} (hf : o.Fits data) (hw : o.width < 2 ^ 30) (hh : o.height < 2 ^ 30)
    (he : ∀ cs, codes o data = some cs → Enough o data cs) : ∃ out, encodeBody o data = some out := by
  obtain ⟨cs, h1, h2, h3⟩ := codes_ok hf
  obtain ⟨groups, h4, h5⟩ := groupData_ok hf h2 h3 (he cs h1)
  obtain ⟨h6, h7⟩ := groupData_holds hf h2 h3 h4
  obtain ⟨hb, hhb, -⟩ := sizeBits_some ⟨hf.height, hh⟩
  obtain ⟨wb, hwb, -⟩ := sizeBits_some ⟨hf.width, hw⟩
  obtain ⟨b, h8, h9, h10⟩ := prepareHeader_ok hhb hwb (groups.map (sectionSize o))
  obtain ⟨out, h11⟩ := writeOutput_ok (by have := hf.channels; omega) h9 (room_of_holds h9 h10) h6 h7 h5
  exact ⟨out, by rw [encodeBody_eq, h1, Option.bind_some, h4, Option.bind_some, h8, Option.bind_some, h11]⟩

/-- Samples that need no more bits than are allocated for each. -/
theorem enough_of_bits {o : Opts} {data : List UInt8} (h : o.Fits data) {cs : List PrefixCode} (hl : cs.length = 4) (hcs : ∀ code ∈ cs, ChannelCode o code)
    (h1 : o.sampleBits ≤ o.maxBits ∨ ∀ g < o.groupsX * o.groupsY, (o.groupArea g).2.2.1 * (o.groupArea g).2.2.2 ≤ 440)
    (h2 : o.oneGroup = true → o.sampleBits ≤ 16 ∨ o.width * o.height ≤ 10700 ∨ o.channels ≤ 2 ∧ o.width * o.height ≤ 12050) : Enough o data cs := by
  have hcs' : ∀ code ∈ cs, CodeSpec o code := fun code hc => ChannelCode.spec h (hcs code hc)
  obtain ⟨b, hb, hb1, hb2, hdl⟩ := dcGlobal_ok h hl hcs
  have hsb := resBits_pos o
  constructor
  · intro g hg c hc _
    have a1 := own_bound o data cs g c
    obtain ⟨-, -, -, a2⟩ := chan_le h hl hcs' hg hc
    rcases h1 with h1 | h1
    · have := Nat.mul_le_mul_left ((o.groupArea g).2.2.1 * (o.groupArea g).2.2.2) h1
      rw [Nat.mul_comm o.sampleBits] at a2
      omega
    · have h1 := h1 g hg
      have : o.maxBits = 16 ∧ o.sampleBits ≤ 16 ∨ o.maxBits = 24 := by
        unfold Opts.maxBits Opts.sampleBits Opts.resBits
        split
        · split <;> omega
        · omega
      generalize (o.groupArea g).2.2.1 * (o.groupArea g).2.2.2 = A at *
      have h3 := Nat.mul_le_mul_right A hsb.2
      rcases this with ⟨e1, e2⟩ | e1
      · have h3 := Nat.mul_le_mul_right A e2
        rw [e1]; omega
      · rw [e1]; omega
  · intro hone
    obtain ⟨-, -, -, a2⟩ := chan_le (c := 0) h hl hcs' (groups_pos h) (by have := h.channels; omega)
    have e1 : (o.groupArea 0).2.2.1 * (o.groupArea 0).2.2.2 = o.width * o.height := by
      rw [Opts.oneGroup, Bool.and_eq_true, beq_iff_eq, beq_iff_eq, Opts.groupsX, Opts.groupsY] at hone
      simp only [Opts.groupArea, Nat.zero_mod, Nat.zero_div, Nat.zero_mul, Nat.sub_zero]
      rw [Nat.min_eq_left (by omega), Nat.min_eq_left (by omega)]
    rw [e1] at a2
    have h2 := h2 hone
    generalize o.width * o.height = A at *
    rcases h2 with h2 | h2 | ⟨h2, h3⟩
    · have h3 := Nat.mul_le_mul_right A h2
      omega
    · have h3 := Nat.mul_le_mul_right A hsb.2
      omega
    · have h4 : o.sampleBits ≤ 24 := by
        unfold Opts.sampleBits Opts.resBits
        rw [if_pos h2, if_pos h2]
        split <;> omega
      have h3 := Nat.mul_le_mul_right A h4
      omega

end Zune.Jxl
