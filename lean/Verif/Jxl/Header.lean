/-
Lemmas: the headers written by the JPEG XL encoder are read back by the parser of the specification.
-/
import Verif.Jxl.Sections
import Verif.Jxl.Iso18181

namespace Zune.Jxl

open Iso (P u u32 u64 enum must align times)

/-! ### Reading fields -/

/-- Parser `p` reads `v` from the bits `s`, whatever follows. -/
def Rd {α} (p : P α) (s : List Bool) (v : α) : Prop := ∀ r, p (s ++ r) = some (v, r)

theorem Rd.pure {α} (v : α) : Rd (Pure.pure v : P α) [] v := fun _ => rfl

theorem bind_apply {α β} (p : P α) (f : α → P β) (s : List Bool) : (p >>= f) s = (p s).bind fun x => f x.1 x.2 := rfl

theorem Rd.bind {α β} {p : P α} {f : α → P β} {s t : List Bool} {v : α} {w : β} (h : Rd p s v) (h' : Rd (f v) t w) : Rd (p >>= f) (s ++ t) w := by
  intro r
  rw [bind_apply, List.append_assoc, h]
  exact h' r

theorem Rd.must {p : P Nat} {s : List Bool} {v : Nat} (h : Rd p s v) : Rd (Iso.must p v) s () := by
  intro r
  rw [Iso.must, bind_apply, h]
  simp only [Option.bind_some, if_true]
  rfl

theorem rd_u {n v : Nat} (h : v < 2 ^ n) : Rd (u n) (lsb n v) v := by
  induction n generalizing v with
  | zero => intro r; have : v = 0 := by simpa using h
            subst this; rfl
  | succ n ih =>
    intro r
    have h1 : v / 2 < 2 ^ n := by rw [Nat.pow_succ] at h; omega
    have h2 := ih h1 r
    have h3 : u (n + 1) (lsb (n + 1) v ++ r) = (u n (lsb n (v / 2) ++ r)).bind fun a => some ((v % 2 == 1).toNat + 2 * a.1, a.2) := rfl
    rw [h3, h2, Option.bind_some, bit_toNat]
    simp only [Option.some.injEq, Prod.mk.injEq, and_true]
    omega

theorem rd_size {n : Nat} {l : List (Nat × Nat)} (h : sizeBits n = some l) : Rd (u32 (9, 1) (13, 1) (18, 1) (30, 1)) (fields l) n := by
  rw [sizeBits] at h
  split at h
  · rename_i hn
    simp only [Option.some.injEq] at h
    subst h
    intro r
    have key : ∀ (k i : Nat), n - 1 < 2 ^ k → u k (lsb k (n - 1) ++ r) = some (n - 1, r) := fun k _ hk => rd_u hk r
    split
    · have := key 9 0 (by assumption)
      show (u 9 (fields [(9, n - 1)] ++ r)).bind (fun a => some (1 + a.1, a.2)) = _
      rw [show fields [(9, n - 1)] = lsb 9 (n - 1) by simp [fields], this]
      simp; omega
    · split
      · have := key 13 0 (by assumption)
        show (u 13 (fields [(13, n - 1)] ++ r)).bind (fun a => some (1 + a.1, a.2)) = _
        rw [show fields [(13, n - 1)] = lsb 13 (n - 1) by simp [fields], this]
        simp; omega
      · split
        · have := key 18 0 (by assumption)
          show (u 18 (fields [(18, n - 1)] ++ r)).bind (fun a => some (1 + a.1, a.2)) = _
          rw [show fields [(18, n - 1)] = lsb 18 (n - 1) by simp [fields], this]
          simp; omega
        · have := key 30 0 (by omega)
          show (u 30 (fields [(30, n - 1)] ++ r)).bind (fun a => some (1 + a.1, a.2)) = _
          rw [show fields [(30, n - 1)] = lsb 30 (n - 1) by simp [fields], this]
          simp; omega
  · cases h

theorem rd_toc {n : Nat} (h : n < 2 ^ 30) : Rd (u32 (10, 0) (14, 1024) (22, 17408) (30, 4211712)) (fields (tocBits n)) n := by
  intro r
  rw [tocBits]
  have key : ∀ (k m : Nat), m < 2 ^ k → u k (fields [(k, m)] ++ r) = some (m, r) := fun k m hk => by
    rw [show fields [(k, m)] = lsb k m by simp [fields]]; exact rd_u hk r
  split
  · show (u 10 (fields [(10, n)] ++ r)).bind (fun a => some (0 + a.1, a.2)) = _
    rw [key 10 n (by assumption)]
    simp
  · split
    · show (u 14 (fields [(14, n - 1024)] ++ r)).bind (fun a => some (1024 + a.1, a.2)) = _
      rw [key _ _ (by assumption)]
      simp; omega
    · split
      · show (u 22 (fields [(22, n - 17408)] ++ r)).bind (fun a => some (17408 + a.1, a.2)) = _
        rw [key _ _ (by assumption)]
        simp; omega
      · show (u 30 (fields [(30, n - 4211712)] ++ r)).bind (fun a => some (4211712 + a.1, a.2)) = _
        rw [key _ _ (by omega)]
        simp; omega

theorem rd_times {α} {p : P α} {f : α → List Bool} {l : List α} (h : ∀ a ∈ l, Rd p (f a) a) : Rd (times l.length p) (l.flatMap f) l := by
  induction l with
  | nil => exact Rd.pure _
  | cons a l ih =>
    rw [List.length_cons, times, List.flatMap_cons]
    refine Rd.bind (h a (by simp)) ?_
    have := Rd.bind (f := fun l => Pure.pure (a :: l)) (ih fun a ha => h a (by simp [ha])) (Rd.pure (a :: l))
    rw [List.append_nil] at this
    exact this

/-- Padding is skipped where bytes follow. -/
theorem align_pad {s : List Bool} {r : List Bool} (hr : r.length % 8 = 0) : align (padding s.length ++ r) = some ((), r) := by
  have hl : (padding s.length).length = (8 - s.length % 8) % 8 := by simp [padding]
  have h1 : (padding s.length ++ r).length % 8 = (padding s.length).length := by rw [List.length_append]; omega
  rw [align, h1, List.take_left, List.drop_left, if_pos (by simp [padding])]

/-! ### The headers -/

/-- What the headers say. -/
def Opts.image (o : Opts) : Iso.Image := ⟨o.width, o.height, 8 * o.bytes, if o.alpha then [8] else [], decide (o.channels ≤ 2)⟩

theorem channels_cases {o : Opts} {data : List UInt8} (h : o.Fits data) : o.channels = 1 ∨ o.channels = 2 ∨ o.channels = 3 ∨ o.channels = 4 := by
  have := h.channels; omega

theorem rd_metadata {o : Opts} {data : List UInt8} (h : o.Fits data) :
    Rd Iso.imageMetadata (fields (metadataBits o)) (8 * o.bytes, if o.alpha then [8] else [], decide (o.channels ≤ 2)) := by
  have hc := channels_cases h
  have hb := h.bytes
  have e1 : metadataBits o = metadataBits ⟨0, 0, o.bytes, o.channels, 0⟩ := rfl
  rw [e1, Opts.alpha]
  generalize o.bytes = b at hb
  generalize o.channels = c at hc
  rcases hb with rfl | rfl <;> rcases hc with rfl | rfl | rfl | rfl <;> intro r <;> rfl

theorem rd_frame {o : Opts} {data : List UInt8} (h : o.Fits data) :
    Rd (Iso.frameHeader o.image.extra.length >>= fun d => must (u 1) 0 >>= fun _ => Pure.pure d) (fields (frameBits o)) 256 := by
  obtain ⟨w, ht, b, c, e⟩ := o
  have hc := channels_cases h
  simp only at hc
  rcases hc with rfl | rfl | rfl | rfl <;> intro r <;> rfl


/-- The bits of the image header up to its padding. -/
def headBits (o : Opts) (h w : List (Nat × Nat)) : List (Nat × Nat) := [(16, 0x0AFF), (1, 0)] ++ h ++ [(3, 0)] ++ w ++ metadataBits o

theorem rd_sizes {o : Opts} {h w : List (Nat × Nat)} (hh : sizeBits o.height = some h) (hw : sizeBits o.width = some w) :
    Rd Iso.sizeHeader (fields ([(1, 0)] ++ h ++ [(3, 0)] ++ w)) (o.width, o.height) := by
  have h1 : Rd Iso.sizeHeader (lsb 1 0 ++ (fields h ++ (lsb 3 0 ++ (fields w ++ [])))) (o.width, o.height) :=
    Rd.bind (v := 0) (rd_u (by decide)) (Rd.bind (rd_size hh) (Rd.bind (v := 0) (rd_u (by decide)) (Rd.bind (rd_size hw) (Rd.pure _))))
  have e : fields ([(1, 0)] ++ h ++ [(3, 0)] ++ w) = lsb 1 0 ++ (fields h ++ (lsb 3 0 ++ (fields w ++ []))) := by
    simp [fields_append, fields]
  rw [e]
  exact h1

theorem imageHeader_read {o : Opts} {data : List UInt8} (hf : o.Fits data) {h w : List (Nat × Nat)} (hh : sizeBits o.height = some h)
    (hw : sizeBits o.width = some w) {r : List Bool} (hr : r.length % 8 = 0) : Iso.imageHeader (pad (fields (headBits o h w)) ++ r) = some (o.image, r) := by
  have h4 := align_pad (s := fields (headBits o h w)) hr
  have e : fields (headBits o h w) = lsb 16 0x0AFF ++ (fields ([(1, 0)] ++ h ++ [(3, 0)] ++ w) ++ fields (metadataBits o)) := by
    rw [← fields_append, headBits]
    simp [fields]
  rw [pad, List.append_assoc]
  generalize hq : padding (fields (headBits o h w)).length ++ r = q at *
  rw [e, Iso.imageHeader, bind_apply, List.append_assoc, List.append_assoc, Rd.must (rd_u (by decide)), Option.bind_some, bind_apply, rd_sizes hh hw, Option.bind_some]
  show (Iso.imageMetadata (fields (metadataBits o) ++ q)).bind (fun m => (align m.2).bind fun x => some (Iso.Image.mk o.width o.height m.1.1 m.1.2.1 m.1.2.2, x.2)) = _
  rw [rd_metadata hf, Option.bind_some, h4]
  rfl

theorem frame_read {o : Opts} {data : List UInt8} (hf : o.Fits data) (r : List Bool) : ∃ s, Iso.frameHeader o.image.extra.length (fields (frameBits o) ++ r) = some (256, s) ∧
    must (u 1) 0 s = some ((), r) := by
  have h := rd_frame hf r
  rw [bind_apply] at h
  cases h1 : Iso.frameHeader o.image.extra.length (fields (frameBits o) ++ r) with
  | none => rw [h1] at h; cases h
  | some x =>
    rw [h1, Option.bind_some, bind_apply] at h
    cases h2 : must (u 1) 0 x.2 with
    | none => rw [h2] at h; cases h
    | some y =>
      rw [h2] at h
      obtain ⟨a, b⟩ := x
      obtain ⟨⟨⟩, c⟩ := y
      cases h
      exact ⟨_, rfl, h2⟩

theorem cut_flatten : ∀ (l : List (List Bool)), (∀ s ∈ l, s.length % 8 = 0) → Iso.cut (l.map fun s => s.length / 8) l.flatten = some l
  | [], _ => rfl
  | s :: l, h => by
    have h1 := h s (by simp)
    have h2 := cut_flatten l fun s hs => h s (by simp [hs])
    rw [List.map_cons, List.flatten_cons, Iso.cut, show 8 * (s.length / 8) = s.length by omega, if_pos (by simp), List.take_left, List.drop_left, h2]
    rfl

/-- Number of sections. -/
theorem sections_eq (o : Opts) :
    o.image.across 256 = o.groupsX ∧ o.image.down 256 = o.groupsY ∧ o.image.groups 256 = o.groupsX * o.groupsY ∧ o.image.lfGroups 256 = o.dcGroups ∧
      (o.image.groups 256 = 1 ↔ o.oneGroup = true) ∧
      o.image.sections 256 = if o.oneGroup then 1 else 2 + o.dcGroups + o.groupsX * o.groupsY := by
  have hx : o.image.across 256 = o.groupsX := rfl
  have hy : o.image.down 256 = o.groupsY := rfl
  have hg : o.image.groups 256 = o.groupsX * o.groupsY := rfl
  have hl : o.image.lfGroups 256 = o.dcGroups := rfl
  have h1 : o.image.groups 256 = 1 ↔ o.oneGroup = true := by
    rw [hg, Opts.oneGroup, Bool.and_eq_true, beq_iff_eq, beq_iff_eq]
    exact ⟨fun e => ⟨Nat.eq_one_of_mul_eq_one_right e, Nat.eq_one_of_mul_eq_one_left e⟩, fun ⟨a, b⟩ => by rw [a, b]⟩
  refine ⟨hx, hy, hg, hl, h1, ?_⟩
  rw [Iso.Image.sections, hg, hl]
  rw [hg] at h1
  simp only [h1]

/-- The header of the file. -/
def fileHead (o : Opts) (h w : List (Nat × Nat)) (sizes : List Nat) : List Bool :=
  pad (fields (headBits o h w)) ++ (pad (fields (frameBits o)) ++ pad (fields (sizes.flatMap tocBits)))

theorem fields_flatMap {α} (f : α → List (Nat × Nat)) (l : List α) : fields (l.flatMap f) = l.flatMap fun a => fields (f a) := by
  induction l with
  | nil => rfl
  | cons a l ih => simp [fields_append, ih]

/-- The headers and the sections of the file are found. -/
theorem container_read {o : Opts} {data : List UInt8} (hf : o.Fits data) {h w : List (Nat × Nat)} (hh : sizeBits o.height = some h)
    (hw : sizeBits o.width = some w) {l : List (List Bool)} (hl : ∀ s ∈ l, s.length % 8 = 0) (hl' : ∀ s ∈ l, s.length / 8 < 2 ^ 30)
    (hn : l.length = o.image.sections 256) :
    Iso.container (fileHead o h w (l.map fun s => s.length / 8) ++ l.flatten) = some (o.image, 256, l) := by
  have hfl : l.flatten.length % 8 = 0 := by
    clear hn hl'
    induction l with
    | nil => rfl
    | cons s l ih =>
      have := ih fun s hs => hl s (by simp [hs])
      have := hl s (by simp)
      rw [List.flatten_cons, List.length_append]
      omega
  have hp := pad_length (fields ((l.map fun s => s.length / 8).flatMap tocBits))
  have hp' := pad_length (fields (frameBits o))
  have h1 := imageHeader_read hf hh hw (r := pad (fields (frameBits o)) ++ pad (fields ((l.map fun s => s.length / 8).flatMap tocBits)) ++ l.flatten)
    (by simp only [List.length_append]; omega)
  rw [Iso.container, fileHead]
  simp only [List.append_assoc] at h1 ⊢
  rw [h1]
  simp only [Option.bind_eq_bind, Option.bind_some]
  obtain ⟨s, h2, h3⟩ := frame_read hf (padding (fields (frameBits o)).length ++ (pad (fields ((l.map fun s => s.length / 8).flatMap tocBits)) ++ l.flatten))
  rw [show pad (fields (frameBits o)) = fields (frameBits o) ++ padding (fields (frameBits o)).length from rfl, List.append_assoc, h2]
  simp only [Option.bind_some]
  have h4 := align_pad (s := fields (frameBits o)) (r := pad (fields ((l.map fun s => s.length / 8).flatMap tocBits)) ++ l.flatten)
    (by simp only [List.length_append]; omega)
  have h5 := rd_times (p := u32 (10, 0) (14, 1024) (22, 17408) (30, 4211712)) (f := fun n => fields (tocBits n)) (l := l.map fun s => s.length / 8)
    (fun a ha => by
      obtain ⟨s, hs, rfl⟩ := List.mem_map.1 ha
      exact rd_toc (hl' s hs)) (padding (fields ((l.map fun s => s.length / 8).flatMap tocBits)).length ++ l.flatten)
  have h6 := align_pad (s := fields ((l.map fun s => s.length / 8).flatMap tocBits)) (r := l.flatten) hfl
  rw [← hn, Iso.toc, bind_apply, h3, Option.bind_some, bind_apply, h4, Option.bind_some, bind_apply, pad, List.append_assoc]
  rw [List.length_map, ← fields_flatMap] at h5
  rw [h5, Option.bind_some, bind_apply, h6]
  show (Iso.cut (l.map fun s => s.length / 8) l.flatten).bind (fun l => some (o.image, 256, l)) = _
  rw [cut_flatten l hl]
  rfl

/-! ### The header as written -/

theorem pad_append {s : List Bool} (h : s.length % 8 = 0) (t : List Bool) : pad (s ++ t) = s ++ pad t := by
  rw [pad, padding_add h, List.append_assoc, pad]

theorem pad_pad (s : List Bool) : pad (pad s) = pad s := by
  have h := pad_length s
  rw [pad, padding, show (8 - (pad s).length % 8) % 8 = 0 by omega]
  simp

theorem sizeBits_some {n : Nat} (h : 1 < n ∧ n < 2 ^ 30) : ∃ l, sizeBits n = some l ∧ (∀ q ∈ l, q.1 ≤ 56) ∧ (fields l).length ≤ 32 := by
  rw [sizeBits, if_pos h]
  refine ⟨_, rfl, ?_⟩
  split
  · simp [fields]
  · split
    · simp [fields]
    · split
      · simp [fields]
      · simp [fields]

theorem sizeBits_le {n : Nat} {l : List (Nat × Nat)} (h : sizeBits n = some l) : (1 < n ∧ n < 2 ^ 30) ∧ (∀ q ∈ l, q.1 ≤ 56) ∧ (fields l).length ≤ 32 := by
  by_cases hn : 1 < n ∧ n < 2 ^ 30
  · obtain ⟨l', h1, h2⟩ := sizeBits_some hn
    rw [h] at h1
    cases h1
    exact ⟨hn, h2⟩
  · rw [sizeBits, if_neg hn] at h
    cases h

theorem head_le {o : Opts} {h w : List (Nat × Nat)} (hh : sizeBits o.height = some h) (hw : sizeBits o.width = some w) :
    (∀ q ∈ headBits o h w, q.1 ≤ 56) ∧ (fields (headBits o h w)).length ≤ 200 ∧ (∀ q ∈ frameBits o, q.1 ≤ 56) ∧ (fields (frameBits o)).length ≤ 200 := by
  obtain ⟨-, a1, a2⟩ := sizeBits_le hh
  obtain ⟨-, b1, b2⟩ := sizeBits_le hw
  have m1 : (∀ q ∈ metadataBits o, q.1 ≤ 56) ∧ (fields (metadataBits o)).length ≤ 100 := by
    unfold metadataBits
    rw [fields_length]
    split <;> split <;> split <;> split <;> simp
  have f1 : (∀ q ∈ frameBits o, q.1 ≤ 56) ∧ (fields (frameBits o)).length ≤ 200 := by
    unfold frameBits
    rw [fields_length]
    split <;> simp
  refine ⟨?_, ?_, f1⟩
  · intro q hq
    simp only [headBits, List.mem_append, List.mem_cons, List.not_mem_nil, or_false] at hq
    rcases hq with ((((rfl | rfl) | hq) | rfl) | hq) | hq
    · decide
    · decide
    · exact a1 q hq
    · decide
    · exact b1 q hq
    · exact m1.1 q hq
  · simp only [headBits, fields_append, List.length_append]
    have : (fields [(16, 0x0AFF), (1, 0)]).length = 17 := rfl
    have : (fields [(3, 0)]).length = 3 := rfl
    omega

theorem toc_le (sizes : List Nat) : (∀ q ∈ sizes.flatMap tocBits, q.1 ≤ 56) ∧ (fields (sizes.flatMap tocBits)).length ≤ 32 * sizes.length := by
  have h1 : ∀ n, (∀ q ∈ tocBits n, q.1 ≤ 56) ∧ (fields (tocBits n)).length ≤ 32 := by
    intro n
    rw [tocBits]
    split
    · simp [fields]
    · split
      · simp [fields]
      · split
        · simp [fields]
        · simp [fields]
  constructor
  · intro q hq
    obtain ⟨n, -, hn⟩ := List.mem_flatMap.1 hq
    exact (h1 n).1 q hn
  · induction sizes with
    | nil => simp [fields]
    | cons n l ih =>
      have := (h1 n).2
      rw [List.flatMap_cons, fields_append, List.length_append, List.length_cons]
      omega

/-- The header is written when the sizes fit it. -/
theorem prepareHeader_ok {o : Opts} {h w : List (Nat × Nat)} (hh : sizeBits o.height = some h) (hw : sizeBits o.width = some w) (sizes : List Nat) :
    ∃ b, prepareHeader o sizes = some b ∧ b.Holds (fileHead o h w sizes) ∧ (fileHead o h w sizes).length + 64 ≤ 8 * b.dest.length := by
  obtain ⟨a1, a2, a3, a4⟩ := head_le hh hw
  obtain ⟨t1, t2⟩ := toc_le sizes
  obtain ⟨b, hb, hb0, hlen⟩ := BitWriter.holds_allocate (1000 + sizes.length * 32)
  have hp : ∀ n : Nat, (padding n).length < 8 := by intro n; simp [padding]; omega
  have q1 := hp (fields (headBits o h w)).length
  have hd : 1000 + sizes.length * 32 + 504 ≤ 8 * b.dest.length := by rw [hlen]; omega
  obtain ⟨c1, hc1⟩ := BitWriter.puts_ok (l := headBits o h w) hb0 a1 (by simp; omega)
  obtain ⟨h1, l1⟩ := BitWriter.puts_holds hb0 a1 hc1
  rw [List.nil_append] at h1
  obtain ⟨c2, hc2⟩ := BitWriter.zeroPad_ok h1 (by omega)
  obtain ⟨h2, l2⟩ := BitWriter.zeroPad_holds h1 hc2
  change c2.Holds (pad (fields (headBits o h w))) at h2
  have n1 : (pad (fields (headBits o h w))).length ≤ 207 := by rw [pad, List.length_append]; omega
  have m1 := pad_length (fields (headBits o h w))
  have e1 : fileHead o h w sizes = pad (fields (headBits o h w)) ++ (pad (fields (frameBits o)) ++ pad (fields (sizes.flatMap tocBits))) := rfl
  rw [e1]
  generalize pad (fields (headBits o h w)) = s1 at *
  obtain ⟨c3, hc3⟩ := BitWriter.puts_ok (l := frameBits o) h2 a3 (by omega)
  obtain ⟨h3, l3⟩ := BitWriter.puts_holds h2 a3 hc3
  have q2 := hp (s1.length + (fields (frameBits o)).length)
  obtain ⟨c4, hc4⟩ := BitWriter.zeroPad_ok h3 (by rw [List.length_append]; omega)
  obtain ⟨h4, l4⟩ := BitWriter.zeroPad_holds h3 hc4
  change c4.Holds (pad (s1 ++ fields (frameBits o))) at h4
  have n2 : (pad (s1 ++ fields (frameBits o))).length ≤ 414 := by rw [pad, List.length_append, List.length_append]; omega
  rw [pad_append m1] at h4 n2
  have m2 : (s1 ++ pad (fields (frameBits o))).length % 8 = 0 := by
    have := pad_length (fields (frameBits o))
    rw [List.length_append]; omega
  rw [← List.append_assoc]
  generalize s1 ++ pad (fields (frameBits o)) = s2 at *
  obtain ⟨c5, hc5⟩ := BitWriter.puts_ok (l := sizes.flatMap tocBits) h4 t1 (by omega)
  obtain ⟨h5, l5⟩ := BitWriter.puts_holds h4 t1 hc5
  obtain ⟨c6, hc6⟩ := BitWriter.zeroPad_ok h5 (by rw [List.length_append]; omega)
  obtain ⟨h6, l6⟩ := BitWriter.zeroPad_holds h5 hc6
  have q3 := hp (s2.length + (fields (sizes.flatMap tocBits)).length)
  change c6.Holds (pad (s2 ++ fields (sizes.flatMap tocBits))) at h6
  have n3 : (pad (s2 ++ fields (sizes.flatMap tocBits))).length ≤ 421 + 32 * sizes.length := by rw [pad, List.length_append, List.length_append]; omega
  rw [pad_append m2] at h6 n3
  refine ⟨c6, ?_, h6, by omega⟩
  rw [prepareHeader, hb, hh, hw]
  show ((b.puts (headBits o h w)).bind fun b => (b.zeroPad).bind fun b => (b.puts (frameBits o)).bind fun b => (b.zeroPad).bind fun b =>
    (b.puts (sizes.flatMap tocBits)).bind fun b => b.zeroPad) = _
  rw [hc1, Option.bind_some, hc2, Option.bind_some, hc3, Option.bind_some, hc4, Option.bind_some, hc5, Option.bind_some, hc6]

end Zune.Jxl
