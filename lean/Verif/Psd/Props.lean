/- Properties C24 and C25: PSD image data. -/
import Verif.Psd.Model
import Mathlib.Tactic.Ring
import Mathlib.Tactic.Linarith

namespace Zune.Psd
open Zune.Stream

/-! ### Specification: the file format -/

/-- A PackBits packet. -/
inductive Spec.Packet where
  | lit (bs : List UInt8)
  | run (n : Nat) (v : UInt8)
  | nop

/-- Well formed packets: 1..128 literal bytes or 2..128 repetitions. -/
def Spec.Packet.Ok : Spec.Packet → Prop
  | .lit bs => 1 ≤ bs.length ∧ bs.length ≤ 128
  | .run n _ => 2 ≤ n ∧ n ≤ 128
  | .nop => True

instance : DecidablePred Spec.Packet.Ok := fun p => by cases p <;> (unfold Spec.Packet.Ok; infer_instance)

/-- The bytes of a packet in the file. -/
def Spec.Packet.enc : Spec.Packet → List UInt8
  | .lit bs => UInt8.ofNat (bs.length - 1) :: bs
  | .run n v => [UInt8.ofNat (257 - n), v]
  | .nop => [128]

/-- The bytes a packet stands for. -/
def Spec.Packet.den : Spec.Packet → List UInt8
  | .lit bs => bs
  | .run n v => List.replicate n v
  | .nop => []

/-- A PSD file up to the image data: signature, version, reserved bytes, channels, height, width, depth, mode, three skipped
    sections, compression. -/
def Spec.header (w h ch depth mode comp : Nat) (res a b c : List UInt8) : List UInt8 :=
  [0x38, 0x42, 0x50, 0x53] ++ beBytes 2 1 ++ res ++ beBytes 2 ch ++ beBytes 4 h ++ beBytes 4 w ++ beBytes 2 depth ++
    beBytes 2 mode ++ beBytes 4 a.length ++ a ++ beBytes 4 b.length ++ b ++ beBytes 4 c.length ++ c ++ beBytes 2 comp

/-- `out` is the pixel-interleaved form of the planes for `n` pixels: sample `j` of pixel `k` is sample `k` of plane `j`. -/
def Spec.Interleaved {α : Type} (planes : List (List α)) (n : Nat) (out : List α) : Prop :=
  out.length = n * planes.length ∧
  ∀ k < n, ∀ j < planes.length, out[k * planes.length + j]? = (planes[j]?).bind fun p => p[k]?

/-! ### Helper lemmas -/

@[simp] theorem putStrided_length (buf : List UInt8) (pos step : Nat) (vs : List UInt8) :
    (putStrided buf pos step vs).length = buf.length := by
  induction vs generalizing buf pos with
  | nil => rfl
  | cons v vs ih => simp [putStrided, ih]

theorem putStrided_append (buf : List UInt8) (pos step : Nat) (a b : List UInt8) :
    putStrided buf pos step (a ++ b) = putStrided (putStrided buf pos step a) (pos + step * a.length) step b := by
  induction a generalizing buf pos with
  | nil => simp [putStrided]
  | cons v a ih =>
    simp only [List.cons_append, putStrided, ih, List.length_cons]
    congr 1; ring

theorem putStrided_other (buf : List UInt8) (pos step i : Nat) (vs : List UInt8) (h : ∀ k < vs.length, i ≠ pos + k * step) :
    (putStrided buf pos step vs)[i]? = buf[i]? := by
  induction vs generalizing buf pos with
  | nil => rfl
  | cons v vs ih =>
    rw [putStrided, ih]
    · rw [List.getElem?_set_ne]
      have := h 0 (by simp); omega
    · intro k hk
      have := h (k + 1) (by simp; omega)
      rw [Nat.add_mul] at this; omega

theorem putStrided_get (buf : List UInt8) (pos step : Nat) (vs : List UInt8) (hs : 0 < step) (k : Nat) (hk : k < vs.length)
    (hb : pos + (vs.length - 1) * step < buf.length) : (putStrided buf pos step vs)[pos + k * step]? = vs[k]? := by
  induction vs generalizing buf pos k with
  | nil => simp at hk
  | cons v vs ih =>
    rw [putStrided]
    cases k with
    | zero =>
      rw [putStrided_other]
      · simp at hb ⊢
        rw [List.getElem?_set_self]; omega
      · intro k _
        have : 0 ≤ k * step := Nat.zero_le _
        omega
    | succ k =>
      simp only [List.length_cons] at hk hb
      have h1 : pos + (k + 1) * step = pos + step + k * step := by ring
      rw [h1, ih (buf.set pos v) (pos + step) k (by omega) ?_]
      · simp
      · have h2 : vs.length + 1 - 1 = (vs.length - 1) + 1 := by omega
        rw [h2, Nat.add_mul] at hb
        simp; omega

theorem u8s_append (l s : List UInt8) : u8s l.length (l ++ s) = (l, s) := by
  induction l with
  | nil => rfl
  | cons a l ih => simp [u8s, u8, ih]

theorem u8_cons (b : UInt8) (s : List UInt8) : u8 (b :: s) = (b, s) := rfl

theorem only_nops (ps : List Spec.Packet) (hok : ∀ p ∈ ps, p.Ok) (h : (ps.flatMap Spec.Packet.den).length = 0) :
    ∃ m, ps.flatMap Spec.Packet.enc = List.replicate m 128 := by
  induction ps with
  | nil => exact ⟨0, rfl⟩
  | cons p ps ih =>
    simp only [List.flatMap_cons, List.length_append] at h
    obtain ⟨m, hm⟩ := ih (fun q hq => hok q (by simp [hq])) (by omega)
    have hp := hok p (by simp)
    cases p with
    | lit bs => simp only [Spec.Packet.Ok, Spec.Packet.den] at hp h; omega
    | run n v => simp only [Spec.Packet.Ok, Spec.Packet.den, List.length_replicate] at hp h; omega
    | nop => exact ⟨m + 1, by rw [List.flatMap_cons, hm]; rfl⟩

theorem rleLoop_nops (c : Nat) (buf : List UInt8) (pos nleft m : Nat) (s : List UInt8) (h : 0 < nleft) :
    rleLoop c buf pos nleft (List.replicate m 128 ++ s) = rleLoop c buf pos nleft s := by
  induction m with
  | zero => rfl
  | succ m ih =>
    rw [List.replicate_succ, List.cons_append, rleLoop]
    have e : (u8 (128 :: (List.replicate m 128 ++ s))).1.toNat = 128 := rfl
    rw [if_neg (by omega), if_neg (by omega), if_pos e]
    exact ih

theorem rleLoop_packets (c : Nat) (ps : List Spec.Packet) (hok : ∀ p ∈ ps, p.Ok) (buf : List UInt8) (pos : Nat)
    (s : List UInt8) (hb : pos + c * (ps.flatMap Spec.Packet.den).length ≤ buf.length) :
    ∃ m, rleLoop c buf pos (ps.flatMap Spec.Packet.den).length (ps.flatMap Spec.Packet.enc ++ s) =
      .ok (putStrided buf pos c (ps.flatMap Spec.Packet.den), List.replicate m 128 ++ s) := by
  induction ps generalizing buf pos with
  | nil => exact ⟨0, by rw [rleLoop]; simp [putStrided]⟩
  | cons p ps ih =>
    have hp := hok p (by simp)
    have hps : ∀ q ∈ ps, q.Ok := fun q hq => hok q (by simp [hq])
    simp only [List.flatMap_cons, List.length_append, List.append_assoc] at hb ⊢
    generalize hD : ps.flatMap Spec.Packet.den = D at hb ih ⊢
    generalize hE : ps.flatMap Spec.Packet.enc = E at ih ⊢
    rw [Nat.mul_add] at hb
    cases p with
    | lit bs =>
      obtain ⟨h1, h2⟩ := hp
      simp only [Spec.Packet.den, Spec.Packet.enc] at hb ⊢
      have ht : (UInt8.ofNat (bs.length - 1)).toNat = bs.length - 1 := UInt8.toNat_ofNat_of_lt' (by show _ < 256; omega)
      obtain ⟨m, hm⟩ := ih hps (putStrided buf pos c bs) (pos + c * bs.length) (by simp; omega)
      refine ⟨m, ?_⟩
      rw [List.cons_append, rleLoop]
      simp only [u8_cons, ht]
      rw [if_neg (by omega), if_pos (by omega), show bs.length - 1 + 1 = bs.length by omega, if_neg (by omega),
        if_neg (by omega), u8s_append, show bs.length + D.length - bs.length = D.length by omega, hm, putStrided_append]
    | run n v =>
      obtain ⟨h1, h2⟩ := hp
      simp only [Spec.Packet.den, Spec.Packet.enc, List.length_replicate] at hb ⊢
      have ht : (UInt8.ofNat (257 - n)).toNat = 257 - n := UInt8.toNat_ofNat_of_lt' (by show _ < 256; omega)
      have hand : (257 - (257 - n)) &&& 255 = n := by
        rw [show (255 : Nat) = 2 ^ 8 - 1 by rfl, Nat.and_two_pow_sub_one_eq_mod]; omega
      obtain ⟨m, hm⟩ := ih hps (putStrided buf pos c (List.replicate n v)) (pos + c * n) (by simp; omega)
      refine ⟨m, ?_⟩
      rw [List.cons_append, List.cons_append, List.nil_append, rleLoop]
      simp only [u8_cons, ht, hand]
      rw [if_neg (by omega), if_neg (by omega), if_neg (by omega), if_neg (by omega),
        if_neg (by omega), show n + D.length - n = D.length by omega, hm, putStrided_append]
      simp
    | nop =>
      simp only [Spec.Packet.den, Spec.Packet.enc, List.length_nil, Nat.zero_add, List.nil_append] at hb ⊢
      by_cases h0 : D.length = 0
      · obtain ⟨m, hm⟩ := only_nops ps hps (by rw [hD]; exact h0)
        rw [hE] at hm
        have hD0 : D = [] := List.length_eq_zero_iff.mp h0
        refine ⟨m + 1, ?_⟩
        rw [rleLoop, if_pos h0, hm, hD0]
        rfl
      · obtain ⟨m, hm⟩ := ih hps buf pos (by omega)
        refine ⟨m, ?_⟩
        rw [← hm]
        exact rleLoop_nops c buf pos D.length 1 _ (by omega)

/-- The planes stored one after the other. -/
def storePlanes (c : Nat) (buf : List UInt8) (j : Nat) : List (List UInt8) → List UInt8
  | [] => buf
  | p :: ps => storePlanes c (putStrided buf j c p) (j + 1) ps

@[simp] theorem storePlanes_length (c : Nat) (buf : List UInt8) (j : Nat) (ps : List (List UInt8)) :
    (storePlanes c buf j ps).length = buf.length := by
  induction ps generalizing buf j with
  | nil => rfl
  | cons p ps ih => simp [storePlanes, ih]

theorem mod_pos (c k j k' j' : Nat) (hj : j < c) (hj' : j' < c) (h : k * c + j' = j + k' * c) : j' = j := by
  have h1 : (k * c + j') % c = j' := by rw [Nat.add_comm, Nat.add_mul_mod_self_right, Nat.mod_eq_of_lt hj']
  have h2 : (j + k' * c) % c = j := by rw [Nat.add_mul_mod_self_right, Nat.mod_eq_of_lt hj]
  rw [← h1, ← h2, h]

theorem last_lt (n c j : Nat) (hj : j < c) (hn : 0 < n) : j + (n - 1) * c < n * c := by
  obtain ⟨n, rfl⟩ : ∃ m, n = m + 1 := ⟨n - 1, by omega⟩
  rw [Nat.add_sub_cancel, Nat.add_mul]; omega

theorem storePlanes_get (c pc : Nat) (ps : List (List UInt8)) (hps : ∀ p ∈ ps, p.length = pc) (buf : List UInt8) (j : Nat)
    (hj : j + ps.length = c) (hb : pc * c ≤ buf.length) (k j' : Nat) (hk : k < pc) (hj' : j' < c) :
    (storePlanes c buf j ps)[k * c + j']? =
      if j ≤ j' then (ps[j' - j]?).bind (fun p => p[k]?) else buf[k * c + j']? := by
  induction ps generalizing buf j with
  | nil => rw [if_neg (by simp at hj; omega)]; rfl
  | cons p ps ih =>
    have hp := hps p (by simp)
    simp only [List.length_cons] at hj
    rw [storePlanes, ih (fun q hq => hps q (by simp [hq])) _ (j + 1) (by omega) (by simpa using hb)]
    rcases Nat.lt_trichotomy j j' with h | h | h
    · rw [if_pos (by omega), if_pos (by omega), show j' - j = (j' - (j + 1)) + 1 by omega]
      simp
    · subst h
      rw [if_neg (by omega), if_pos (by omega), show k * c + j = j + k * c by ring,
        putStrided_get _ _ _ _ (by omega) k (by omega)]
      · simp
      · rw [hp]; exact Nat.lt_of_lt_of_le (last_lt pc c j (by omega) (by omega)) hb
    · rw [if_neg (by omega), if_neg (by omega), putStrided_other]
      intro k' _ he
      have := mod_pos c k j k' j' (by omega) hj' he
      omega

theorem rleChannels_spec (c pc : Nat) (hpc : 0 < pc) (planes : List (List Spec.Packet))
    (hok : ∀ ps ∈ planes, ∀ p ∈ ps, p.Ok) (hden : ∀ ps ∈ planes, (ps.flatMap Spec.Packet.den).length = pc)
    (buf : List UInt8) (j m0 : Nat) (s : List UInt8) (hj : j + planes.length = c) (hb : c + c * pc ≤ buf.length) :
    ∃ s', rleChannels c pc buf (List.replicate m0 128 ++ (planes.flatMap (fun ps => ps.flatMap Spec.Packet.enc) ++ s)) j planes.length =
      .ok (storePlanes c buf j (planes.map fun ps => ps.flatMap Spec.Packet.den), s') := by
  induction planes generalizing buf j m0 with
  | nil => exact ⟨_, rfl⟩
  | cons ps planes ih =>
    simp only [List.length_cons] at hj
    have hd := hden ps (by simp)
    obtain ⟨m, hm⟩ := rleLoop_packets c ps (hok ps (by simp)) buf j
      (planes.flatMap (fun ps => ps.flatMap Spec.Packet.enc) ++ s) (by rw [hd]; omega)
    rw [hd] at hm
    obtain ⟨s', hs'⟩ := ih (fun q hq => hok q (by simp [hq])) (fun q hq => hden q (by simp [hq]))
      (putStrided buf j c (ps.flatMap Spec.Packet.den)) (j + 1) m (by omega) (by simpa using hb)
    refine ⟨s', ?_⟩
    simp only [List.length_cons, rleChannels, List.flatMap_cons, List.append_assoc]
    rw [rleLoop_nops c buf j pc m0 _ hpc, hm]
    exact hs'

theorem bind_be {β : Type} (k v : Nat) (s : List UInt8) (f : Nat × List UInt8 → Except Err β) (h : v < 256 ^ k) :
    (io (be k (beBytes k v ++ s)) >>= f) = f (v, s) := by
  rw [be_append k v s h]; rfl

theorem skip_append (x t : List UInt8) : skip x.length (x ++ t) = t := by simp [skip]

theorem decodeHeaders_spec (maxW maxH w h ch depth mode comp : Nat) (res a b c s : List UInt8)
    (hw : 0 < w) (hw1 : w ≤ maxW) (hw2 : w < 2 ^ 32) (hh : 0 < h) (hh1 : h ≤ maxH) (hh2 : h < 2 ^ 32)
    (hch : 0 < ch) (hch4 : ch ≤ 4) (hdep : depth = 8 ∨ depth = 16) (hmode : mode = 3 ∨ mode = 1 ∨ mode = 4)
    (hcomp : comp ≤ 1) (hres : res.length = 6) (ha : a.length < 2 ^ 32) (hb : b.length < 2 ^ 32) (hc : c.length < 2 ^ 32) :
    decodeHeaders maxW maxH (Spec.header w h ch depth mode comp res a b c ++ s) =
      .ok (⟨w, h, if mode = 1 then 1 else ch, depth == 16, mode, comp == 1⟩, s) := by
  have hmagic : ([0x38, 0x42, 0x50, 0x53] : List UInt8) = beBytes 4 0x38425053 := by decide
  have hskip6 : ∀ (t : List UInt8), skip 6 (res ++ t) = t := by intro t; rw [← hres]; exact skip_append res t
  unfold decodeHeaders Spec.header
  simp only [hmagic, List.append_assoc]
  rw [bind_be 4 _ _ _ (by norm_num)]
  simp only [ne_eq, not_true_eq_false, if_false]
  rw [bind_be 2 1 _ _ (by norm_num)]
  simp only [not_true_eq_false, if_false, hskip6]
  rw [bind_be 2 ch _ _ (by omega)]
  simp only
  rw [if_neg (by omega), bind_be 4 h _ _ (by omega)]
  simp only
  rw [bind_be 4 w _ _ (by omega)]
  simp only
  rw [if_neg (by omega), if_neg (by omega), if_neg (by omega), bind_be 2 depth _ _ (by omega)]
  simp only
  rw [if_neg (by omega), bind_be 2 mode _ _ (by omega)]
  simp only
  rw [if_neg (by omega), bind_be 4 a.length _ _ (by omega)]
  simp only
  rw [skip_append, bind_be 4 b.length _ _ (by omega)]
  simp only
  rw [skip_append, bind_be 4 c.length _ _ (by omega)]
  simp only
  rw [skip_append, bind_be 2 comp _ _ (by omega)]
  simp only
  rw [if_neg (by omega)]
  rfl

@[simp] theorem matte8_length (m : Matte) (l : List UInt8) : (matte8 m l).length = l.length := by
  fun_induction matte8 with
  | case1 r g b a t ih => split <;> simp [ih]
  | case2 => rfl

theorem matte8_get (m : Matte) (l : List UInt8) (k j : Nat) (hj : j < 4)
    (h : j = 3 ∨ l[k * 4 + 3]? = some 0 ∨ l[k * 4 + 3]? = some 255) : (matte8 m l)[k * 4 + j]? = l[k * 4 + j]? := by
  fun_induction matte8 generalizing k with
  | case1 r g b a t ih =>
    cases k with
    | zero =>
      simp only [Nat.zero_mul, Nat.zero_add] at h ⊢
      by_cases ha : a ≠ 0 ∧ a ≠ 255
      · have hj3 : j = 3 := by
          rcases h with h | h | h
          · exact h
          · simp at h; exact absurd h ha.1
          · simp at h; exact absurd h ha.2
        subst hj3
        rw [if_pos ha]; rfl
      · rw [if_neg ha]
        match j, hj with
        | 0, _ => rfl
        | 1, _ => rfl
        | 2, _ => rfl
        | 3, _ => rfl
    | succ k =>
      have e : ∀ i, (k + 1) * 4 + i = (k * 4 + i) + 4 := by intro i; ring
      rw [e] at h
      rw [e]
      have h4 : ∀ (x : List UInt8) (y : List UInt8), x.length = 4 → (x ++ y)[k * 4 + j + 4]? = y[k * 4 + j]? := by
        intro x y hx
        rw [List.getElem?_append_right (by omega), hx, Nat.add_sub_cancel]
      rw [h4 _ _ (by split <;> rfl), ih k h]
      rfl
  | case2 => rfl

theorem take_get {α : Type} (l : List α) (n i : Nat) (h : i < n) : (l.take n)[i]? = l[i]? := List.getElem?_take_of_lt h

theorem index_lt (pc c k j : Nat) (hk : k < pc) (hj : j < c) : k * c + j < pc * c := by
  have : (k + 1) * c ≤ pc * c := Nat.mul_le_mul_right c hk
  rw [Nat.add_mul] at this; omega

/-! ### C24 -/

/-- **C24** (PackBits): a complete PSD file with run-length coded 8-bit image data, one group of packets per channel, decodes to
    the bytes the packets stand for, sample `j` of pixel `k` at position `k * channels + j`.
    Partial in two respects.  Files in greyscale mode with more than one channel are decoded wrongly (`c24_grey_alpha_wrong`).
    With four channels the decoder removes a white matte from pixels whose alpha is neither 0 nor 255, so for these only the
    fourth sample is claimed (the floating point formula is a parameter of the model). -/
theorem c24_rle_partial (m : Matte) (maxW maxH w h mode : Nat) (res a b c table rest : List UInt8)
    (planes : List (List Spec.Packet))
    (hw : 0 < w) (hw1 : w ≤ maxW) (hw2 : w < 2 ^ 32) (hh : 0 < h) (hh1 : h ≤ maxH) (hh2 : h < 2 ^ 32)
    (hch : 0 < planes.length) (hch4 : planes.length ≤ 4) (hmode : mode = 3 ∨ mode = 4 ∨ (mode = 1 ∧ planes.length = 1))
    (hres : res.length = 6) (ha : a.length < 2 ^ 32) (hb : b.length < 2 ^ 32) (hc : c.length < 2 ^ 32)
    (htable : table.length = 2 * h * planes.length)
    (hok : ∀ ps ∈ planes, ∀ p ∈ ps, p.Ok) (hden : ∀ ps ∈ planes, (ps.flatMap Spec.Packet.den).length = w * h) :
    ∃ out, decode m maxW maxH (Spec.header w h planes.length 8 mode 1 res a b c ++
        (table ++ (planes.flatMap (fun ps => ps.flatMap Spec.Packet.enc) ++ rest))) =
        .ok (⟨w, h, planes.length, false, mode, true⟩, .u8 out) ∧
      out.length = w * h * planes.length ∧
      ∀ k < w * h, ∀ j < planes.length,
        (planes.length < 4 ∨ j = 3 ∨
          ((planes[3]?).bind fun ps => (ps.flatMap Spec.Packet.den)[k]?) = some 0 ∨
          ((planes[3]?).bind fun ps => (ps.flatMap Spec.Packet.den)[k]?) = some 255) →
        out[k * planes.length + j]? = (planes[j]?).bind fun ps => (ps.flatMap Spec.Packet.den)[k]? := by
  generalize hn : planes.length = n at *
  have hpc : 0 < w * h := Nat.mul_pos hw hh
  have hhd := decodeHeaders_spec maxW maxH w h n 8 mode 1 res a b c
    (table ++ (planes.flatMap (fun ps => ps.flatMap Spec.Packet.enc) ++ rest)) hw hw1 hw2 hh hh1 hh2 hch hch4 (Or.inl rfl)
    (by omega) (by omega) hres ha hb hc
  have hif : (if mode = 1 then 1 else n) = n := by split <;> omega
  rw [hif] at hhd
  obtain ⟨s', hs'⟩ := rleChannels_spec n (w * h) hpc planes hok hden (List.replicate (w * h * n + 10) 0) 0 0 rest (by omega)
    (by rw [List.length_replicate, Nat.mul_comm n]; omega)
  rw [hn] at hs'
  have hskip : skip (h * n * 2) (table ++ (planes.flatMap (fun ps => ps.flatMap Spec.Packet.enc) ++ rest)) =
      planes.flatMap (fun ps => ps.flatMap Spec.Packet.enc) ++ rest := by
    rw [show h * n * 2 = table.length by rw [htable]; ring]; exact skip_append _ _
  generalize hbuf : storePlanes n (List.replicate (w * h * n + 10) 0) 0 (planes.map fun ps => ps.flatMap Spec.Packet.den) = buf at hs'
  have hbl : buf.length = w * h * n + 10 := by rw [← hbuf]; simp
  have hget : ∀ k < w * h, ∀ j < n, (buf.take (w * h * n))[k * n + j]? = (planes[j]?).bind fun ps => (ps.flatMap Spec.Packet.den)[k]? := by
    intro k hk j hj
    rw [take_get _ _ _ (index_lt _ _ _ _ hk hj), ← hbuf, storePlanes_get n (w * h) _ (by
        intro p hp; rw [List.mem_map] at hp; obtain ⟨q, hq, rfl⟩ := hp; exact hden q hq) _ 0 (by simp; omega) (by simp) k j hk hj]
    simp only [Nat.zero_le, if_true, Nat.sub_zero, List.getElem?_map]
    cases planes[j]? <;> rfl
  refine ⟨if n ≥ 4 then matte8 m (buf.take (w * h * n)) else buf.take (w * h * n), ?_, ?_, ?_⟩
  · unfold decode decodeRaw
    rw [hhd]
    simp only [bind, Except.bind, decodeBody, hskip]
    simp only [List.replicate_zero, List.nil_append] at hs'
    simp [hs', pure, Except.pure]
  · split <;> simp [hbl]
  · intro k hk j hj hcond
    by_cases h4 : n ≥ 4
    · have hn4 : n = 4 := by omega
      rw [if_pos h4]
      have h3 := hget k hk 3 (by omega)
      rw [hn4] at h3 hget hj ⊢
      rw [matte8_get m _ k j (by omega)]
      · exact hget k hk j hj
      · rw [h3]
        rcases hcond with h | h | h
        · omega
        · exact Or.inl h
        · exact Or.inr h
    · rw [if_neg h4]; exact hget k hk j hj

/-- A 2x2 RGB file with literal, run and no-op packets satisfies the hypotheses and shows what is decoded. -/
example (m : Matte) : decode m 16384 16384 (Spec.header 2 2 3 8 3 1 [0, 0, 0, 0, 0, 0] [] [1, 2] [] ++
      (List.replicate 12 9 ++ ([[.run 4 7], [.lit [1, 2], .nop, .run 2 5], [.nop, .lit [10, 20, 30, 40]]].flatMap
        (fun ps => ps.flatMap Spec.Packet.enc) ++ []))) =
    .ok (⟨2, 2, 3, false, 3, true⟩, .u8 [7, 1, 10, 7, 2, 20, 7, 5, 30, 7, 5, 40]) := by
  obtain ⟨out, h1, h2, h3⟩ := c24_rle_partial m 16384 16384 2 2 3 [0, 0, 0, 0, 0, 0] [] [1, 2] [] (List.replicate 12 9) []
    [[.run 4 7], [.lit [1, 2], .nop, .run 2 5], [.nop, .lit [10, 20, 30, 40]]] (by decide) (by decide) (by decide) (by decide)
    (by decide) (by decide) (by decide) (by decide) (by decide) (by decide) (by decide) (by decide) (by decide) (by decide)
    (by decide) (by decide)
  have : out = [7, 1, 10, 7, 2, 20, 7, 5, 30, 7, 5, 40] := by
    apply List.ext_getElem?
    intro i
    by_cases hi : i < 12
    · have := h3 (i / 3) (by omega) (i % 3) (by simp; omega) (Or.inl (by simp))
      rw [show i / 3 * [[Spec.Packet.run 4 7], [.lit [1, 2], .nop, .run 2 5], [.nop, .lit [10, 20, 30, 40]]].length + i % 3 = i by
        simp; omega] at this
      rw [this]
      have key : ∀ i < 12, ((([[Spec.Packet.run 4 7], [.lit [1, 2], .nop, .run 2 5], [.nop, .lit [10, 20, 30, 40]]])[i % 3]?).bind
          fun ps => (ps.flatMap Spec.Packet.den)[i / 3]?) = ([7, 1, 10, 7, 2, 20, 7, 5, 30, 7, 5, 40] : List UInt8)[i]? := by decide
      exact key i hi
    · rw [List.getElem?_eq_none (by simp at h2; omega), List.getElem?_eq_none (by simp; omega)]
  rw [← this]; exact h1

/-- **C24, negation**: greyscale mode with two channels (grey and alpha): the decoder sets the channel count to one before it
    skips the table of row lengths, so that it skips half of the table and decodes the other half as image data.  The grey
    value 77 is lost. -/
theorem c24_grey_alpha_wrong (m : Matte) :
    decode m 16384 16384 (Spec.header 1 1 2 8 1 1 [0, 0, 0, 0, 0, 0] [] [] [] ++
      ([0, 2, 0, 2] ++ ([[Spec.Packet.lit [77]], [.lit [200]]].flatMap (fun ps => ps.flatMap Spec.Packet.enc)))) =
    .ok (⟨1, 1, 1, false, 1, true⟩, .u8 [2]) := by
  have hhd := decodeHeaders_spec 16384 16384 1 1 2 8 1 1 [0, 0, 0, 0, 0, 0] [] [] []
    ([0, 2, 0, 2] ++ ([[Spec.Packet.lit [77]], [.lit [200]]].flatMap (fun ps => ps.flatMap Spec.Packet.enc)))
    (by decide) (by decide) (by decide) (by decide) (by decide) (by decide) (by decide) (by decide) (by decide) (by decide)
    (by decide) (by decide) (by decide) (by decide) (by decide)
  unfold decode decodeRaw
  rw [hhd]
  simp [bind, Except.bind, decodeBody, rleChannels, rleLoop, skip, u8, u8s, putStrided, pure, Except.pure]

/-! ### C25 -/

theorem rawLoop_one (pc : Nat) (i : Nat) (buf l s : List UInt8) (h : i + l.length = pc) (hb : pc ≤ buf.length) :
    rawLoop 1 pc i buf (l ++ s) = .ok (putStrided buf i 1 l, s) := by
  induction l generalizing i buf with
  | nil => rw [rawLoop, if_neg (by simp at h; omega)]; rfl
  | cons b l ih =>
    simp only [List.length_cons] at h
    rw [rawLoop, if_pos (by omega)]
    simp only [List.cons_append, u8Err]
    rw [ih (i + 1) (buf.set i b) (by omega) (by simpa using hb)]
    rfl

theorem rawLoop_keeps (c pc i : Nat) (buf s : List UInt8) (out s' : List UInt8) (h : rawLoop c pc i buf s = .ok (out, s')) :
    out.length = buf.length ∧ ∀ n, pc ≤ n → out[n]? = buf[n]? := by
  fun_induction rawLoop with
  | case1 => simp at h
  | case2 i buf s hc b s1 hs ih =>
    obtain ⟨h1, h2⟩ := ih h
    refine ⟨by simpa using h1, fun n hn => ?_⟩
    rw [h2 n hn, List.getElem?_set_ne]; omega
  | case3 =>
    simp at h
    obtain ⟨h1, h2⟩ := h
    subst h1; exact ⟨rfl, fun _ _ => rfl⟩

theorem rawChannels_keeps (c pc : Nat) (buf s : List UInt8) (j n : Nat) (out s' : List UInt8)
    (h : rawChannels c pc buf s j n = .ok (out, s')) : out.length = buf.length ∧ ∀ i, pc ≤ i → out[i]? = buf[i]? := by
  induction n generalizing buf s j with
  | zero => simp [rawChannels] at h; obtain ⟨h1, h2⟩ := h; subst h1; exact ⟨rfl, fun _ _ => rfl⟩
  | succ n ih =>
    rw [rawChannels] at h
    cases hr : rawLoop c pc j buf s with
    | error e => rw [hr] at h; simp at h
    | ok p =>
      obtain ⟨b1, s1⟩ := p
      rw [hr] at h
      obtain ⟨h1, h2⟩ := ih b1 s1 (j + 1) h
      obtain ⟨h3, h4⟩ := rawLoop_keeps c pc j buf s b1 s1 hr
      exact ⟨h1.trans h3, fun i hi => (h2 i hi).trans (h4 i hi)⟩

/-- **C25**, one channel of 8 bits: the samples of an uncompressed file come out in order.  Wrong for more channels
    (`c25_eight_bit_lost`). -/
theorem c25_eight_bit_partial (m : Matte) (maxW maxH w h mode : Nat) (res a b c samples rest : List UInt8)
    (hw : 0 < w) (hw1 : w ≤ maxW) (hw2 : w < 2 ^ 32) (hh : 0 < h) (hh1 : h ≤ maxH) (hh2 : h < 2 ^ 32)
    (hmode : mode = 3 ∨ mode = 1 ∨ mode = 4)
    (hres : res.length = 6) (ha : a.length < 2 ^ 32) (hb : b.length < 2 ^ 32) (hc : c.length < 2 ^ 32)
    (hs : samples.length = w * h) :
    decode m maxW maxH (Spec.header w h 1 8 mode 0 res a b c ++ (samples ++ rest)) =
      .ok (⟨w, h, 1, false, mode, false⟩, .u8 samples) := by
  have hhd := decodeHeaders_spec maxW maxH w h 1 8 mode 0 res a b c (samples ++ rest) hw hw1 hw2 hh hh1 hh2 (by omega) (by omega)
    (Or.inl rfl) hmode (by omega) hres ha hb hc
  rw [show (if mode = 1 then 1 else 1) = 1 by split <;> rfl] at hhd
  have hl := rawLoop_one (w * h) 0 (List.replicate (w * h * 1 + 10) 0) samples rest (by omega) (by simp)
  have hout : (putStrided (List.replicate (w * h * 1 + 10) 0) 0 1 samples).take (w * h * 1) = samples := by
    apply List.ext_getElem?
    intro i
    by_cases hi : i < w * h
    · rw [take_get _ _ _ (by omega)]
      have := putStrided_get (List.replicate (w * h * 1 + 10) 0) 0 1 samples (by omega) i (by omega) (by simp; omega)
      rw [show 0 + i * 1 = i by omega] at this
      exact this
    · rw [List.getElem?_eq_none (by simp; omega), List.getElem?_eq_none (by omega)]
  unfold decode decodeRaw
  rw [hhd]
  simp only [bind, Except.bind, decodeBody]
  simp only [show ((8 : Nat) == 16) = false from rfl, show ((0 : Nat) == 1) = false from rfl, rawChannels, hl]
  rw [hout]
  rfl

/-- **C25, negation** for 8-bit files with two or three channels, whatever they contain: of the interleaved output only the
    first `w * h` samples are ever written; all the others are zero. -/
theorem c25_eight_bit_lost (m : Matte) (hd : Header) (s out : List UInt8) (hwide : hd.wide = false) (hrle : hd.rle = false)
    (hch : hd.ch = 2 ∨ hd.ch = 3) (h : decodeBody m hd s = .ok out) :
    out.length = hd.w * hd.h * hd.ch ∧ ∀ i, hd.w * hd.h ≤ i → i < hd.w * hd.h * hd.ch → out[i]? = some 0 := by
  unfold decodeBody at h
  rw [hwide, hrle] at h
  simp only at h
  cases hr : rawChannels hd.ch (hd.w * hd.h) (List.replicate (hd.w * hd.h * hd.ch + 10) 0) s 0 hd.ch with
  | error e => rw [hr] at h; simp at h
  | ok p =>
    obtain ⟨b1, s1⟩ := p
    rw [hr] at h
    simp only at h
    rw [if_neg (by omega)] at h
    simp at h
    obtain ⟨h1, h2⟩ := rawChannels_keeps _ _ _ _ _ _ _ _ hr
    subst h
    refine ⟨by simp [h1], fun i hi1 hi2 => ?_⟩
    rw [take_get _ _ _ hi2, h2 i hi1, List.getElem?_replicate, if_pos (by omega)]

/-- The hypotheses are met, and the pixels are really lost: a red-green-blue pixel (10, 20, 30) decodes to (10, 0, 0). -/
example (m : Matte) : decode m 16384 16384 (Spec.header 1 1 3 8 3 0 [0, 0, 0, 0, 0, 0] [] [] [] ++ [10, 20, 30]) =
    .ok (⟨1, 1, 3, false, 3, false⟩, .u8 [10, 0, 0]) := by
  have hhd := decodeHeaders_spec 16384 16384 1 1 3 8 3 0 [0, 0, 0, 0, 0, 0] [] [] [] [10, 20, 30]
    (by decide) (by decide) (by decide) (by decide) (by decide) (by decide) (by decide) (by decide) (by decide) (by decide)
    (by decide) (by decide) (by decide) (by decide) (by decide)
  unfold decode decodeRaw
  rw [hhd]
  simp [bind, Except.bind, decodeBody, rawChannels, rawLoop, u8Err, pure, Except.pure]

/-- 16-bit stores at byte positions `pos`, `pos + step`, ... . -/
def put16 (buf : List UInt8) (pos step : Nat) : List Nat → List UInt8
  | [] => buf
  | v :: vs => put16 ((buf.set pos (UInt8.ofNat v)).set (pos + 1) (UInt8.ofNat (v / 256))) (pos + step) step vs

@[simp] theorem put16_length (buf : List UInt8) (pos step : Nat) (vs : List Nat) : (put16 buf pos step vs).length = buf.length := by
  induction vs generalizing buf pos with
  | nil => rfl
  | cons v vs ih => simp [put16, ih]

theorem put16_other (buf : List UInt8) (pos step i : Nat) (vs : List Nat)
    (h : ∀ k < vs.length, i ≠ pos + k * step ∧ i ≠ pos + k * step + 1) : (put16 buf pos step vs)[i]? = buf[i]? := by
  induction vs generalizing buf pos with
  | nil => rfl
  | cons v vs ih =>
    rw [put16, ih]
    · have := h 0 (by simp)
      rw [List.getElem?_set_ne (by omega), List.getElem?_set_ne (by omega)]
    · intro k hk
      have := h (k + 1) (by simp; omega)
      rw [Nat.add_mul] at this; omega

theorem put16_get (buf : List UInt8) (pos step : Nat) (vs : List Nat) (hs : 2 ≤ step) (k : Nat) (v : Nat) (hk : vs[k]? = some v)
    (hb : pos + (vs.length - 1) * step + 1 < buf.length) :
    (put16 buf pos step vs)[pos + k * step]? = some (UInt8.ofNat v) ∧
    (put16 buf pos step vs)[pos + k * step + 1]? = some (UInt8.ofNat (v / 256)) := by
  induction vs generalizing buf pos k with
  | nil => simp at hk
  | cons u vs ih =>
    rw [put16]
    cases k with
    | zero =>
      simp at hk
      subst hk
      have hother : ∀ e < 2, ∀ k < vs.length, pos + 0 * step + e ≠ pos + step + k * step ∧
          pos + 0 * step + e ≠ pos + step + k * step + 1 := by
        intro e he k _
        have : 0 ≤ k * step := Nat.zero_le _
        omega
      constructor
      · rw [show pos + 0 * step = pos + 0 * step + 0 by omega, put16_other _ _ _ _ _ (fun k hk => hother 0 (by omega) k hk),
          List.getElem?_set_ne (by omega), show pos + 0 * step + 0 = pos by omega, List.getElem?_set_self (by omega)]
      · rw [put16_other _ _ _ _ _ (fun k hk => hother 1 (by omega) k hk),
          show pos + 0 * step + 1 = pos + 1 by omega, List.getElem?_set_self (by simp; omega)]
    | succ k =>
      have hkl : k < vs.length := by
        rcases Nat.lt_or_ge k vs.length with h | h
        · exact h
        · simp [List.getElem?_eq_none h] at hk
      simp only [List.length_cons] at hb
      have h1 : pos + (k + 1) * step = pos + step + k * step := by ring
      rw [h1]
      refine ih _ (pos + step) k (by simpa using hk) ?_
      have h2 : vs.length + 1 - 1 = (vs.length - 1) + 1 := by omega
      rw [h2, Nat.add_mul] at hb
      simp; omega

theorem rawLoop16_spec (c pos : Nat) (buf s : List UInt8) (vs : List Nat) (hv : ∀ v ∈ vs, v < 65536) :
    rawLoop16 c pos buf (vs.flatMap (beBytes 2) ++ s) vs.length = .ok (put16 buf pos (2 * c) vs, s) := by
  induction vs generalizing pos buf with
  | nil => rfl
  | cons v vs ih =>
    have := be_append 2 v (vs.flatMap (beBytes 2) ++ s) (by have := hv v (by simp); omega)
    simp only [List.flatMap_cons, List.append_assoc, List.length_cons, rawLoop16, this]
    exact ih _ _ (fun u hu => hv u (by simp [hu]))

/-- The planes stored one after the other, 16 bit. -/
def storePlanes16 (c : Nat) (buf : List UInt8) (j : Nat) : List (List Nat) → List UInt8
  | [] => buf
  | p :: ps => storePlanes16 c (put16 buf (2 * j) (2 * c) p) (j + 1) ps

@[simp] theorem storePlanes16_length (c : Nat) (buf : List UInt8) (j : Nat) (ps : List (List Nat)) :
    (storePlanes16 c buf j ps).length = buf.length := by
  induction ps generalizing buf j with
  | nil => rfl
  | cons p ps ih => simp [storePlanes16, ih]

theorem storePlanes16_keeps (c : Nat) (ps : List (List Nat)) (buf : List UInt8) (j : Nat) (hj : j + ps.length = c) (k j' : Nat)
    (hj' : j' < j) (e : Nat) (he : e < 2) :
    (storePlanes16 c buf j ps)[2 * (k * c + j') + e]? = buf[2 * (k * c + j') + e]? := by
  induction ps generalizing buf j with
  | nil => rfl
  | cons p ps ih =>
    simp only [List.length_cons] at hj
    rw [storePlanes16, ih _ (j + 1) (by omega) (by omega), put16_other]
    intro k' _
    have := mod_pos c k j k' j' (by omega) (by omega)
    have e2 : k' * (2 * c) = 2 * (k' * c) := by ring
    rw [e2]
    omega

theorem storePlanes16_get (c pc : Nat) (ps : List (List Nat)) (hps : ∀ p ∈ ps, p.length = pc) (buf : List UInt8) (j : Nat)
    (hj : j + ps.length = c) (hb : 2 * (pc * c) ≤ buf.length) (k j' v : Nat) (hk : k < pc) (hjj : j ≤ j') (hj' : j' < c)
    (hv : ((ps[j' - j]?).bind fun p => p[k]?) = some v) :
    (storePlanes16 c buf j ps)[2 * (k * c + j')]? = some (UInt8.ofNat v) ∧
    (storePlanes16 c buf j ps)[2 * (k * c + j') + 1]? = some (UInt8.ofNat (v / 256)) := by
  induction ps generalizing buf j with
  | nil => simp at hv
  | cons p ps ih =>
    have hp := hps p (by simp)
    simp only [List.length_cons] at hj
    by_cases h : j' = j
    · subst h
      simp at hv
      have h0 := storePlanes16_keeps c ps (put16 buf (2 * j') (2 * c) p) (j' + 1) (by omega) k j' (by omega)
      have h00 : _ = (put16 buf (2 * j') (2 * c) p)[2 * (k * c + j')]? := h0 0 (by omega)
      have h01 := h0 1 (by omega)
      change (storePlanes16 c (put16 buf (2 * j') (2 * c) p) (j' + 1) ps)[2 * (k * c + j')]? = _ at h00
      rw [storePlanes16, h00, h01]
      have hl := last_lt pc c j' (by omega) (by omega)
      have := put16_get buf (2 * j') (2 * c) p (by omega) k v hv (by
        rw [hp, show (pc - 1) * (2 * c) = 2 * ((pc - 1) * c) by ring]; omega)
      rw [show 2 * (k * c + j') = 2 * j' + k * (2 * c) by ring]
      exact this
    · rw [storePlanes16]
      refine ih (fun q hq => hps q (by simp [hq])) _ (j + 1) (by omega) (by simpa using hb) (by omega) ?_
      rw [show j' - j = (j' - (j + 1)) + 1 by omega] at hv
      simpa using hv

theorem rawChannels16_spec (c pc : Nat) (planes : List (List Nat)) (hlen : ∀ p ∈ planes, p.length = pc)
    (hv : ∀ p ∈ planes, ∀ v ∈ p, v < 65536) (buf s : List UInt8) (j : Nat) (hj : j + planes.length = c)
    (hb : buf.length = 2 * (pc * c + 10)) (hc : c ≤ 4) :
    rawChannels16 c pc buf (planes.flatMap (fun p => p.flatMap (beBytes 2)) ++ s) j planes.length =
      .ok (storePlanes16 c buf j planes, s) := by
  induction planes generalizing buf j with
  | nil => rfl
  | cons p planes ih =>
    simp only [List.length_cons] at hj
    have hp := hlen p (by simp)
    have hcount : min pc ((buf.length - 2 * j) / (2 * c)) = p.length := by
      rw [hp]
      apply Nat.min_eq_left
      rw [Nat.le_div_iff_mul_le (by omega), show pc * (2 * c) = 2 * (pc * c) by ring]
      omega
    simp only [List.length_cons, rawChannels16, List.flatMap_cons, List.append_assoc, hcount]
    rw [rawLoop16_spec c (2 * j) buf _ p (hv p (by simp))]
    exact ih (fun q hq => hlen q (by simp [hq])) (fun q hq => hv q (by simp [hq])) _ (j + 1) (by omega) (by simpa using hb)

theorem beWords_get (l : List UInt8) (i : Nat) (a b : UInt8) (h1 : l[2 * i]? = some a) (h2 : l[2 * i + 1]? = some b) :
    (beWords l)[i]? = some (be2 a b) := by
  fun_induction beWords generalizing i with
  | case1 x y t ih =>
    cases i with
    | zero => simp at h1 h2; simp [h1, h2]
    | succ i =>
      rw [show 2 * (i + 1) = 2 * i + 2 by ring] at h1
      rw [show 2 * (i + 1) + 1 = (2 * i + 1) + 2 by ring] at h2
      simp only [List.getElem?_cons_succ] at h1 h2 ⊢
      exact ih i h1 h2
  | case2 l hl =>
    match l, hl, h1, h2 with
    | [], _, h1, _ => simp at h1
    | [x], _, h1, h2 => cases i <;> simp at h1 h2
    | x :: y :: t, hl, _, _ => exact absurd rfl (hl x y t)

/-- **C25**, 16 bit, up to three channels: `decode_raw` returns the samples interleaved, each as two bytes in the order of the
    (little-endian) machine.  `decode` however reads these bytes as big-endian: see `c25_sixteen_bit_swapped`. -/
theorem c25_sixteen_bit_raw_partial (m : Matte) (maxW maxH w h mode : Nat) (res a b c rest : List UInt8) (planes : List (List Nat))
    (hw : 0 < w) (hw1 : w ≤ maxW) (hw2 : w < 2 ^ 32) (hh : 0 < h) (hh1 : h ≤ maxH) (hh2 : h < 2 ^ 32)
    (hch : 0 < planes.length) (hch3 : planes.length ≤ 3) (hmode : mode = 3 ∨ mode = 4 ∨ (mode = 1 ∧ planes.length = 1))
    (hres : res.length = 6) (ha : a.length < 2 ^ 32) (hb : b.length < 2 ^ 32) (hc : c.length < 2 ^ 32)
    (hlen : ∀ p ∈ planes, p.length = w * h) (hv : ∀ p ∈ planes, ∀ v ∈ p, v < 65536) :
    ∃ out, decodeRaw m maxW maxH (Spec.header w h planes.length 16 mode 0 res a b c ++
        (planes.flatMap (fun p => p.flatMap (beBytes 2)) ++ rest)) = .ok (⟨w, h, planes.length, true, mode, false⟩, out) ∧
      out.length = 2 * (w * h * planes.length) ∧
      ∀ k < w * h, ∀ j < planes.length, ∀ v, ((planes[j]?).bind fun p => p[k]?) = some v →
        out[2 * (k * planes.length + j)]? = some (UInt8.ofNat v) ∧
        out[2 * (k * planes.length + j) + 1]? = some (UInt8.ofNat (v / 256)) := by
  generalize hn : planes.length = n at *
  have hhd := decodeHeaders_spec maxW maxH w h n 16 mode 0 res a b c
    (planes.flatMap (fun p => p.flatMap (beBytes 2)) ++ rest) hw hw1 hw2 hh hh1 hh2 hch (by omega) (Or.inr rfl)
    (by omega) (by omega) hres ha hb hc
  have hif : (if mode = 1 then 1 else n) = n := by split <;> omega
  rw [hif] at hhd
  have hs := rawChannels16_spec n (w * h) planes hlen hv (List.replicate (2 * (w * h * n + 10)) 0) rest 0 (by omega) (by simp) (by omega)
  rw [hn] at hs
  refine ⟨(storePlanes16 n (List.replicate (2 * (w * h * n + 10)) 0) 0 planes).take (2 * (w * h) * n), ?_, ?_, ?_⟩
  · unfold decodeRaw
    rw [hhd]
    simp only [bind, Except.bind, decodeBody]
    simp only [show ((16 : Nat) == 16) = true from rfl, show ((0 : Nat) == 1) = false from rfl, hs]
    rw [if_neg (by omega)]
    rfl
  · simp
    rw [Nat.mul_assoc 2]; omega
  · intro k hk j hj v hkv
    have hi := index_lt (w * h) n k j hk hj
    have hg := storePlanes16_get n (w * h) planes hlen (List.replicate (2 * (w * h * n + 10)) 0) 0 (by omega)
      (by simp) k j v hk (by omega) hj (by simpa using hkv)
    rw [Nat.mul_assoc 2, take_get _ _ _ (by omega), take_get _ _ _ (by omega)]
    exact hg

/-- **C25, negation** for 16-bit files: every sample `v` of every image (up to three channels) comes out of `decode` with its
    bytes exchanged. -/
theorem c25_sixteen_bit_swapped (m : Matte) (maxW maxH w h mode : Nat) (res a b c rest : List UInt8) (planes : List (List Nat))
    (hw : 0 < w) (hw1 : w ≤ maxW) (hw2 : w < 2 ^ 32) (hh : 0 < h) (hh1 : h ≤ maxH) (hh2 : h < 2 ^ 32)
    (hch : 0 < planes.length) (hch3 : planes.length ≤ 3) (hmode : mode = 3 ∨ mode = 4 ∨ (mode = 1 ∧ planes.length = 1))
    (hres : res.length = 6) (ha : a.length < 2 ^ 32) (hb : b.length < 2 ^ 32) (hc : c.length < 2 ^ 32)
    (hlen : ∀ p ∈ planes, p.length = w * h) (hv : ∀ p ∈ planes, ∀ v ∈ p, v < 65536) :
    ∃ out, decode m maxW maxH (Spec.header w h planes.length 16 mode 0 res a b c ++
        (planes.flatMap (fun p => p.flatMap (beBytes 2)) ++ rest)) = .ok (⟨w, h, planes.length, true, mode, false⟩, .u16 out) ∧
      ∀ k < w * h, ∀ j < planes.length, ∀ v, ((planes[j]?).bind fun p => p[k]?) = some v →
        out[k * planes.length + j]? = some (v % 256 * 256 + v / 256) := by
  obtain ⟨out, h1, h2, h3⟩ := c25_sixteen_bit_raw_partial m maxW maxH w h mode res a b c rest planes hw hw1 hw2 hh hh1 hh2 hch hch3
    hmode hres ha hb hc hlen hv
  refine ⟨beWords out, ?_, ?_⟩
  · unfold decode; rw [h1]; rfl
  · intro k hk j hj v hkv
    obtain ⟨h4, h5⟩ := h3 k hk j hj v hkv
    rw [beWords_get out _ _ _ h4 h5]
    have hvlt : v < 65536 := by
      cases hp : planes[j]? with
      | none => rw [hp] at hkv; simp at hkv
      | some p =>
        rw [hp] at hkv
        exact hv p (List.mem_of_getElem? hp) v (List.mem_of_getElem? hkv)
    have e1 : (UInt8.ofNat v).toNat = v % 256 := by simp
    have e2 : (UInt8.ofNat (v / 256)).toNat = v / 256 := UInt8.toNat_ofNat_of_lt' (by show _ < 256; omega)
    rw [be2, e1, e2]

/-- The hypotheses are met: the grey sample 0x1234 is decoded as 0x3412. -/
example (m : Matte) : ∃ out, decode m 16384 16384 (Spec.header 1 1 1 16 1 0 [0, 0, 0, 0, 0, 0] [] [] [] ++ ([0x12, 0x34] ++ [])) =
    .ok (⟨1, 1, 1, true, 1, false⟩, .u16 out) ∧ out[0]? = some 0x3412 := by
  obtain ⟨out, h1, h2⟩ := c25_sixteen_bit_swapped m 16384 16384 1 1 1 [0, 0, 0, 0, 0, 0] [] [] [] [] [[0x1234]]
    (by decide) (by decide) (by decide) (by decide) (by decide) (by decide) (by decide) (by decide) (by decide) (by decide)
    (by decide) (by decide) (by decide) (by decide) (by decide)
  exact ⟨out, h1, h2 0 (by decide) 0 (by decide) 0x1234 rfl⟩

end Zune.Psd
